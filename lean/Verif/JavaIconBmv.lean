import Verif.JavaMtaProps
import Verif.JavaMptProps
import Verif.IntConv
/-!
Model of /repo/javascore/bmv/icon/src/main/java/foundation/icon/btp/bmv/icon/BTPMessageVerifier.java (the verifier contract for ICON
blocks) and the classes of its relay message.

* Addresses and strings are byte strings; the address of an event is compared by its text. BTP addresses come already taken apart
  (network and account).
* The objects come decoded: a null element of an array is an object whose fields are null (both end in a NullPointerException); a null
  element of a witness is an empty one (both end in an exception). `long`s are `Int`.
* The platform is an `Env`: hash, the serializations that are hashed, signature recovery, and reading of receipts, events and nodes.
  `none` of a reader or of `recover` is an exception.
-/
namespace Verif.JavaIconBmv
open Verif

/-- Result of a call: what it returns, or the exception it ends with (the transaction is reverted). -/
inductive Err where
  | unknown | blockUpdate | updateHigher | updateLower | votes | proof | proofHigher | witnessOld | witness | mpt | seqHigher | seq
  | crash
deriving DecidableEq

inductive R (α : Type) where
  | ok (a : α)
  | err (e : Err)
deriving DecidableEq

def R.bind {α β : Type} : R α → (α → R β) → R β
  | .ok a, f => f a
  | .err e, _ => .err e

/-- Result.java, BlockHeader.java: the fields the verifier reads; the others are `rest`. A null `result` is `none`. -/
structure Header where
  height : Int
  nextValidatorHash : Option Bytes
  receiptHash : Option (Option Bytes)
  rest : Bytes
deriving DecidableEq

/-- PartSetId.java, Vote.java, Votes.java. -/
structure Vote where
  timestamp : Int
  signature : Bytes
deriving DecidableEq

structure Votes where
  round : Int
  partSet : Option (Int × Bytes)
  items : List Vote
deriving DecidableEq

/-- VoteMessage.java:25-32; the type is VOTE_TYPE_PRECOMMIT = 1. -/
structure VoteMsg where
  height : Int
  round : Int
  type : Int
  blockId : Bytes
  partSet : Option (Int × Bytes)
  timestamp : Int
deriving DecidableEq

/-- BlockUpdate.java, BlockProof.java, BlockWitness.java, MPTProof.java, ReceiptProof.java, RelayMessage.java. -/
structure Update where
  header : Option Header
  votes : Option Votes
  nextValidators : Option (List Bytes)
deriving DecidableEq

structure Witness where
  height : Int
  hashes : Option (List Bytes)
deriving DecidableEq

structure BlockProof where
  header : Option Header
  witness : Option Witness
deriving DecidableEq

structure MptProof where
  index : Int
  proofs : Option (List Bytes)
deriving DecidableEq

structure ReceiptProof where
  index : Int
  proofs : Option (List Bytes)
  events : Option (List MptProof)
deriving DecidableEq

structure Relay where
  updates : Option (List Update)
  blockProof : Option BlockProof
  receipts : Option (List ReceiptProof)
deriving DecidableEq

/-- EventLog.java:27-29, Receipt.java:29-37 (the fields that are read). -/
structure EventLog where
  address : Option Bytes
  indexed : List Bytes
  data : List Bytes
deriving DecidableEq

structure Receipt where
  logs : List EventLog
  logsHash : Option Bytes
deriving DecidableEq

structure Env where
  H : Bytes → Bytes
  headerBytes : Header → Bytes
  validatorBytes : List Bytes → Bytes
  voteBytes : VoteMsg → Bytes
  recover : Bytes → Bytes → Option Bytes
  nodeItems : Bytes → Option (List (Option Bytes))
  indexKey : Int → Bytes
  readReceipt : Bytes → Option Receipt
  readEvent : Bytes → Option EventLog

/-- BMVProperties.java:28-32. -/
structure Props where
  bmc : Bytes
  net : Bytes
  lastHeight : Int
  validators : List Bytes
  mta : JavaMta.J
deriving DecidableEq

/-- BTPMessageVerifier.java:237-245: what a vote signs. -/
def voteMsg (height : Int) (hash : Bytes) (vs : Votes) (v : Vote) : VoteMsg := ⟨height, vs.round, 1, hash, vs.partSet, v.timestamp⟩

/-- BTPMessageVerifier.java:243-261: the loop over the votes; `seen` are the addresses so far. -/
def voteLoop (E : Env) (height : Int) (hash : Bytes) (vals : List Bytes) (vs : Votes) : List Bytes → List Vote → R (List Bytes)
  | seen, [] => .ok seen
  | seen, v :: l =>
    match E.recover (E.H (E.voteBytes (voteMsg height hash vs v))) v.signature with
    | none => .err .crash
    | some a =>
      if a ∉ vals then .err .votes
      else if a ∈ seen then .err .votes
      else voteLoop E height hash vals vs (seen ++ [a]) l

/-- BTPMessageVerifier.java:232-267 `verifyVotes`. -/
def verifyVotes (E : Env) (votes : Option Votes) (height : Int) (hash : Bytes) (vals : List Bytes) : R Unit :=
  match votes with
  | none => .err .blockUpdate
  | some vs =>
    (voteLoop E height hash vals vs [] vs.items).bind fun as =>
      if as.length ≤ vals.length * 2 / 3 then .err .votes else .ok ()

/-- The variables of the loop in `verifyBlockUpdates`. -/
structure Loop where
  mta : JavaMta.J
  validators : List Bytes
  validatorHash : Bytes
  changed : Bool
deriving DecidableEq

/-- BTPMessageVerifier.java:185-197: validators of the next block. -/
def nextVals (E : Env) (l : Loop) (h : Header) (next : Option (List Bytes)) : R Loop :=
  if some l.validatorHash = h.nextValidatorHash then .ok l
  else
    match next with
    | none => .err .blockUpdate
    | some vs =>
      if some (E.H (E.validatorBytes vs)) ≠ h.nextValidatorHash then .err .blockUpdate
      else .ok { l with validators := vs, validatorHash := E.H (E.validatorBytes vs), changed := true }

/-- BTPMessageVerifier.java:178-206, one turn of the loop. -/
def update (E : Env) (l : Loop) (u : Update) : R Loop :=
  match u.header with
  | none => .err .crash
  | some h =>
    if l.mta.height + 1 = h.height then
      (verifyVotes E u.votes h.height (E.H (E.headerBytes h)) l.validators).bind fun _ =>
        (nextVals E l h u.nextValidators).bind fun l =>
          match JavaMta.add E.H l.mta (E.H (E.headerBytes h)) with
          | none => .err .crash
          | some m => .ok { l with mta := m }
    else if l.mta.height + 1 < h.height then .err .updateHigher
    else .err .updateLower

def updateAll (E : Env) : Loop → List Update → R Loop
  | l, [] => .ok l
  | l, u :: us => (update E l u).bind fun l => updateAll E l us

/-- BTPMessageVerifier.java:175-208 `verifyBlockUpdates`: the accumulator and the validators after it (the old ones if null). -/
def verifyBlockUpdates (E : Env) (us : List Update) (mta : JavaMta.J) (vals : List Bytes) : R (JavaMta.J × List Bytes) :=
  (updateAll E ⟨mta, vals, E.H (E.validatorBytes vals), false⟩ us).bind fun l =>
    .ok (l.mta, if l.changed then l.validators else vals)

/-- BTPMessageVerifier.java:210-230 `verifyBlockProof`. -/
def verifyBlockProof (E : Env) (p : BlockProof) (mta : JavaMta.J) : R Unit :=
  match p.witness with
  | none => .err .proof
  | some w =>
    match p.header with
    | none => .err .crash
    | some h =>
      if mta.height < h.height then .err .proofHigher
      else
        match w.hashes with
        | none => .err .crash
        | some ws =>
          match JavaMta.verify E.H mta ws (E.H (E.headerBytes h)) h.height w.height with
          | .ok => .ok ()
          | .old => .err .witnessOld
          | .crash => .err .crash
          | _ => .err .witness

/-- MerklePatriciaTree.prove as BTPMessageVerifier.java:148-172 calls it: a null root is an exception, an MPTException becomes
INVALID_MPT. -/
def proveMpt (E : Env) (root : Option Bytes) (index : Int) (proofs : Option (List Bytes)) : R Bytes :=
  match proofs, root with
  | some ps, some root =>
    match JavaMpt.proveKey E.H E.nodeItems root (E.indexKey index) ps with
    | .ok v => .ok v
    | .mpt => .err .mpt
    | .crash => .err .crash
  | _, _ => .err .crash

def proveEvents (E : Env) (root : Option Bytes) : List MptProof → R (List EventLog)
  | [] => .ok []
  | p :: ps =>
    (proveMpt E root p.index p.proofs).bind fun b =>
      match E.readEvent b with
      | none => .err .crash
      | some e => (proveEvents E root ps).bind fun es => .ok (e :: es)

/-- BTPMessageVerifier.java:147-173 `proveReceiptProof`: the events of the receipt. -/
def proveReceipt (E : Env) (root : Option Bytes) (p : ReceiptProof) : R (List EventLog) :=
  (proveMpt E root p.index p.proofs).bind fun b =>
    match E.readReceipt b with
    | none => .err .crash
    | some r =>
      match p.events with
      | some eps => proveEvents E r.logsHash eps
      | none => .ok r.logs

/-- MessageEvent.java:28-30. -/
structure Msg where
  next : Bytes
  seq : Int
  msg : Bytes
deriving DecidableEq

/-- "Message". -/
def messageSig : Bytes := [0x4d, 0x65, 0x73, 0x73, 0x61, 0x67, 0x65]

/-- EventLog.java:55-58 `methodSignature`: up to the parenthesis; without one `substring` throws. -/
def methodSig : List Bytes → Option Bytes
  | [] => none
  | s :: _ => if 0x28 ∈ s then some (s.takeWhile (· ≠ 0x28)) else none

/-- EventLog.java:60-69 `toMessageEvent`: `ok none` for other events. An empty number is an exception. -/
def toMessage (e : EventLog) : R (Option Msg) :=
  match methodSig e.indexed with
  | none => .err .crash
  | some s =>
    if s = messageSig then
      match e.indexed, e.data with
      | _ :: n :: q :: _, m :: _ => if q = [] then .err .crash else .ok (some ⟨n, IntConv.bigIntSetBytes q, m⟩)
      | _, _ => .err .crash
    else .ok none

/-- BTPMessageVerifier.java:111-129: the loop over the events of a receipt; the next sequence number and the messages so far. -/
def events (prev bmc : Bytes) : Int → List Bytes → List EventLog → R (Int × List Bytes)
  | n, ms, [] => .ok (n, ms)
  | n, ms, e :: es =>
    match e.address with
    | none => .err .crash
    | some a =>
      if prev ≠ a then events prev bmc n ms es
      else
        (toMessage e).bind fun
          | none => events prev bmc n ms es
          | some m =>
            if m.next ≠ bmc then events prev bmc n ms es
            else if m.seq > n then .err .seqHigher
            else if m.seq < n then .err .seq
            else events prev bmc (n + 1) (ms ++ [m.msg]) es

/-- BTPMessageVerifier.java:109-130. -/
def receipts (E : Env) (root : Option Bytes) (prev bmc : Bytes) : Int → List Bytes → List ReceiptProof → R (Int × List Bytes)
  | n, ms, [] => .ok (n, ms)
  | n, ms, p :: ps =>
    (proveReceipt E root p).bind fun es =>
      (events prev bmc n ms es).bind fun x => receipts E root prev bmc x.1 x.2 ps

/-- BTPMessageVerifier.java:133-137: `ret[i] = msg` with `i` never counted up. -/
def fill (ret : List (Option Bytes)) : List Bytes → List (Option Bytes)
  | [] => ret
  | m :: ms => fill (ret.set 0 (some m)) ms

/-- BTPMessageVerifier.java:101-139: the messages and the array returned. -/
def messages (E : Env) (h : Header) (prev bmc : Bytes) (seq : Int) (rs : Option (List ReceiptProof)) : R (List Bytes) :=
  match rs with
  | none => .ok []
  | some [] => .ok []
  | some rs =>
    match h.receiptHash with
    | none => .err .unknown
    | some root => (receipts E root prev bmc (seq + 1) [] rs).bind fun x => .ok x.2

/-- The arguments of a call: caller, `_bmc` (text and account), `_prev` (network and account), `_seq`, `_msg`. -/
structure Call where
  caller : Bytes
  bmc : Bytes
  bmcAccount : Bytes
  prevNet : Bytes
  prev : Bytes
  seq : Int
  msg : Relay
deriving DecidableEq

/-- BTPMessageVerifier.java:84-99: the accumulator and validators after the block part, and the header to prove against. -/
def blocks (E : Env) (s : Props) (m : Relay) : R (Props × Header) :=
  match m.updates, m.blockProof with
  | some (u :: us), _ =>
    (verifyBlockUpdates E (u :: us) s.mta s.validators).bind fun x =>
      match ((u :: us).getLast?).bind (·.header) with
      | some h => .ok ({ s with mta := x.1, validators := x.2 }, h)
      | none => .err .crash
  | _, some p =>
    (verifyBlockProof E p s.mta).bind fun _ =>
      match p.header with
      | some h => .ok (s, h)
      | none => .err .crash
  | _, none => .err .unknown

/-- BTPMessageVerifier.java:269-278 `checkAccessible`. -/
def accessible (s : Props) (c : Call) : Bool := decide (s.net = c.prevNet ∧ c.caller = s.bmc ∧ c.bmcAccount = s.bmc)

/-- BTPMessageVerifier.java:87, 141: there are block updates. -/
def hasUpdates (m : Relay) : Bool :=
  match m.updates with
  | some (_ :: _) => true
  | _ => false

/-- BTPMessageVerifier.java:74-145 `handleRelayMessage`: the stored properties after the call and what it returns. -/
def handleRelay (E : Env) (s : Props) (c : Call) : R (Props × List (Option Bytes)) :=
  if !accessible s c then .err .unknown
  else
    (blocks E s c.msg).bind fun x =>
      (messages E x.2 c.prev c.bmc c.seq c.msg.receipts).bind fun ms =>
        let s1 := if ms.length > 0 then { x.1 with lastHeight := x.2.height } else x.1
        let ret := fill (List.replicate ms.length none) ms
        .ok (if hasUpdates c.msg || ret.length > 0 then s1 else s, ret)

/-- BTPMessageVerifier.java:39-55: the constructor on a new contract. -/
def init (bmc net : Bytes) (vals : List Bytes) (offset : Int) : Props := ⟨bmc, net, offset, vals, JavaMta.init offset⟩

/-- A history: calls that fail leave the state as it was. -/
def run (E : Env) : Props → List Call → Props
  | s, [] => s
  | s, c :: cs =>
    match handleRelay E s c with
    | .ok x => run E x.1 cs
    | .err _ => run E s cs

end Verif.JavaIconBmv
