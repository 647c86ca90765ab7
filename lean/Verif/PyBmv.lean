import Verif.PyMta
import Verif.PyMpt
import Verif.PyBase64
import Verif.PyAddr
/-!
Model of the Python verifier contract for ICON blocks: /repo/pyscore/bmv/icon/icon.py and message.py, on the bytes of the relay message.

* The platform is an `Env`: sha3-256, signature recovery with the address of the key, `Address.from_bytes` (also its text),
  `Address.from_string`, which bytes are UTF-8, their characters, and `str.strip`. Addresses are values of type `Bytes`.
* Exceptions with a code that the relay looks at are distinguished, all others are `other`; every exception reverts the transaction.
* The properties (PyDb) keep one object for each name within a call; validators read back from their bytes are the validators written, so
  the state holds the objects.
* `len(l) <= n * 2 / 3` with floats is `3 * len(l) ≤ 2 * n`.
-/
namespace Verif.PyBmv
open Verif Verif.BtpAddress
open Verif.PyRlp (Val Obj)

structure Env where
  H : Bytes → Bytes
  recover : Bytes → Option Bytes → Option Bytes
  addrOf : Option Bytes → Option Bytes
  addrText : Option Bytes → Option Str
  addrFrom : Str → Option Bytes
  utf8 : Bytes → Bool
  text : Bytes → Str
  strip : Bytes → Bytes

/-- icon.py and bmv/exception.py: the codes. -/
inductive Err where
  | updateHigher | updateLower | proofHigher | witnessOld | seqHigher | seq | other
deriving DecidableEq

inductive R (α : Type) where
  | ok (a : α)
  | err (e : Err)
deriving DecidableEq

def R.bind {α β : Type} : R α → (α → R β) → R β
  | .ok a, f => f a
  | .err e, _ => .err e

/-- Fields that are null are None. -/
def bytesOf : Val → Option Bytes
  | .bytes b => some b
  | _ => none

def intOf : Val → Option Int
  | .int v => some v
  | _ => none

/-- message.py:38-91 `BlockHeader`, the fields that are used. -/
structure Header where
  bytes : Bytes
  height : Option Int
  nextVals : Option Bytes
  receiptHash : Option Bytes
deriving DecidableEq

/-- message.py:56-64: the hash of the receipts in the result, which may be absent; a result with other than three elements is an
exception. -/
def resultOf (E : Env) (res : Option Bytes) : Option (Option Bytes) :=
  if (res.getD []).length > 0 then
    match PyRlp.decode E.utf8 (.struct [.bytes, .bytes, .bytes]) (res.getD []) with
    | some (.list [_, _, rh]) => some (bytesOf rh)
    | _ => none
  else some none

/-- message.py:39-64 `BlockHeader(serialized)`. -/
def readHeader (E : Env) (b : Bytes) : Option Header :=
  match PyRlp.decode E.utf8 (.struct [.int, .int, .int, .bytes, .bytes, .bytes, .bytes, .bytes, .bytes, .bytes, .bytes]) b with
  | some (.list [_, h, _, _, _, _, nv, _, _, _, res]) => (resultOf E (bytesOf res)).map fun rh => ⟨b, intOf h, bytesOf nv, rh⟩
  | _ => none

/-- message.py:86-90 `BlockHeader.from_bytes`: None for null and for nothing. -/
def headerOf (E : Env) (b : Option Bytes) : Option (Option Header) :=
  if (b.getD []).length < 1 then some none else (readHeader E (b.getD [])).map some

/-- message.py:93-121 `Validators` with its bytes. -/
structure Vals where
  bytes : Bytes
  addrs : List Bytes
deriving DecidableEq

/-- message.py:94-102 `Validators(serialized)` of bytes. -/
def readVals (E : Env) (b : Bytes) : Option Vals :=
  match PyRlp.decode E.utf8 (.each .bytes) b with
  | some (.list l) => (l.mapM fun v => E.addrOf (bytesOf v)).map fun as => ⟨b, as⟩
  | _ => none

/-- message.py:94-97, 228: `Validators(None)` is an object without hash and addresses. -/
def valsOf (E : Env) : Option Bytes → Option (Option Vals)
  | none => some none
  | some b => (readVals E b).map some

mutual
/-- A decoded value put into a message again. -/
def toObj : Val → Obj
  | .none => .none
  | .bytes b => .bytes b
  | .int v => .int v
  | .str s => .str s
  | .bool b => .int (if b then 1 else 0)
  | .items l => .list (l.map .bytes)
  | .list l => .list (toObjs l)
def toObjs : List Val → List Obj
  | [] => []
  | v :: l => toObj v :: toObjs l
end

structure Vote where
  timestamp : Obj
  signature : Option Bytes

/-- message.py:151-178 `Votes`. -/
structure Votes where
  round : Obj
  partSet : Obj
  items : List Vote

def voteOf : Val → Option Vote
  | .list [t, s] => some ⟨toObj t, bytesOf s⟩
  | _ => none

/-- message.py:167-178 `Votes(serialized)`. -/
def readVotes (E : Env) (b : Bytes) : Option Votes :=
  match PyRlp.decode E.utf8 (.struct [.int, .struct [.int, .bytes], .each (.struct [.int, .bytes])]) b with
  | some (.list [r, p, .list items]) => (items.mapM voteOf).map fun vs => ⟨toObj r, toObj p, vs⟩
  | _ => none

/-- message.py:212-216 `Votes.from_bytes`. -/
def votesOf (E : Env) (b : Option Bytes) : Option (Option Votes) :=
  if (b.getD []).length < 1 then some none else (readVotes E (b.getD [])).map some

/-- message.py:185-198: what a vote signs; VOTE_TYPE_PRECOMMIT = 1. -/
def voteMsg (height : Int) (hash : Bytes) (round partSet timestamp : Obj) : Bytes :=
  PyRlp.encode (.list [.int height, round, .int 1, .bytes hash, partSet, timestamp])

/-- message.py:193-206: the loop over the votes; `seen` are the addresses so far. -/
def voteLoop (E : Env) (height : Int) (hash : Bytes) (vals : List Bytes) (round partSet : Obj) : List Bytes → List Vote → R (List Bytes)
  | seen, [] => .ok seen
  | seen, v :: l =>
    match E.recover (E.H (voteMsg height hash round partSet v.timestamp)) v.signature with
    | none => .err .other
    | some a =>
      if a ∉ vals then .err .other
      else if a ∈ seen then .err .other
      else voteLoop E height hash vals round partSet (seen ++ [a]) l

/-- message.py:184-210 `Votes.verify`. -/
def verifyVotes (E : Env) (vs : Votes) (height : Int) (hash : Bytes) (vals : Vals) : R Unit :=
  (voteLoop E height hash vals.addrs vs.round vs.partSet [] vs.items).bind fun as =>
    if 3 * as.length ≤ 2 * vals.addrs.length then .err .other else .ok ()

/-- message.py:219-228 `BlockUpdate`. -/
structure Update where
  header : Option Header
  votes : Option Votes
  next : Option Vals

def readUpdate (E : Env) (b : Option Bytes) : Option Update :=
  b.bind fun b =>
    match PyRlp.decode E.utf8 (.struct [.bytes, .bytes, .bytes]) b with
    | some (.list [h, v, n]) => (headerOf E (bytesOf h)).bind fun hd => (votesOf E (bytesOf v)).bind fun vs =>
        (valsOf E (bytesOf n)).map fun nv => ⟨hd, vs, nv⟩
    | _ => none

/-- message.py:250-269 `BlockUpdate.verify`, with the validators after it: those of the update when the header names others than the
current ones. -/
def verifyUpdate (E : Env) (h : Header) (height : Int) (u : Update) (vals : Vals) : R Vals :=
  match u.votes with
  | none => .err .other
  | some vs =>
    (verifyVotes E vs height (E.H h.bytes) vals).bind fun _ =>
      if h.nextVals ≠ some (E.H vals.bytes) then
        match u.next with
        | none => .err .other
        | some n => if some (E.H n.bytes) = h.nextVals then .ok n else .err .other
      else .ok vals

/-- message.py:272-279 `BlockWitness`, 297-305 `BlockProof`. -/
structure Proof where
  header : Option Header
  witnessHeight : Option Int
  witness : List (Option Bytes)

def readProof (E : Env) (b : Bytes) : Option Proof :=
  match PyRlp.decode E.utf8 (.struct [.bytes, .struct [.int, .each .bytes]]) b with
  | some (.list [h, .list [wh, .list ws]]) => (headerOf E (bytesOf h)).map fun hd => ⟨hd, intOf wh, ws.map bytesOf⟩
  | _ => none

/-- message.py:323-330 `BlockProof.verify`, 281-287 `BlockWitness.verify`. Adding null to a hash is an exception; newer witnesses are never
allowed here (icon.py:79-81 leaves `allow_newer_witness` as it is), so null elements matter only for a witness of the current height. -/
def verifyProof (E : Env) (p : Proof) (m : PyMta.M) : R (Option Bytes × Int) :=
  match p.header with
  | none => .err .other
  | some h =>
    match h.height with
    | none => .err .other
    | some height =>
      if m.height < height then .err .proofHigher
      else
        match p.witnessHeight with
        | none => .err .other
        | some wh =>
          if m.height = wh ∧ none ∈ p.witness then .err .other
          else
            match PyMta.verify E.H m (p.witness.map (·.getD [])) (E.H h.bytes) height wh with
            | .ok => .ok (h.receiptHash, height)
            | .old => .err .witnessOld
            | _ => .err .other

/-- message.py:336-364 `EventLog`: the contract, the name and the parameters. -/
structure EventLog where
  addr : Option Bytes
  method : Bytes
  params : List Val

/-- Python `s.split(",")`. -/
def splitComma : Bytes → List Bytes
  | [] => [[]]
  | c :: r => match splitComma r with
    | [] => [[]]
    | h :: t => if c = 0x2C then [] :: h :: t else (c :: h) :: t

/-- message.py:369-379 `parse_signature`: the name and the types. -/
def parseSig (E : Env) (s : Bytes) : Option (Bytes × List Bytes) :=
  if E.utf8 s ∧ 0x28 ∈ s ∧ 0x29 ∈ s then
    some (s.take (s.idxOf 0x28), (splitComma ((s.take (s.idxOf 0x29)).drop (s.idxOf 0x28 + 1))).map E.strip)
  else none

def tInt : Bytes := [0x69, 0x6e, 0x74]
def tStr : Bytes := [0x73, 0x74, 0x72]
def tBool : Bytes := [0x62, 0x6f, 0x6f, 0x6c]
def tBytes : Bytes := [0x62, 0x79, 0x74, 0x65, 0x73]
def tAddress : Bytes := [0x41, 0x64, 0x64, 0x72, 0x65, 0x73, 0x73]

def partOf : Option Bytes → PyRlp.Part
  | none => .null
  | some b => .bytes b

/-- message.py:381-394 `convert_from_bytes`. -/
def convert (E : Env) (ty : Bytes) (v : Option Bytes) : Option Val :=
  if ty = tInt then PyRlp.fromBytes E.utf8 .int (partOf v)
  else if ty = tStr then PyRlp.fromBytes E.utf8 .str (partOf v)
  else if ty = tBool then PyRlp.fromBytes E.utf8 .bool (partOf v)
  else if ty = tBytes then PyRlp.fromBytes E.utf8 .bytes (partOf v)
  else if ty = tAddress then (E.addrOf v).map .bytes
  else none

/-- message.py:357-366: the parameters, first the indexed ones; `vs` are the indexed values after the signature and then the data. -/
def params (E : Env) : List Bytes → List (Option Bytes) → Option (List Val)
  | [], _ => some []
  | _ :: _, [] => none
  | ty :: tys, v :: vs => (convert E ty v).bind fun x => (params E tys vs).map (x :: ·)

/-- message.py:343-366 `EventLog(serialized)`. -/
def readEvent (E : Env) (b : Bytes) : Option EventLog :=
  match PyRlp.decode E.utf8 (.struct [.bytes, .each .bytes, .each .bytes]) b with
  | some (.list [a, .list (.bytes s :: idx), .list data]) =>
    (parseSig E s).bind fun p => (params E p.2 (idx.map bytesOf ++ data.map bytesOf)).map fun ps => ⟨bytesOf a, p.1, ps⟩
  | _ => none

/-- message.py:419-436 `Receipt(serialized)`: the hash of the events; the events in the receipt are read and then not used. -/
def readReceipt (E : Env) (b : Bytes) : Option (Option Bytes) :=
  match PyRlp.decode E.utf8 (.struct [.int, .bytes, .bytes, .bytes, .bytes, .bytes, .raw, .bytes, .bytes]) b with
  | some (.list [_, _, _, _, _, _, logs, _, h]) =>
    match logs with
    | .items l => (l.mapM (readEvent E)).map fun _ => bytesOf h
    | _ => some (bytesOf h)
  | _ => none

/-- message.py:460-472 `EventProof`: the key is the encoding of the index. -/
structure Mpt where
  key : Bytes
  proofs : List Bytes
deriving DecidableEq

/-- message.py:470-472, 496-498: `rlp_decode(b, {list: bytes})`; a null node is never accepted, nor is an empty one. -/
def readNodes (E : Env) (b : Option Bytes) : Option (List Bytes) :=
  b.bind fun b =>
    match PyRlp.decode E.utf8 (.each .bytes) b with
    | some (.list l) => some (l.map fun v => (bytesOf v).getD [])
    | _ => none

def readEventProof (E : Env) (b : Bytes) : Option Mpt :=
  match PyRlp.decode E.utf8 (.struct [.int, .bytes]) b with
  | some (.list [i, p]) => (readNodes E (bytesOf p)).map fun ns => ⟨PyRlp.encode (toObj i), ns⟩
  | _ => none

/-- message.py:486-505 `ReceiptProof`. -/
structure ReceiptProof where
  mpt : Mpt
  events : List Mpt
deriving DecidableEq

def readReceiptProof (E : Env) (b : Option Bytes) : Option ReceiptProof :=
  b.bind fun b =>
    match PyRlp.decode E.utf8 (.struct [.int, .bytes, .raw]) b with
    | some (.list [i, p, .items es]) => (readNodes E (bytesOf p)).bind fun ns => (es.mapM (readEventProof E)).map fun ms => ⟨⟨PyRlp.encode (toObj i), ns⟩, ms⟩
    | _ => none

/-- mpt.py `prove` (PyMpt) with a hash that may be None. -/
def proveMpt (E : Env) (root : Option Bytes) (p : Mpt) : Option Bytes := root.bind fun r => PyMpt.proveKey E.H r p.key p.proofs

/-- message.py:474-479 `EventProof.prove`; an empty leaf gives None, whose address is taken later (icon.py:191). -/
def proveEvent (E : Env) (root : Option Bytes) (p : Mpt) : Option EventLog := (proveMpt E root p).bind (readEvent E)

/-- message.py:507-514 `ReceiptProof.prove`, 446-451 `set_event_logs_with_prove`: the events. -/
def proveReceipt (E : Env) (root : Option Bytes) (p : ReceiptProof) : Option (List EventLog) :=
  (proveMpt E root p.mpt).bind fun b => (readReceipt E b).bind fun h => p.events.mapM (proveEvent E h)

/-- message.py:528-551 `RelayMessage`. -/
structure Relay where
  updates : List Update
  proof : Option Proof
  receipts : List ReceiptProof

/-- message.py:540-545: the block proof may be absent. -/
def proofOf (E : Env) (b : Option Bytes) : Option (Option Proof) :=
  if (b.getD []).length > 0 then (readProof E (b.getD [])).map some else some none

def readRelay (E : Env) (b : Bytes) : Option Relay :=
  match PyRlp.decode E.utf8 (.struct [.each .bytes, .bytes, .each .bytes]) b with
  | some (.list [.list us, p, .list rs]) =>
    (us.mapM fun v => readUpdate E (bytesOf v)).bind fun us => (proofOf E (bytesOf p)).bind fun p =>
      (rs.mapM fun v => readReceiptProof E (bytesOf v)).map fun rs => ⟨us, p, rs⟩
  | _ => none

/-- icon.py:39-47: the properties. -/
structure Props where
  bmc : Bytes
  net : Str
  lastHeight : Int
  vals : Vals
  mta : PyMta.M
deriving DecidableEq

/-- icon.py:95-97: the variables of the loop with the validators and the accumulator. -/
structure Loop where
  vals : Vals
  mta : PyMta.M
  receiptHash : Option Bytes
  lastHeight : Int
deriving DecidableEq

/-- icon.py:98-114, one turn of the loop. -/
def update (E : Env) (l : Loop) (u : Update) : R Loop :=
  match u.header with
  | none => .err .other
  | some h =>
    match h.height with
    | none => .err .other
    | some height =>
      if l.mta.height + 1 = height then
        (verifyUpdate E h height u l.vals).bind fun vs => .ok ⟨vs, PyMta.add E.H l.mta (E.H h.bytes), h.receiptHash, height⟩
      else if l.mta.height + 1 < height then .err .updateHigher
      else .err .updateLower

def updateAll (E : Env) : Loop → List Update → R Loop
  | l, [] => .ok l
  | l, u :: us => (update E l u).bind fun l => updateAll E l us

/-- icon.py:95-121 `_last_receipt_hash`. -/
def blocks (E : Env) (s : Props) (m : Relay) : R Loop :=
  (updateAll E ⟨s.vals, s.mta, none, 0⟩ m.updates).bind fun l =>
    match m.proof with
    | none => .ok l
    | some p => (verifyProof E p l.mta).bind fun x => .ok { l with receiptHash := x.1, lastHeight := x.2 }

/-- "Message". -/
def messageName : Bytes := [0x4d, 0x65, 0x73, 0x73, 0x61, 0x67, 0x65]

/-- Comparison of a sequence number with an int: only numbers (and truth values) can be compared. -/
def seqOf : Val → Option Int
  | .int v => some v
  | .bool b => some (if b then 1 else 0)
  | _ => none

/-- icon.py:201 `next_bmc == _bmc`: a value that is not text is not equal to text. -/
def isFor (bmc : Bytes) : Val → Bool
  | .str s => decide (s = bmc)
  | _ => false

/-- message.py:337-341, 407-410, icon.py:193-203: one event of the contract: the next sequence number and the messages. -/
def message (bmc : Bytes) (n : Int) (ms : List Val) (e : EventLog) : R (Int × List Val) :=
  if e.method = messageName then
    match e.params with
    | nb :: q :: m :: _ =>
      match seqOf q with
      | none => .err .other
      | some q =>
        if q > n then .err .seqHigher
        else if q < n then .err .seq
        else if isFor bmc nb then .ok (n + 1, ms ++ [m]) else .ok (n, ms)
    | _ => .err .other
  else .ok (n, ms)

/-- icon.py:190-203: the loop over the events of a receipt. -/
def events (E : Env) (prev : Str) (bmc : Bytes) : Int → List Val → List EventLog → R (Int × List Val)
  | n, ms, [] => .ok (n, ms)
  | n, ms, e :: es =>
    match E.addrText e.addr with
    | none => .err .other
    | some a =>
      if a ≠ prev then events E prev bmc n ms es
      else (message bmc n ms e).bind fun x => events E prev bmc x.1 x.2 es

/-- icon.py:186-203: the loop over the receipts. -/
def receipts (E : Env) (root : Option Bytes) (prev : Str) (bmc : Bytes) : Int → List Val → List ReceiptProof → R (Int × List Val)
  | n, ms, [] => .ok (n, ms)
  | n, ms, p :: ps =>
    match proveReceipt E root p with
    | none => .err .other
    | some es => (events E prev bmc n ms es).bind fun x => receipts E root prev bmc x.1 x.2 ps

/-- The arguments of a call: caller, `_bmc`, `_prev`, `_seq`, `_msg`. -/
structure Call where
  caller : Bytes
  bmc : Bytes
  prev : Bytes
  seq : Int
  msg : Bytes
deriving DecidableEq

/-- icon.py:87-93 `_check_accessible`. -/
def accessible (E : Env) (s : Props) (caller : Bytes) (cur prev : PyAddr.Addr) : Bool :=
  decide (s.net = prev.net ∧ caller = s.bmc ∧ E.addrFrom cur.contract = some s.bmc)

/-- icon.py:179-210 `handleRelayMessage` after the addresses and the message were read: the stored properties and what is returned. -/
def handle (E : Env) (s : Props) (prev : Str) (bmc : Bytes) (seq : Int) (m : Relay) : R (Props × List Val) :=
  if m.updates.length = 0 ∧ m.proof.isNone then .err .other
  else
    (blocks E s m).bind fun l =>
      (receipts E l.receiptHash prev bmc (seq + 1) [] m.receipts).bind fun x =>
        .ok ({ s with vals := l.vals, mta := l.mta, lastHeight := if x.2.length > 0 then l.lastHeight else s.lastHeight }, x.2)

/-- icon.py:162-210 `handleRelayMessage`. -/
def handleRelay (E : Env) (s : Props) (c : Call) : R (Props × List Val) :=
  match PyAddr.fromString (E.text c.bmc), PyAddr.fromString (E.text c.prev) with
  | some cur, some prev =>
    if accessible E s c.caller cur prev = false then .err .other
    else
      match (PyBase64.urlDecode c.msg).bind (readRelay E) with
      | none => .err .other
      | some m => handle E s prev.contract c.bmc c.seq m
  | _, _ => .err .other

/-- icon.py:71-82 `on_install`, the validators already read. -/
def init (bmc : Bytes) (net : Str) (vals : Vals) (offset : Int) : Props := ⟨bmc, net, offset, vals, PyMta.init offset⟩

/-- A history: calls that fail leave the state as it was. -/
def run (E : Env) : Props → List Call → Props
  | s, [] => s
  | s, c :: cs =>
    match handleRelay E s c with
    | .ok x => run E x.1 cs
    | .err _ => run E s cs

end Verif.PyBmv
