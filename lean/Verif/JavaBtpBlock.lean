import Verif.BtpBlock
/-!
Model of the ICON block verifier /repo/javascore/bmv/btpblock/src/main/java/foundation/icon/btp/bmv/btpblock/
{BTPMessageVerifier,BlockHeader,BMVProperties,ProofContext}.java. `proveMessage` of MessageProof.java is
`Mbt.proofRoot Mbt.javaCfg`.

The relay message is given decoded; a message that does not decode, a null number and a thrown exception of the runtime
all fail the call, a failed call changes nothing. Outside the model, as parameters of `Env`: keccak-256, the recovery of
an address from a signature (BTPMessageVerifier.java:259-268) and the decoding of a proof context into addresses
(ProofContext.java:45-64). A null byte array as the result of `proveMessage` is the empty byte string.
-/
namespace Verif.JavaBtpBlock
open Verif Verif.BtpBlock

structure Env where
  /-- `Context.hash("keccak-256", ·)` -/
  H : Bytes → Bytes
  /-- `recoverAddress(hash, signature)` -/
  recover : Bytes → Bytes → Option Bytes
  /-- `ProofContext.fromBytes(·).getValidators()` -/
  ctx : Bytes → Option (List Bytes)

/-- BMVException.java: the codes a relay distinguishes. -/
inductive Err where
  | unknown
  | notVerifiable
  | alreadyVerified
deriving DecidableEq

/-- BlockHeader.java:29-39. -/
structure Header where
  height : Int
  round : Int
  npch : Option Bytes
  path : List (Int × Bytes)
  nid : Int
  upd : Int
  prev : Option Bytes
  cnt : Int
  root : Option Bytes
  npc : Option Bytes

/-- BlockHeader.java:65-67 `getFirstMessageSn`. -/
def Header.sn (h : Header) : Int := h.upd / 2

/-- BTPMessageVerifier.java:150-156: the section of a header. -/
def Header.sec (h : Header) : Sec := ⟨h.nid, h.upd, h.prev, h.cnt, h.root⟩

/-- BlockHeader.java:151-156 `concatAndHash`: 32 bytes of each, an exception if one is shorter. -/
def concatAndHash (H : Bytes → Bytes) (a b : Bytes) : Option Bytes :=
  if a.length < 32 ∨ b.length < 32 then none else some (H (a.take 32 ++ b.take 32))

/-- BlockHeader.java:158-168 `getNetworkSectionsRoot`: each step starts from `leaf`. -/
def sectionsRoot (H : Bytes → Bytes) (leaf : Bytes) : Option Bytes → List (Int × Bytes) → Option Bytes
  | h, [] => h
  | none, _ => none
  | some h, (d, v) :: t =>
    if d = 0 then sectionsRoot H leaf (concatAndHash H v leaf) t
    else if d = 1 then sectionsRoot H leaf (concatAndHash H leaf v) t
    else sectionsRoot H leaf (some h) t

/-- BMVProperties.java:33-45. `lastHash` is never null. -/
structure St where
  src : Bytes
  ty : Int
  nid : Int
  pch : Option Bytes
  pc : Option Bytes
  lastHash : Bytes
  bmc : Bytes
  lastSeq : Int
  root : Option Bytes
  cnt : Int
  first : Int
  height : Int
  off : Int

/-- BMVProperties.java `getProcessedMessageCount`, `getRemainMessageCount`. -/
def St.processed (s : St) : Int := s.lastSeq - s.first
def St.remain (s : St) : Int := s.cnt - s.processed

/-- BMVProperties.java `getNetwork`: what follows the last slash of the source network. -/
def St.network (s : St) : Bytes := (s.src.reverse.takeWhile (· ≠ 0x2f)).reverse

/-- BTPMessageVerifier.java:197-202: the signers found so far, newest last. -/
def collect (recover : Bytes → Option Bytes) (vals : List Bytes) : List Bytes → List Bytes → Option (List Bytes)
  | seen, [] => some seen
  | seen, sig :: t =>
    match recover sig with
    | none => none
    | some a => if a ∉ vals then none else if a ∈ seen then none else collect recover vals (seen ++ [a]) t

/-- BTPMessageVerifier.java:190-208 `verifyProof`. -/
def verifyProof (E : Env) (pc : Option Bytes) (d : Bytes) (sigs : List Bytes) : Bool :=
  match pc.bind E.ctx with
  | none => false
  | some vals =>
    match collect (E.recover d) vals [] sigs with
    | none => false
    | some l => ! decide (l.length * 3 ≤ vals.length * 2)

/-- BTPMessageVerifier.java:157-165: the hash the validators sign; height is cut to 64 bits, round to 32. -/
def decision (E : Env) (s : St) (h : Header) (nsRoot : Bytes) : Bytes :=
  E.H (decBytes s.src s.ty (Mbt.i64 h.height) (Mbt.i32 h.round) (E.H (ntsBytes h.npch nsRoot)))

/-- BTPMessageVerifier.java:176-182 without the proof context. -/
def St.advance (E : Env) (s : St) (h : Header) : St :=
  { s with root := h.root, cnt := h.cnt, first := h.sn, lastHash := E.H (secBytes h.sec), height := h.height }

/-- BTPMessageVerifier.java:131-183 `handleBlockUpdateMessage`, 185-188 `verifyProofContextData`. -/
def handleUpdate (E : Env) (s : St) (h : Header) (sigs : List Bytes) : Except Err St :=
  let sn := s.first + s.cnt - s.off
  if sn > h.sn then .error .alreadyVerified
  else if sn < h.sn then .error .notVerifiable
  else if s.remain ≠ 0 then .error .unknown
  else if s.nid ≠ h.nid then .error .unknown
  else if h.prev ≠ some s.lastHash then .error .unknown
  else
    match sectionsRoot E.H (E.H (secBytes h.sec)) (some (E.H (secBytes h.sec))) h.path with
    | none => .error .unknown
    | some nsRoot =>
      if verifyProof E s.pc (decision E s h nsRoot) sigs = false then .error .unknown
      else if h.upd % 2 = 1 then
        match h.npc with
        | none => .error .unknown
        | some c =>
          if s.pch = h.npch then .error .unknown
          else if some (E.H c) ≠ h.npch then .error .unknown
          else .ok { s.advance E h with pch := h.npch, pc := some c }
      else .ok (s.advance E h)

/-- BTPMessageVerifier.java:219-233: root and count expected, and the check of the offset. -/
def expRoot (s : St) : Option Header → Option Bytes
  | some h => h.root
  | none => s.root
def expCnt (s : St) : Option Header → Int
  | some h => h.cnt
  | none => s.cnt
def misplaced (s : St) (bu : Option Header) (offset : Int) : Bool :=
  match bu with
  | some _ => decide (0 < offset)
  | none => decide (Mbt.i32 s.processed ≠ offset)

/-- BTPMessageVerifier.java:210-253 `handleMessageProof`; `bu` is the last block update of the same call. -/
def handleProof (E : Env) (s : St) (bu : Option Header) (p : Mbt.Proof) : Except Err St :=
  if s.remain ≤ 0 then .error .unknown
  else
    match Mbt.proofRoot Mbt.javaCfg E.H p with
    | none => .error .unknown
    | some (hash, offset, total) =>
      if s.processed ≠ offset then .error .unknown
      else
        if misplaced s bu offset = true then .error .unknown
        else if Mbt.i32 (expCnt s bu) ≠ total then .error .unknown
        else if (expRoot s bu).getD [] ≠ hash then .error .unknown
        else .ok { s with
          root := (if Mbt.i32 (total - offset - p.contents.length) = 0 then none else s.root)
          lastSeq := s.lastSeq + p.contents.length }

/-- RelayMessage.java: one message of a relay message. -/
inductive Msg where
  | upd (h : Header) (sigs : List Bytes)
  | proof (p : Mbt.Proof)

/-- BTPMessageVerifier.java:66-76: the loop over the messages; the messages released are in the result. -/
def handleMsgs (E : Env) : St → Option Header → List Msg → Except Err (St × List Bytes)
  | s, _, [] => .ok (s, [])
  | s, _, .upd h sigs :: t =>
    match handleUpdate E s h sigs with
    | .error e => .error e
    | .ok s' => handleMsgs E s' (some h) t
  | s, bu, .proof p :: t =>
    match handleProof E s bu p with
    | .error e => .error e
    | .ok s' =>
      match handleMsgs E s' bu t with
      | .error e => .error e
      | .ok (s'', out) => .ok (s'', p.contents ++ out)

/-- A call: caller, network of the previous message center, account of the current one, sequence number, messages. -/
structure Call where
  caller : Bytes
  prevNet : Bytes
  cur : Bytes
  seq : Int
  msgs : List Msg

/-- BTPMessageVerifier.java:54-86 `handleRelayMessage`, 270-279 `checkAccessible`. -/
def handleRelay (E : Env) (s : St) (c : Call) : Except Err (St × List Bytes) :=
  if s.network ≠ c.prevNet then .error .unknown
  else if c.caller ≠ s.bmc then .error .unknown
  else if c.cur ≠ s.bmc then .error .unknown
  else if s.off + s.lastSeq ≠ c.seq then .error .unknown
  else handleMsgs E s none c.msgs

/-- BTPMessageVerifier.java:40-47 constructor, 100-129 `handleFirstBlockHeader`. -/
def init (E : Env) (src : Bytes) (ty : Int) (bmc : Bytes) (off : Int) (h : Header) : Option St :=
  if h.prev ≠ none then none
  else
    match h.npc with
    | none => none
    | some c =>
      if some (E.H c) ≠ h.npch then none
      else some { src := src, ty := ty, nid := h.nid, pch := h.npch, pc := some c,
                  lastHash := E.H (secBytes ⟨h.nid, h.upd, none, h.cnt, h.root⟩), bmc := bmc, lastSeq := 0,
                  root := h.root, cnt := h.cnt, first := h.sn, height := h.height, off := off }

/-- A history of calls: the final state, the messages of the successful calls and what they released. -/
def run (E : Env) : St → List Call → St × List Msg × List Bytes
  | s, [] => (s, [], [])
  | s, c :: t =>
    match handleRelay E s c with
    | .error _ => run E s t
    | .ok (s', out) =>
      let r := run E s' t
      (r.1, c.msgs ++ r.2.1, out ++ r.2.2)

end Verif.JavaBtpBlock
