import Verif.BtpBlock
import Verif.SolProof
import Verif.SolRlpProps
/-!
Model of the EVM block verifier /repo/solidity/bmv/contracts/BtpMessageVerifier.sol with
libraries/{BlockUpdateLib,MerkleTreeLib,Utils}.sol. `MessageProofLib` is `SolProof.calculate`.

The relay message is given decoded (RelayMessageLib.sol, `decode*` of BlockUpdateLib.sol): numbers are uint256, hashes 32
bytes, addresses byte strings; a message that does not decode reverts. A revert, a failed check of the arithmetic and an
index out of bounds are `none` and change nothing. Outside the model, as parameters of `Env`: keccak-256 and the
precompiled contract `ecrecover` (the zero address on failure).
-/
namespace Verif.SolBtpBlock
open Verif Verif.Rlp Verif.BtpBlock Verif.SolProof

structure Env where
  /-- `keccak256` -/
  H : Bytes → Bytes
  /-- `ecrecover(hash, v, r, s)` -/
  ecrecover : Bytes → Nat → Bytes → Bytes → Bytes

/-- `bytes32(0)`. -/
def zero32 : Bytes := List.replicate 32 0

/-- BlockUpdateLib.sol:8-20 `Header`. `messageSn` and `hasNextValidators` are the upper bits and the lowest bit of one
number, see 46-47, kept here as that number `upd`. -/
structure Header where
  height : Nat
  round : Nat
  npch : Bytes
  path : List (Nat × Bytes)
  nid : Nat
  upd : Nat
  prev : Bytes
  cnt : Nat
  root : Bytes
  vals : List Bytes

/-- BlockUpdateLib.sol:47-48. -/
def Header.sn (h : Header) : Nat := h.upd / 2
def Header.flag (h : Header) : Bool := h.upd % 2 = 1

/-- BlockUpdateLib.sol:74-76, 78-80. -/
def nulEnc (b : Bytes) : Bytes := if b ≠ zero32 then SolRlp.encodeBytes b else nullSeq

/-- BlockUpdateLib.sol:70-82 `getNetworkSectionHash`: the hashed string. -/
def Header.secEnc (h : Header) : Option Bytes :=
  (SolRlp.encodeUint h.nid).bind (fun a =>
    (SolRlp.encodeUint h.upd).bind (fun b =>
      (SolRlp.encodeUint h.cnt).map (fun c =>
        SolRlp.encodeList [a, b, nulEnc h.prev, c, nulEnc h.root])))

/-- MerkleTreeLib.sol:10-18 `calculate`. -/
def calcPath (H : Bytes → Bytes) (leaf : Bytes) (p : List (Nat × Bytes)) : Bytes :=
  p.foldl (fun t n => if n.1 = 0 then H (n.2 ++ t) else H (t ++ n.2)) leaf

/-- BlockUpdateLib.sol:98-107 `getNetworkTypeSectionHash`, `getNetworkSectionRoot`: the hashed string. -/
def ntsEnc (H : Bytes → Bytes) (h : Header) (sec : Bytes) : Bytes :=
  SolRlp.encodeList [SolRlp.encodeBytes h.npch, SolRlp.encodeBytes (calcPath H (H sec) h.path)]

/-- BlockUpdateLib.sol:84-96 `getNetworkTypeSectionDecisionHash`: the hashed string. -/
def decEnc (H : Bytes → Bytes) (src : Bytes) (ty : Nat) (h : Header) : Option Bytes :=
  h.secEnc.bind (fun sec =>
    (SolRlp.encodeUint ty).bind (fun t =>
      (SolRlp.encodeUint h.height).bind (fun g =>
        (SolRlp.encodeUint h.round).map (fun r =>
          SolRlp.encodeList [SolRlp.encodeBytes src, t, g, r, SolRlp.encodeBytes (H (ntsEnc H h sec))]))))

/-- Utils.sol:5-30 `recoverSigner`, `splitSignature`: 65 bytes, and `v + 27` must fit uint8. -/
def recoverSigner (E : Env) (d sig : Bytes) : Option Bytes :=
  if sig.length ≠ 65 then none
  else if 256 ≤ (sig.getD 64 0).toNat + 27 then none
  else some (E.ecrecover d ((sig.getD 64 0).toNat + 27) (sig.take 32) ((sig.drop 32).take 32))

/-- BtpMessageVerifier.sol:184-186 `hasQuorumOf`. -/
def hasQuorumOf (n votes : Nat) : Bool := decide (votes * 3 > n * 2)

/-- BtpMessageVerifier.sol:199-204: the votes counted; `vs` are the validators from the current index on, `n` is the
number of all of them. -/
def countVotes (rec : Bytes → Option Bytes) (n : Nat) : Nat → List Bytes → List Bytes → Option Nat
  | votes, [], _ => some votes
  | votes, sig :: t, vs =>
    if hasQuorumOf n votes = true then some votes
    else
      match rec sig, vs with
      | some a, v :: vs' => countVotes rec n (if a = v then votes + 1 else votes) t vs'
      | _, _ => none

/-- BtpMessageVerifier.sol:196-206 `checkBlockProof`. -/
def checkBlockProof (E : Env) (d : Bytes) (sigs vals : List Bytes) : Bool :=
  match countVotes (recoverSigner E d) vals.length 0 sigs vals with
  | none => false
  | some v => hasQuorumOf vals.length v

/-- BtpMessageVerifier.sol:17-21: the immutable part. -/
structure Cfg where
  bmc : Bytes
  src : Bytes
  ty : Nat
  nid : Nat
  off : Nat
deriving DecidableEq

/-- BtpMessageVerifier.sol:25-33 `StateDB`. -/
structure St where
  secHash : Bytes
  root : Bytes
  height : Nat
  cnt : Nat
  first : Nat
  next : Nat
  vals : List Bytes
deriving DecidableEq

/-- BtpMessageVerifier.sol:49-74 constructor; `BlockUpdateLib.decodeHeader` gives validators only with the flag. -/
def init (E : Env) (bmc src : Bytes) (ty off : Nat) (h : Header) : Option (Cfg × St) :=
  if h.vals.length = 0 then none
  else h.secEnc.map (fun sec => (⟨bmc, src, ty, h.nid, off⟩, ⟨E.H sec, h.root, h.height, h.cnt, h.sn, h.sn, h.vals⟩))

/-- BtpMessageVerifier.sol:110-116: what a header with messages sets, and the messages left. -/
def setMsgs (s : St) (h : Header) (remain : Nat) : Option (St × Nat) :=
  if h.root = zero32 then some (s, remain)
  else if 2 ^ 256 ≤ s.first + s.cnt then none
  else if s.first + s.cnt ≠ h.sn then none
  else some ({ s with root := h.root, first := h.sn, cnt := h.cnt }, h.cnt)

/-- BtpMessageVerifier.sol:97-116: one block update; `remain` is `remainMessageCount`. -/
def handleUpdate (E : Env) (C : Cfg) (s : St) (remain : Nat) (h : Header) (sigs : List Bytes) : Option (St × Nat) :=
  if remain ≠ 0 then none
  else if C.nid ≠ h.nid then none
  else if s.secHash ≠ h.prev then none
  else if s.next ≠ h.sn then none
  else
    match decEnc E.H C.src C.ty h, h.secEnc with
    | some d, some sec =>
      if checkBlockProof E (E.H d) sigs s.vals = false then none
      else
        setMsgs { s with height := h.height, secHash := E.H sec, vals := (if h.flag = true then h.vals else s.vals) } h remain
    | _, _ => none

/-- BtpMessageVerifier.sol:117-123: one message proof. -/
def handleProof (E : Env) (s : St) (remain : Nat) (p : SProof) : Option (St × Nat) :=
  if calculate E.H (toQueue E.H p) ≠ some (s.root, s.cnt) then none
  else if remain < p.mesgs.length then none
  else if 2 ^ 256 ≤ s.next + p.mesgs.length then none
  else some ({ s with next := s.next + p.mesgs.length }, remain - p.mesgs.length)

/-- One message of a relay message; messages of other types are skipped. -/
inductive Msg where
  | upd (h : Header) (sigs : List Bytes)
  | proof (p : SProof)
  | other

/-- BtpMessageVerifier.sol:95-125: the loop. -/
def handleMsgs (E : Env) (C : Cfg) : St → Nat → List Msg → Option (St × Nat × List Bytes)
  | s, r, [] => some (s, r, [])
  | s, r, .upd h sigs :: t => (handleUpdate E C s r h sigs).bind (fun x => handleMsgs E C x.1 x.2 t)
  | s, r, .proof p :: t =>
    (handleProof E s r p).bind (fun x =>
      (handleMsgs E C x.1 x.2 t).map (fun y => (y.1, y.2.1, p.mesgs ++ y.2.2)))
  | s, r, .other :: t => handleMsgs E C s r t

structure Call where
  caller : Bytes
  net : Bytes
  sn : Nat
  msgs : List Msg

/-- BtpMessageVerifier.sol:84-138 `handleRelayMessage`; a height of 0 is not stored. -/
def handleRelay (E : Env) (C : Cfg) (s : St) (c : Call) : Option (St × List Bytes) :=
  if c.caller ≠ C.bmc then none
  else if C.src ≠ c.net then none
  else if c.sn < C.off then none
  else if s.next ≠ c.sn - C.off then none
  else if s.next < s.first then none
  else if s.cnt < s.next - s.first then none
  else (handleMsgs E C s (s.cnt - (s.next - s.first)) c.msgs).map (fun x =>
    ({ x.1 with height := (if x.1.height ≠ 0 then x.1.height else s.height) }, x.2.2))

/-- A history of calls: the final state, the messages of the successful calls and what they released. -/
def run (E : Env) (C : Cfg) : St → List Call → St × List Msg × List Bytes
  | s, [] => (s, [], [])
  | s, c :: t =>
    match handleRelay E C s c with
    | none => run E C s t
    | some (s', out) =>
      let r := run E C s' t
      (r.1, c.msgs ++ r.2.1, out ++ r.2.2)

end Verif.SolBtpBlock
