import Verif.Bytes
/-!
Models of `handleRelayMessage` of the two "bridge" verifiers, which trust the relay for the events:
/repo/javascore/bmv/bridge/src/main/java/foundation/icon/btp/bmv/bridge/BTPMessageVerifier.java and
/repo/solidity/bmv-bridge/contracts/BMV.sol.

A relay message is the decoded list of receipt proofs (RLP decoding is outside this module). The access check
(`checkAccessible`) is the parameter `acc`. Addresses (next BMC) are opaque strings.
-/
namespace Verif.BmvBridge
open Verif

/-- EventDataBTPMessage.java:7-18, Types.sol:11-15. Java's sequence numbers are unbounded integers. -/
structure Ev (σ : Type) where
  next : Bytes
  seq : σ
  msg : Bytes
deriving DecidableEq

/-- ReceiptProof.java, Types.sol:5-9. -/
structure Rp (σ : Type) where
  height : σ
  events : List (Ev σ)
deriving DecidableEq

/-- BTPMessageVerifier.java:61-75: the loop over events; `none` is the exception `notVerifiableYet`. -/
def jEvents : List (Ev Int) → Int → List Bytes → Option (Int × List Bytes)
  | [], next, msgs => some (next, msgs)
  | ev :: t, next, msgs =>
    if ev.seq < next then jEvents t next msgs
    else if ev.seq > next then none
    else jEvents t (next + 1) (msgs ++ [ev.msg])

/-- BTPMessageVerifier.java:53-76: the loop over receipt proofs. -/
def jProofs : List (Rp Int) → Int → Int → List Bytes → Option (Int × Int × List Bytes)
  | [], height, next, msgs => some (height, next, msgs)
  | rp :: t, height, next, msgs =>
    if rp.height < height then jProofs t height next msgs
    else match jEvents rp.events next msgs with
      | none => none
      | some (next', msgs') => jProofs t rp.height next' msgs'

/-- BTPMessageVerifier.java:78-82: `ret[i] = msg` for every message, `i` stays 0; the other cells stay null (`none`). -/
def jCopy (msgs : List Bytes) : List (Option Bytes) :=
  msgs.foldl (fun ret m => ret.set 0 (some m)) (List.replicate msgs.length none)

/-- BTPMessageVerifier.java:43-84 `handleRelayMessage`: new height and returned array; `none` is an exception (no change). -/
def jHandle (acc : Bool) (height seq : Int) (rps : List (Rp Int)) : Option (Int × List (Option Bytes)) :=
  if acc then
    match jProofs rps height (seq + 1) [] with
    | none => none
    | some (h, _, msgs) => some (h, jCopy msgs)
  else none

/-- Checked uint256 addition of one. -/
def inc256 (n : Nat) : Option Nat := if n + 1 < 2 ^ 256 then some (n + 1) else none

/-- BMV.sol:88-101: the loop over events; `none` is a revert. -/
def sEvents (bmc : Bytes) : List (Ev Nat) → Nat → List Bytes → Option (Nat × List Bytes)
  | [], next, msgs => some (next, msgs)
  | ev :: t, next, msgs =>
    if ev.seq < next then sEvents bmc t next msgs
    else if ev.seq > next then none
    else if ev.next ≠ bmc then sEvents bmc t next msgs
    else match inc256 next with
      | none => none
      | some next' => sEvents bmc t next' (msgs ++ [ev.msg])

/-- BMV.sol:81-102: the loop over receipt proofs. -/
def sProofs (bmc : Bytes) : List (Rp Nat) → Nat → Nat → List Bytes → Option (Nat × Nat × List Bytes)
  | [], height, next, msgs => some (height, next, msgs)
  | rp :: t, height, next, msgs =>
    if rp.height < height then sProofs bmc t height next msgs
    else match sEvents bmc rp.events next msgs with
      | none => none
      | some (next', msgs') => sProofs bmc t rp.height next' msgs'

/-- BMV.sol:67-104 `handleRelayMessage`: new height and returned messages (line 80 empties the storage array first, so it
    holds exactly the messages of this call); `none` is a revert. -/
def sHandle (acc : Bool) (bmc : Bytes) (height seq : Nat) (rps : List (Rp Nat)) : Option (Nat × List Bytes) :=
  if acc then
    match inc256 seq with
    | none => none
    | some next =>
      match sProofs bmc rps height next [] with
      | none => none
      | some (h, _, msgs) => some (h, msgs)
  else none

end Verif.BmvBridge
