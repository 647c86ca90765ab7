import Verif.Bytes
/-!
Model of the fragmentation of relay messages: sending in /repo/chain/icon/sender.go, reassembly in
/repo/javascore/bmc/src/main/java/foundation/icon/btp/bmc/BTPMessageCenter.java.

* base64 and the integer texts kept in the `ArrayDB` are taken as faithful; Java `int` is `Int` (so `-2^31` is out of scope).
* The link and relay checks at the head of `handleFragment` are left out here (see `Relays`): a call below has passed them.
-/
namespace Verif.Fragment
open Verif

/-- sender.go:34-35,42-44: `ceil(524288 / 1.37)`. -/
def txMaxDataSize : Nat := 524288
def txSizeLimit : Nat := 382692

/-- A transaction to the BMC: `handleRelayMessage` or `handleFragment`. -/
inductive Tx where
  | relay (msg : Bytes)
  | frag (idx : Int) (msg : Bytes)
deriving DecidableEq

/-- sender.go:117-125: the loop after the first fragment, `idx` counting down to 0. -/
def sendLoop (limit : Nat) : Nat → Bytes → List Tx
  | 0, msg => [.frag 0 msg]
  | idx + 1, msg => .frag (idx + 1 : Nat) (msg.take limit) :: sendLoop limit idx (msg.drop limit)

/-- sender.go:102-128 `_relay`, all transactions succeeding. -/
def relayTxs (limit : Nat) (msg : Bytes) : List Tx :=
  let idx := msg.length / limit
  if idx = 0 then [.relay msg]
  else .frag (-(idx : Int)) (msg.take limit) :: sendLoop limit (idx - 1) (msg.drop limit)

/-- The `ArrayDB` of one link and relay: `[last, next, fragment...]`; no fragments: an empty array. -/
structure St where
  last : Int
  next : Int
  frags : List Bytes

def St.empty : St := ⟨0, 0, []⟩

/-- BTPMessageCenter.java:939-943: `fragments.get(i + INDEX_OFFSET)` for `i < last`; `none`: index out of range. -/
def getAll (frags : List Bytes) (last : Int) : Option (List Bytes) :=
  if last.toNat ≤ frags.length then some (frags.take last.toNat) else none

/-- BTPMessageCenter.java:906-963 `handleFragment`: `none` is a revert; otherwise the new state and the message passed
to `handleRelayMessage`, if any. -/
def handleFragment (s : St) (idx : Int) (f : Bytes) : Option (St × Option Bytes) :=
  if idx < 0 then
    let last := idx * -1
    some (⟨last, last - 1, f :: s.frags.drop 1⟩, none)
  else if s.frags = [] then none
  else if s.next ≠ idx then none
  else if idx = 0 then
    match getAll s.frags s.last with
    | none => none
    | some fs => some (s, some (fs.flatten ++ f))
  else
    let i := (s.last - idx).toNat
    if s.last - idx < s.frags.length then some (⟨s.last, idx - 1, s.frags.set i f⟩, none)
    else some (⟨s.last, idx - 1, s.frags ++ [f]⟩, none)

/-- Executing a transaction: the new state and the delivered message. -/
def exec (s : St) : Tx → Option (St × Option Bytes)
  | .relay m => some (s, some m)
  | .frag i f => handleFragment s i f

/-- Executing transactions that must all succeed; the delivered messages. -/
def execAll : St → List Tx → Option (St × List Bytes)
  | s, [] => some (s, [])
  | s, t :: ts =>
    match exec s t with
    | none => none
    | some (s', m) => (execAll s' ts).map (fun r => (r.1, m.toList ++ r.2))

/-- Any calls, reverted ones having no effect: the state and the accepted calls with what they delivered. -/
def history : St → List (Int × Bytes) → St × List ((Int × Bytes) × Option Bytes)
  | s, [] => (s, [])
  | s, c :: cs =>
    match handleFragment s c.1 c.2 with
    | none => history s cs
    | some (s', m) =>
      let r := history s' cs
      (r.1, (c, m) :: r.2)

end Verif.Fragment
