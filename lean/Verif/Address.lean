import Verif.IntText
/-!
Model of /repo/common/address.go: the 21 byte ICON address and its text and byte forms.

An `Address` is a Go array `[21]byte` that the setters change in place; the setters take the array before the call
(`a`, of length 21) and return the array after it. `none` is an error; a nil slice is `none` in an argument.
-/
namespace Verif.Address
open Verif Verif.IntText

/-- Outcome of a setter. -/
inductive Out where
  | ok (a : Bytes)
  | err
  | panic
deriving DecidableEq

/-- address.go:22-24 `IsContract`. -/
def isContract (a : Bytes) : Bool := a.getD 0 0 = 1

/-- address.go:26-32 `String`. -/
def toStr (a : Bytes) : Str :=
  if a.getD 0 0 = 1 then ['c', 'x'] ++ hexEncode (a.drop 1) else ['h', 'x'] ++ hexEncode (a.drop 1)

/-- Go `copy(a[off:], src)` into the array `a`. -/
def copyAt (a : Bytes) (off : Nat) (src : Bytes) : Bytes :=
  a.take off ++ (src.take (a.length - off) ++ a.drop (off + (src.take (a.length - off)).length))

/-- address.go:95-111 `SetTypeAndID`. -/
def setTypeAndID (a : Bytes) (ic : Bool) (id : Option Bytes) : Out :=
  match id with
  | none => .err
  | some id =>
    let a1 := if id.length < 20 then copyAt a (20 - id.length + 1) id else copyAt a 1 id
    .ok (if ic then a1.set 0 1 else a1.set 0 0)

/-- address.go:46-70 `SetString`. -/
def setString (a : Bytes) (s : Str) : Out :=
  let (ic, s1) := match s with
    | 'c' :: 'x' :: t => (true, t)
    | 'h' :: 'x' :: t => (false, t)
    | '0' :: 'x' :: t => (false, t)
    | s => (false, s)
  let s2 := if s1.length % 2 = 1 then '0' :: s1 else s1
  match hexDecode s2 with
  | none => .err
  | some bs => setTypeAndID a ic (some bs)

/-- address.go:81-93 `SetBytes`: `b[0]` of an empty, non-nil slice panics. -/
def setBytes (a : Bytes) (b : Option Bytes) : Out :=
  match b with
  | none => .err
  | some [] => .panic
  | some (t :: id) =>
    if t = 0 then setTypeAndID a false (some id)
    else if t = 1 then setTypeAndID a true (some id)
    else .err

/-- `new(Address)`. -/
def zero : Bytes := List.replicate 21 0

/-- address.go:119-123 `NewAddress`: the error is dropped. `none` is a panic. -/
def newAddress (b : Option Bytes) : Option Bytes :=
  match setBytes zero b with
  | .ok a => some a
  | .err => some zero
  | .panic => none

/-- address.go:139-148 `NewAccountAddressFromPublicKey`: `sha3` is crypto.SHA3Sum256, `pk` the 65 byte key. -/
def fromPublicKey (sha3 : Bytes → Bytes) (pk : Bytes) : Out :=
  let d := sha3 (pk.drop 1)
  setTypeAndID zero false (some (d.drop (d.length - 20)))

/-- address.go:150-159 `Equal`; `none` is a nil pointer. -/
def equal (a b : Option Bytes) : Bool :=
  match a, b with
  | none, none => true
  | some x, some y => decide (x = y)
  | _, _ => false

end Verif.Address
