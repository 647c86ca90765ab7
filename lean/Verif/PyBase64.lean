import Verif.Bytes
/-!
Model of /repo/pyscore/lib/icon/base64.py.

Shifts and `|` of disjoint bits are written as products and sums; `int(x / y)` as division (exact below 2^53). `none` is an exception.
-/
namespace Verif.PyBase64
open Verif

/-- base64.py:10-24: the character of a value of six bits; the last two differ in the two alphabets. -/
def char (url : Bool) (i : Nat) : UInt8 :=
  if i < 26 then UInt8.ofNat (65 + i)
  else if i < 52 then UInt8.ofNat (97 + (i - 26))
  else if i < 62 then UInt8.ofNat (48 + (i - 52))
  else if i = 62 then (if url then 45 else 43)
  else (if url then 95 else 47)

/-- base64.py:27-32 `_from_base64`: the value of a character, -2 for '=' and -1 for others. -/
def value (url : Bool) (c : UInt8) : Int :=
  let n := c.toNat
  if n = 61 then -2
  else if 65 ≤ n ∧ n ≤ 90 then n - 65
  else if 97 ≤ n ∧ n ≤ 122 then n - 97 + 26
  else if 48 ≤ n ∧ n ≤ 57 then n - 48 + 52
  else if n = (if url then 45 else 43) then 62
  else if n = (if url then 95 else 47) then 63
  else -1

/-- base64.py:35-81 `encode`: three bytes at a time, then the rest. -/
def encode (url : Bool) : Bytes → Bytes
  | a :: b :: c :: l =>
    let bits := a.toNat * 65536 + b.toNat * 256 + c.toNat
    char url (bits / 262144 % 64) :: char url (bits / 4096 % 64) :: char url (bits / 64 % 64) :: char url (bits % 64) :: encode url l
  | [a, b] => [char url (a.toNat / 4), char url (a.toNat * 16 % 64 + b.toNat / 16), char url (b.toNat * 4 % 64), 61]
  | [a] => [char url (a.toNat / 4), char url (a.toNat * 16 % 64), 61, 61]
  | [] => []

/-- base64.py:147-164 `_decode_length`. -/
def decodeLength (s : Bytes) : Option Nat :=
  if s.length = 0 then some 0
  else if s.length < 2 then none
  else
    let p := (if s.getD (s.length - 1) 0 = 61 then 1 else 0) + (if s.getD (s.length - 2) 0 = 61 then 1 else 0)
    let p := if p = 0 ∧ s.length % 4 ≠ 0 then 4 - s.length % 4 else p
    some (3 * ((s.length + 3) / 4) - p)

/-- base64.py:97-119: the loop; the result is the final shift and bits, the bytes written and the number of characters not read. -/
def loop (url : Bool) : Bytes → Nat → Nat → Bytes → Option (Nat × Nat × Bytes × Nat)
  | [], bits, shift, out => some (shift, bits, out, 0)
  | c :: r, bits, shift, out =>
    if value url c < 0 then
      if value url c = -2 then
        if (shift = 6 ∧ (r = [] ∨ r.getD 0 0 ≠ 61)) ∨ shift = 18 then none
        else some (shift, bits, out, r.length - 1)
      else none
    else
      let bits := bits + (value url c).toNat * 2 ^ shift
      if shift = 0 then
        loop url r 0 18 (out ++ [UInt8.ofNat (bits / 65536 % 256), UInt8.ofNat (bits / 256 % 256), UInt8.ofNat (bits % 256)])
      else loop url r bits (shift - 6) out

/-- base64.py:121-127. -/
def finish (shift bits : Nat) (out : Bytes) : Option Bytes :=
  if shift = 6 then some (out ++ [UInt8.ofNat (bits / 65536 % 256)])
  else if shift = 0 then some (out ++ [UInt8.ofNat (bits / 65536 % 256), UInt8.ofNat (bits / 256 % 256)])
  else if shift = 12 then none
  else some out

/-- base64.py:84-132 `decode`: the bytes are written into a buffer of zeros of the length `_decode_length`; writing beyond it is an
exception. -/
def decode (url : Bool) (s : Bytes) : Option Bytes :=
  (decodeLength s).bind fun n => (loop url s 0 18 []).bind fun x => (finish x.1 x.2.1 x.2.2.1).bind fun out =>
    if x.2.2.2 > 0 then none
    else if out.length > n then none
    else some (out ++ List.replicate (n - out.length) 0)

/-- base64.py:167-174 `base64url_decode`, the `urlsafe_b64decode` of the contracts (5-6). -/
def urlDecode (s : Bytes) : Option Bytes :=
  decode true (if s.length % 4 > 0 then s ++ List.replicate (4 - s.length % 4) 61 else s)

end Verif.PyBase64
