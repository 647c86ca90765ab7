import Verif.MbtSound
/-!
Text libraries of the Solidity contracts: ParseAddress.sol (the same file in bmc, xcall, bmv-bridge), Strings.sol (the same in bmc,
xcall, bmv-bridge), String.sol of bmv and Integers.sol of xcall.

* Strings are byte strings. `none` is a revert (0.8 checked arithmetic, index out of range, failed `require` or `assert`).
* An address is 20 bytes; `bytes20(account)` and the assembly `mload(add(packed, 20))` (whose upper twelve bytes the compiler cleans
  before use) are the identity. `H` is keccak256.
-/
namespace Verif.SolText

abbrev Bytes := List UInt8

/-! ### ParseAddress.sol -/

/-- /repo/solidity/bmc/contracts/libraries/ParseAddress.sol:158-171 `_getAsciiOffset`, added to the nibble. -/
def nibbleChar (n : Nat) (caps : Bool) : UInt8 := UInt8.ofNat (n + (if n < 10 then 48 else if caps = true then 55 else 87))

/-- ParseAddress.sol:230-260 `_toAsciiString`. -/
def toAscii (a : Bytes) : Bytes := a.flatMap (fun b => [nibbleChar (b.toNat / 16) false, nibbleChar (b.toNat % 16) false])

/-- ParseAddress.sol:98-128 `_toChecksumCapsFlags`: the flags of the two nibbles of each byte. -/
def capsFlags (H : Bytes → Bytes) (a : Bytes) : List (Bool × Bool) :=
  List.zipWith (fun x h => (decide (x.toNat / 16 > 9) && decide (h.toNat / 16 > 7), decide (x.toNat % 16 > 9) && decide (h.toNat % 16 > 7)))
    a (H (toAscii a))

/-- ParseAddress.sol:52-96 `_toChecksumString`. -/
def toChecksum (H : Bytes → Bytes) (a : Bytes) : Bytes :=
  [0x30, 0x78] ++ (List.zipWith (fun b f => [nibbleChar (b.toNat / 16) f.1, nibbleChar (b.toNat % 16) f.2]) a (capsFlags H a)).flatten

/-- ParseAddress.sol:192-214, 289-309: the value of a character; `none` is not a digit. -/
def hexVal (c : UInt8) : Option Nat :=
  let b := c.toNat
  if b < 48 then none
  else if 57 < b ∧ b < 65 then none
  else if 70 < b ∧ b < 97 then none
  else if 102 < b then none
  else some (b - (if b < 65 then 48 else if 70 < b then 87 else 55))

/-- ParseAddress.sol:190-222, 286-318: the loop; the left nibble on even rounds, the byte on odd ones. -/
def parsePairs : Bytes → Option Bytes
  | a :: b :: t => (hexVal a).bind fun x => (hexVal b).bind fun y => (parsePairs t).map (UInt8.ofNat (16 * x + y) :: ·)
  | _ => some []

def zero20 : Bytes := List.replicate 20 0

/-- ParseAddress.sol:173-228 `_toAddress`: the null address for everything that is no address. -/
def toAddress (s : Bytes) : Bytes := if s.length = 40 then (parsePairs s).getD zero20 else zero20

/-- ParseAddress.sol:130-156 `_isChecksumValid`. -/
def isChecksumValid (H : Bytes → Bytes) (s : Bytes) : Bool :=
  let a := toAddress s
  if a = zero20 ∧ s.any (· != 0x30) = true then false
  else decide (H (toChecksum H a) = H s)

/-- ParseAddress.sol:262-336 `parseAddress`. -/
def parseAddress (s : Bytes) : Option Bytes :=
  if s.length = 42 ∧ s.getD 0 0 = 0x30 ∧ s.getD 1 0 = 0x78 then
    (parsePairs (s.drop 2)).bind fun a => if a = zero20 ∧ (s.drop 2).any (· != 0x30) = true then none else some a
  else none

/-! ### Strings.sol, String.sol -/

def base16 : Bytes := [0x30, 0x31, 0x32, 0x33, 0x34, 0x35, 0x36, 0x37, 0x38, 0x39, 0x61, 0x62, 0x63, 0x64, 0x65, 0x66]

/-- /repo/solidity/bmc/contracts/libraries/Strings.sol:17-32 `bytesToHex`. -/
def bytesToHex (b : Bytes) : Bytes :=
  if b.length = 0 then [0x30, 0x78]
  else [0x30, 0x78] ++ b.flatMap (fun x => [base16.getD (x.toNat / base16.length) 0, base16.getD (x.toNat % base16.length) 0])

/-- Strings.sol:45-51 `concat`. -/
def concat (a b : Bytes) : Bytes := a ++ b

/-- Strings.sol:100-106: the loop of `_indexOf` from place `i` on; `t` is what is left. -/
def indexLoop (c : UInt8) : Nat → Bytes → Int
  | _, [] => -1
  | i, x :: t => if x = c then (i : Int) else indexLoop c (i + 1) t

/-- Strings.sol:90-107 `_indexOf`. -/
def indexOf (s v : Bytes) (off : Nat) : Option Int :=
  match v with
  | [c] => some (indexLoop c off (s.drop off))
  | _ => none

/-- Strings.sol:144-153: the first loop of `split`: the number of parts. -/
def countLoop (s v : Bytes) : Nat → Nat → Nat → Option Nat
  | 0, _, n => some n
  | fuel + 1, off, n =>
    if off < s.length - 1 then
      (indexOf s v off).bind fun l => if l = -1 then some n else countLoop s v fuel (l.toNat + 1) (n + 1)
    else some n

/-- Strings.sol:157-174: the second loop; `arr` is `splitArr`, `k` is `_splitsCount`. -/
def fillLoop (s v : Bytes) : Nat → Nat → Nat → List Bytes → Option (List Bytes)
  | 0, _, _, arr => some arr
  | fuel + 1, off, k, arr =>
    if off < s.length - 1 then
      (indexOf s v off).bind fun l =>
        let lim := if l = -1 then s.length else l.toNat
        if k < arr.length then fillLoop s v fuel (lim + 1) (k + 1) (arr.set k ((s.drop off).take (lim - off))) else none
    else some arr

/-- Strings.sol:137-176 `split`; `_baseBytes.length - 1` underflows for the empty string. -/
def split (s v : Bytes) : Option (List Bytes) :=
  if s.length = 0 then none
  else (countLoop s v (s.length + 1) 0 1).bind fun n => fillLoop s v (s.length + 1) 0 0 (List.replicate n [])

/-- /repo/solidity/bmv/contracts/libraries/String.sol:27-30 `splitBTPAddress`; an index out of range is a revert. -/
def splitBTPAddress (s : Bytes) : Option (Bytes × Bytes) :=
  (split s [0x2f]).bind fun p => p[2]?.bind fun a => p[3]?.map fun b => (a, b)

/-- Strings.sol:189-201 `compareTo`. -/
def compareTo (H : Bytes → Bytes) (a b : Bytes) : Bool := decide (H a = H b)

/-- Strings.sol:234-244 `_lower`. -/
def lowerChar (c : UInt8) : UInt8 := if 0x41 ≤ c.toNat ∧ c.toNat ≤ 0x5A then UInt8.ofNat (c.toNat + 32) else c

/-- Strings.sol:213-222 `lower`. -/
def lower (s : Bytes) : Bytes := s.map lowerChar

/-! ### Integers.sol -/

/-- /repo/solidity/xcall/contracts/libraries/Integers.sol:29-33: the loop of `parseInt`; at 0 `i--` underflows. -/
def parseLoop (s : Bytes) : Nat → Nat → Nat → Nat → Option Nat
  | 0, _, _, r => some r
  | fuel + 1, i, j, r =>
    if i < s.length then
      let c := (s.getD i 0).toNat
      if ¬ (48 ≤ c ∧ c ≤ 57) then none
      else if 2 ^ 256 ≤ (c - 48) * j ∨ 2 ^ 256 ≤ r + (c - 48) * j ∨ 2 ^ 256 ≤ j * 10 then none
      else if i = 0 then none
      else parseLoop s fuel (i - 1) (j * 10) (r + (c - 48) * j)
    else some r

/-- Integers.sol:23-34 `parseInt`; `_bytesValue.length-1` underflows for the empty string. -/
def parseInt (s : Bytes) : Option Nat := if s.length = 0 then none else parseLoop s (s.length + 1) (s.length - 1) 1 0

/-- Integers.sol:52-55: the digits in reverse; the place `i` in 32 bytes; `none`: index out of range. -/
def digitLoop : Nat → Nat → Nat → Bytes → Option Bytes
  | 0, _, _, acc => some acc
  | fuel + 1, i, n, acc =>
    if n > 0 then (if i < 32 then digitLoop fuel (i + 1) (n / 10) (acc ++ [UInt8.ofNat (n % 10 + 48)]) else none) else some acc

/-- Integers.sol:44-63 `toString`. -/
def toString (n : Nat) : Option Bytes := if n = 0 then some [48] else (digitLoop 34 0 n []).map List.reverse

end Verif.SolText
