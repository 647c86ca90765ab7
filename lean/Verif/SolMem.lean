import Verif.SolRlpProps
/-!
Model of the routines of /repo/solidity/bmc/contracts/libraries/{RLPEncode,RLPDecode}.sol and
/repo/solidity/bmv/contracts/libraries/Utils.sol that work on the memory of the EVM with `mload` and `mstore`. The copies of the
libraries in bmv, bmv-bridge, xcall and test-lib differ in layout only. SolRlp has the same functions on byte strings; SolMemProps
shows that they agree.

Memory is a function from addresses to bytes; addresses are small, so pointer arithmetic does not overflow. Gas is not modelled. A
revert is `none`.
-/
namespace Verif.SolMem
open Verif Verif.SolRlp

abbrev Mem := Nat → UInt8

/-- The `n` bytes from address `p` on. -/
def window (m : Mem) (p n : Nat) : Bytes := (List.range n).map fun i => m (p + i)

/-- EVM `MLOAD`: 32 bytes, big endian. -/
def mload (m : Mem) (p : Nat) : Nat := beNat (window m p 32)

/-- EVM `MSTORE`. -/
def mstore (m : Mem) (p v : Nat) : Mem := fun x => if p ≤ x ∧ x < p + 32 then (be 32 v).getD (x - p) 0 else m x

/-- A `bytes memory` at address `p`: its length, then its contents. -/
def bytesAt (m : Mem) (p : Nat) : Bytes := window m (p + 32) (mload m p)

/-- The bitwise complement of a word. -/
def wnot (a : Nat) : Nat := 2 ^ 256 - 1 - a

/-- `new bytes(n)` of the Solidity compiler: takes the free memory pointer at 0x40, moves it on by whole words, stores the length
and clears the contents. -/
def newBytes (m : Mem) (n : Nat) : Mem × Nat :=
  let p := mload m 0x40
  let m := mstore m 0x40 (p + 32 + (n + 31) / 32 * 32)
  let m := mstore m p n
  (fun x => if p + 32 ≤ x ∧ x < p + 32 + (n + 31) / 32 * 32 then 0 else m x, p)

/-- RLPEncode.sol:310-330 `memcpy`, RLPDecode.sol:332-358 `copy`. -/
def memcpy (m : Mem) (dest src len : Nat) : Mem :=
  if len ≥ 32 then memcpy (mstore m dest (mload m src)) (dest + 32) (src + 32) (len - 32)
  else if len > 0 then
    let mask := 256 ^ (32 - len) - 1
    let srcpart := mload m src &&& wnot mask
    let destpart := mload m dest &&& mask
    mstore m dest (destpart ||| srcpart)
  else m
termination_by len

/-- RLPEncode.sol:288-299, the loop of `flatten` over the remaining `n` elements of the array at `arr`, from index `i` on. -/
def flatLoop (arr : Nat) : Nat → Nat → Nat → Mem → Mem
  | 0, _, _, m => m
  | n + 1, i, ptr, m =>
    let item := mload m (arr + 32 + 32 * i)
    let m := memcpy m ptr (item + 32) (mload m item)
    flatLoop arr n (i + 1) (ptr + mload m (mload m (arr + 32 + 32 * i))) m

/-- RLPEncode.sol:271-301 `flatten` of the `bytes[] memory` at `arr`; the sum of the lengths is checked. -/
def flatten (m : Mem) (arr : Nat) : Option (Mem × Nat) :=
  let n := mload m arr
  if n = 0 then some (newBytes m 0)
  else
    let len := ((List.range n).map fun i => mload m (mload m (arr + 32 + 32 * i))).sum
    if len ≥ 2 ^ 256 then none
    else
      let (m, p) := newBytes m len
      some (flatLoop arr n 0 (p + 32) m, p)

/-- RLPEncode.sol:352-361, 369-378: the two loops of `concat`. -/
def wcopy (m : Mem) (mc cc stop : Nat) : Mem :=
  if mc < stop then wcopy (mstore m mc (mload m cc)) (mc + 32) (cc + 32) stop else m
termination_by stop - mc

/-- RLPEncode.sol:339-390 `concat` of the `bytes memory` at `pre` and `post`. -/
def concat (m : Mem) (pre post : Nat) : Mem × Nat :=
  let temp := mload m 0x40
  let length := mload m pre
  let m := mstore m temp length
  let mc := temp + 0x20
  let stop := mc + length
  let m := wcopy m mc (pre + 0x20) stop
  let length := mload m post
  let m := mstore m temp (length + mload m temp)
  let mc := stop
  let stop := mc + length
  let m := wcopy m mc (post + 0x20) stop
  let m := mstore m 0x40 ((stop + (if length + mload m pre = 0 then 1 else 0) + 31) &&& wnot 31)
  (m, temp)

/-- RLPEncode.sol:103-113, the bytes that `encodeAddress` encodes. -/
def addressBytes (m : Mem) (self : Nat) : Mem × Nat :=
  let p := mload m 0x40
  let m := mstore m (p + 20) (0x140000000000000000000000000000000000000000 ^^^ self)
  let m := mstore m 0x40 (p + 52)
  (m, p)

/-- Utils.sol:10-31 `splitSignature` of the `bytes memory` at `p`. -/
def splitSignature (m : Mem) (p : Nat) : Option (Bytes × Bytes × Nat) :=
  if mload m p = 65 then some (be 32 (mload m (p + 32)), be 32 (mload m (p + 64)), mload m (p + 96) / 256 ^ 31)
  else none

/-! ### reading items -/

/-- `byte(0, mload(ptr))`. -/
def mbyte0 (m : Mem) (p : Nat) : Nat := mload m p / 256 ^ 31

/-- RLPDecode.sol:275-307 `_itemLength`; `add` of the assembly wraps, the lengths of up to 8 bytes do not. -/
def mItemLength (m : Mem) (p : Nat) : Nat :=
  let b := mbyte0 m p
  if b < 0x80 then 1
  else if b < 0xb8 then b - 0x80 + 1
  else if b < 0xc0 then mload m (p + 1) / 256 ^ (32 - (b - 0xb7)) + (b - 0xb7 + 1)
  else if b < 0xf8 then b - 0xc0 + 1
  else mload m (p + 1) / 256 ^ (32 - (b - 0xf7)) + (b - 0xf7 + 1)

/-- RLPDecode.sol:310-325 `_payloadOffset`. -/
def mPayloadOffset (m : Mem) (p : Nat) : Nat :=
  let b := mbyte0 m p
  if b < 0x80 then 0
  else if b < 0xb8 ∨ (b ≥ 0xc0 ∧ b < 0xf8) then 1
  else if b < 0xc0 then b - (0xb8 - 1) + 1
  else b - (0xf8 - 1) + 1

/-- RLPDecode.sol:17-20 `RLPItem`: length and address. -/
structure MItem where
  len : Nat
  ptr : Nat

/-- RLPDecode.sol:54-64 `toRlpItem` of the `bytes memory` at `p`. -/
def mItem (m : Mem) (p : Nat) : MItem := ⟨mload m p, p + 32⟩

/-- RLPDecode.sol:122-133 `isList`. -/
def mIsList (m : Mem) (i : MItem) : Bool := decide (i.len ≠ 0 ∧ 0xc0 ≤ mbyte0 m i.ptr)

/-- RLPDecode.sol:135-148 `isNull`. -/
def mIsNull (m : Mem) (i : MItem) : Bool := decide (i.len = 2 ∧ mbyte0 m i.ptr = 0xf8 ∧ mbyte0 m (i.ptr + 1) = 0)

/-- RLPDecode.sol:107-118 and 260-272; `fuel` bounds the number of items. -/
def mWalk (m : Mem) (stop : Nat) : Nat → Nat → List MItem
  | 0, _ => []
  | f + 1, cur => if cur < stop then ⟨mItemLength m cur, cur⟩ :: mWalk m stop f (cur + mItemLength m cur) else []

/-- RLPDecode.sol:100-119 `toList`. -/
def mToList (m : Mem) (i : MItem) : Option (List MItem) :=
  if mIsList m i then
    some (mWalk m (i.ptr + i.len) (i.len - mPayloadOffset m i.ptr) (i.ptr + mPayloadOffset m i.ptr))
  else none

/-- RLPDecode.sol:171-188 `toBoolean`. -/
def mToBoolean (m : Mem) (i : MItem) : Option Bool :=
  if i.len = 1 then some (if mbyte0 m i.ptr = 0 ∨ mbyte0 m i.ptr = 0x80 then false else true) else none

/-- RLPDecode.sol:197-215 `toUint`. -/
def mToUint (m : Mem) (i : MItem) : Option Nat :=
  if 0 < i.len ∧ i.len ≤ 33 then
    let offset := mPayloadOffset m i.ptr
    if i.len < offset then none
    else
      let len := i.len - offset
      let result := mload m (i.ptr + offset)
      some (if len < 32 then result / 256 ^ (32 - len) else result)
  else none

/-- RLPDecode.sol:239-253 `toBytes`. -/
def mToBytes (m : Mem) (i : MItem) : Option (Mem × Nat) :=
  if 0 < i.len then
    let offset := mPayloadOffset m i.ptr
    if i.len < offset then none
    else
      let len := i.len - offset
      let (m, p) := newBytes m len
      some (memcpy m (p + 32) (i.ptr + offset) len, p)
  else none

/-- RLPDecode.sol:151-168 `toRlpBytes`. -/
def mToRlpBytes (m : Mem) (i : MItem) : Mem × Nat :=
  let (m, p) := newBytes m i.len
  if mload m p = 0 then (m, p) else (memcpy m (p + 32) i.ptr i.len, p)

end Verif.SolMem
