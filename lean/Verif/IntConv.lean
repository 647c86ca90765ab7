import Verif.Bytes
/-!
Model of /repo/common/intconv/bytes.go (integer <-> byte string conversions).

`int64` values are `Int` in [-2^63, 2^63), `uint64` values are `Nat` below 2^64; every operation
that can leave the range is reduced explicitly (`% 2^64`).
-/
namespace Verif.IntConv
open Verif

/-- bytes.go:9-11 `BytesForZero`. -/
def bytesForZero : Bytes := [0]

/-- Signed reading of a 64-bit pattern (Go conversion `int64(u)`). -/
def toInt64 (u : Nat) : Int :=
  let w : Nat := u % 2 ^ 64
  if w < 2 ^ 63 then (w : Int) else (w : Int) - 2 ^ 64

/-- bytes.go:13-32 `BigIntToBytes` on a non-nil value (`nil` is encoded as zero, see `bigIntToBytesPtr`).
`(bl+8)/8*8` is Go integer arithmetic on a non-negative `bl`. -/
def bigIntToBytes (i : Int) : Bytes :=
  if i = 0 then bytesForZero
  else if 0 < i then
    let bl := bitLen i.natAbs
    if bl % 8 = 0 then 0 :: natBytes i.natAbs else natBytes i.natAbs
  else
    let ti := i + 1
    let bl := bitLen ti.natAbs
    natBytes ((2 ^ ((bl + 8) / 8 * 8) : Int) + i).toNat

/-- bytes.go:14: a nil pointer encodes like zero. -/
def bigIntToBytesPtr : Option Int → Bytes
  | none => bytesForZero
  | some i => bigIntToBytes i

/-- bytes.go:34-42 `BigIntSetBytes`. -/
def bigIntSetBytes (bs : Bytes) : Int :=
  let i := beNat bs
  match bs with
  | [] => (i : Int)
  | b :: _ => if b &&& 0x80 ≠ 0 then (i : Int) - 2 ^ bitLen i else (i : Int)

/-- bytes.go:49-56, the loop of `Uint64ToBytes`; `fuel` is `idx+1`. -/
def uint64Loop : Nat → Nat → Bytes → Bytes
  | 0, _, acc => acc
  | f + 1, v, acc =>
    let tv := UInt8.ofNat (v % 256)
    if v / 256 = 0 ∧ tv &&& 0x80 = 0 then tv :: acc else uint64Loop f (v / 256) (tv :: acc)

/-- bytes.go:44-58 `Uint64ToBytes`. -/
def uint64ToBytes (v : Nat) : Bytes := if v = 0 then bytesForZero else uint64Loop 9 v []

/-- bytes.go:65-71, the loop of `SizeToBytes`. -/
def sizeLoop : Nat → Nat → Bytes → Bytes
  | 0, _, acc => acc
  | f + 1, v, acc =>
    let tv := UInt8.ofNat (v % 256)
    if v / 256 = 0 then tv :: acc else sizeLoop f (v / 256) (tv :: acc)

/-- bytes.go:60-73 `SizeToBytes`. -/
def sizeToBytes (v : Nat) : Bytes := if v = 0 then bytesForZero else sizeLoop 8 v []

/-- bytes.go:75-87 `BytesToUint64`; `(v << 8) | b` on uint64. -/
def bytesToUint64 (bs : Bytes) : Nat :=
  match bs with
  | [] => 0
  | b :: _ =>
    bs.foldl (fun v c => (v * 256 + c.toNat) % 2 ^ 64) (if b &&& 0x80 ≠ 0 then 2 ^ 64 - 1 else 0)

/-- bytes.go:89-95 `BytesToSize`. -/
def bytesToSize (bs : Bytes) : Nat := bs.foldl (fun v c => (v * 256 + c.toNat) % 2 ^ 64) 0

/-- bytes.go:97-113 `BytesToInt64`. The accumulator is kept as the 64-bit pattern of the int64 `v`;
`-v-1` is the complement of that pattern. -/
def bytesToInt64 (bs : Bytes) : Int :=
  match bs with
  | [] => 0
  | b :: _ =>
    if b &&& 0x80 ≠ 0 then
      toInt64 (2 ^ 64 - 1 - bs.foldl (fun v c => (v * 256 + (c ^^^ 0xff).toNat) % 2 ^ 64) 0)
    else
      toInt64 (bs.foldl (fun v c => (v * 256 + c.toNat) % 2 ^ 64) 0)

/-- bytes.go:126-132, the loop of `Int64ToBytes`. `byte(v & 0xff)` is `v mod 256`,
`v & -0x80` clears the low seven bits, i.e. `128 * floor (v / 128)`; `v >>= 8` is the floor of `v / 256`. -/
def int64Loop (target : Int) : Nat → Int → Bytes → Bytes
  | 0, _, acc => acc
  | f + 1, v, acc =>
    let tv := UInt8.ofNat (v % 256).toNat
    if 128 * (v / 128) = target then tv :: acc else int64Loop target f (v / 256) (tv :: acc)

/-- bytes.go:115-134 `Int64ToBytes`. -/
def int64ToBytes (v : Int) : Bytes :=
  if v = 0 then bytesForZero else int64Loop (if v < 0 then -0x80 else 0) 8 v []

end Verif.IntConv
