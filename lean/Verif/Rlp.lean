import Verif.IntConv
/-!
Model of /repo/common/codec/rlp.go and the RLP-relevant part of /repo/common/codec/codec.go.

Go types are described by `Ty`; `Val t` is the set of values of the Go type `t`. Not modelled: maps, interfaces,
custom `RLPEncodeSelf/RLPDecodeSelf/MarshalBinary/MarshalRLP` methods, msgpack. A struct is the flattened list of its
exported fields (codec.go:217-235 and 482-503 visit unexported embedded structs in place and skip other unexported
fields). Decoding targets are fresh (zero) variables.

An `io.Reader` over a byte buffer is the remaining byte list; `io.LimitReader` is a prefix of it.
-/
namespace Verif.Rlp
open Verif Verif.IntConv

/-- Widths of the Go integer kinds handled by `ReadValue`/`WriteValue`. -/
inductive Width where | w8 | w16 | w32 | w64
deriving DecidableEq

def Width.bits : Width → Nat
  | .w8 => 8 | .w16 => 16 | .w32 => 32 | .w64 => 64

mutual
/-- Type descriptors: bool, (u)intN, string, []byte, [n]byte, [n]T, []T, *T, struct. -/
inductive Ty where
  | bool
  | uint (w : Width)
  | int (w : Width)
  | str
  | bytes
  | barr (n : Nat)
  | array (n : Nat) (t : Ty)
  | slice (t : Ty)
  | ptr (t : Ty)
  | struct (fs : Tys)
inductive Tys where
  | nil
  | cons (t : Ty) (ts : Tys)
end

mutual
/-- Values of a Go type. nil slices and nil pointers are `none`. -/
@[reducible] def Val : Ty → Type
  | .bool => Bool
  | .uint w => BitVec w.bits
  | .int w => BitVec w.bits
  | .str => Bytes
  | .bytes => Option Bytes
  | .barr n => { l : Bytes // l.length = n }
  | .array n t => { l : List (Val t) // l.length = n }
  | .slice t => Option (List (Val t))
  | .ptr t => Option (Val t)
  | .struct fs => Vals fs
@[reducible] def Vals : Tys → Type
  | .nil => Unit
  | .cons t ts => Val t × Vals ts
end

mutual
/-- Go zero values (`reflect.Zero`). -/
def zero : (t : Ty) → Val t
  | .bool => false
  | .uint w => 0#w.bits
  | .int w => 0#w.bits
  | .str => ([] : Bytes)
  | .bytes => (none : Option Bytes)
  | .barr n => ⟨List.replicate n 0, List.length_replicate⟩
  | .array n t => ⟨List.replicate n (zero t), List.length_replicate⟩
  | .slice t => (none : Option (List (Val t)))
  | .ptr t => (none : Option (Val t))
  | .struct fs => zeros fs
def zeros : (ts : Tys) → Vals ts
  | .nil => ()
  | .cons t ts => (zero t, zeros ts)
end

/-! ### writer -/

/-- rlp.go:316-320 `writeNull`. -/
def nullSeq : Bytes := [0xf8, 0]

/-- rlp.go:322-353 `writeBytes` for a non-nil slice. -/
def wBytes (b : Bytes) : Bytes :=
  match b with
  | [] => [0x80]
  | [c] => if c < 0x80 then [c] else [UInt8.ofNat (0x80 + 1), c]
  | _ =>
    if b.length ≤ 55 then UInt8.ofNat (0x80 + b.length) :: b
    else
      let sz := sizeToBytes b.length
      UInt8.ofNat (0x80 + 55 + sz.length) :: (sz ++ b)

/-- rlp.go:355-378 `writeList`. -/
def wList (b : Bytes) : Bytes :=
  if b.length = 0 then [0xc0]
  else if b.length ≤ 55 then UInt8.ofNat (0xc0 + b.length) :: b
  else
    let sz := sizeToBytes b.length
    UInt8.ofNat (0xc0 + 55 + sz.length) :: (sz ++ b)

mutual
/-- codec.go:237-314 `encodeValue` with rlp.go:390-414 `WriteValue`, codec.go:183-215 and 217-235. -/
def enc : (t : Ty) → Val t → Bytes
  | .bool, b => wBytes [if b then 1 else 0]
  | .uint _, v => wBytes (uint64ToBytes v.toNat)
  | .int _, v => wBytes (int64ToBytes v.toInt)
  | .str, s => wBytes s
  | .bytes, none => nullSeq
  | .bytes, some b => wBytes b
  | .barr _, b => wBytes b.val
  | .array _ t, l => wList (l.val.flatMap (enc t))
  | .slice _, none => nullSeq
  | .slice t, some l => wList (l.flatMap (enc t))
  | .ptr _, none => nullSeq
  | .ptr t, some v => enc t v
  | .struct fs, vs => wList (encs fs vs)
def encs : (ts : Tys) → Vals ts → Bytes
  | .nil, _ => []
  | .cons t ts, v => enc t v.1 ++ encs ts v.2
end

/-! ### reader -/

/-- Outcome of a read: value and remaining input, `ErrNilValue` (input advanced), raw `io.EOF`,
another error, or a Go panic. -/
inductive Res (α : Type) where
  | ok (a : α) (rest : Bytes)
  | nil (rest : Bytes)
  | eof
  | err
  | panic
deriving DecidableEq

def Res.map {α β : Type} (f : α → β) : Res α → Res β
  | .ok a r => .ok (f a) r
  | .nil r => .nil r
  | .eof => .eof
  | .err => .err
  | .panic => .panic

/-- rlp.go:48-56 `readAll` of `n` bytes (io.ReadFull): all or an error that is not `io.EOF`. -/
def readAll (n : Nat) (r : Bytes) : Res Bytes :=
  if r.length < n then .err else .ok (r.take n) (r.drop n)

/-- rlp.go:136-176 `readBytes`. `cap` is the largest slice length `make` can give; a larger or negative
length (`int(uint64)`, so 2^63 and above, always larger than `cap`) panics. -/
def readBytes (cap : Nat) : Bytes → Res Bytes
  | [] => .eof
  | tag :: r =>
    let tg := tag.toNat
    if tg < 0x80 then .ok [tag] r
    else if tg ≤ 0xB7 then readAll (tg - 0x80) r
    else if tg < 0xC0 then
      match readAll (tg - 0xB7) r with
      | .ok szb r' =>
        let sz2 := bytesToSize szb
        if sz2 > cap then .panic else readAll sz2 r'
      | _ => .err
    else if tg = 0xF8 then
      match r with
      | [] => .err
      | b :: r' => if bytesToSize [b] = 0 then .nil r' else .err
    else .err

/-- rlp.go:99-126 `readList`: content of the list and what follows it. `io.LimitReader` with a
non-positive limit is empty; the limit is `int64(sz2)`. -/
def readList : Bytes → Res Bytes
  | [] => .eof
  | tag :: r =>
    let tg := tag.toNat
    if tg < 0xC0 then .err
    else if tg ≤ 0xF7 then .ok (r.take (tg - 0xC0)) (r.drop (tg - 0xC0))
    else
      match readAll (tg - 0xF7) r with
      | .ok szb r' =>
        let sz2 := bytesToSize szb
        if tg - 0xF7 = 1 ∧ sz2 = 0 then .nil r'
        else if sz2 ≥ 2 ^ 63 then .ok [] r'
        else .ok (r'.take sz2) (r'.drop sz2)
      | _ => .err

/-- rlp.go:230-260 `ReadRaw` with 221-228 `readMore`. -/
def readRaw (cap : Nat) : Bytes → Res Bytes
  | [] => .eof
  | tag :: r =>
    let tg := tag.toNat
    let more (hd : Bytes) (n : Nat) (r : Bytes) : Res Bytes :=
      if hd.length + n > cap then .panic else (readAll n r).map (hd ++ ·)
    if tg < 0x80 then .ok [tag] r
    else if tg ≤ 0xB7 then more [tag] (tg - 0x80) r
    else if tg < 0xC0 then
      match readAll (tg - 0xB7) r with
      | .ok szb r' => more (tag :: szb) (bytesToSize szb) r'
      | _ => .err
    else if tg ≤ 0xF7 then more [tag] (tg - 0xC0) r
    else
      match readAll (tg - 0xF7) r with
      | .ok szb r' => more (tag :: szb) (bytesToSize szb) r'
      | _ => .err

/-- codec.go:469-480 `decodeNullableValue`: `ErrNilValue` stores the zero value. -/
def nullable {α : Type} (z : α) : Res α → Res α
  | .nil r => .ok z r
  | x => x

/-- codec.go:567-582, the element loop of a slice: until raw EOF. The fuel is one more than the number of
bytes left, each element takes at least one (running out of fuel is reported as `panic` and proved impossible). -/
def decLoop {α : Type} (f : Bytes → Res α) : Nat → Bytes → Res (List α)
  | 0, _ => .panic
  | n + 1, c =>
    match f c with
    | .eof => .ok [] c
    | .ok v c' => (decLoop f n c').map (v :: ·)
    | .nil _ => .err
    | .err => .err
    | .panic => .panic

/-- codec.go:536-544, the element loop of an array: at most `n` elements, stops at EOF. -/
def decArr {α : Type} (f : Bytes → Res α) : Nat → Bytes → Res (List α)
  | 0, c => .ok [] c
  | n + 1, c =>
    match f c with
    | .eof => .ok [] c
    | .ok v c' => (decArr f n c').map (v :: ·)
    | .nil _ => .err
    | .err => .err
    | .panic => .panic

/-- Fill up a (possibly short) list of decoded elements with zero values. -/
def fill {α : Type} (n : Nat) (z : α) (l : List α) : { l : List α // l.length = n } :=
  ⟨(l ++ List.replicate n z).take n, by simp⟩

/-- Consuming a list: decode its content with `f`, then continue behind it (codec.go:380-386 `flush` discards
what is left of the content). -/
def inList {α : Type} (f : Bytes → Res α) : Res Bytes → Res α
  | .ok c r =>
    match f c with
    | .ok a _ => .ok a r
    | .panic => .panic
    | _ => .err
  | .nil r => .nil r
  | .eof => .eof
  | .err => .err
  | .panic => .panic

/-- A nil slice is stored when `ErrNilValue` is read (codec.go:552-556, 560-563). -/
def orNil {α : Type} : Res α → Res (Option α)
  | .ok a r => .ok (some a) r
  | .nil r => .ok none r
  | .eof => .eof
  | .err => .err
  | .panic => .panic

mutual
/-- codec.go:505-640 `decodeValue` with rlp.go:178-210 `ReadValue` (`SetUint`/`SetInt` truncate to the width). -/
def dec (cap : Nat) : (t : Ty) → Bytes → Res (Val t)
  | .bool, bs => (readBytes cap bs).map (fun b => decide (bytesToUint64 b ≠ 0))
  | .uint w, bs => (readBytes cap bs).map (fun b => BitVec.ofNat w.bits (bytesToUint64 b))
  | .int w, bs => (readBytes cap bs).map (fun b => BitVec.ofInt w.bits (bytesToInt64 b))
  | .str, bs => readBytes cap bs
  | .bytes, bs => orNil (readBytes cap bs)
  | .barr n, bs => (readBytes cap bs).map (fill n 0)
  | .array n t, bs =>
    (inList (decArr (fun c => nullable (zero t) (dec cap t c)) n) (readList bs)).map (fill n (zero t))
  | .slice t, bs =>
    orNil (inList (fun c => decLoop (fun c => nullable (zero t) (dec cap t c)) (c.length + 1) c) (readList bs))
  | .ptr t, bs => (dec cap t bs).map some
  | .struct fs, bs => inList (decs cap fs) (readList bs)
/-- codec.go:482-503 `decodeRecursiveFields`: stops silently at EOF, the remaining fields keep their zero value. -/
def decs (cap : Nat) : (ts : Tys) → Bytes → Res (Vals ts)
  | .nil, c => .ok () c
  | .cons t ts, c =>
    match nullable (zero t) (dec cap t c) with
    | .eof => .ok (zero t, zeros ts) c
    | .ok v c' => (decs cap ts c').map (fun vs => (v, vs))
    | .nil _ => .err
    | .err => .err
    | .panic => .panic
end

end Verif.Rlp
