import Verif.RlpProps
/-!
The parts of /repo/common/codec/codec.go and rlp.go that `Rlp` leaves out: maps, the custom methods (`RLPEncodeSelf`,
`MarshalBinary`, `MarshalRLP` and their opposites), values that are passed by value and not by pointer, `EncodeListOf`, `DecodeListOf`
and `DecodeMulti`, the encoder used step by step, and `Skip`.

Custom methods are looked for on the address of a value only, so the writer needs to know whether the value is addressable
(codec.go:237-241). Every Go type is given by a pair of writers: `encA` for an addressable value (behind a pointer, in a slice, in an
addressable struct or array) and `encN` for one that is not (passed by value, in a map, in such a struct or array). The reader always
has a pointer (505-513). The type constructors are functions on these codecs.

Interfaces (292-295) are not modelled: they can be written and not read.
-/
namespace Verif.RlpObj
open Verif Verif.IntConv Verif.Rlp

/-- A Go type as the codec sees it: zero value, writer of an addressable and of another value, reader (with `cap` as in `Rlp`). -/
structure C (α : Type) where
  zero : α
  encA : α → Bytes
  encN : α → Bytes
  dec : Nat → Bytes → Res α

/-- Types without custom methods and maps: `Rlp`. -/
def ofTy (t : Ty) : C (Val t) := ⟨Rlp.zero t, enc t, enc t, fun cap => Rlp.dec cap t⟩

/-- A value that may be nil. codec.go:210-215 `encodeNullable`. -/
def encOpt (e : α → Bytes) : Option α → Bytes
  | none => nullSeq
  | some v => e v

/-- Pointers: codec.go:252-255, the target is addressable; 595-601. -/
def ptr (c : C α) : C (Option α) :=
  ⟨none, encOpt c.encA, encOpt c.encA, fun cap bs => (c.dec cap bs).map some⟩

/-- Slices: codec.go:246-249 with 183-205, elements of a slice are addressable; 547-585. -/
def slice (c : C α) : C (Option (List α)) :=
  ⟨none, encOpt fun l => wList (l.flatMap c.encA), encOpt fun l => wList (l.flatMap c.encA),
   fun cap bs =>
    orNil (inList (fun x => decLoop (fun x => nullable c.zero (c.dec cap x)) (x.length + 1) x) (readList bs))⟩

/-- Arrays: codec.go:250-251 with 183-205, elements are addressable if the array is; 522-545. -/
def array (n : Nat) (c : C α) : C { l : List α // l.length = n } :=
  ⟨⟨List.replicate n c.zero, List.length_replicate⟩,
   fun l => wList (l.val.flatMap c.encA), fun l => wList (l.val.flatMap c.encN),
   fun cap bs =>
    (inList (decArr (fun x => nullable c.zero (c.dec cap x)) n) (readList bs)).map (fill n c.zero)⟩

/-- The fields of a struct, or the objects given to `EncodeListOf`. `dec` stops at the end of input (482-503), `decAll` does not
(422-434). -/
structure F (α : Type) where
  zero : α
  encA : α → Bytes
  encN : α → Bytes
  dec : Nat → Bytes → Res α
  decAll : Nat → Bytes → Res α

def fnil : F Unit := ⟨(), fun _ => [], fun _ => [], fun _ x => .ok () x, fun _ x => .ok () x⟩

/-- codec.go:217-235 `encodeRecursiveFields`, 482-503 `decodeRecursiveFields`; for `decAll` the loop 430-434. -/
def fcons (c : C α) (fs : F β) : F (α × β) :=
  ⟨(c.zero, fs.zero), fun v => c.encA v.1 ++ fs.encA v.2, fun v => c.encN v.1 ++ fs.encN v.2,
   fun cap x => match nullable c.zero (c.dec cap x) with
    | .eof => .ok (c.zero, fs.zero) x
    | .ok v x' => (fs.dec cap x').map fun vs => (v, vs)
    | .nil _ => .err
    | .err => .err
    | .panic => .panic,
   fun cap x => match nullable c.zero (c.dec cap x) with
    | .eof => .err
    | .ok v x' => (fs.decAll cap x').map fun vs => (v, vs)
    | .nil _ => .err
    | .err => .err
    | .panic => .panic⟩

/-- Structs: codec.go:256-264, 603-611. -/
def struct (fs : F α) : C α :=
  ⟨fs.zero, fun v => wList (fs.encA v), fun v => wList (fs.encN v), fun cap bs => inList (fs.dec cap) (readList bs)⟩

/-- codec.go:346-355 `EncodeListOf`: the objects are passed by value. -/
def encodeListOf (fs : F α) (v : α) : Bytes := wList (fs.encN v)

/-- codec.go:422-436 `DecodeListOf`: every error inside the list, the end of it included, is `ErrInvalidFormat`. -/
def decodeListOf (fs : F α) (cap : Nat) (bs : Bytes) : Res α := inList (fs.decAll cap) (readList bs)

/-- A method that writes and one that reads, and what is written without them.
`RLPEncodeSelf`/`RLPDecodeSelf`: codec.go:152-161, 442-449. -/
def selfC (z : α) (plain : α → Bytes) (e : α → Bytes) (d : Nat → Bytes → Res α) : C α := ⟨z, e, plain, d⟩

/-- What a method gives is an error or the value. -/
def thenOf (u : Bytes → Option α) : Res Bytes → Res α
  | .ok b r => match u b with
    | some v => .ok v r
    | none => .err
  | .nil r => .nil r
  | .eof => .eof
  | .err => .err
  | .panic => .panic

/-- `MarshalBinary`/`UnmarshalBinary`: codec.go:162-170, 450-457. -/
def binaryC (z : α) (plain : α → Bytes) (m : α → Option Bytes) (u : Bytes → Option α) : C α :=
  ⟨z, fun v => encOpt wBytes (m v), plain, fun cap bs => thenOf u (readBytes cap bs)⟩

/-- `MarshalRLP`/`UnmarshalRLP`: codec.go:171-179, 458-465; the bytes are put into the stream as they are. -/
def rawC (z : α) (plain : α → Bytes) (m : α → Bytes) (u : Bytes → Option α) : C α :=
  ⟨z, m, plain, fun cap bs => thenOf u (readRaw cap bs)⟩

/-! ### maps -/

/-- The key types that can be written: codec.go:272-288. -/
inductive Key where
  | str
  | int (w : Width)
  | uint (w : Width)

def Key.ty : Key → Ty
  | .str => .str
  | .int w => .int w
  | .uint w => .uint w

instance (k : Key) : DecidableEq (Val k.ty) := match k with
  | .str => inferInstanceAs (DecidableEq Bytes)
  | .int w => inferInstanceAs (DecidableEq (BitVec w.bits))
  | .uint w => inferInstanceAs (DecidableEq (BitVec w.bits))

/-- Order of strings in Go: by bytes. -/
def bytesLt : Bytes → Bytes → Bool
  | _, [] => false
  | [], _ :: _ => true
  | a :: as, b :: bs => if a.toNat = b.toNat then bytesLt as bs else decide (a.toNat < b.toNat)

/-- codec.go:273-286: the comparisons given to `sort.Slice`. -/
def Key.lt : (k : Key) → Val k.ty → Val k.ty → Bool
  | .str, a, b => bytesLt a b
  | .int _, a, b => decide (a.toInt < b.toInt)
  | .uint _, a, b => decide (a.toNat < b.toNat)

/-- Sorting by key (`sort.Slice`; the keys of a map are different, so any sort gives the same). -/
def insertKey (k : Key) (p : Val k.ty × α) : List (Val k.ty × α) → List (Val k.ty × α)
  | [] => [p]
  | q :: l => if k.lt q.1 p.1 then q :: insertKey k p l else p :: q :: l
def sortKeys (k : Key) : List (Val k.ty × α) → List (Val k.ty × α)
  | [] => []
  | p :: l => insertKey k p (sortKeys k l)

/-- codec.go:618-636, the loop of a map: pairs until the end of input; a null key or a key without a value is an error. Fuel as in
`decLoop`. -/
def decPairs {κ α : Type} (fk : Bytes → Res κ) (fv : Bytes → Res α) : Nat → Bytes → Res (List (κ × α))
  | 0, _ => .panic
  | n + 1, x =>
    match fk x with
    | .eof => .ok [] x
    | .ok k x' =>
      match fv x' with
      | .ok v x'' => (decPairs fk fv n x'').map ((k, v) :: ·)
      | .panic => .panic
      | _ => .err
    | .panic => .panic
    | _ => .err

/-- `SetMapIndex`: a key that is there gets the new value. -/
def put [DecidableEq κ] (m : List (κ × α)) (k : κ) (v : α) : List (κ × α) :=
  match m with
  | [] => [(k, v)]
  | p :: m => if p.1 = k then (k, v) :: m else p :: put m k v

/-- A map built by `SetMapIndex`. -/
def build [DecidableEq κ] (l : List (κ × α)) : List (κ × α) := l.foldl (fun m p => put m p.1 p.2) []

/-- Maps, as lists of pairs in the order in which `MapKeys` gives them: codec.go:266-307 (neither keys nor values are addressable);
613-638. -/
def map (k : Key) (c : C α) : C (Option (List (Val k.ty × α))) :=
  let e := encOpt fun l => wList ((sortKeys k l).flatMap fun p => enc k.ty p.1 ++ c.encN p.2)
  ⟨none, e, e,
   fun cap bs => (orNil (inList (fun x => decPairs (Rlp.dec cap k.ty) (fun x => nullable c.zero (c.dec cap x)) (x.length + 1) x)
    (readList bs))).map (Option.map build)⟩

/-! ### the calls -/

/-- bytes.go:21-27 `MarshalToBytes(v)`: the value is not addressable. -/
def marshalValue (c : C α) (v : α) : Bytes := c.encN v
/-- bytes.go:21-27 `MarshalToBytes(&v)`. -/
def marshalPtr (c : C α) (v : α) : Bytes := (ptr c).encN (some v)
/-- bytes.go:29-35 `UnmarshalFromBytes(b, &v)`: the value and the bytes after it. -/
def unmarshal (c : C α) (cap : Nat) (b : Bytes) : Option (α × Bytes) :=
  match c.dec cap b with
  | .ok v r => some (v, r)
  | _ => none

/-! ### types of the relay with custom methods -/

/-- hexint.go:14-16, 36-43 `HexInt`. Without the methods it is a struct with the field `big.Int`, a struct of two unexported fields
that are no structs: two lists without anything in them. -/
def hexInt : C Int :=
  binaryC 0 (fun _ => wList (wList [])) (fun v => some (bigIntToBytes v)) (fun b => some (bigIntSetBytes b))

/-- hexint.go:64-66, 90-96; 138-140, 164-170; 204-206, 230-236: `HexInt16`, `HexInt32`, `HexInt64`, written as `int64` and read at the
width. Without the methods: a struct with one field. -/
def hexIntW (w : Width) : C (BitVec w.bits) :=
  selfC 0#w.bits (fun v => wList (enc (.int w) v)) (fun v => enc (.int .w64) (BitVec.ofInt 64 v.toInt))
    (fun cap => Rlp.dec cap (.int w))

/-- hexint.go:101-103, 127-133; 172-174, 197-203: `HexUint16`, `HexUint32`, written as `int64` and read at the width. -/
def hexUintW (w : Width) : C (BitVec w.bits) :=
  selfC 0#w.bits (fun v => wList (enc (.uint w) v)) (fun v => enc (.int .w64) (BitVec.ofNat 64 v.toNat))
    (fun cap => Rlp.dec cap (.uint w))

/-- hexint.go:238-240, 263-269: `HexUint64`. -/
def hexUint64 : C (BitVec 64) :=
  selfC 0#64 (fun v => wList (enc (.uint .w64) v)) (fun v => enc (.uint .w64) v) (fun cap => Rlp.dec cap (.uint .w64))

/-! ### Skip -/

/-- rlp.go:31-39 `skipN`. A size of 2^63 and above is a negative `int64`; `io.CopyN` with a negative number copies nothing and
reports no error. -/
def skipN (n : Nat) (r : Bytes) : Res Unit :=
  if 2 ^ 63 ≤ n then .ok () r else if r.length < n then .err else .ok () (r.drop n)

/-- rlp.go:58-88 `skipOne`. -/
def skipOne : Bytes → Res Unit
  | [] => .eof
  | tag :: r =>
    let tg := tag.toNat
    if tg < 0x80 then .ok () r
    else if tg ≤ 0xB7 then skipN (tg - 0x80) r
    else if tg < 0xC0 then
      match readAll (tg - 0xB7) r with
      | .ok szb r' => skipN (bytesToSize szb) r'
      | _ => .err
    else if tg ≤ 0xF7 then skipN (tg - 0xC0) r
    else
      match readAll (tg - 0xF7) r with
      | .ok szb r' => skipN (bytesToSize szb) r'
      | _ => .err

/-- rlp.go:90-97 `Skip`. -/
def skip : Nat → Bytes → Res Unit
  | 0, r => .ok () r
  | n + 1, r => match skipOne r with
    | .ok _ r' => skip n r'
    | x => x

/-! ### the encoder used step by step -/

/-- The lists that are open, the innermost first: number and buffer of each (`rlpParent.buffer`; the outermost is the output), and
the next number. An encoder is known by the number of the list it writes to. -/
structure Enc where
  next : Nat
  frames : List (Nat × Bytes)

/-- codec.go:105-120 `flush` and `flushAndClose` with rlp.go:421-434 `Close`: the lists inside the one with number `id` are closed, the
innermost first. -/
def closeTo (id : Nat) : List (Nat × Bytes) → List (Nat × Bytes)
  | (i, b) :: (j, b') :: fs => if i = id then (i, b) :: (j, b') :: fs else closeTo id ((j, b' ++ wList b) :: fs)
  | fs => fs
termination_by fs => fs.length

/-- What can be asked of an encoder: to write one value (given by its bytes), or to begin a list. -/
inductive Call where
  | value (bs : Bytes)
  | list

/-- codec.go:118-134, 316-331 `EncodeList` and `Encode` of the encoder `id`. An encoder whose list is closed writes to a buffer that nobody
reads any more (rlp.go:431 `w.parent = nil`). -/
def Enc.call (s : Enc) (id : Nat) (c : Call) : Enc :=
  if s.frames.any (fun f => f.1 = id) then
    match c with
    | .value bs => match closeTo id s.frames with
      | (i, b) :: fs => { s with frames := (i, b ++ bs) :: fs }
      | [] => s
    | .list => ⟨s.next + 1, (s.next, []) :: closeTo id s.frames⟩
  else match c with
    | .value _ => s
    | .list => { s with next := s.next + 1 }

def Enc.start : Enc := ⟨1, [(0, [])]⟩

def Enc.run (s : Enc) : List (Nat × Call) → Enc
  | [] => s
  | c :: cs => (s.call c.1 c.2).run cs

/-- What is in the output when the outermost encoder has been flushed (codec.go:157-158). -/
def Enc.out (s : Enc) : Bytes :=
  match closeTo 0 s.frames with
  | (_, b) :: _ => b
  | [] => []

end Verif.RlpObj
