import Verif.PyInt
import Verif.RlpProps
/-!
Model of the RLP codec of the Python contracts: /repo/pyscore/lib/icon/rlp.py.

* Text is its UTF-8 bytes; `u` tells which byte strings are UTF-8.
* A type `{list: t}` is emptied by the first use (`popitem`, rlp.py:139); no type in /repo/pyscore uses one twice and all types are written
  where they are used, so the model keeps it.
* `none` is an exception.
-/
namespace Verif.PyRlp
open Verif

/-- rlp.py:85-90 `_rlp_length_size`; the fuel `n` is at least the number of bytes. -/
def lengthSize : Nat → Nat → Nat
  | 0, _ => 0
  | n + 1, l => if l > 0 then lengthSize n (l / 256) + 1 else 0

/-- Python `l.insert(i, x)`: at the end if `i` is beyond it. -/
def insertAt (l : Bytes) (i : Nat) (x : UInt8) : Bytes := l.take i ++ x :: l.drop i

/-- rlp.py:50-54 and 74-77: the loop that writes the length. -/
def lenLoop : Nat → Nat → Bytes → Bytes
  | 0, _, buf => buf
  | n + 1, l, buf => lenLoop n (l / 256) (insertAt buf (n + 1) (UInt8.ofNat (l % 256)))

/-- rlp.py:46-55, 70-79: the header of long values. -/
def longHeader (base : Nat) (l : Nat) : Bytes :=
  lenLoop (lengthSize l l) l [UInt8.ofNat ((base + lengthSize l l) % 256)]

/-- rlp.py:38-55 `rlp_encode_bytes`. -/
def encBytes (b : Bytes) : Bytes :=
  if b.length = 1 ∧ (b.getD 0 0).toNat < 0x80 then b
  else if b.length ≤ 55 then UInt8.ofNat (0x80 + b.length) :: b
  else longHeader 0xB7 b.length ++ b

/-- rlp.py:58-82 `rlp_encode_list_with_encoded`. -/
def encList (l : List Bytes) : Bytes :=
  let n := (l.map List.length).sum
  if n ≤ 55 then UInt8.ofNat (0xC0 + n) :: l.flatten
  else longHeader 0xF7 n ++ l.flatten

/-- What may be encoded (rlp.py:16); a bool is an int in Python, so line 21 takes it: True is 1 and False is 0. -/
inductive Obj where
  | none
  | bytes (b : Bytes)
  | int (v : Int)
  | str (s : Bytes)
  | list (l : List Obj)

mutual
/-- rlp.py:15-35 `rlp_encode`. -/
def encode : Obj → Bytes
  | .none => [0xF8, 0]
  | .bytes b => encBytes b
  | .int v => encBytes ((PyInt.intBytes v).getD [])
  | .str s => encBytes s
  | .list l => encList (encodes l)
def encodes : List Obj → List Bytes
  | [] => []
  | o :: l => encode o :: encodes l
end

/-- rlp.py:157-177: what the first byte `b` says, `r` are the bytes after it. The check of line 165 never applies (`b < 128` in the branch
of `b ≥ 128`). -/
def tag (b : Nat) (r : Bytes) : Bool × Nat × Nat :=
  if b < 0x80 then (false, 0, 1)
  else if b < 0xB8 then (false, 1, b - 0x80)
  else if b < 0xC0 then (false, b - 0xB7 + 1, beNat (r.take (b - 0xB7)))
  else if b < 0xF8 then (true, 1, b - 0xC0)
  else (true, b - 0xF7 + 1, beNat (r.take (b - 0xF7)))

/-- rlp.py:152-181 `rlp_decode_header`: whether it is a list, the size of the tag, the size of the content. -/
def header : Bytes → Option (Bool × Nat × Nat)
  | [] => none
  | t :: r =>
    if r.length + 1 < (tag t.toNat r).2.1 + (tag t.toNat r).2.2 then none else some (tag t.toNat r)

/-- What `rlp_decode_part` gives: nothing, bytes, or the encodings of the elements. -/
inductive Part where
  | null
  | bytes (b : Bytes)
  | items (l : List Bytes)
deriving DecidableEq

/-- rlp.py:193-196: the elements of a list; the fuel `n` is at least the length. -/
def items : Nat → Bytes → Option (List Bytes)
  | _, [] => some []
  | 0, _ => none
  | n + 1, c => (header c).bind fun h => (items n (c.drop (h.2.1 + h.2.2))).map (c.take (h.2.1 + h.2.2) :: ·)

/-- rlp.py:184-199 `rlp_decode_part`: the value and the bytes that follow. -/
def part (bs : Bytes) : Option (Part × Bytes) :=
  (header bs).bind fun h =>
    if h.1 = true then
      if h.2.1 = 2 ∧ h.2.2 = 0 then some (.null, bs.drop 2)
      else (items h.2.2 ((bs.drop h.2.1).take h.2.2)).map fun l => (.items l, bs.drop (h.2.1 + h.2.2))
    else some (.bytes ((bs.drop h.2.1).take h.2.2), bs.drop (h.2.1 + h.2.2))

/-- The types given to `rlp_decode` (rlp.py:118-149): a single value, an object, a list of one type. -/
inductive T where
  | bytes
  | int
  | str
  | bool
  | raw
  | struct (ts : List T)
  | each (t : T)

inductive Val where
  | none
  | bytes (b : Bytes)
  | int (v : Int)
  | str (s : Bytes)
  | bool (b : Bool)
  | items (l : List Bytes)
  | list (l : List Val)

/-- rlp.py:93-115 `from_bytes`. -/
def fromBytes (u : Bytes → Bool) (t : T) : Part → Option Val
  | .null => some .none
  | .bytes b => match t with
    | .bytes => some (.bytes b)
    | .int => some (.int (PyInt.intFrom b))
    | .str => if u b then some (.str b) else none
    | .bool => if b = [0] then some (.bool false) else if b = [1] then some (.bool true) else none
    | _ => none
  | .items l => match t with
    | .raw => some (.items l)
    | _ => none

/-- rlp.py:121-123: one value that takes up all bytes. -/
def whole (bs : Bytes) : Option Part := (part bs).bind fun p => if p.2.length > 0 then none else some p.1

mutual
/-- rlp.py:118-149 `rlp_decode`. -/
def decode (u : Bytes → Bool) : T → Bytes → Option Val
  | .struct ts, bs => match whole bs with
    | some (.items l) => if ts.length < l.length then none else (decodes u ts l).map .list
    | _ => none
  | .each t, bs => match whole bs with
    | some (.items l) => (l.mapM (decode u t)).map .list
    | _ => none
  | t, bs => (whole bs).bind (fromBytes u t)
def decodes (u : Bytes → Bool) : List T → List Bytes → Option (List Val)
  | _, [] => some []
  | [], _ :: _ => none
  | t :: ts, b :: bs => (decode u t b).bind fun v => (decodes u ts bs).map (v :: ·)
end

end Verif.PyRlp
