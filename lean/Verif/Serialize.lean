import Verif.Bytes
/-!
Model of /repo/chain/icon/client/serialize.go: the text that is hashed and signed for a transaction.

* Values are what `json.Unmarshal` into `interface{}` gives: null, string, number, list, object; `other` stands for the
  two booleans, which the code refuses. A number is given after `int64(v_float64)`.
* An object (Go map) is given as its list of entries in the order of `sort.Strings` (bytewise).
-/
namespace Verif.Serialize
open Verif

mutual
inductive Val where
  | null
  | str (s : Bytes)
  | num (n : Int)
  | list (l : Vals)
  | dict (d : Dict)
  | other
inductive Vals where
  | nil
  | cons (v : Val) (t : Vals)
inductive Dict where
  | nil
  | cons (k : Bytes) (v : Val) (t : Dict)
end

/-- The bytes that get a backslash: `\ { } [ ] .` -/
def special (b : UInt8) : Bool := b = 0x5c || b = 0x7b || b = 0x7d || b = 0x5b || b = 0x5d || b = 0x2e

/-- serialize.go:35-58 `serializeString`. -/
def serStr : Bytes → Bytes
  | [] => []
  | b :: t => if special b then 0x5c :: b :: serStr t else b :: serStr t

/-- `strconv.FormatInt(n, 10)`. -/
def decInt (n : Int) : Bytes :=
  let d := (Nat.toDigits 10 n.natAbs).map (fun c => c.toNat.toUInt8)
  if n < 0 then 0x2d :: d else d

mutual
/-- serialize.go:76-113 `serializeValue`; `none` is an error. -/
def ser : Val → Option Bytes
  | .null => some [0x5c, 0x30]
  | .str s => some (serStr s)
  | .num n => some (decInt n)
  | .list l => (serList l []).map (fun b => 0x5b :: b ++ [0x5d])
  | .dict d => (serDict d []).map (fun b => 0x7b :: b ++ [0x7d])
  | .other => none
/-- serialize.go:60-74 `serializeList`, with the buffer so far. -/
def serList : Vals → Bytes → Option Bytes
  | .nil, buf => some buf
  | .cons v t, buf =>
    match ser v with
    | none => none
    | some f => serList t ((if buf.length > 0 then buf ++ [0x2e] else buf) ++ f)
/-- serialize.go:115-139 `serializeDict` without filters, with the buffer so far. -/
def serDict : Dict → Bytes → Option Bytes
  | .nil, buf => some buf
  | .cons k v t, buf =>
    match ser v with
    | none => none
    | some f => serDict t ((if buf.length > 0 then buf ++ [0x2e] else buf) ++ serStr k ++ [0x2e] ++ f)
end

/-- serialize.go:123-125: entries that are not filtered out. -/
def filterDict (inc exc : Option (Bytes → Bool)) : Dict → Dict
  | .nil => .nil
  | .cons k v t =>
    if (inc.isSome ∧ (inc.getD (fun _ => true)) k = false) ∨ (exc.isSome ∧ (exc.getD (fun _ => false)) k = true) then filterDict inc exc t
    else .cons k v (filterDict inc exc t)

/-- serialize.go:141-147 `SerializeMap`. -/
def serMap (d : Dict) (inc exc : Option (Bytes → Bool)) : Option Bytes := serDict (filterDict inc exc d) []

end Verif.Serialize
