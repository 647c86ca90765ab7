import Verif.SolBmc
/-!
Model of the enumerable dictionary of the ICON BMC contract: /repo/javascore/bmc/src/main/java/foundation/icon/score/data/EnumerableDictDB.java.

* Keys are compared by value; `ensureKeyType` (lines 56-58) is taken to be injective (all users of the class have String keys, for
  which it is the identity).
* `DictDB` is a function with `none` for null, `ArrayDB` a list; `get`/`set` of an `ArrayDB` outside its bounds throw.
* `none` as a result is an exception. A null value cannot be stored (`ArrayDB.add(null)` throws), so values are never null.
-/
namespace Verif.EnumDict
open Verif
open Verif.SolBmc (upd)

/-- EnumerableDictDB.java:29-34: the three stores. -/
structure St (K V : Type) where
  idx : K → Option Nat
  keys : Nat → Option K
  vals : List V

variable {K V : Type} [DecidableEq K]

def init : St K V := ⟨fun _ => none, fun _ => none, []⟩

/-- EnumerableDictDB.java:76-79 `getValue`; the outer `none` is an index out of bounds. -/
def getValue (s : St K V) : Option Nat → Option (Option V)
  | none => some none
  | some i => match s.vals[i]? with
    | none => none
    | some v => some (some v)

/-- EnumerableDictDB.java:117-121 `get`. -/
def get (s : St K V) (k : K) : Option (Option V) := getValue s (s.idx k)

/-- EnumerableDictDB.java:103-105 `containsKey`. -/
def containsKey (s : St K V) (k : K) : Bool := (s.idx k).isSome

/-- EnumerableDictDB.java:123-132 `put` with 81-89 `putValue`. -/
def put (s : St K V) (k : K) (v : V) : Option (St K V × Option V) :=
  match getValue s (s.idx k) with
  | none => none
  | some none =>
    let vals := s.vals ++ [v]
    let i := vals.length - 1
    some ({ s with vals := vals, idx := upd s.idx k (some i), keys := upd s.keys i (some k) }, none)
  | some (some old) =>
    match s.idx k with
    | none => none
    | some i => some ({ s with vals := s.vals.set i v }, some old)

/-- EnumerableDictDB.java:134-151 `remove` with 91-101 `removeValue`. -/
def remove (s : St K V) (k : K) : Option (St K V × Option V) :=
  match getValue s (s.idx k) with
  | none => none
  | some none => some (s, none)
  | some (some old) =>
    match s.idx k, s.vals.getLast? with
    | some i, some last =>
      let vals := if i ≠ s.vals.dropLast.length then s.vals.dropLast.set i last else s.vals.dropLast
      let s1 := { s with vals := vals, idx := upd s.idx k none }
      let lastIdx := vals.length
      if i = lastIdx then some ({ s1 with keys := upd s1.keys i none }, some old)
      else match s1.keys lastIdx with
        | none => none
        | some lk => some ({ s1 with idx := upd s1.idx lk (some i), keys := upd s1.keys i (some lk) }, some old)
    | _, _ => none

/-- EnumerableDictDB.java:153-161: the loop of `clear`; `n` rounds are left. -/
def clearLoop : Nat → Nat → St K V → Option (St K V)
  | 0, _, s => some s
  | n + 1, i, s =>
    match s.keys i with
    | none => none
    | some k => clearLoop n (i + 1) { idx := upd s.idx k none, keys := upd s.keys i none, vals := s.vals.dropLast }

/-- EnumerableDictDB.java:153-161 `clear`. -/
def clear (s : St K V) : Option (St K V) := clearLoop s.vals.length 0 s

/-- EnumerableDictDB.java:163-170 `keySet` (null for a missing key). -/
def keySet (s : St K V) : List (Option K) := (List.range s.vals.length).map s.keys

/-- EnumerableDictDB.java:181-188 `values`. -/
def values (s : St K V) : List V := s.vals

/-- EnumerableDictDB.java:190-198 `toMap`: the entries. -/
def toMap (s : St K V) : List (Option K × V) := (keySet s).zip s.vals

/-- Calls. -/
inductive Op (K V : Type) where
  | put (k : K) (v : V)
  | remove (k : K)
  | clear

/-- A call's new state and result. -/
def step (s : St K V) : Op K V → Option (St K V × Option V)
  | .put k v => put s k v
  | .remove k => remove s k
  | .clear => (clear s).map (fun s' => (s', none))

/-- A sequence of calls: the final state and the results. -/
def run : St K V → List (Op K V) → Option (St K V × List (Option V))
  | s, [] => some (s, [])
  | s, o :: t => match step s o with
    | none => none
    | some (s1, r) => (run s1 t).map (fun x => (x.1, r :: x.2))

end Verif.EnumDict
