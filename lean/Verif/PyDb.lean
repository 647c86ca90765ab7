import Verif.PyInt
/-!
Model of the storage classes of the Python contracts: /repo/pyscore/lib/icon/db.py.

* `with_flush` is False everywhere in /repo/pyscore: every change goes to the store at once. The branches for True are left out.
* An instance of a class lives in one call or in several (the contract's instance is created by the platform); `fresh` starts a new
  instance on the same store. Both are covered: a history may contain `fresh` at any place.
* `DictDB` and the Python dictionaries are functions with `none` for a missing key; the store's key space is not shared between
  containers (prefixes are taken to be distinct). Strings are lists of characters.
* `none` as a result is an exception; the transaction is undone by the platform, so a history ends there.
-/
namespace Verif.PyDb
open Verif

abbrev Str := List Char

def upd {A B : Type} [DecidableEq A] (f : A → B) (a : A) (b : B) : A → B := fun x => if x = a then b else f x

/-- Python `",".join(l)` (db.py:91). -/
def join : List Str → Str
  | [] => []
  | [x] => x
  | x :: y :: l => x ++ ',' :: join (y :: l)

/-- The first word of `s.split(",")` gets one more character. -/
def consHead (c : Char) : List Str → List Str
  | [] => [[c]]
  | w :: l => (c :: w) :: l

/-- Python `s.split(",")` (db.py:98). -/
def split : Str → List Str
  | [] => [[]]
  | c :: s => if c = ',' then [] :: split s else consHead c (split s)

/-! ### IterableDictDB with plain values -/

/-- db.py:20-38: the store (`__db_keys`, `__db`) and the instance. `O` objects, `R` their stored form. -/
structure St (O R : Type) where
  dbKeys : Str
  db : Str → Option R
  keys : List Str
  loaded : Bool
  cache : Str → Option R
  add : Str → Option O
  update : Str → Option O
  removed : Str → Bool

variable {O R : Type}

/-- db.py:22-38: a new instance. -/
def fresh (s : St O R) : St O R :=
  ⟨s.dbKeys, s.db, [], false, fun _ => none, fun _ => none, fun _ => none, fun _ => false⟩

def init : St O R := ⟨[], fun _ => none, [], false, fun _ => none, fun _ => none, fun _ => none, fun _ => false⟩

/-- db.py:94-100 `_load_keys`. -/
def load (s : St O R) : St O R :=
  if s.loaded then s
  else { s with keys := if s.dbKeys.length > 1 then split s.dbKeys else s.keys, loaded := true }

/-- db.py:90-92 `_flush_keys`. -/
def flushKeys (s : St O R) : St O R := { s with dbKeys := join s.keys }

/-- db.py:102-109 `_add_key`. -/
def addKey (s : St O R) (k : Str) : Option (St O R) :=
  if ',' ∈ k then none
  else some (flushKeys { load s with keys := (load s).keys ++ [k] })

/-- db.py:119-124 `_index_key`: the position, -1 if there is none. -/
def indexOf (k : Str) : List Str → Nat → Int
  | [], _ => -1
  | x :: l, i => if x = k then i else indexOf k l (i + 1)

/-- Python `l.pop(i)`; `pop(-1)` takes the last. -/
def popAt (l : List Str) (i : Int) : List Str := if i < 0 then l.dropLast else l.eraseIdx i.toNat

/-- db.py:111-117 `_remove_key`. -/
def removeKey (s : St O R) (k : Str) : St O R :=
  flushKeys { load s with keys := popAt (load s).keys (indexOf k (load s).keys 0) }

/-- db.py:218-223 `_contains` with 240-242 `__contains__`. -/
def contains (s : St O R) (k : Str) : Bool := decide (0 ≤ indexOf k (load s).keys 0)

/-- db.py:126-128 `keys`. -/
def keysOf (s : St O R) : List Str := (load s).keys

/-- db.py:137-151 `_cache` for plain values: the new instance and the raw value. A missing value in the store counts as None. -/
def cached (s : St O R) (k : Str) : St O R × Option R :=
  match s.cache k with
  | some r => (s, some r)
  | none =>
    if contains s k then
      match (load s).db k with
      | some r => ({ load s with cache := upd (load s).cache k (some r) }, some r)
      | none => (load s, none)
    else (load s, none)

/-- db.py:153-171 `_set` with 225-230 `__setitem__` of a value other than None. -/
def set (raw : O → R) (s : St O R) (k : Str) (v : O) : Option (St O R) :=
  if (s.add k).isSome then some { s with add := upd s.add k (some v), db := upd s.db k (some (raw v)) }
  else if (s.update k).isSome then some { s with update := upd s.update k (some v), db := upd s.db k (some (raw v)) }
  else if s.removed k then
    (addKey { s with removed := upd s.removed k false, update := upd s.update k (some v) } k).map
      fun s => { s with db := upd s.db k (some (raw v)) }
  else match (cached s k).2 with
    | none =>
      (addKey { (cached s k).1 with add := upd (cached s k).1.add k (some v) } k).map
        fun s => { s with db := upd s.db k (some (raw v)) }
    | some _ => some { (cached s k).1 with update := upd (cached s k).1.update k (some v),
                                           db := upd (cached s k).1.db k (some (raw v)) }

/-- db.py:173-188 `_get` with 232-234 `__getitem__` for plain values. -/
def get (obj : R → Option O) (s : St O R) (k : Str) : St O R × Option O :=
  match s.add k with
  | some v => (s, some v)
  | none => match s.update k with
    | some v => (s, some v)
    | none => if s.removed k then (s, none) else ((cached s k).1, (cached s k).2.bind obj)

/-- db.py:197-212: the second half of `remove`. -/
def removeStored (s : St O R) (k : Str) : St O R :=
  match (cached s k).2 with
  | none => (cached s k).1
  | some _ =>
    let s1 := removeKey (cached s k).1 k
    { s1 with removed := upd s1.removed k true, cache := upd s1.cache k none, db := upd s1.db k none }

/-- db.py:190-212 `remove` for plain values. -/
def remove (s : St O R) (k : Str) : St O R :=
  if (s.add k).isSome then { s with add := upd s.add k none }
  else if s.removed k then s
  else removeStored { s with update := upd s.update k none } k

/-- db.py:214-216 `remove_all`: the list of keys changes while it is walked through; `n` is at least the number of keys. -/
def removeLoop : Nat → Nat → St O R → St O R
  | 0, _, s => s
  | n + 1, i, s => match s.keys[i]? with
    | none => s
    | some k => removeLoop n (i + 1) (remove s k)

def removeAll (s : St O R) : St O R := removeLoop (load s).keys.length 0 (load s)

/-- Calls that change the dictionary or start a new instance. -/
inductive Op (O : Type) where
  | set (k : Str) (v : O)
  | remove (k : Str)
  | get (k : Str)
  | fresh

def step (raw : O → R) (obj : R → Option O) (s : St O R) : Op O → Option (St O R)
  | .set k v => set raw s k v
  | .remove k => some (remove s k)
  | .get k => some (get obj s k).1
  | .fresh => some (fresh s)

def run (raw : O → R) (obj : R → Option O) : St O R → List (Op O) → Option (St O R)
  | s, [] => some s
  | s, o :: t => (step raw obj s o).bind fun s' => run raw obj s' t

/-! ### PropertiesDB -/

/-- The values a property may have (db.py:488-506); text as its UTF-8 bytes, addresses by their byte form. -/
inductive PVal where
  | int (v : Int)
  | bool (b : Bool)
  | str (s : Bytes)
  | bytes (b : Bytes)
  | addr (a : Bytes)
  | btp (a : Bytes)
  | ser (b : Bytes)
deriving DecidableEq, Repr

/-- db.py:488-503 with const.py:62-63 (`bytes(Type.X)` is one byte). A bool is an int in Python, so the first branch takes it. -/
def encode : PVal → Option Bytes
  | .int v => (PyInt.intBytes v).map fun b => 1 :: b
  | .bool b => (PyInt.intBytes (if b then 1 else 0)).map fun b => 1 :: b
  | .str s => some (2 :: s)
  | .bytes b => some (4 :: b)
  | .addr a => some (5 :: a)
  | .btp a => some (6 :: a)
  | .ser b => some (7 :: b)

/-- db.py:422-453 `get`: the value from its stored form; `none` is an exception (index error or TypeException). -/
def decode : Bytes → Option PVal
  | [] => none
  | t :: b =>
    if t = 1 then some (.int (PyInt.intFrom b))
    else if t = 2 then some (.str b)
    else if t = 3 then some (.bool (b == [1]))
    else if t = 4 then some (.bytes b)
    else if t = 5 then some (.addr b)
    else if t = 6 then some (.btp b)
    else if t = 7 then some (.ser b)
    else none

/-- db.py:345-354: the store and the instance. `cache` maps to `some none` for a cached None. -/
structure PSt where
  db : Str → Option Bytes
  cache : Str → Option (Option PVal)
  removed : Str → Bool

def pfresh (s : PSt) : PSt := ⟨s.db, fun _ => none, fun _ => false⟩

/-- The value read from the store (db.py:422-453), `dflt` for the defaults set before `__init__`. -/
def pload (dflt : Str → Option PVal) (s : PSt) (k : Str) : Option (Option PVal) :=
  match s.db k with
  | none => some (dflt k)
  | some b => (decode b).map some

/-- db.py:416-455 `get`: the outer `none` is an exception. -/
def pget (dflt : Str → Option PVal) (s : PSt) (k : Str) : Option (PSt × Option PVal) :=
  if s.removed k then some (s, none)
  else match s.cache k with
    | some v => some (s, v)
    | none => (pload dflt s k).map fun v => ({ s with cache := upd s.cache k (some v) }, v)

/-- db.py:484-509 `set` of a value other than None. -/
def pset (s : PSt) (k : Str) (v : PVal) : Option PSt :=
  (encode v).map fun b => ⟨upd s.db k (some b), upd s.cache k (some (some v)), upd s.removed k false⟩

/-- db.py:474-483 `set` of None. -/
def punset (dflt : Str → Option PVal) (s : PSt) (k : Str) : Option PSt :=
  (pget dflt s k).map fun r => match r.2 with
    | none => r.1
    | some _ => ⟨upd r.1.db k none, upd r.1.cache k (some none), upd r.1.removed k true⟩

/-- db.py:394-395: every property with a default is read into the cache. -/
def pgetAll (dflt : Str → Option PVal) : List Str → PSt → Option PSt
  | [], s => some s
  | k :: l, s => (pget dflt s k).bind fun r => pgetAll dflt l r.1

/-- db.py:382-401 `remove_all` without the containers; `names` are the keys of `__default`. -/
def premoveAll (dflt : Str → Option PVal) (names : List Str) (s : PSt) : Option PSt :=
  (pgetAll dflt names s).map fun s1 =>
    ⟨fun k => if (s1.cache k).isSome then none else s1.db k, fun _ => none, fun k => s1.removed k || (s1.cache k).isSome⟩

/-! ### Arrays -/

/-- db.py:600-608 `remove_from_array_db` on the list of an `ArrayDB`: the new list and the index found (-1 if none). -/
def removeFromArray [DecidableEq O] (l : List O) (v : O) : List O × Int :=
  match l.findIdx? (· = v) with
  | none => (l, -1)
  | some i => match l.getLast? with
    | none => (l, -1)
    | some last => (if i < l.length - 1 then l.dropLast.set i last else l.dropLast, i)

end Verif.PyDb
