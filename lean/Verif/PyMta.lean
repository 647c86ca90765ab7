import Verif.PyRlp
import Verif.JavaMtaProps
/-!
Model of /repo/pyscore/lib/icon/mta.py, the accumulator of block hashes in the Python verifier for ICON blocks.

sha3-256 is a parameter `H`. `int(idx/2)` is division towards zero (exact below 2^53).
-/
namespace Verif.PyMta
open Verif

/-- mta.py:35-59. -/
structure M where
  height : Int
  offset : Int
  roots : List (Option Bytes)
  rootsSize : Nat
  cacheSize : Nat
  cache : List Bytes
  allowNewer : Bool
deriving DecidableEq

/-- Outcome of `verify`: accepted, `InvalidWitnessNewerException`, `InvalidWitnessOldException`, another `MTAException`. -/
inductive V where
  | ok | newer | old | bad
deriving DecidableEq

/-- icon.py:79-81, mta.py:69-73: a new accumulator whose offset is set (`o` is not negative). -/
def init (o : Int) : M := ⟨o, o, [], 0, 0, [], false⟩

/-- mta.py:122-126 `_put_cache`. -/
def putCache (m : M) (h : Bytes) : M :=
  let c := if m.cacheSize > 0 then m.cache ++ [h] else m.cache
  { m with cache := c.drop (c.length - m.cacheSize) }

/-- mta.py:135-154: the loop over the roots and what follows it: the roots and what is added to the offset. -/
def addLoop (H : Bytes → Bytes) (size : Nat) : Nat → List (Option Bytes) → Bytes → List (Option Bytes) × Int
  | _, [], h => ([some h], 0)
  | _, none :: rs, h => (some h :: rs, 0)
  | i, some r :: rs, h =>
    if 0 < size ∧ size ≤ i + 1 then (some h :: rs, 2 ^ i)
    else (none :: (addLoop H size (i + 1) rs (H (r ++ h))).1, (addLoop H size (i + 1) rs (H (r ++ h))).2)

/-- mta.py:128-157 `add`. -/
def add (H : Bytes → Bytes) (m : M) (h : Bytes) : M :=
  let m := putCache m h
  if m.height = 0 then { m with roots := m.roots ++ [some h], height := m.height + 1 }
  else if m.roots.length = 0 then { m with roots := m.roots ++ [some h], height := m.height + 1 }
  else { m with roots := (addLoop H m.rootsSize 0 m.roots h).1, offset := m.offset + (addLoop H m.rootsSize 0 m.roots h).2, height := m.height + 1 }

def addAll (H : Bytes → Bytes) (m : M) (hs : List Bytes) : M := hs.foldl (add H) m

/-- mta.py:178-183: the loop of `_verify`. -/
def fold (H : Bytes → Bytes) : List Bytes → Bytes → Int → Bytes
  | [], h, _ => h
  | w :: ws, h, idx => fold H ws (if idx % 2 = 0 then H (h ++ w) else H (w ++ h)) (idx.tdiv 2)

/-- mta.py:176-186 `_verify`. -/
def check (H : Bytes → Bytes) (ws : List Bytes) (root : Option Bytes) (h : Bytes) (idx : Int) : V :=
  if some (fold H ws h idx) ≠ root then .bad else .ok

/-- mta.py:162-174: the loop of `get_root_idx_by_height` below slot `i`; `none`: an exception. -/
def rootLoop (roots : List (Option Bytes)) : Nat → Int → Option Nat
  | 0, _ => some 0
  | i + 1, idx =>
    if idx < 0 then none
    else match roots[i]? with
      | some (some _) => if idx < 2 ^ i then some i else rootLoop roots i (idx - 2 ^ i)
      | _ => rootLoop roots i idx

/-- mta.py:188-210 `verify`, 87-91 `get_root`, 159-174 `get_root_idx_by_height`, 114-120 `has_cache`. -/
def verify (H : Bytes → Bytes) (m : M) (ws : List Bytes) (h : Bytes) (height at_ : Int) : V :=
  if m.height = at_ then
    match m.roots[ws.length]? with
    | none => .bad
    | some root => check H ws root h (height - 1 - m.offset)
  else if m.height < at_ then
    if !m.allowNewer then .newer
    else if m.height < height then .bad
    else
      match rootLoop m.roots m.roots.length (height - 1 - m.offset) with
      | none => .bad
      | some i =>
        match m.roots[i]? with
        | none => .bad
        | some root => check H (ws.take i) root h height
  else
    if m.height - height - 1 < m.cacheSize then
      if h.length ≠ 0 ∧ h ∈ m.cache then .ok else .bad
    else .old

/-- mta.py:215-226 `to_bytes`. -/
def toBytes (m : M) : Bytes :=
  PyRlp.encode (.list [.int m.height, .list (m.roots.map fun r => match r with | none => .none | some b => .bytes b), .int m.offset,
    .int m.rootsSize, .int m.cacheSize, .list (m.cache.map .bytes), .int (if m.allowNewer then 1 else 0)])

def asInt : Option PyRlp.Val → Option Int
  | some (.int v) => some v
  | _ => none

def asRoot : PyRlp.Val → Option (Option Bytes)
  | .none => some none
  | .bytes b => some (some b)
  | _ => none

def asRoots : Option PyRlp.Val → Option (List (Option Bytes))
  | some (.list l) => l.mapM asRoot
  | _ => none

def asBytes : PyRlp.Val → Option Bytes
  | .bytes b => some b
  | _ => none

def asCache : Option PyRlp.Val → Option (List Bytes)
  | some (.list l) => l.mapM asBytes
  | _ => none

def asBool : Option PyRlp.Val → Option Bool
  | some (.bool v) => some v
  | _ => none

/-- mta.py:35-59 of serialized bytes with all seven fields; fields left out and null numbers are not modelled (`to_bytes` writes all). -/
def fromBytes (u : Bytes → Bool) (bs : Bytes) : Option M :=
  match PyRlp.decode u .raw bs with
  | some (.items [a, b, c, d, e, f, g]) =>
    (asInt (PyRlp.decode u .int a)).bind fun height => (asRoots (PyRlp.decode u (.each .bytes) b)).bind fun roots =>
      (asInt (PyRlp.decode u .int c)).bind fun offset => (asInt (PyRlp.decode u .int d)).bind fun rs =>
        (asInt (PyRlp.decode u .int e)).bind fun cs => (asCache (PyRlp.decode u (.each .bytes) f)).bind fun cache =>
          (asBool (PyRlp.decode u .bool g)).bind fun allow =>
            some ⟨if height = 0 ∧ offset > 0 then offset else height, offset, roots, rs.toNat, cs.toNat, cache, allow⟩
  | _ => none

end Verif.PyMta
