import Verif.Bytes
/-!
Model of /repo/common/db: layer_db.go (whole), bucket.go, map_db.go, go_level_db.go (buckets).

Byte slices that can be nil are `Option Bytes` (`none` = nil). Go maps are functions or association lists; the order in
which Go walks a map is a parameter of `flush`. The locks make every operation atomic, so a history is a list of operations.
The key-value libraries are a total map from slots to values: their I/O errors are not modelled, and a stored value is
returned as it was stored (an empty value as an empty, non-nil slice). badger_db.go uses the same `internalKey`; its library's
treatment of empty keys and values is not modelled.
-/
namespace Verif.LayerDb
open Verif

/-- What a backend makes of a bucket id and a key: the slot of its store, and whether `Set` refuses the slot. -/
structure Backend (S : Type) where
  slot : Bytes → Bytes → S
  bad : S → Bool

/-- The contents of a backend. -/
abbrev Store (S : Type) := S → Option Bytes

/-- bucket.go:37-43 `internalKey`. -/
def internalKey (id key : Bytes) : Bytes := id ++ key

/-- map_db.go:44-57 (one map per bucket id), 101-112 (`Set` refuses the empty key). -/
def mapDb : Backend (Bytes × Bytes) := ⟨fun id k => (id, k), fun s => decide (s.2 = [])⟩

/-- go_level_db.go:58-86: one store for all buckets, keys prefixed with the id. -/
def levelDb : Backend Bytes := ⟨internalKey, fun _ => false⟩

def Store.put [DecidableEq S] (st : Store S) (s : S) (v : Option Bytes) : Store S := fun s' => if s' = s then v else st s'

/-- What an operation returns. -/
inductive Out where
  | val (v : Option Bytes)
  | bool (b : Bool)
  | ok
  | err
deriving DecidableEq

/-! ### Buckets of a backend -/

/-- `Get`: map_db.go:74-89, go_level_db.go:63-70. -/
def realGet (B : Backend S) (st : Store S) (id k : Bytes) : Out := .val (st (B.slot id k))
/-- `Has`: map_db.go:91-99, go_level_db.go:72-78. -/
def realHas (B : Backend S) (st : Store S) (id k : Bytes) : Out := .bool (st (B.slot id k)).isSome
/-- `Set`: map_db.go:101-112, go_level_db.go:80-82. A nil value is stored as the empty one. -/
def realSet [DecidableEq S] (B : Backend S) (st : Store S) (id k : Bytes) (v : Option Bytes) : Out × Store S :=
  if B.bad (B.slot id k) then (.err, st) else (.ok, st.put (B.slot id k) (some (v.getD [])))
/-- `Delete`: map_db.go:114-122, go_level_db.go:84-86. -/
def realDelete [DecidableEq S] (B : Backend S) (st : Store S) (id k : Bytes) : Out × Store S :=
  (.ok, st.put (B.slot id k) none)

/-! ### The layer -/

/-- layer_db.go:11 `data`: key to value, nil for a deleted key. -/
abbrev Data := List (Bytes × Option Bytes)

def lookup (k : Bytes) : List (Bytes × α) → Option α
  | [] => none
  | (a, v) :: l => if a = k then some v else lookup k l

/-- `m[k] = v`. -/
def insert (k : Bytes) (v : α) : List (Bytes × α) → List (Bytes × α)
  | [] => [(k, v)]
  | (a, w) :: l => if a = k then (a, v) :: l else (a, w) :: insert k v l

/-- layer_db.go:90-96 `layerDB`; a bucket is its `data` (`none` = nil map, after a flush). -/
structure Layer (S : Type) where
  flushed : Bool
  real : Store S
  buckets : List (Bytes × Option Data)

/-- layer_db.go:138-143 `NewLayerDB`. -/
def newLayer (real : Store S) : Layer S := ⟨false, real, []⟩

/-- layer_db.go:98-119 `GetBucket`: the pending map of the bucket, `none` if operations go to the real bucket. -/
def getBucket (L : Layer S) (id : Bytes) : Option Data × Layer S :=
  match lookup id L.buckets with
  | some d => (d, L)
  | none => if L.flushed then (none, L) else (some [], { L with buckets := insert id (some []) L.buckets })

inductive Op where
  | get (id k : Bytes)
  | has (id k : Bytes)
  | set (id k : Bytes) (v : Option Bytes)
  | delete (id k : Bytes)
  | flush (write : Bool)
deriving DecidableEq

/-- layer_db.go:15-25. -/
def get (B : Backend S) (L : Layer S) (id k : Bytes) : Out × Layer S :=
  match getBucket L id with
  | (some d, L') =>
    match lookup k d with
    | some v => (.val v, L')
    | none => (realGet B L'.real id k, L')
  | (none, L') => (realGet B L'.real id k, L')

/-- layer_db.go:27-37. -/
def has (B : Backend S) (L : Layer S) (id k : Bytes) : Out × Layer S :=
  match getBucket L id with
  | (some d, L') =>
    match lookup k d with
    | some v => (.bool v.isSome, L')
    | none => (realHas B L'.real id k, L')
  | (none, L') => (realHas B L'.real id k, L')

/-- layer_db.go:39-55. The bucket is fetched before `Set` looks at the value. (After a flush a bucket that never was in the
layer is the real one, which takes a nil value as an empty one.) -/
def set [DecidableEq S] (B : Backend S) (L : Layer S) (id k : Bytes) (v : Option Bytes) : Out × Layer S :=
  match getBucket L id with
  | (some d, L') =>
    match v with
    | none => (.err, L')
    | some b => (.ok, { L' with buckets := insert id (some (insert k (some b) d)) L'.buckets })
  | (none, L') =>
    if v = none ∧ (lookup id L'.buckets).isSome then (.err, L')
    else let r := realSet B L'.real id k v; (r.1, { L' with real := r.2 })

/-- layer_db.go:57-67. -/
def delete [DecidableEq S] (B : Backend S) (L : Layer S) (id k : Bytes) : Out × Layer S :=
  match getBucket L id with
  | (some d, L') => (.ok, { L' with buckets := insert id (some (insert k none d)) L'.buckets })
  | (none, L') => let r := realDelete B L'.real id k; (r.1, { L' with real := r.2 })

/-- layer_db.go:74-84, the loop over the entries of one bucket, up to the first error. -/
def writeAll [DecidableEq S] (B : Backend S) (id : Bytes) : Data → Store S → Bool × Store S
  | [], st => (true, st)
  | (k, none) :: l, st => writeAll B id l (realDelete B st id k).2
  | (k, some v) :: l, st =>
    match realSet B st id k (some v) with
    | (.ok, st') => writeAll B id l st'
    | (_, st') => (false, st')

/-- layer_db.go:125-129, the loop over the buckets with layerBucket.Flush (69-88) inlined; `ids` is the order of the buckets,
`ordE` that of the entries of a bucket. -/
def flushIds [DecidableEq S] (B : Backend S) (ordE : Data → Data) (write : Bool) : List Bytes → Layer S → Bool × Layer S
  | [], L => (true, L)
  | id :: ids, L =>
    match lookup id L.buckets with
    | some (some d) =>
      if write then
        match writeAll B id (ordE d) L.real with
        | (true, st) => flushIds B ordE write ids { L with real := st, buckets := insert id none L.buckets }
        | (false, st) => (false, { L with real := st })
      else flushIds B ordE write ids { L with buckets := insert id none L.buckets }
    | _ => flushIds B ordE write ids L

/-- The orders in which Go walks the maps of a flush. -/
structure Orders where
  ids : List Bytes → List Bytes
  entries : Data → Data

/-- layer_db.go:121-132 `Flush`. -/
def flush [DecidableEq S] (B : Backend S) (o : Orders) (write : Bool) (L : Layer S) : Out × Layer S :=
  match flushIds B o.entries write (o.ids (L.buckets.map (·.1))) L with
  | (true, L') => (.ok, { L' with flushed := true })
  | (false, L') => (.err, L')

def step [DecidableEq S] (B : Backend S) (o : Orders) (L : Layer S) : Op → Out × Layer S
  | .get id k => get B L id k
  | .has id k => has B L id k
  | .set id k v => set B L id k v
  | .delete id k => delete B L id k
  | .flush w => flush B o w L

/-- A history: the outcomes and the final state. Every flush has its own orders. -/
def run [DecidableEq S] (B : Backend S) : Layer S → List (Op × Orders) → List Out × Layer S
  | L, [] => ([], L)
  | L, (op, o) :: l =>
    let r := step B o L op
    let r' := run B r.2 l
    (r.1 :: r'.1, r'.2)

end Verif.LayerDb
