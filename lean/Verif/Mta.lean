import Verif.Mbt
/-!
Model of /repo/common/mta/accumulator.go and extaccumulator.go.

* `crypto.SHA3Sum256` is a parameter `H`.
* A `db.Bucket` is a total function from keys to values, the empty value standing for a missing entry
  (`Get` of the database backends returns nil there). Reads do not fail.
* The hash caches of dirty nodes are not modelled (children never change their hash); the hash of a node read from the
  database is the key it was read with, as in the code.
* Lengths and indices are taken to be below 2^62, so the 64-bit shifts do not overflow.
-/
namespace Verif.Mta
open Verif

/-- accumulator.go:14-16. -/
def hashSize : Nat := 32

/-- `copy(buf[0:32], h)` into a fresh buffer. -/
def fix32 (h : Bytes) : Bytes := h.take 32 ++ List.replicate (32 - h.length) 0

/-- accumulator.go:26-47 `Witness`; `Left` = 0, `Right` = 1. -/
structure W where
  dir : Int
  hash : Bytes
deriving DecidableEq

/-- accumulator.go:59-62 `hashNode`, 184-189 `dataNode`, 115-121 `branchNode`. The flag of data and branch nodes is
`state == stateFlushed`; a branch carries the key it was read with, if any. -/
inductive Node where
  | hash (h : Bytes)
  | data (fl : Bool) (d : Bytes)
  | br (fl : Bool) (key : Option Bytes) (l r : Node)

/-- accumulator.go:64-69, 128-141, 202-211 `Hash`. -/
def Node.hashOf (H : Bytes → Bytes) : Node → Bytes
  | .hash h => h
  | .data _ d => H d
  | .br _ (some k) _ _ => k
  | .br _ none l r => H (fix32 (l.hashOf H) ++ fix32 (r.hashOf H))

/-- The bucket. -/
abbrev Db := Bytes → Bytes

/-- accumulator.go:79-102 `resolve`; `none` is an error. -/
def resolve (db : Db) (h : Bytes) : Option Node :=
  let bs := db h
  if bs.length ≠ 2 * hashSize then none
  else some (.br true (some h) (.hash (bs.take 32)) (.hash (bs.drop 32)))

/-- accumulator.go:104-113, 164-182, 191-196 `WitnessFor`: the (possibly resolved) node, and the witness or an error. -/
def Node.witnessFor (H : Bytes → Bytes) (db : Db) : Nat → Node → Int → Node × Option (List W)
  | 0, .br fl k l r, _ => (.br fl k l r, none)
  | 0, n, _ => (n, some [])
  | d + 1, n, idx =>
    let n' := match n with
      | .hash h => (resolve db h).getD n
      | _ => n
    match n' with
    | .br fl k l r =>
      if idx < 2 ^ d then
        let x := Node.witnessFor H db d l idx
        (.br fl k x.1 r, x.2.map (· ++ [⟨1, r.hashOf H⟩]))
      else
        let x := Node.witnessFor H db d r (idx - 2 ^ d)
        (.br fl k l x.1, x.2.map (· ++ [⟨0, l.hashOf H⟩]))
    | n' => (n', none)

/-- accumulator.go:224-229 `Accumulator` (key and bucket are passed separately). -/
structure Acc where
  roots : List (Option Node)
  length : Nat

def Acc.empty : Acc := ⟨[], 0⟩

/-- accumulator.go:240-268 `addNode` on the roots from level `h` upwards. -/
def addNode (H : Bytes → Bytes) : List (Option Node) → Node → List (Option Node) × List W
  | [], n => ([some n], [])
  | none :: rs, n => (some n :: rs, [])
  | some r :: rs, n =>
    if (r.hashOf H).length = 0 then (some n :: rs, [])
    else
      let x := addNode H rs (.br false none r n)
      (none :: x.1, ⟨0, r.hashOf H⟩ :: x.2)

/-- accumulator.go:326-329 `AddNode`. -/
def Acc.add (H : Bytes → Bytes) (a : Acc) (n : Node) : Acc × List W :=
  let x := addNode H a.roots n
  (⟨x.1, a.length + 1⟩, x.2)

/-- accumulator.go:331-337 `AddHash`, 339-347 `AddData`. -/
def Acc.addHash (H : Bytes → Bytes) (a : Acc) (h : Bytes) : Acc × List W := a.add H (.hash h)
def Acc.addData (H : Bytes → Bytes) (a : Acc) (d : Bytes) : Acc × List W := a.add H (.data false d)

/-- accumulator.go:353-370: the loop of `WitnessFor` from level `o - 1` downwards. -/
def witLoop (H : Bytes → Bytes) (db : Db) (roots : List (Option Node)) : Nat → Int → List (Option Node) × Option (List W)
  | 0, _ => (roots, none)
  | o + 1, idx =>
    match roots[o]? with
    | some (some n) =>
      if idx < 2 ^ o then
        let x := n.witnessFor H db o idx
        (roots.set o (some x.1), x.2)
      else witLoop H db roots o (idx - 2 ^ o)
    | _ => witLoop H db roots o idx

/-- accumulator.go:349-371 `WitnessFor`; `none` is an error. -/
def Acc.witnessFor (H : Bytes → Bytes) (db : Db) (a : Acc) (idx : Int) : Acc × Option (List W) :=
  if idx ≥ a.length then (a, none)
  else
    let x := witLoop H db a.roots a.roots.length idx
    (⟨x.1, a.length⟩, x.2)

/-- accumulator.go:513-523: the descending loop. -/
def depthLoop (len : Nat) : Nat → Int → Nat
  | 0, _ => 0
  | d + 1, h =>
    if len.testBit d then
      if h < 2 ^ d then d else depthLoop len d (h - 2 ^ d)
    else depthLoop len d h

/-- accumulator.go:506-524 `GetDepthByHeightAndAccLength` (a length that is not positive has no bits). -/
def getDepth (height accLength : Int) : Nat :=
  depthLoop accLength.toNat (Mbt.halvings accLength.toNat) height

/-- accumulator.go:373-379 `WitnessForWithAccLength`; `none` is an error or a slice out of range. -/
def Acc.witnessForLen (H : Bytes → Bytes) (db : Db) (a : Acc) (idx accLength : Int) : Acc × Option (List W) :=
  let x := a.witnessFor H db idx
  (x.1, x.2.bind (fun w => if getDepth idx accLength ≤ w.length then some (w.take (getDepth idx accLength)) else none))

inductive Res where
  | ok | err | panic
deriving DecidableEq

/-- `copy(buf, h)` over the first, or the second, half of the 64-byte buffer. -/
def cpL (buf h : Bytes) : Bytes := h.take 32 ++ (buf.take 32).drop h.length ++ buf.drop 32
def cpR (buf h : Bytes) : Bytes := buf.take 32 ++ h.take 32 ++ (buf.drop 32).drop h.length

/-- accumulator.go:385-391: the buffer after the two copies. -/
def vbuf (buf h : Bytes) (w : W) : Bytes :=
  if w.dir = 0 then cpR (cpL buf w.hash) h else cpR (cpL buf h) w.hash

/-- accumulator.go:384-394: the loop of `Verify`; the buffer is reused, so the copy of a short hash leaves old bytes. -/
def vloop (H : Bytes → Bytes) : List W → Bytes → Bytes → Bytes
  | [], _, h => h
  | w :: ws, buf, h => vloop H ws (vbuf buf h w) (H (vbuf buf h w))

/-- accumulator.go:381-406 `Verify`. -/
def Acc.verify (H : Bytes → Bytes) (a : Acc) (ws : List W) (h : Bytes) : Res :=
  match a.roots[ws.length]? with
  | some (some n) => if n.hashOf H = vloop H ws (List.replicate 64 0) h then .ok else .err
  | _ => .err

/-- accumulator.go:483-504 `GetHeightFromWitness` (witnesses shorter than 63, so `idx` stays an ordinary sum of
distinct powers of two). -/
def heightLoop (len : Nat) : List W → Nat → Nat
  | [], _ => 0
  | w :: ws, i => (if w.dir = 1 then 2 ^ i else 0) + (if len.testBit i then 2 ^ i else 0) + heightLoop len ws (i + 1)
def getHeight (ws : List W) (len : Nat) : Int := (len : Int) - 1 - heightLoop len ws 0

/-- accumulator.go:429-437: depth for a witness newer than the accumulator, from root `i` downwards. -/
def oldDepth : Nat → Int → Nat
  | 0, _ => 0
  | i + 1, height => if i = 0 then 0 else if height < 2 ^ i then i else oldDepth i (height - 2 ^ i)

/-- accumulator.go:408-440 `VerifyWithAccLength` for a non-negative length. -/
def Acc.verifyLen (H : Bytes → Bytes) (db : Db) (a : Acc) (ws : List W) (h : Bytes) (accLength : Nat) : Acc × Res :=
  if a.length = accLength then (a, a.verify H ws h)
  else
    let height := getHeight ws accLength
    if height ≥ a.length then (a, .err)
    else if a.length > accLength then
      let x := a.witnessFor H db height
      match x.2 with
      | none => (x.1, .err)
      | some nws => if ws.length > nws.length then (x.1, .panic) else (x.1, x.1.verify H (ws ++ nws.drop ws.length) h)
    else
      let depth := oldDepth a.roots.length height
      if depth > ws.length then (a, .panic) else (a, a.verify H (ws.take depth) h)

/-- accumulator.go:461-467 `WitnessesToHashes`, 469-481 `HashesToWitness`. -/
def witnessesToHashes (ws : List W) : List Bytes := ws.map (·.hash)
def hashesToWitness : List Bytes → Nat → List W
  | [], _ => []
  | h :: t, idx => ⟨if idx % 2 = 0 then 1 else 0, h⟩ :: hashesToWitness t (idx / 2)

/-! ### Flush and Recover -/

/-- A database write. -/
abbrev Write := Bytes × Bytes

/-- accumulator.go:71-73, 143-162, 213-222 `Flush` of a node when only `b` more writes succeed: the node with its new
flags, the writes done, the remaining budget, and whether all writes succeeded. -/
def Node.flush (H : Bytes → Bytes) : Node → Nat → Node × List Write × Nat × Bool
  | .hash h, b => (.hash h, [], b, true)
  | .data fl d, b =>
    if fl then (.data fl d, [], b, true)
    else if b = 0 then (.data fl d, [], 0, false)
    else (.data true d, [(H d, d)], b - 1, true)
  | .br fl k l r, b =>
    if fl then (.br fl k l r, [], b, true)
    else
      let x := l.flush H b
      if x.2.2.2 then
        let y := r.flush H x.2.2.1
        if y.2.2.2 then
          if y.2.2.1 = 0 then (.br fl k x.1 y.1, x.2.1 ++ y.2.1, 0, false)
          else
            let ser := fix32 (l.hashOf H) ++ fix32 (r.hashOf H)
            (.br true k x.1 y.1, x.2.1 ++ y.2.1 ++ [((Node.br fl k l r).hashOf H, ser)], y.2.2.1 - 1, true)
        else (.br fl k x.1 y.1, x.2.1 ++ y.2.1, 0, false)
      else (.br fl k x.1 r, x.2.1, 0, false)

/-- accumulator.go:276-284: flushing the roots in order. -/
def flushRoots (H : Bytes → Bytes) : List (Option Node) → Nat → List (Option Node) × List Write × Nat × Bool
  | [], b => ([], [], b, true)
  | none :: rs, b =>
    let y := flushRoots H rs b
    (none :: y.1, y.2.1, y.2.2.1, y.2.2.2)
  | some n :: rs, b =>
    let x := n.flush H b
    if x.2.2.2 then
      let y := flushRoots H rs x.2.2.1
      (some x.1 :: y.1, x.2.1 ++ y.2.1, y.2.2.1, y.2.2.2)
    else (some x.1 :: rs, x.2.1, 0, false)

/-- The stored state: hashes of the roots (empty for a missing root) and the length. -/
abbrev Saved := List Bytes × Nat

/-- How the state record is written and read (JSON for `Accumulator`, RLP for `ExtAccumulator`). -/
structure Format where
  enc : Saved → Bytes
  dec : Bytes → Option Saved

/-- accumulator.go:275-295 `Flush` when only `b` writes succeed. -/
def Acc.flush (H : Bytes → Bytes) (F : Format) (key : Bytes) (a : Acc) (b : Nat) : Acc × List Write × Bool :=
  let x := flushRoots H a.roots b
  if x.2.2.2 ∧ x.2.2.1 ≠ 0 then
    (⟨x.1, a.length⟩, x.2.1 ++ [(key, F.enc (a.roots.map (fun r => match r with | none => [] | some n => n.hashOf H), a.length))], true)
  else (⟨x.1, a.length⟩, x.2.1, false)

/-- Applying writes in order. -/
def Db.write (db : Db) (ws : List Write) : Db := ws.foldl (fun db w k => if k = w.1 then w.2 else db k) db

/-- accumulator.go:297-324 `Recover`; `none` is an error. -/
def recover (F : Format) (key : Bytes) (db : Db) : Option Acc :=
  if (db key).length = 0 then some ⟨[], 0⟩
  else match F.dec (db key) with
    | none => none
    | some s => some ⟨s.1.map (fun hv => if hv.length = hashSize then some (.hash hv) else none), s.2⟩

/-! ### ExtAccumulator -/

/-- extaccumulator.go:139-157 `WitnessForAt`: `none` is an error, otherwise `at` and the witness. -/
def witnessForAt (H : Bytes → Bytes) (db : Db) (a : Acc) (aoff height at_ offset : Int) : Acc × Option (Int × List W) :=
  if aoff ≠ offset then (a, none)
  else
    let idx := height - 1 - aoff
    let accLength := if at_ - aoff > a.length then (a.length : Int) else at_ - aoff
    let at' := if at_ - aoff > a.length then a.length + aoff else at_
    let x := a.witnessForLen H db idx accLength
    (x.1, x.2.map (fun w => (at', w)))

/-- extaccumulator.go:159-172 `VerifyAt` (for `at >= offset`). -/
def verifyAt (H : Bytes → Bytes) (db : Db) (a : Acc) (aoff : Int) (ws : List W) (h : Bytes) (at_ offset : Int) : Acc × Res :=
  if aoff ≠ offset then (a, .err)
  else
    let accLength := if at_ - aoff > a.length then (a.length : Int) else at_ - aoff
    a.verifyLen H db ws h accLength.toNat

/-- accumulator.go:526-555 `GetNode`: the hash of the node at the given leaf position; `none` is an error. -/
def Node.getNode (db : Db) : Nat → Node → Int → Option Node
  | 0, .br _ _ _ _, _ => none
  | 0, n, _ => some n
  | d + 1, n, idx =>
    let n' := match n with
      | .hash h => (resolve db h).getD n
      | _ => n
    match n' with
    | .br _ _ l r => if idx < 2 ^ d then Node.getNode db d l idx else Node.getNode db d r (idx - 2 ^ d)
    | _ => none

/-- accumulator.go:446-457: the loop of `Accumulator.GetNode`. -/
def getLoop (db : Db) (roots : List (Option Node)) : Nat → Int → Option Node
  | 0, _ => none
  | o + 1, idx =>
    match roots[o]? with
    | some (some n) => if idx < 2 ^ o then n.getNode db o idx else getLoop db roots o (idx - 2 ^ o)
    | _ => getLoop db roots o idx

/-- accumulator.go:442-459 `Accumulator.GetNode`. -/
def Acc.getNode (db : Db) (a : Acc) (idx : Int) : Option Node :=
  if idx ≥ a.length then none else getLoop db a.roots a.roots.length idx

/-- extaccumulator.go:20-28 `serializedExtAccumulator`: height, roots, offset, limit of roots. -/
abbrev ExtSaved := Int × List Bytes × Int × Int

structure ExtFormat where
  enc : ExtSaved → Bytes
  dec : Bytes → Option ExtSaved

/-- extaccumulator.go:43-71 `Flush` when all writes succeed. -/
def extFlush (H : Bytes → Bytes) (F : ExtFormat) (key : Bytes) (a : Acc) (aoff limit : Int) (b : Nat) : Acc × List Write × Bool :=
  let x := flushRoots H a.roots b
  if x.2.2.2 ∧ x.2.2.1 ≠ 0 then
    (⟨x.1, a.length⟩, x.2.1 ++ [(key, F.enc (a.length + aoff, a.roots.map (fun r => match r with | none => [] | some n => n.hashOf H), aoff, limit))], true)
  else (⟨x.1, a.length⟩, x.2.1, false)

/-- extaccumulator.go:73-108 `Recover` of an accumulator `a` created with offset `aoff`: its state after the call and
whether there was no error. The roots are replaced before the offset is compared. The length of a stored state is taken
to be non-negative. -/
def extRecover (F : ExtFormat) (key : Bytes) (db : Db) (a : Acc) (aoff : Int) : Acc × Bool :=
  if (db key).length = 0 then (⟨[], 0⟩, true)
  else match F.dec (db key) with
    | none => (a, false)
    | some s => (⟨s.2.1.map (fun hv => if hv.length = hashSize then some (.hash hv) else none), (s.1 - s.2.2.1).toNat⟩, aoff = s.2.2.1)

end Verif.Mta
