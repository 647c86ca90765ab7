import Verif.MtaProps
/-!
Model of /repo/javascore/bmv/icon/src/main/java/foundation/icon/btp/bmv/icon/MerkleTreeAccumulator.java, the accumulator of block
hashes in the verifier for ICON blocks.

* sha3-256 is a parameter `H`. `long`s are `Int` (no overflow).
* A missing `rootSize` or one that is not positive is 0; `cacheSize` is the length of the cache (`ensureCache` has been called), so a
  missing cache is the empty list. A missing `roots` array is the empty list.
* `ensureRoots` (line 195) and `ensureCache` (line 256) are never called and are not modelled.
-/
namespace Verif.JavaMta
open Verif Verif.Mta

/-- MerkleTreeAccumulator.java:29-41. -/
structure J where
  height : Int
  offset : Int
  roots : List (Option Bytes)
  rootSize : Nat
  cache : List (Option Bytes)
  cacheIdx : Nat
  allowNewer : Bool
deriving DecidableEq

/-- MerkleTreeAccumulator.java:111-116 `concatAndHash`; `none`: an array is too short. -/
def concatAndHash (H : Bytes → Bytes) (a b : Bytes) : Option Bytes :=
  if 32 ≤ a.length ∧ 32 ≤ b.length then some (H (a.take 32 ++ b.take 32)) else none

/-- Outcome of `verify`: accepted, `InvalidWitnessNewerException`, `InvalidWitnessOldException`, another `MTAException`, or an
exception of the runtime (array index). -/
inductive V where
  | ok | newer | old | bad | crash
deriving DecidableEq

/-- MerkleTreeAccumulator.java:119-126: the loop over the first `n` elements of the witness. -/
def vloop (H : Bytes → Bytes) : Nat → List Bytes → Bytes → Int → Option Bytes
  | 0, _, h, _ => some h
  | _ + 1, [], _, _ => none
  | n + 1, w :: ws, h, idx =>
    (if idx.tmod 2 = 0 then concatAndHash H h w else concatAndHash H w h).bind fun h' => vloop H n ws h' (idx.tdiv 2)

/-- MerkleTreeAccumulator.java:118-131, the private `verify`. -/
def verifyRoot (H : Bytes → Bytes) (ws : List Bytes) (n : Nat) (root : Option Bytes) (h : Bytes) (idx : Int) : V :=
  match vloop H n ws h idx with
  | none => .crash
  | some x => if root = some x then .ok else .bad

/-- MerkleTreeAccumulator.java:164-179: the loop of `getRootIdxByHeight` from slot `o - 1` downwards. -/
def rootLoop (roots : List (Option Bytes)) : Nat → Int → Option Nat
  | 0, _ => none
  | o + 1, idx =>
    match roots[o]? with
    | some (some _) => if idx < 2 ^ o then some o else rootLoop roots o (idx - 2 ^ o)
    | _ => rootLoop roots o idx

/-- MerkleTreeAccumulator.java:160-180 `getRootIdxByHeight`; `none`: an `MTAException`. -/
def rootIdx (j : J) (height : Int) : Option Nat :=
  if height ≤ j.offset then none else rootLoop j.roots j.roots.length (height - 1 - j.offset)

/-- MerkleTreeAccumulator.java:133-158 `verify`, 182-188 `getRoot`. -/
def verify (H : Bytes → Bytes) (j : J) (ws : List Bytes) (h : Bytes) (height at_ : Int) : V :=
  if j.height = at_ then
    match j.roots[ws.length]? with
    | none => .bad
    | some root => verifyRoot H ws ws.length root h (height - 1 - j.offset)
  else if j.height < at_ then
    if !j.allowNewer then .newer
    else if j.height < height then .bad
    else
      match rootIdx j height with
      | none => .bad
      | some i =>
        match j.roots[i]? with
        | none => .bad
        | some root => verifyRoot H ws i root h (height - 1 - j.offset)
  else
    if j.cache.length > 0 ∧ j.height - height - 1 < j.cache.length then
      if some h ∈ j.cache then .ok else .bad
    else .old

/-- MerkleTreeAccumulator.java:227-248: the loop of `add` from slot `i` on, with the new offset. When every slot is taken they are
all set to null before `appendRoot` (188-193) makes the longer array, so that its other slots are null too. `none`: an exception. -/
def addLoop (H : Bytes → Bytes) (rootSize : Nat) : Nat → List (Option Bytes) → Bytes → Option (List (Option Bytes) × Int)
  | _, [], h => some ([some h], 0)
  | _, none :: rs, h => some (some h :: rs, 0)
  | i, some r :: rs, h =>
    if i + 1 = rootSize then some (some h :: rs, 2 ^ i)
    else (concatAndHash H r h).bind fun x => (addLoop H rootSize (i + 1) rs x).map fun y => (none :: y.1, y.2)

/-- MerkleTreeAccumulator.java:309-316 `putCache`. -/
def putCache (j : J) (h : Bytes) : J :=
  if j.cache.length > 0 then
    { j with cache := j.cache.set j.cacheIdx (some h), cacheIdx := if j.cacheIdx + 1 ≥ j.cache.length then 0 else j.cacheIdx + 1 }
  else j

/-- MerkleTreeAccumulator.java:221-251 `add`. -/
def add (H : Bytes → Bytes) (j : J) (h : Bytes) : Option J :=
  let j := putCache j h
  if j.height = j.offset then
    some { j with roots := List.replicate j.roots.length none ++ [some h], height := j.height + 1 }
  else
    (addLoop H j.rootSize 0 j.roots h).map fun x => { j with roots := x.1, offset := j.offset + x.2, height := j.height + 1 }

/-- BTPMessageVerifier.java:48-53: the accumulator of a new contract. -/
def init (offset : Int) : J := ⟨offset, offset, [], 0, [], 0, false⟩

def addAll (H : Bytes → Bytes) (j : J) : List Bytes → Option J
  | [] => some j
  | h :: hs => (add H j h).bind (addAll H · hs)

end Verif.JavaMta
