import Verif.Merkle
/-!
Model of /repo/common/mbt/{tree,path,proof}.go and, because it is the same code with other integer types, of
/repo/javascore/bmv/btpblock/src/main/java/foundation/icon/btp/bmv/btpblock/{Node,MessageProof}.java.

Pointers become trees (the code never shares or re-links nodes), `hashFunc(a, b, ...)` hashes the concatenation,
so it is a function `H` of one byte string. A nil hash is the empty byte string.
-/
namespace Verif.Mbt
open Verif

/-- proof.go:8-23: the loop `for n = (n-1)>>2; n > 0; n = n>>1 { l++ }`. -/
def halvings (n : Nat) : Nat := if n = 0 then 0 else halvings (n / 2) + 1
decreasing_by omega

/-- The points where the Go and the Java code differ: level of a leaf count, wrap-around of `int`, `1 << k`. -/
structure Cfg where
  ntl : Int → Int
  wrap : Int → Int
  shl : Int → Int

/-- Go `int` (64 bit) wrap-around. -/
def i64 (x : Int) : Int := (x + 2 ^ 63) % 2 ^ 64 - 2 ^ 63
/-- Java `int` (32 bit) wrap-around. -/
def i32 (x : Int) : Int := (x + 2 ^ 31) % 2 ^ 32 - 2 ^ 31

/-- proof.go:8-23 `NumberToLevel`; an arithmetic shift of a negative number stays negative. -/
def goNumberToLevel (n : Int) : Int :=
  if n = 0 then 0 else if n = 1 then 1 else if n = 2 then 2
  else 3 + halvings (Int.toNat ((n - 1) / 4))

/-- Node.java:101-108 `numberToLevel`. -/
def javaNumberToLevel (n : Int) : Int :=
  if n ≤ 2 then n else 3 + halvings (Int.toNat ((n - 1) / 4))

/-- tree.go/proof.go: 64-bit `int`. `1 << k` with a negative `k` panics in Go; the tree never has such a level
below a verified node (`k ≥ 0` there), the value for it is immaterial. -/
def goCfg : Cfg := ⟨goNumberToLevel, i64, fun k => if k < 0 then 0 else i64 (2 ^ k.toNat)⟩

/-- Node.java: 32-bit `int`, the shift distance is taken modulo 32. -/
def javaCfg : Cfg := ⟨javaNumberToLevel, i32, fun k => i32 (2 ^ (k % 32).toNat)⟩

/-- tree.go:70-77 `node` (Node.java:19-45). Either both children are nil (`leaf`) or none (`br`). -/
inductive Node where
  | leaf (h : Bytes) (lev num : Int)
  | br (l r : Node) (h : Bytes) (lev num : Int)
deriving DecidableEq

def Node.h : Node → Bytes
  | .leaf h _ _ => h
  | .br _ _ h _ _ => h
def Node.lev : Node → Int
  | .leaf _ l _ => l
  | .br _ _ _ l _ => l
def Node.num : Node → Int
  | .leaf _ _ n => n
  | .br _ _ _ _ n => n

/-- `&node{}`: level `levelInit`. -/
def Node.init : Node := .leaf [] 0 0

/-- tree.go:79-107 `add`. -/
def Node.add (cfg : Cfg) (H : Bytes → Bytes) : Node → Bytes → Node
  | .leaf h lev num, x =>
    if lev = 0 then .leaf x 1 1
    else .br (.leaf h lev num) (.leaf x 1 1) (H (h ++ x)) (lev + 1) (cfg.wrap (num + 1))
  | .br l r h lev num, x =>
    if lev = 0 then .br l r x 1 1
    else if l.lev ≠ r.lev then
      let r' := Node.add cfg H r x
      .br l r' (H (l.h ++ r'.h)) lev (cfg.wrap (num + 1))
    else .br (.br l r h lev num) (.leaf x 1 1) (H (h ++ x)) (lev + 1) (cfg.wrap (num + 1))

/-- tree.go:109-135 `lazyAdd` (Node.java:47-68 `add`). -/
def Node.lazyAdd (cfg : Cfg) : Node → Int → Bytes → Node
  | .leaf h lev num, m, x =>
    if lev = 0 then .leaf x (cfg.ntl m) m
    else .br (.leaf h lev num) (.leaf x (cfg.ntl m) m) [] (lev + 1) (cfg.wrap (num + m))
  | .br l r h lev num, m, x =>
    if lev = 0 then .br l r x (cfg.ntl m) m
    else if l.num ≠ r.num then .br l (Node.lazyAdd cfg r m x) h lev (cfg.wrap (num + m))
    else .br (.br l r h lev num) (.leaf x (cfg.ntl m) m) [] (lev + 1) (cfg.wrap (num + m))

/-- tree.go:137-150 `ensureHash(false)` (Node.java:70-77); `none` is the nil dereference of a childless node of
level 2 or more without a hash. -/
def Node.ensureHash (H : Bytes → Bytes) : Node → Option Node
  | .leaf h lev num => if lev < 2 then some (.leaf h lev num) else if h = [] then none else some (.leaf h lev num)
  | .br l r h lev num =>
    if lev < 2 then some (.br l r h lev num)
    else if h = [] then
      match Node.ensureHash H l, Node.ensureHash H r with
      | some l', some r' => some (.br l' r' (H (l'.h ++ r'.h)) lev num)
      | _, _ => none
    else some (.br l r h lev num)

/-- proof.go:42-65 `verify` (Node.java:79-99). -/
def Node.verify (cfg : Cfg) : Node → Bool
  | .leaf _ lev num => if lev = 1 then decide (num = 1) else true
  | .br l r _ lev num =>
    if lev = 1 then decide (num = 1)
    else decide (r.lev ≤ l.lev) && Node.verify cfg l &&
      (if lev > 2 then decide (cfg.shl (l.lev - 1) = l.num) else true) && Node.verify cfg r

/-! ### path.go -/

/-- path.go:30-33 `PathNode`. -/
structure PathNode where
  right : Bool
  value : Bytes
deriving DecidableEq

/-- path.go:8-22 `path`; `none` is a nil dereference. Levels are below 63, so the shift does not overflow. -/
def Node.path : Node → Int → Option (List PathNode)
  | .leaf _ lev _, _ => if lev < 2 then some [] else none
  | .br l r _ lev _, num =>
    if lev < 2 then some []
    else if num > 2 ^ (lev - 2).toNat then
      (Node.path r (num - 2 ^ (lev - 2).toNat)).map (· ++ [⟨false, l.h⟩])
    else (Node.path l num).map (· ++ [⟨true, r.h⟩])

/-- path.go:45-55 `MerkleBinaryTreePath.Root`. -/
def pathRoot (H : Bytes → Bytes) (content : Bytes) (p : List PathNode) : Bytes :=
  p.foldl (fun h n => if n.right then H (h ++ n.value) else H (n.value ++ h)) (H content)

/-- path.go:76-86 `RootByMerkleNode`; `DirRight = 1`, every other direction is taken as left. -/
def rootByMerkleNode (H : Bytes → Bytes) (leaf : Bytes) (l : List (Int × Bytes)) : Bytes :=
  l.foldl (fun h n => if n.1 = 1 then H (h ++ n.2) else H (n.2 ++ h)) leaf

/-! ### tree.go, the exported type -/

/-- tree.go:164-168 `MerkleBinaryTree`. -/
structure Tree where
  root : Option Node
  contents : List Bytes

/-- tree.go:207-225 `NewMerkleBinaryTree` (`none` content is a nil slice). -/
def newTree (cfg : Cfg) (H : Bytes → Bytes) (cs : List (Option Bytes)) : Option Tree :=
  match cs.mapM id with
  | none => none
  | some [] => some ⟨none, []⟩
  | some l =>
    match (l.foldl (fun n c => Node.lazyAdd cfg n 1 (H c)) Node.init).ensureHash H with
    | none => none
    | some r => some ⟨some r, l⟩

/-- tree.go:170-180 `Add` (`none` content is a nil slice). -/
def Tree.add (cfg : Cfg) (H : Bytes → Bytes) (t : Tree) : Option Bytes → Option Tree
  | none => none
  | some c => some ⟨some (Node.add cfg H (t.root.getD Node.init) (H c)), t.contents ++ [c]⟩

/-- tree.go:186-191 `Root`. -/
def Tree.rootHash (t : Tree) : Bytes := match t.root with | none => [] | some n => n.h

/-- path.go:35-43 `Path`: content and path. -/
def Tree.path (t : Tree) (num : Int) : Option (Bytes × List PathNode) :=
  if num < 1 ∨ num > t.contents.length then none
  else match t.contents[(num - 1).toNat]?, t.root with
    | some c, some n => (n.path num).map (fun p => (c, p))
    | _, _ => none

/-! ### proof.go -/

/-- proof.go:74-77 `ProofNode`. -/
structure ProofNode where
  num : Int
  value : Bytes
deriving DecidableEq

/-- proof.go:67-72 `MerkleBinaryTreeProof` (MessageProof.java). -/
structure Proof where
  lefts : List ProofNode
  contents : List Bytes
  rights : List ProofNode
deriving DecidableEq

/-- proof.go:25-40 `proof`; `none` is a nil dereference. -/
def Node.proof : Node → Int → Option (List ProofNode × List ProofNode)
  | .leaf _ lev _, _ => if lev < 2 then some ([], []) else none
  | .br l r _ lev _, num =>
    if lev < 2 then some ([], [])
    else if num > 2 ^ (lev - 2).toNat then
      (Node.proof r (num - 2 ^ (lev - 2).toNat)).map (fun p => (p.1 ++ [⟨l.num, l.h⟩], p.2))
    else (Node.proof l num).map (fun p => (p.1, p.2 ++ [⟨r.num, r.h⟩]))

/-- proof.go:94-135 `Proof`; `none` is an error or a panic. -/
def Tree.proof (t : Tree) (b e : Int) : Option Proof :=
  let n : Int := t.contents.length
  if b < 1 ∨ e < 1 ∨ e > n then none
  else if b > e then none
  else if b = 1 ∧ e = n then some ⟨[], t.contents, []⟩
  else
    match t.root with
    | none => none
    | some root =>
      let lr : Option (List ProofNode × List ProofNode) :=
        if b = 1 then (root.proof e).map (fun p => ([], p.2))
        else
          match root.proof b with
          | none => none
          | some (l, r) =>
            if b ≠ e then
              if e = n then some (l, [])
              else (root.proof e).map (fun p => (l, p.2))
            else some (l, r)
      lr.map (fun p => ⟨p.1.reverse, (t.contents.take e.toNat).drop (b - 1).toNat, p.2⟩)

/-- proof.go:137-162 `MerkleBinaryTreeProof.Root` (MessageProof.java:95-122 `proveMessage`): hash, offset and total;
`none` is an error, a panic or a revert. -/
def proofRoot (cfg : Cfg) (H : Bytes → Bytes) (p : Proof) : Option (Bytes × Int × Int) :=
  let n1 := p.lefts.foldl (fun n x => Node.lazyAdd cfg n x.num x.value) Node.init
  let left := p.lefts.foldl (fun s x => cfg.wrap (s + x.num)) 0
  let n2 := p.contents.foldl (fun n c => Node.lazyAdd cfg n 1 (H c)) n1
  let t2 := p.contents.foldl (fun s _ => cfg.wrap (s + 1)) 0
  let n3 := p.rights.foldl (fun n x => Node.lazyAdd cfg n x.num x.value) n2
  let t3 := p.rights.foldl (fun s x => cfg.wrap (s + x.num)) t2
  match n3.ensureHash H with
  | none => none
  | some r =>
    let total := cfg.wrap (left + t3)
    if r.num ≠ total then none
    else if r.verify cfg then some (r.h, left, total) else none

end Verif.Mbt
