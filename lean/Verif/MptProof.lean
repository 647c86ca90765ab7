import Verif.Rlp
/-!
Model of /repo/common/mpt/mpt.go: the Merkle Patricia proof object.

`H` is crypto.SHA3Sum256. The pointers between the nodes (`MptLink.ptr`) are left out: nothing reads them.
-/
namespace Verif.MptProof
open Verif

inductive R (α : Type) where
  | ok (a : α)
  | err
  | panic
deriving DecidableEq

/-- mpt.go:13-30 `MptNode`: with a header and leaf flag, with a header only, or a branch. -/
inductive Node where
  | leaf (pre : UInt8) (nibbles data : Bytes)
  | ext (pre : UInt8) (nibbles link : Bytes)
  | branch (links : List Bytes) (data : Bytes)
deriving DecidableEq

/-- mpt.go:40-58 on the decoded list; a nil element is an empty one, `bl[0][0]` of it panics. -/
def ofList (bl : List Bytes) : R Node :=
  if bl.length = 2 then
    match bl.getD 0 [] with
    | [] => .panic
    | p :: nib => if p &&& 0x20 ≠ 0 then .ok (.leaf p nib (bl.getD 1 [])) else .ok (.ext p nib (bl.getD 1 []))
  else if bl.length = 17 then .ok (.branch (bl.take 16) (bl.getD 16 []))
  else .err

/-- mpt.go:35-59 `RLPDecodeSelf` through codec.RLP.UnmarshalFromBytes; bytes after the list are ignored. -/
def decodeNode (cap : Nat) (b : Bytes) : R Node :=
  match Rlp.dec cap (.slice .bytes) b with
  | .ok v _ => ofList ((v.getD []).map (fun x => x.getD []))
  | .panic => .panic
  | _ => .err

/-- mpt.go:75-81: all nodes are decoded before any link is looked at. -/
def decodeAll (cap : Nat) : List Bytes → R (List Node)
  | [] => .ok []
  | b :: l =>
    match decodeNode cap b with
    | .ok n => match decodeAll cap l with | .ok ns => .ok (n :: ns) | .err => .err | .panic => .panic
    | .err => .err
    | .panic => .panic

/-- mpt.go:85-101, one turn of the loop; `next` is `mp.Hashes[i+1]`, `none` if out of range. The error message of a branch
reads it too. -/
def checkNode : Node → Option Bytes → R Unit
  | .leaf .., _ => .ok ()
  | .ext _ _ l, some h => if l = h then .ok () else .err
  | .ext .., none => .panic
  | .branch ls _, some h => if ls.any (fun l => decide (0 < l.length) && decide (l = h)) then .ok () else .err
  | .branch .., none => .panic

/-- mpt.go:82-102. -/
def checkAll : List Node → List Bytes → R Unit
  | n :: ns, _ :: hs =>
    match checkNode n hs.head? with
    | .ok () => checkAll ns hs
    | .err => .err
    | .panic => .panic
  | _, _ => .ok ()

/-- mpt.go:70-104 `NewMptProof`: nodes and hashes. -/
def newProof (cap : Nat) (H : Bytes → Bytes) (bl : List Bytes) : R (List Node × List Bytes) :=
  match decodeAll cap bl with
  | .ok ns =>
    match checkAll ns (bl.map H) with
    | .ok () => .ok (ns, bl.map H)
    | .err => .err
    | .panic => .panic
  | .err => .err
  | .panic => .panic

/-- mpt.go:66-68 `Leaf`. -/
def leafOf (ns : List Node) : R Node :=
  match ns.getLast? with
  | some n => .ok n
  | none => .panic

end Verif.MptProof
