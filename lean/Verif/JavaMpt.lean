import Verif.MbtSound
/-!
Model of /repo/javascore/bmv/icon/src/main/java/foundation/icon/btp/bmv/icon/MerklePatriciaTree.java: proofs of the receipt and event
tries of an ICON block.

`H` is sha3-256. `items` reads the list of a serialized node ("RLPn"): the elements, `none` for an element that is itself a list (an
embedded node, read recursively); it gives `none` when the reader throws. Bytes after the list are not looked at.
-/
namespace Verif.JavaMpt
open Verif

/-- The outcome of `prove`: a value, an `MPTException` (lines 28-36) or any other exception of the platform. -/
inductive P where
  | ok (v : Bytes)
  | mpt
  | crash
deriving DecidableEq

/-- MerklePatriciaTree.java:50-66 `bytesToNibbles(bytes, from, nibbles)`, after the first `from` bytes were taken off. -/
def toNibbles (pre b : Bytes) : Bytes := pre ++ b.flatMap (fun x : UInt8 => [(x >>> 4) &&& 0x0F, x &&& 0x0F])

/-- A child of a branch: none, the hash of a node, or a node embedded in it. The fields of an embedded node are left out: `isHash`
(line 179) takes the length of its hash, which is null, so that it is never used. -/
inductive Child where
  | none
  | hash (h : Bytes)
  | embedded
deriving DecidableEq

/-- MerklePatriciaTree.java:68-79 `Node`, by what `prove` distinguishes. -/
inductive Node where
  | leaf (nibbles data : Bytes)
  | ext (nibbles child : Bytes)
  | branch (children : List Child) (data : Bytes)
deriving DecidableEq

/-- The result of reading a node. -/
inductive D where
  | ok (n : Node)
  | mpt
  | crash
deriving DecidableEq

/-- MerklePatriciaTree.java:119-130. -/
def child : Option Bytes → Child
  | none => .embedded
  | some b => if b.length > 0 then .hash b else .none

/-- MerklePatriciaTree.java:99-135 on the elements read. `header[0]` of an empty header is an exception of the platform, the 18th
element is one too (`arr[17]`), a list as the value of a branch is an MPTException (line 94). -/
def ofItems (l : List (Option Bytes)) : D :=
  match l with
  | [some header, some v] =>
    match header with
    | [] => .crash
    | p :: rest =>
      let nibbles := toNibbles (if p &&& 0x10 ≠ 0 then [p &&& 0x0F] else []) rest
      if p &&& 0x20 ≠ 0 then .ok (.leaf nibbles v) else .ok (.ext nibbles v)
  | l =>
    if 17 < l.length then .crash
    else if l.length = 17 then
      match l.getD 16 none with
      | some data => .ok (.branch ((l.take 16).map child) data)
      | none => .mpt
    else .mpt

/-- MerklePatriciaTree.java:138-141 `fromBytes`. -/
def decode (items : Bytes → Option (List (Option Bytes))) (b : Bytes) : D :=
  match items b with
  | some l => ofItems l
  | none => .crash

/-- javascore/score-util ArrayUtil.java:50-62 `matchCount`. -/
def matchCount : Bytes → Bytes → Nat
  | a :: as, b :: bs => if a = b then matchCount as bs + 1 else 0
  | _, _ => 0

/-- MerklePatriciaTree.java:143-174 `prove` of a node known by its hash. An empty hash makes it a node without anything, whose null
nibbles are compared (line 171); `proofs[i]` out of range is an exception of the platform; so is a null or an embedded child. -/
def prove (H : Bytes → Bytes) (items : Bytes → Option (List (Option Bytes))) : Bytes → Bytes → List Bytes → P
  | [], _, _ => .crash
  | _ :: _, _, [] => .crash
  | h0 :: hs, key, p :: ps =>
    if H p ≠ h0 :: hs then .mpt
    else
      match decode items p with
      | .crash => .crash
      | .mpt => .mpt
      | .ok (.ext nib c) => if matchCount nib key < nib.length then .mpt else prove H items c (key.drop (matchCount nib key)) ps
      | .ok (.branch cs data) =>
        match key with
        | [] => .ok data
        | n :: key =>
          match cs[n.toNat]? with
          | some (.hash h) => prove H items h key ps
          | _ => .crash
      | .ok (.leaf nib data) => if matchCount nib key < key.length then .mpt else .ok data

/-- MerklePatriciaTree.java:44-48 `prove(rootHash, key, proofs)`. -/
def proveKey (H : Bytes → Bytes) (items : Bytes → Option (List (Option Bytes))) (root key : Bytes) (proofs : List Bytes) : P :=
  prove H items root (toNibbles [] key) proofs

end Verif.JavaMpt
