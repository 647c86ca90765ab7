import Verif.PyRlp
import Verif.JavaMpt
/-!
Model of /repo/pyscore/lib/icon/mpt.py: proofs of the receipt and event tries of an ICON block in the Python contracts.

`H` is sha3-256. `none` is an exception: an `MPTException`, one of the codec or one of the platform; the contract that calls lets all of
them end the transaction. Nodes are read from their bytes with the codec of the contract (PyRlp).
-/
namespace Verif.PyMpt
open Verif

/-- rlp.py:118 `rlp_decode(bs, list)` where the length of the result is taken at once (null has none). -/
def rawList (bs : Bytes) : Option (List Bytes) :=
  match PyRlp.whole bs with
  | some (.items l) => some l
  | _ => none

/-- rlp.py:118 `rlp_decode(bs)`: bytes or null (`some none`). -/
def rawBytes (bs : Bytes) : Option (Option Bytes) :=
  match PyRlp.whole bs with
  | some (.bytes b) => some (some b)
  | some .null => some none
  | _ => none

/-- A node by what `prove` distinguishes; the links of a branch are left as they are encoded. -/
inductive Kind where
  | leaf (nibbles : Bytes) (data : Option Bytes)
  | ext (nibbles child : Bytes)
  | branch (links : List Bytes) (data : Bytes)
deriving DecidableEq

/-- mpt.py:40-47: whether it is a leaf, and the nibbles; `header[0]` of null or of nothing is an exception. -/
def parse : Option Bytes → Option (Bool × Bytes)
  | some (p :: rest) => some (decide (p &&& 0x20 ≠ 0), JavaMpt.toNibbles (if p &&& 0x10 ≠ 0 then [p &&& 0x0F] else []) rest)
  | _ => none

/-- mpt.py:29-30: a hash is empty or has at least 32 bytes. -/
def hashOk (h : Bytes) : Bool := decide (h.length = 0 ∨ 32 ≤ h.length)

/-- mpt.py:48-53: the second element of a short node; null has no length. -/
def second (leaf : Bool) (nib : Bytes) (v : Option Bytes) : Option Kind :=
  if leaf = true then some (.leaf nib v)
  else v.bind fun h => if hashOk h = true then some (.ext nib h) else none

/-- mpt.py:38-67 on the elements of a node. -/
def ofItems : List Bytes → Option Kind
  | [a, b] => (rawBytes a).bind fun h => (parse h).bind fun x => (rawBytes b).bind (second x.1 x.2)
  | l => if l.length = 17 then some (.branch (l.take 16) (l.getD 16 [])) else none

/-- mpt.py:38-67, one node. -/
def shape (bs : Bytes) : Option Kind := (rawList bs).bind ofItems

/-- mpt.py:56: whether the link is a node itself. -/
def isNode (link : Bytes) : Bool := decide (0xC0 ≤ (link.headD 0).toNat)

/-- mpt.py:59-63: a link that is a hash, empty for none. -/
def linkHash (link : Bytes) : Option Bytes := (rawBytes link).bind fun h => h.bind fun h => if hashOk h = true then some h else none

/-- mpt.py:27-67: whether `Node(hash, serialized)` can be made: nodes embedded in a branch are read with it. The fuel is at least the
depth of embedding. -/
def wf : Nat → Bytes → Bool
  | 0, _ => false
  | n + 1, bs =>
    match shape bs with
    | none => false
    | some (.branch links _) => links.all fun l => if isNode l then wf n l else (linkHash l).isSome
    | some _ => true

/-- Where the way through one serialized node ends: with a value, at the hash of another node, or with an exception. -/
inductive W where
  | done (v : Bytes)
  | next (h key : Bytes)
  | fail
deriving DecidableEq

/-- mpt.py:85-101 `prove` of a node that is not a hash, through the nodes embedded in it. A leaf whose value is null gives None, which the
callers take attributes of: an exception. A missing child is one too. -/
def walk : Nat → Bytes → Bytes → W
  | 0, _, _ => .fail
  | n + 1, bs, key =>
    match shape bs with
    | none => .fail
    | some (.leaf nib d) => if JavaMpt.matchCount nib key < key.length then .fail else match d with | some v => .done v | none => .fail
    | some (.ext nib c) => if JavaMpt.matchCount nib key < nib.length then .fail else .next c (key.drop (JavaMpt.matchCount nib key))
    | some (.branch links d) =>
      match key with
      | [] => .done d
      | k :: key =>
        match links[k.toNat]? with
        | none => .fail
        | some l => if isNode l then walk n l key else match linkHash l with | some h => .next h key | none => .fail

/-- mpt.py:78-84 `prove` of a node known by its hash: an empty hash makes it a leaf without data; `pop(0)` of nothing is an exception. -/
def prove (H : Bytes → Bytes) : Bytes → Bytes → List Bytes → Option Bytes
  | [], _, _ => none
  | _ :: _, _, [] => none
  | h0 :: hs, key, p :: ps =>
    if H p ≠ h0 :: hs then none
    else if wf p.length p = false then none
    else
      match walk p.length p key with
      | .done v => some v
      | .next h key => prove H h key ps
      | .fail => none

/-- mpt.py:123-127 `prove(root, key, proofs)`. -/
def proveKey (H : Bytes → Bytes) (root key : Bytes) (proofs : List Bytes) : Option Bytes :=
  if hashOk root = true then prove H root (JavaMpt.toNibbles [] key) proofs else none

end Verif.PyMpt
