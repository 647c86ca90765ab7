import Verif.SolProof
/-!
Model of the circular queue of /repo/solidity/bmv/contracts/libraries/MessageProofLib.sol:23-28, 53-99, 131-153 and of `calculate` as it
is written with it. SolProof has the same computation on lists; SolQueueProps shows that they agree.

A revert, a failed assert or an index out of bounds is `none`. Numbers are uint256; sizes of arrays are small, so counters of the
queue do not overflow.
-/
namespace Verif.SolProof
open Verif Verif.Merkle Verif.Mbt

/-- MessageProofLib.sol:23-28 `Queue`; `nodes` is an array of fixed length. -/
structure Queue where
  front : Nat
  rear : Nat
  length : Nat
  nodes : List SNode

/-- An unset element of an array of structs. -/
def zeroNode : SNode := ⟨0, 0, List.replicate 32 0⟩

/-- MessageProofLib.sol:81-89 `push`. -/
def qpush (q : Queue) (x : SNode) : Option Queue :=
  if q.length < q.nodes.length then
    if q.rear < q.nodes.length then
      let rear := q.rear + 1
      some ⟨q.front, if rear = q.nodes.length then 0 else rear, q.length + 1, q.nodes.set q.rear x⟩
    else none
  else none

/-- MessageProofLib.sol:91-98 `pop`. -/
def qpop (q : Queue) : Option (SNode × Queue) :=
  if q.length > 0 then
    match q.nodes[q.front]? with
    | none => none
    | some x =>
      let front := q.front + 1
      some (x, ⟨if front = q.nodes.length then 0 else front, q.rear, q.length - 1, q.nodes⟩)
  else none

/-- MessageProofLib.sol:64-75, the loop over `j` with bound `t` and the count `w` of elements not yet visited; the subtraction is
checked. `fuel` bounds the number of turns. -/
def qinner (H : Bytes → Bytes) (thr : Nat) : Nat → Nat → Nat → Nat → Queue → Option Queue
  | 0, _, _, _, q => some q
  | fuel + 1, j, t, w, q =>
    if j < t then
      (qpop q).bind fun (l, q1) =>
        if w = 0 then none
        else if l.level ≤ thr ∧ w - 1 > 0 then
          (qpop q1).bind fun (r, q2) =>
            (concat H l r).bind fun x =>
              if w - 1 = 0 then none
              else (qpush q2 x).bind fun q3 => qinner H thr fuel (j + 2) t (w - 2) q3
        else (qpush q1 l).bind fun q2 => qinner H thr fuel (j + 1) t (w - 1) q2
    else some q

/-- MessageProofLib.sol:61-76, the rounds. -/
def qrounds (H : Bytes → Bytes) : Nat → Nat → Queue → Option Queue
  | 0, _, q => some q
  | n + 1, thr, q => (qinner H thr q.length 0 q.length q.length q).bind (qrounds H n (thr + 1))

/-- MessageProofLib.sol:139-151: pushing the elements one after the other. -/
def qpushAll : Queue → List SNode → Option Queue
  | q, [] => some q
  | q, x :: t => (qpush q x).bind (qpushAll · t)

/-- MessageProofLib.sol:131-153 `toQueue`: a new array of that size, then all elements pushed. -/
def qof (l : List SNode) : Option Queue := qpushAll ⟨0, 0, 0, List.replicate l.length zeroNode⟩ l

/-- MessageProofLib.sol:53-79 `calculate`; the leaves are counted over the array. -/
def qcalculate (H : Bytes → Bytes) (l : List SNode) : Option (Bytes × Nat) :=
  (qof l).bind fun q =>
    let total := (q.nodes.map (·.cnt)).sum
    if total ≥ 2 ^ 256 then none
    else
      (qrounds H (1 + halvings total) 1 q).bind fun q' =>
        if q'.length = 1 then (qpop q').bind fun (x, _) => some (x.hash, total)
        else none

end Verif.SolProof
