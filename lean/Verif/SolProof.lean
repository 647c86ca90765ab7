import Verif.MbtSound
/-!
Model of /repo/solidity/bmv/contracts/libraries/MessageProofLib.sol, the message proof check of the EVM contract.

The decoding of the RLP items is not part of this file: a proof is given by decoded leaf counts (uint256) and hashes
(bytes32). The circular queue of the code holds its elements in order and is never over-filled (SolQueue, C152), so one
round of `calculate` is one pass over a list. A revert or a failed assert is `none`.
-/
namespace Verif.SolProof
open Verif Verif.Merkle Verif.Mbt

/-- MessageProofLib.sol:13-17 `MessageProofNode`. -/
structure SNode where
  level : Nat
  cnt : Nat
  hash : Bytes
deriving DecidableEq

/-- MessageProofLib.sol:101-114 `levelOf`: `sub` wraps, so `levelOf(0)` is 257. -/
def levelOf (n : Nat) : Nat := 1 + halvings ((n + (2 ^ 256 - 1)) % 2 ^ 256)

/-- `1 << k` on uint256. -/
def shl1 (k : Nat) : Nat := if k < 256 then 2 ^ k else 0

/-- MessageProofLib.sol:116-129 `concat`. -/
def concat (H : Bytes → Bytes) (l r : SNode) : Option SNode :=
  if l.cnt ≠ shl1 (l.level - 1) then none
  else if l.cnt < r.cnt then none
  else if l.cnt + r.cnt ≥ 2 ^ 256 then none
  else some ⟨l.level + 1, l.cnt + r.cnt, H (l.hash ++ r.hash)⟩

/-- MessageProofLib.sol:63-75: the inner loop of `calculate` for `i + 1 = thr`. -/
def pass (H : Bytes → Bytes) (thr : Nat) : List SNode → Option (List SNode)
  | l :: r :: t =>
    if l.level ≤ thr then (concat H l r).bind (fun x => (pass H thr t).map (x :: ·))
    else (pass H thr (r :: t)).map (l :: ·)
  | q => some q

/-- MessageProofLib.sol:61-76: rounds `thr`, `thr + 1`, ... -/
def rounds (H : Bytes → Bytes) : Nat → Nat → List SNode → Option (List SNode)
  | 0, _, q => some q
  | n + 1, thr, q => (pass H thr q).bind (rounds H n (thr + 1))

/-- MessageProofLib.sol:47-51 `getLeafCount` with checked addition; 53-79 `calculate`. -/
def calculate (H : Bytes → Bytes) (q : List SNode) : Option (Bytes × Nat) :=
  let total := (q.map (·.cnt)).sum
  if total ≥ 2 ^ 256 then none
  else
    match rounds H (1 + halvings total) 1 q with
    | some [x] => some (x.hash, total)
    | _ => none

/-- A proof after decoding: leaf count and hash of the left nodes, messages, right nodes (MessageProofLib.sol:7-11). -/
structure SProof where
  lefts : List (Nat × Bytes)
  mesgs : List Bytes
  rights : List (Nat × Bytes)

/-- MessageProofLib.sol:155-163 `toMessageProofNodes`. -/
def toNode (p : Nat × Bytes) : SNode := ⟨levelOf p.1, p.1, p.2⟩

/-- MessageProofLib.sol:131-153 `toQueue`. -/
def toQueue (H : Bytes → Bytes) (p : SProof) : List SNode :=
  p.lefts.map toNode ++ p.mesgs.map (fun m => ⟨1, 1, H m⟩) ++ p.rights.map toNode

/-- The proof made by the relay (counts are not negative there) as the contract decodes it. -/
def ofProof (p : Proof) : SProof :=
  ⟨p.lefts.map (fun x => (x.num.toNat, x.value)), p.contents, p.rights.map (fun x => (x.num.toNat, x.value))⟩

/-! ### Lemmas -/

theorem halvings_eq (m : Nat) : halvings m = if m = 0 then 0 else Nat.log2 m + 1 := by
  induction m using Nat.strongRecOn with
  | ind m ih =>
    rw [halvings]
    split
    · rfl
    · rename_i h
      rw [ih (m / 2) (by omega), Nat.log2_def m]
      by_cases h2 : m / 2 = 0
      · rw [if_pos h2, if_neg (by omega)]
      · rw [if_neg h2, if_pos (by omega)]

theorem levelOf_eq (n : Nat) (h1 : 1 ≤ n) (h2 : n < 2 ^ 256) : levelOf n = lvl n := by
  have e : (n + (2 ^ 256 - 1)) % 2 ^ 256 = n - 1 := by omega
  rw [levelOf, e, halvings_eq, lvl]
  by_cases h : n ≤ 1
  · rw [if_pos (by omega), if_pos h]; omega
  · rw [if_neg (by omega), if_neg h]; omega

theorem lt_two_pow_halvings (n : Nat) : n < 2 ^ halvings n := by
  rw [halvings_eq]
  split
  · simp; omega
  · exact Nat.lt_log2_self

/-- Queue element of a segment. -/
def seg (H : Bytes → Bytes) (s : List Bytes) : SNode := ⟨lvl s.length, s.length, mroot H s⟩

/-- All segments but the last have at least `m` elements. -/
def BigBut (m : Nat) : List (List Bytes) → Prop
  | [] => True
  | [_] => True
  | s :: t => m ≤ s.length ∧ BigBut m t

theorem pow_dvd_le {a b : Nat} (h : 2 ^ a ≤ 2 ^ b) : 2 ^ a ∣ 2 ^ b := by
  have : a ≤ b := (Nat.pow_le_pow_iff_right (by omega)).mp h
  exact Nat.pow_dvd_pow 2 this

theorem concat_seg (H : Bytes → Bytes) (a b : List Bytes) (k : Nat) (ha : a.length = 2 ^ k) (hb : b ≠ [])
    (hle : b.length ≤ a.length) (hM : a.length + b.length < 2 ^ 256) :
    concat H (seg H a) (seg H b) = some (seg H (a ++ b)) := by
  have hb1 : 1 ≤ b.length := List.length_pos_iff.mpr hb
  have hk : k < 256 := by
    apply Classical.byContradiction
    intro hk
    have : 2 ^ 256 ≤ 2 ^ k := Nat.pow_le_pow_right (by omega) (by omega)
    generalize 2 ^ 256 = m at *
    omega
  have hl : lvl a.length = k + 1 := by rw [ha, lvl_pow]
  have hu := split_unique (n := a.length + b.length) (k := k) (by omega) (by rw [Nat.pow_succ]; omega)
  generalize hm : 2 ^ 256 = m at *
  simp only [concat, seg, hl, hm]
  rw [if_neg (by rw [shl1, if_pos (by omega)]; simp [ha]), if_neg (by omega), if_neg (by omega)]
  rw [mroot_append H a b k ha hb hle, List.length_append, hu.2]

theorem pass_segs (H : Bytes → Bytes) (k : Nat) (n : Nat) (segs : List (List Bytes)) (hn : segs.length ≤ n) (p : Nat)
    (hc : Chain p segs) (hb : BigBut (2 ^ k) segs) (hp : 2 ^ (k + 1) ∣ p) (hM : segs.flatten.length < 2 ^ 256) :
    ∃ segs', pass H (k + 1) (segs.map (seg H)) = some (segs'.map (seg H)) ∧ Chain p segs' ∧ BigBut (2 ^ (k + 1)) segs' ∧
      segs'.flatten = segs.flatten := by
  induction n generalizing segs p with
  | zero =>
    have : segs = [] := List.length_eq_zero_iff.mp (by omega)
    subst this; exact ⟨[], rfl, trivial, trivial, rfl⟩
  | succ n ih =>
    match segs, hc, hb with
    | [], _, _ => exact ⟨[], rfl, trivial, trivial, rfl⟩
    | [s], hc, _ => exact ⟨[s], rfl, hc, trivial, rfl⟩
    | s :: r :: t, hc, hb =>
      obtain ⟨c1, ⟨j, c2, c3⟩, c4, c5⟩ := hc
      obtain ⟨b1, b2⟩ := hb
      have hs2 : ∃ i : Nat, s.length = 2 ^ i := by
        rcases c4 with h | h
        · simp at h
        · exact h
      obtain ⟨i, hi⟩ := hs2
      have hki : k ≤ i := by
        rw [hi] at b1
        exact (Nat.pow_le_pow_iff_right (by omega)).mp b1
      have hsp : 2 ^ i ∣ p := Nat.dvd_trans (pow_dvd_le (by rw [← hi]; exact c3)) c2
      have hlv : lvl s.length = i + 1 := by rw [hi, lvl_pow]
      simp only [List.flatten_cons, List.length_append] at hM
      by_cases hik : i = k
      · subst hik
        obtain ⟨d1, ⟨j', d2, d3⟩, d4, d5⟩ := c5
        have hr : r.length ≤ s.length := by
          have hj : ¬ i + 1 ≤ j' := by
            intro hlt
            have h1 : 2 ^ (i + 1) ∣ p + s.length := Nat.dvd_trans (Nat.pow_dvd_pow 2 hlt) d2
            have h2 : 2 ^ (i + 1) ∣ s.length := (Nat.dvd_add_right hp).mp h1
            have := Nat.le_of_dvd (by have := Nat.one_le_two_pow (n := i); omega) h2
            rw [Nat.pow_succ] at this
            have := Nat.one_le_two_pow (n := i); omega
          have : 2 ^ j' ≤ 2 ^ i := Nat.pow_le_pow_right (by omega) (by omega)
          omega
        have hcs := concat_seg H s r i hi d1 hr (by omega)
        have hchain : (t = [] ∨ (s ++ r).length = 2 ^ (i + 1)) := by
          cases t with
          | nil => exact Or.inl rfl
          | cons u t =>
            right
            have := b2.1
            rw [List.length_append, Nat.pow_succ]; omega
        have hal : t = [] ∨ 2 ^ (i + 1) ∣ p + (s.length + r.length) := by
          rcases hchain with h | h
          · exact Or.inl h
          · right
            rw [List.length_append] at h
            rw [h]
            exact (Nat.dvd_add_right hp).mpr (Nat.dvd_refl _)
        have hbt : BigBut (2 ^ i) t := by
          cases t with
          | nil => trivial
          | cons u t => exact b2.2
        have hrest : ∃ t', pass H (i + 1) (t.map (seg H)) = some (t'.map (seg H)) ∧ Chain (p + (s.length + r.length)) t' ∧
            BigBut (2 ^ (i + 1)) t' ∧ t'.flatten = t.flatten ∧ (t = [] → t' = []) := by
          rcases hal with h | h
          · subst h; exact ⟨[], rfl, trivial, trivial, rfl, fun _ => rfl⟩
          · obtain ⟨t', e1, e2, e3, e4⟩ := ih t (by simp at hn; omega) (p + (s.length + r.length))
              (by rw [← Nat.add_assoc]; exact d5) hbt h (by omega)
            refine ⟨t', e1, e2, e3, e4, fun h0 => ?_⟩
            subst h0; simp [pass] at e1; exact e1
        obtain ⟨t', e1, e2, e3, e4, e5⟩ := hrest
        refine ⟨(s ++ r) :: t', ?_, ⟨?_, ⟨i + 1, hp, ?_⟩, ?_, ?_⟩, ?_, ?_⟩
        · simp only [List.map_cons, pass]
          rw [if_pos (by simp only [seg]; omega), hcs]
          simp [e1]
        · simp [c1]
        · rw [List.length_append, Nat.pow_succ]; omega
        · rcases hchain with h | h
          · exact Or.inl (e5 h)
          · exact Or.inr ⟨_, h⟩
        · rw [List.length_append]; exact e2
        · cases t' with
          | nil => trivial
          | cons u t' =>
            refine ⟨?_, e3⟩
            rcases hchain with h | h
            · have := e5 h; simp at this
            · rw [h]; exact Nat.le_refl _
        · simp [e4]
      · have hpow : 2 ^ (k + 1) ≤ 2 ^ i := Nat.pow_le_pow_right (by omega) (by omega)
        obtain ⟨t', e1, e2, e3, e4⟩ := ih (r :: t) (by simp at hn ⊢; omega) (p + s.length) c5 b2
          ((Nat.dvd_add_right hp).mpr (by rw [hi]; exact pow_dvd_le hpow))
          (by simp only [List.flatten_cons, List.length_append]; omega)
        refine ⟨s :: t', ?_, ⟨c1, ⟨i, hsp, by omega⟩, Or.inr ⟨i, hi⟩, e2⟩, ?_, by simp [e4]⟩
        · rw [List.map_cons, List.map_cons, pass, if_neg (by simp only [seg]; omega), ← List.map_cons, e1]; rfl
        · cases t' with
          | nil => trivial
          | cons u t' => exact ⟨by omega, e3⟩

theorem rounds_segs (H : Bytes → Bytes) (n k : Nat) (segs : List (List Bytes)) (hc : Chain 0 segs)
    (hb : BigBut (2 ^ k) segs) (hM : segs.flatten.length < 2 ^ 256) :
    ∃ segs', rounds H n (k + 1) (segs.map (seg H)) = some (segs'.map (seg H)) ∧ Chain 0 segs' ∧ BigBut (2 ^ (k + n)) segs' ∧
      segs'.flatten = segs.flatten := by
  induction n generalizing k segs with
  | zero => exact ⟨segs, rfl, hc, hb, rfl⟩
  | succ n ih =>
    obtain ⟨s1, a1, a2, a3, a4⟩ := pass_segs H k segs.length segs (Nat.le_refl _) 0 hc hb (Nat.dvd_zero _) hM
    obtain ⟨s2, b1, b2, b3, b4⟩ := ih (k + 1) s1 a2 a3 (by rw [a4]; exact hM)
    refine ⟨s2, by rw [rounds, a1]; exact b1, b2, ?_, by rw [b4, a4]⟩
    rw [show k + (n + 1) = k + 1 + n by omega]; exact b3

theorem bigBut_one (p : Nat) (segs : List (List Bytes)) (hc : Chain p segs) : BigBut 1 segs := by
  induction segs generalizing p with
  | nil => trivial
  | cons s t ih =>
    cases t with
    | nil => trivial
    | cons u t => exact ⟨List.length_pos_iff.mpr hc.1, ih _ hc.2.2.2⟩

theorem calculate_segs (H : Bytes → Bytes) (segs : List (List Bytes)) (hne : segs ≠ []) (hc : Chain 0 segs)
    (hM : segs.flatten.length < 2 ^ 256) :
    calculate H (segs.map (seg H)) = some (mroot H segs.flatten, segs.flatten.length) := by
  have hsum : ((segs.map (seg H)).map (·.cnt)).sum = segs.flatten.length := by
    rw [List.length_flatten, List.map_map]; rfl
  obtain ⟨s', e1, e2, e3, e4⟩ := rounds_segs H (1 + halvings segs.flatten.length) 0 segs hc
    (by simpa using bigBut_one 0 segs hc) hM
  unfold calculate
  simp only [hsum]
  rw [if_neg (by omega), e1]
  match s', e2, e3, e4 with
  | [], _, _, e4 =>
    exfalso
    cases segs with
    | nil => exact hne rfl
    | cons s t => simp at e4; exact hc.1 e4.1
  | [x], _, _, e4 =>
    simp at e4
    rw [← e4]; rfl
  | x :: y :: t, _, e3, e4 =>
    exfalso
    have h1 := e3.1
    have h2 := lt_two_pow_halvings segs.flatten.length
    have h3 := congrArg List.length e4
    simp only [List.flatten_cons, List.length_append] at h3
    have : 2 ^ halvings segs.flatten.length ≤ 2 ^ (0 + (1 + halvings segs.flatten.length)) :=
      Nat.pow_le_pow_right (by omega) (by omega)
    omega

/-! ### Soundness -/

/-- A queue element and the tree it stands for. -/
structure Rep (H : Bytes → Bytes) (x : SNode) (t : Mbt.Node) : Prop where
  built : Built t
  shape : HShape t
  level : t.lev = lvl t.num.toNat
  lev : (x.level : Int) = t.lev
  cnt : (x.cnt : Int) = t.num
  hash : x.hash = hashN H t

/-- Queue and trees in step. -/
inductive Reps (H : Bytes → Bytes) : List SNode → List Mbt.Node → Prop where
  | nil : Reps H [] []
  | cons {x t q ts} : Rep H x t → Reps H q ts → Reps H (x :: q) (t :: ts)

theorem concat_rep (H : Bytes → Bytes) (l r x : SNode) (tl tr : Mbt.Node) (hl : Rep H l tl) (hr : Rep H r tr)
    (h : concat H l r = some x) :
    Rep H x (.br tl tr [] (tl.lev + 1) (tl.num + tr.num)) := by
  unfold concat at h
  split at h
  · simp at h
  · rename_i h1
    split at h
    · simp at h
    · rename_i h2
      split at h
      · simp at h
      · rename_i h3
        simp at h
        subst h
        have fl := hl.built.facts; have fr := hr.built.facts
        have c1 := hl.cnt; have c2 := hr.cnt; have v1 := hl.lev; have v2 := hr.lev
        have hpow : l.cnt = 2 ^ (l.level - 1) := by
          have : l.cnt = shl1 (l.level - 1) := by omega
          rw [shl1] at this
          split at this
          · exact this
          · omega
        have hu := split_unique (n := (tl.num + tr.num).toNat) (k := l.level - 1) (by omega) (by rw [Nat.pow_succ]; omega)
        refine ⟨⟨rfl, rfl, rfl, hl.built, hr.built⟩, ⟨by rw [hu.1]; omega, hl.shape, hr.shape⟩, ?_, ?_, ?_, ?_⟩
        · show tl.lev + 1 = ((lvl (tl.num + tr.num).toNat : Nat) : Int)
          rw [hu.2]; omega
        · show ((l.level + 1 : Nat) : Int) = tl.lev + 1
          omega
        · show ((l.cnt + r.cnt : Nat) : Int) = tl.num + tr.num
          omega
        · simp only [hashN, hl.hash, hr.hash]

/-- The byte strings hashed by a round and by all rounds. -/
def passCalls (thr : Nat) : List SNode → List Bytes
  | l :: r :: t => if l.level ≤ thr then (l.hash ++ r.hash) :: passCalls thr t else passCalls thr (r :: t)
  | _ => []
def roundsCalls (H : Bytes → Bytes) : Nat → Nat → List SNode → List Bytes
  | 0, _, _ => []
  | n + 1, thr, q =>
    passCalls thr q ++ (match pass H thr q with | some q' => roundsCalls H n (thr + 1) q' | none => [])

theorem pass_reps (H : Bytes → Bytes) (thr n : Nat) (q q' : List SNode) (hn : q.length ≤ n) (ts : List Mbt.Node)
    (hr : Reps H q ts) (h : pass H thr q = some q') :
    ∃ ts', Reps H q' ts' ∧ ts'.flatMap items = ts.flatMap items ∧
      ∀ c ∈ ts'.flatMap (calls H), c ∈ ts.flatMap (calls H) ∨ c ∈ passCalls thr q := by
  induction n generalizing q q' ts with
  | zero =>
    have : q = [] := List.length_eq_zero_iff.mp (by omega)
    subst this
    simp [pass] at h
    subst h
    exact ⟨ts, hr, rfl, fun c hc => Or.inl hc⟩
  | succ n ih =>
    match q, hr with
    | [], hr => simp [pass] at h; subst h; exact ⟨ts, hr, rfl, fun c hc => Or.inl hc⟩
    | [a], hr => simp [pass] at h; subst h; exact ⟨ts, hr, rfl, fun c hc => Or.inl hc⟩
    | l :: r :: t, .cons (t := tl) hl (.cons (t := tr) (ts := ts) hr ht) =>
      rw [pass] at h
      simp at hn
      split at h
      · rename_i hthr
        cases hcc : concat H l r with
        | none => simp [hcc] at h
        | some x =>
          simp only [hcc, Option.bind_some, Option.map_eq_some_iff] at h
          obtain ⟨q2, h1, rfl⟩ := h
          obtain ⟨ts', a1, a2, a3⟩ := ih t q2 (by omega) ts ht h1
          refine ⟨_, .cons (concat_rep H l r x tl tr hl hr hcc) a1, by simp [items, a2], fun c hc => ?_⟩
          rw [passCalls, if_pos hthr]
          simp only [List.flatMap_cons, calls, List.mem_append, List.mem_cons] at hc ⊢
          rw [← hl.hash, ← hr.hash] at hc
          rcases hc with (hc | hc | hc) | hc
          · exact Or.inr (Or.inl hc)
          · exact Or.inl (Or.inl hc)
          · exact Or.inl (Or.inr (Or.inl hc))
          · rcases a3 c hc with h | h
            · exact Or.inl (Or.inr (Or.inr h))
            · exact Or.inr (Or.inr h)
      · rename_i hthr
        simp only [Option.map_eq_some_iff] at h
        obtain ⟨q2, h1, rfl⟩ := h
        obtain ⟨ts', a1, a2, a3⟩ := ih (r :: t) q2 (by simp; omega) _ (.cons hr ht) h1
        refine ⟨_, .cons hl a1, by simp only [List.flatMap_cons] at a2 ⊢; rw [a2], fun c hc => ?_⟩
        rw [passCalls, if_neg hthr]
        simp only [List.flatMap_cons, List.mem_append] at hc a3 ⊢
        rcases hc with hc | hc
        · exact Or.inl (Or.inl hc)
        · rcases a3 c hc with h | h
          · exact Or.inl (Or.inr h)
          · exact Or.inr h

theorem rounds_reps (H : Bytes → Bytes) (n thr : Nat) (q q' : List SNode) (ts : List Mbt.Node)
    (hr : Reps H q ts) (h : rounds H n thr q = some q') :
    ∃ ts', Reps H q' ts' ∧ ts'.flatMap items = ts.flatMap items ∧
      ∀ c ∈ ts'.flatMap (calls H), c ∈ ts.flatMap (calls H) ∨ c ∈ roundsCalls H n thr q := by
  induction n generalizing thr q ts with
  | zero => simp [rounds] at h; subst h; exact ⟨ts, hr, rfl, fun c hc => Or.inl hc⟩
  | succ n ih =>
    rw [rounds] at h
    cases hp : pass H thr q with
    | none => simp [hp] at h
    | some q2 =>
      simp only [hp, Option.bind_some] at h
      obtain ⟨t2, a1, a2, a3⟩ := pass_reps H thr q.length q q2 (Nat.le_refl _) ts hr hp
      obtain ⟨t3, b1, b2, b3⟩ := ih (thr + 1) q2 t2 a1 h
      refine ⟨t3, b1, by rw [b2, a2], fun c hc => ?_⟩
      rw [roundsCalls, hp, List.mem_append]
      rcases b3 c hc with h | h
      · rcases a3 c h with h | h
        · exact Or.inl h
        · exact Or.inr (Or.inl h)
      · exact Or.inr (Or.inr h)

/-- Leaf counts and hashes of a proof in order. -/
def sblocks (H : Bytes → Bytes) (p : SProof) : List (Nat × Bytes) :=
  p.lefts ++ p.mesgs.map (fun m => (1, H m)) ++ p.rights

def asBlock (x : Nat × Bytes) : ProofNode := ⟨x.1, x.2⟩

theorem toQueue_reps (H : Bytes → Bytes) (l : List (Nat × Bytes)) (h : ∀ x ∈ l, 1 ≤ x.1 ∧ x.1 < 2 ^ 256) :
    ∃ ts, Reps H (l.map toNode) ts ∧ ts.flatMap items = l.map asBlock ∧ ts.flatMap (calls H) = [] := by
  induction l with
  | nil => exact ⟨[], .nil, rfl, rfl⟩
  | cons a l ih =>
    obtain ⟨ts, a1, a2, a3⟩ := ih (fun x hx => h x (by simp [hx]))
    have ⟨h1, h2⟩ := h a (by simp)
    refine ⟨.leaf a.2 (lvl a.1) a.1 :: ts, .cons ⟨⟨by omega, by simp⟩, trivial, by simp [Node.lev, Node.num], ?_, rfl, rfl⟩ a1, ?_, by simp [calls, a3]⟩
    · simp only [toNode, Node.lev, levelOf_eq a.1 h1 h2]
    · simp [items, a2, asBlock]

theorem levelOf_one : levelOf 1 = 1 := by rw [levelOf_eq 1 (by omega) (by omega)]; rfl

theorem toQueue_blocks (H : Bytes → Bytes) (p : SProof) : toQueue H p = (sblocks H p).map toNode := by
  simp only [toQueue, sblocks, List.map_append, List.map_map]
  congr 2
  apply List.map_congr_left
  intro m _
  simp [toNode, levelOf_one]

end Verif.SolProof
