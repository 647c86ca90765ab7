import Verif.MptProof
import Verif.RlpProps
/-! C57: Merkle Patricia proof objects. -/
namespace Verif.MptProof
open Verif

/-- The node is a leaf. -/
def IsLeaf (n : Node) : Prop := ∃ p nib d, n = .leaf p nib d

/-- The node references the hash. -/
def Refs (n : Node) (h : Bytes) : Prop :=
  (∃ p nib, n = .ext p nib h) ∨ (∃ ls d, n = .branch ls d ∧ h ∈ ls ∧ h ≠ [])

theorem checkNode_ok (n : Node) (h : Option Bytes) :
    checkNode n h = .ok () ↔ IsLeaf n ∨ ∃ x, h = some x ∧ Refs n x := by
  cases n with
  | leaf p nib d => simp [checkNode, IsLeaf]
  | ext p nib l =>
    cases h with
    | none => simp [checkNode, IsLeaf]
    | some h =>
      simp only [checkNode]
      by_cases e : l = h
      · subst e; simp [Refs]
      · simp [e, IsLeaf, Refs]
  | branch ls d =>
    cases h with
    | none => simp [checkNode, IsLeaf]
    | some h =>
      simp only [checkNode]
      by_cases e : ls.any (fun l => decide (0 < l.length) && decide (l = h)) = true
      · rw [if_pos e]
        obtain ⟨l, hm, hl⟩ := List.any_eq_true.1 e
        simp only [Bool.and_eq_true, decide_eq_true_eq] at hl
        obtain ⟨h1, rfl⟩ := hl
        simp only [true_iff]
        exact Or.inr ⟨l, rfl, Or.inr ⟨ls, d, rfl, hm, List.ne_nil_of_length_pos h1⟩⟩
      · rw [if_neg e]
        simp only [reduceCtorEq, false_iff]
        rintro (⟨_, _, _, hh⟩ | ⟨x, hx, hr | ⟨ls', d', hh, hm, hne⟩⟩)
        · cases hh
        · obtain ⟨_, _, hh⟩ := hr; cases hh
        · cases hh; cases hx
          exact e (List.any_eq_true.2 ⟨_, hm, by simp [List.length_pos_iff.2 hne]⟩)

theorem decodeAll_ok {cap : Nat} {bl : List Bytes} {ns : List Node} (h : decodeAll cap bl = .ok ns) :
    ns.length = bl.length ∧ ∀ i (hi : i < bl.length) (hn : i < ns.length), decodeNode cap bl[i] = .ok ns[i] := by
  induction bl generalizing ns with
  | nil => cases h; simp
  | cons b l ih =>
    unfold decodeAll at h
    cases hb : decodeNode cap b with
    | err => rw [hb] at h; cases h
    | panic => rw [hb] at h; cases h
    | ok n =>
      rw [hb] at h; dsimp only at h
      cases hr : decodeAll cap l with
      | err => rw [hr] at h; cases h
      | panic => rw [hr] at h; cases h
      | ok ns' =>
        rw [hr] at h; cases h
        obtain ⟨h1, h2⟩ := ih hr
        refine ⟨by simp [h1], ?_⟩
        intro i hi hn
        cases i with
        | zero => simpa using hb
        | succ i => simpa using h2 i (by simpa using hi) (by simpa using hn)

theorem checkAll_ok (ns : List Node) (hs : List Bytes) (hl : ns.length = hs.length) :
    checkAll ns hs = .ok () ↔ ∀ i (h : i < ns.length), IsLeaf ns[i] ∨ ∃ x, hs[i + 1]? = some x ∧ Refs ns[i] x := by
  induction ns generalizing hs with
  | nil => simp [checkAll]
  | cons n ns ih =>
    cases hs with
    | nil => simp at hl
    | cons h hs =>
      simp only [List.length_cons, Nat.add_right_cancel_iff] at hl
      simp only [checkAll]
      constructor
      · intro hc i hi
        cases e : checkNode n hs.head? with
        | err => rw [e] at hc; cases hc
        | panic => rw [e] at hc; cases hc
        | ok u =>
          rw [e] at hc; dsimp only at hc
          cases i with
          | zero =>
            have := (checkNode_ok n hs.head?).1 e
            simpa [List.head?_eq_getElem?] using this
          | succ i => simpa using (ih hs hl).1 hc i (by simpa using hi)
      · intro hc
        have h0 := hc 0 (by simp)
        have e : checkNode n hs.head? = .ok () := by
          rw [checkNode_ok]; simpa [List.head?_eq_getElem?] using h0
        rw [e]; dsimp only
        rw [ih hs hl]
        intro i hi
        have := hc (i + 1) (by simpa using hi)
        rw [List.getElem_cons_succ] at this
        simpa using this

/-- **C57**, exactly what is accepted: every byte string decodes to a node, and every node is a leaf or references the hash of
the byte string after it. -/
theorem C57_accepted (cap : Nat) (H : Bytes → Bytes) (bl : List Bytes) (ns : List Node) (hs : List Bytes) :
    newProof cap H bl = .ok (ns, hs) ↔
      decodeAll cap bl = .ok ns ∧ hs = bl.map H ∧
      ∀ i (h : i < ns.length), IsLeaf ns[i] ∨ ∃ b, bl[i + 1]? = some b ∧ Refs ns[i] (H b) := by
  unfold newProof
  cases hd : decodeAll cap bl with
  | err => simp
  | panic => simp
  | ok ns' =>
    dsimp only
    have hl : ns'.length = (bl.map H).length := by simp [(decodeAll_ok hd).1]
    have hc := checkAll_ok ns' (bl.map H) hl
    have hx : ∀ (n : Node) (i : Nat), (∃ x, (bl.map H)[i + 1]? = some x ∧ Refs n x) ↔ ∃ b, bl[i + 1]? = some b ∧ Refs n (H b) := by
      intro n i
      rw [List.getElem?_map]
      cases bl[i + 1]? <;> simp
    simp only [hx] at hc
    constructor
    · intro h
      cases e : checkAll ns' (bl.map H) with
      | err => rw [e] at h; cases h
      | panic => rw [e] at h; cases h
      | ok u => rw [e] at h; cases h; exact ⟨rfl, rfl, hc.1 e⟩
    · rintro ⟨h1, h2, h3⟩
      cases h1; subst h2
      rw [hc.2 h3]

/-- **C57**, the provable part: in an accepted list without a leaf before its end, every node's hash is referenced by the node
before it, and the last node is a leaf. -/
theorem C57_chain_partial (cap : Nat) (H : Bytes → Bytes) (bl : List Bytes) (ns : List Node) (hs : List Bytes)
    (h : newProof cap H bl = .ok (ns, hs)) (hne : bl ≠ [])
    (hleaf : ∀ i (hi : i < ns.length), i + 1 < ns.length → ¬ IsLeaf ns[i]) :
    (∀ i (hi : i < ns.length) (hi' : i + 1 < bl.length), Refs ns[i] (H bl[i + 1])) ∧
    ∃ n, leafOf ns = .ok n ∧ IsLeaf n := by
  obtain ⟨hd, _, hc⟩ := (C57_accepted cap H bl ns hs).1 h
  have hl := (decodeAll_ok hd).1
  have hpos : 0 < bl.length := List.length_pos_iff.2 hne
  constructor
  · intro i hi hi'
    rcases hc i hi with hlf | ⟨b, hb, hr⟩
    · exact absurd hlf (hleaf i hi (by omega))
    · rw [List.getElem?_eq_getElem hi'] at hb
      cases hb; exact hr
  · have hi : ns.length - 1 < ns.length := by omega
    refine ⟨ns[ns.length - 1], ?_, ?_⟩
    · unfold leafOf; rw [List.getLast?_eq_getElem?, List.getElem?_eq_getElem hi]
    · rcases hc _ hi with hlf | ⟨b, hb, _⟩
      · exact hlf
      · rw [List.getElem?_eq_none (by omega)] at hb; cases hb

/-- **C57** is false: a leaf is not compared with what follows it. After any accepted proof one may append any list that is
itself accepted: it is accepted, and `Leaf` is the appended one's, whatever it contains. -/
theorem C57_appended_leaf (cap : Nat) (H : Bytes → Bytes) (bl bl' : List Bytes) (ns ns' : List Node) (hs hs' : List Bytes)
    (h : newProof cap H bl = .ok (ns, hs)) (h' : newProof cap H bl' = .ok (ns', hs')) (hne : bl' ≠ []) :
    newProof cap H (bl ++ bl') = .ok (ns ++ ns', hs ++ hs') ∧ leafOf (ns ++ ns') = leafOf ns' := by
  obtain ⟨hd, rfl, hc⟩ := (C57_accepted cap H bl ns hs).1 h
  obtain ⟨hd', rfl, hc'⟩ := (C57_accepted cap H bl' ns' hs').1 h'
  have hl := (decodeAll_ok hd).1
  have hl' := (decodeAll_ok hd').1
  have happ : decodeAll cap (bl ++ bl') = .ok (ns ++ ns') := by
    clear h h' hc hc' hl hl' hne
    induction bl generalizing ns with
    | nil => cases hd; simpa using hd'
    | cons b l ih =>
      unfold decodeAll at hd
      cases hb : decodeNode cap b with
      | err => rw [hb] at hd; cases hd
      | panic => rw [hb] at hd; cases hd
      | ok n =>
        rw [hb] at hd; dsimp only at hd
        cases hr : decodeAll cap l with
        | err => rw [hr] at hd; cases hd
        | panic => rw [hr] at hd; cases hd
        | ok ns0 =>
          rw [hr] at hd; cases hd
          simp only [List.cons_append, decodeAll, hb, ih _ hr]
  constructor
  · refine (C57_accepted _ _ _ _ _).2 ⟨happ, by simp, ?_⟩
    intro i hi
    by_cases hlt : i < ns.length
    · rw [List.getElem_append_left hlt]
      rcases hc i hlt with hlf | ⟨b, hb, hr⟩
      · exact Or.inl hlf
      · refine Or.inr ⟨b, ?_, hr⟩
        have : i + 1 < bl.length := by
          by_cases hh : i + 1 < bl.length
          · exact hh
          · rw [List.getElem?_eq_none (by omega)] at hb; cases hb
        rw [List.getElem?_append_left this]; exact hb
    · rw [List.getElem_append_right (by omega)]
      rcases hc' (i - ns.length) (by simp at hi; omega) with hlf | ⟨b, hb, hr⟩
      · exact Or.inl hlf
      · refine Or.inr ⟨b, ?_, hr⟩
        rw [List.getElem?_append_right (by omega), ← hb]
        congr 1; omega
  · have : ns' ≠ [] := by
      intro e; subst e; exact hne (List.length_eq_zero_iff.1 hl'.symm)
    unfold leafOf
    rw [List.getLast?_append]
    cases e : ns'.getLast? with
    | none => exact absurd (List.getLast?_eq_none_iff.1 e) this
    | some x => rfl

theorem last_panics (ns : List Node) (hs : List Bytes) (hl : ns.length = hs.length) (n : Node) (h : Bytes) (hn : ¬ IsLeaf n)
    (hpre : ∀ i (hi : i < ns.length), IsLeaf ns[i] ∨ ∃ x, (hs ++ [h])[i + 1]? = some x ∧ Refs ns[i] x) :
    checkAll (ns ++ [n]) (hs ++ [h]) = .panic := by
  induction ns generalizing hs with
  | nil =>
    have : hs = [] := by simpa [eq_comm] using hl
    subst this
    cases n with
    | leaf p nib d => exact absurd ⟨p, nib, d, rfl⟩ hn
    | ext p nib d => rfl
    | branch ls d => rfl
  | cons m ns ih =>
    cases hs with
    | nil => simp at hl
    | cons x hs =>
      simp only [List.cons_append, checkAll]
      have h0 := hpre 0 (by simp)
      have e : checkNode m (hs ++ [h]).head? = .ok () := by
        rw [checkNode_ok]; simpa [List.head?_eq_getElem?] using h0
      rw [e]; dsimp only
      refine ih hs (by simpa using hl) ?_
      intro i hi
      have := hpre (i + 1) (by simpa using hi)
      rw [List.getElem_cons_succ] at this
      simpa using this

/-- **C57** is false for malformed lists: a list whose last node is not a leaf (an empty branch value included) crashes, however
well it is linked. It is never an error. -/
theorem C57_last_not_leaf_panics (cap : Nat) (H : Bytes → Bytes) (bl : List Bytes) (b : Bytes) (ns : List Node) (n : Node)
    (hd : decodeAll cap (bl ++ [b]) = .ok (ns ++ [n])) (hn : ¬ IsLeaf n) (hl : ns.length = bl.length)
    (hpre : ∀ i (hi : i < ns.length), IsLeaf ns[i] ∨ ∃ x, (bl ++ [b])[i + 1]? = some x ∧ Refs ns[i] (H x)) :
    newProof cap H (bl ++ [b]) = .panic := by
  unfold newProof
  rw [hd]; dsimp only
  have := last_panics ns (bl.map H) (by simp [hl]) n (H b) hn (by
    intro i hi
    rcases hpre i hi with h | ⟨x, hx, hr⟩
    · exact Or.inl h
    · refine Or.inr ⟨H x, ?_, hr⟩
      rw [show bl.map H ++ [H b] = (bl ++ [b]).map H by simp, List.getElem?_map, hx]; rfl)
  rw [show (bl ++ [b]).map H = bl.map H ++ [H b] by simp, this]

/-- **C57**, what a node is: two elements with the leaf flag (0x20) of the first byte set or not, or seventeen; the length of the
list and that one bit decide. -/
theorem C57_node_kind (bl : List Bytes) (n : Node) :
    ofList bl = .ok n ↔
      (∃ p nib v, bl = [p :: nib, v] ∧ (n = if p.toNat / 32 % 2 = 1 then .leaf p nib v else .ext p nib v)) ∨
      (∃ ls v, bl = ls ++ [v] ∧ ls.length = 16 ∧ n = .branch ls v) := by
  have hbit : ∀ p : UInt8, (p &&& 0x20 ≠ 0) ↔ p.toNat / 32 % 2 = 1 := by
    have h : ∀ n : Fin 256, (UInt8.ofNat n.val &&& 0x20 ≠ 0) ↔ n.val / 32 % 2 = 1 := by decide +kernel
    intro p
    have := h ⟨p.toNat, p.toNat_lt⟩
    simpa using this
  unfold ofList
  constructor
  · intro h
    by_cases h2 : bl.length = 2
    · rw [if_pos h2] at h
      match bl, h2 with
      | [a, v], _ =>
        cases a with
        | nil => cases h
        | cons p nib =>
          refine Or.inl ⟨p, nib, v, rfl, ?_⟩
          simp only [List.getD_cons_zero, List.getD_cons_succ] at h
          by_cases hb : p &&& 0x20 ≠ 0
          · rw [if_pos hb] at h; cases h; rw [if_pos ((hbit p).1 hb)]
          · rw [if_neg hb] at h; cases h; rw [if_neg (fun x => hb ((hbit p).2 x))]
    · rw [if_neg h2] at h
      by_cases h17 : bl.length = 17
      · rw [if_pos h17] at h
        cases h
        refine Or.inr ⟨bl.take 16, bl.getD 16 [], ?_, by simp [h17], rfl⟩
        have : bl.drop 16 = [bl.getD 16 []] := by
          rw [List.drop_eq_getElem_cons (by omega), List.drop_eq_nil_of_le (by omega)]
          simp [List.getD_eq_getElem?_getD, List.getElem?_eq_getElem (show 16 < bl.length by omega)]
        rw [← this, List.take_append_drop]
      · rw [if_neg h17] at h; cases h
  · rintro (⟨p, nib, v, rfl, rfl⟩ | ⟨ls, v, rfl, hl, rfl⟩)
    · simp only [List.length_cons, List.length_nil, Nat.zero_add, Nat.reduceAdd, if_true, List.getD_cons_zero,
        List.getD_cons_succ]
      by_cases hb : p &&& 0x20 ≠ 0
      · rw [if_pos hb, if_pos ((hbit p).1 hb)]
      · rw [if_neg hb, if_neg (fun x => hb ((hbit p).2 x))]
    · rw [if_neg (by simp [hl]), if_pos (by simp [hl])]
      rw [← hl, List.take_left]
      simp [List.getD_eq_getElem?_getD]

/-- A two-element node whose first element is empty crashes while it is decoded. -/
theorem C57_empty_path_panics (cap : Nat) (x : Option Bytes) (b : Bytes) (y : Option Bytes) (r : Bytes)
    (hx : x = none ∨ x = some [])
    (hdec : Rlp.dec cap (.slice .bytes) b = .ok (some [x, y]) r) : decodeNode cap b = .panic := by
  unfold decodeNode
  rw [hdec]
  rcases hx with h | h <;> subst h <;> rfl

/-- The empty list is accepted, and `Leaf` crashes on it. -/
theorem C57_empty (cap : Nat) (H : Bytes → Bytes) : newProof cap H [] = .ok ([], []) ∧ leafOf [] = .panic := ⟨rfl, rfl⟩

/-- The node is an extension. -/
def IsExt (n : Node) : Prop := ∃ p nib l, n = .ext p nib l

theorem ext_step {cap : Nat} {H : Bytes → Bytes} {b : Bytes} {t : List Bytes} {n : Node} {ns : List Node} {hs : List Bytes}
    (h : newProof cap H (b :: t) = .ok (n :: ns, hs)) :
    decodeNode cap b = .ok n ∧ newProof cap H t = .ok (ns, t.map H) ∧
      (IsLeaf n ∨ ∃ x, t.head? = some x ∧ Refs n (H x)) := by
  obtain ⟨hd, _, hc⟩ := (C57_accepted _ _ _ _ _).1 h
  have hdn := (decodeAll_ok hd).2 0 (by simp) (by simp)
  refine ⟨by simpa using hdn, (C57_accepted _ _ _ _ _).2 ⟨?_, rfl, ?_⟩, ?_⟩
  · unfold decodeAll at hd
    rw [show decodeNode cap b = .ok n by simpa using hdn] at hd
    dsimp only at hd
    cases hr : decodeAll cap t with
    | err => rw [hr] at hd; cases hd
    | panic => rw [hr] at hd; cases hd
    | ok ns' => rw [hr] at hd; cases hd; rfl
  · intro i hi
    have := hc (i + 1) (by simpa using hi)
    rw [List.getElem_cons_succ] at this
    simpa using this
  · have := hc 0 (by simp)
    rw [List.getElem_cons_zero] at this
    simpa [List.head?_eq_getElem?] using this

/-- **C57**: a root hash fixes the proof. Two accepted lists with the same root hash, made of extensions up to a last leaf, are
the same list, or hold two different byte strings with one hash. -/
theorem C57_root_determines_partial (cap : Nat) (H : Bytes → Bytes) (bl bl' : List Bytes) (ns ns' : List Node)
    (hs hs' : List Bytes) (h : newProof cap H bl = .ok (ns, hs)) (h' : newProof cap H bl' = .ok (ns', hs'))
    (hne : bl ≠ []) (hne' : bl' ≠ []) (hroot : bl.head?.map H = bl'.head?.map H)
    (hx : ∀ i (hi : i < ns.length), i + 1 < ns.length → IsExt ns[i])
    (hx' : ∀ i (hi : i < ns'.length), i + 1 < ns'.length → IsExt ns'[i]) :
    bl = bl' ∨ ∃ x ∈ bl, ∃ x' ∈ bl', x ≠ x' ∧ H x = H x' := by
  induction bl generalizing bl' ns ns' hs hs' with
  | nil => exact absurd rfl hne
  | cons b t ih =>
    cases bl' with
    | nil => exact absurd rfl hne'
    | cons b' t' =>
      have hl := (decodeAll_ok ((C57_accepted _ _ _ _ _).1 h).1).1
      have hl' := (decodeAll_ok ((C57_accepted _ _ _ _ _).1 h').1).1
      cases ns with
      | nil => simp at hl
      | cons n ns =>
        cases ns' with
        | nil => simp at hl'
        | cons n' ns' =>
          obtain ⟨hd, ht, hr⟩ := ext_step h
          obtain ⟨hd', ht', hr'⟩ := ext_step h'
          simp only [List.length_cons, Nat.add_right_cancel_iff] at hl hl'
          have hroot' : H b = H b' := by simpa using hroot
          by_cases hb : b = b'
          · subst hb
            rw [hd] at hd'; cases hd'
            by_cases ht0 : t = []
            · subst ht0
              -- the last node of the first list: a leaf, so the last of the second
              have hleaf : IsLeaf n := by
                rcases hr with hr | ⟨x, hx, _⟩
                · exact hr
                · cases hx
              by_cases ht0' : t' = []
              · subst ht0'; exact Or.inl rfl
              · have hpos := List.length_pos_iff.2 ht0'
                obtain ⟨p, nib, l, e⟩ := hx' 0 (by simp) (by simp; omega)
                obtain ⟨_, _, _, e'⟩ := hleaf
                simp only [List.getElem_cons_zero] at e
                rw [e] at e'; cases e'
            · have hpos := List.length_pos_iff.2 ht0
              obtain ⟨p, nib, l, e⟩ := hx 0 (by simp) (by simp; omega)
              simp only [List.getElem_cons_zero] at e
              subst e
              have key : ∀ (t : List Bytes), (IsLeaf (.ext p nib l) ∨ ∃ x, t.head? = some x ∧ Refs (.ext p nib l) (H x)) →
                  t ≠ [] ∧ t.head?.map H = some l := by
                intro t hh
                rcases hh with ⟨_, _, _, e⟩ | ⟨x, hx, hr⟩
                · cases e
                · refine ⟨(by rintro rfl; cases hx), ?_⟩
                  rcases hr with ⟨_, _, e⟩ | ⟨_, _, e, _⟩
                  · rw [hx]; cases e; rfl
                  · cases e
              have k := key t hr
              have k' := key t' hr'
              have step : ∀ (m : Node) (ms : List Node),
                  (∀ i (hi : i < (m :: ms).length), i + 1 < (m :: ms).length → IsExt (m :: ms)[i]) →
                  ∀ i (hi : i < ms.length), i + 1 < ms.length → IsExt ms[i] := by
                intro m ms hh i hi hi'
                have := hh (i + 1) (by simpa using hi) (by simpa using hi')
                rwa [List.getElem_cons_succ] at this
              rcases ih t' ns ns' _ _ ht ht' k.1 k'.1 (k.2.trans k'.2.symm) (step _ _ hx) (step _ _ hx') with e | ⟨x, m, x', m', c⟩
              · subst e; exact Or.inl rfl
              · exact Or.inr ⟨x, List.mem_cons_of_mem _ m, x', List.mem_cons_of_mem _ m', c⟩
          · exact Or.inr ⟨b, by simp, b', by simp, hb, hroot'⟩

/-! ### Examples -/

def toyH (b : Bytes) : Bytes := [b.foldl (fun x y => x * 3 + y) 1, UInt8.ofNat b.length]
/-- A leaf, an extension to it, a branch to the extension. -/
def leafB : Bytes := [0xc3, 0x20, 0x81, 0x99]
def extB : Bytes := 0xc4 :: 0x00 :: 0x82 :: toyH leafB
def branchB : Bytes := [0xd3, 0x80, 0x82] ++ toyH extB ++ List.replicate 15 0x80
def otherLeaf : Bytes := [0xc2, 0x20, 0x07]

example : ∃ ns hs, newProof 1000 toyH [branchB, extB, leafB] = .ok (ns, hs) ∧ leafOf ns = .ok (.leaf 0x20 [] [0x99]) :=
  ⟨_, _, rfl, rfl⟩
example : ∃ ns hs, newProof 1000 toyH [branchB, extB, leafB, otherLeaf] = .ok (ns, hs) ∧ leafOf ns = .ok (.leaf 0x20 [] [7]) :=
  ⟨_, _, rfl, rfl⟩
example : newProof 1000 toyH [branchB, extB] = .panic ∧ newProof 1000 toyH [branchB] = .panic ∧
    newProof 1000 toyH [branchB, leafB] = .err ∧ newProof 1000 toyH [[0xc2, 0x80, 0x07]] = .panic ∧
    newProof 1000 toyH [[0xc1, 0x07]] = .err := ⟨rfl, rfl, rfl, rfl, rfl⟩

end Verif.MptProof
