import Verif.SolQueue
/-!
C152: the circular queue of the EVM verifier holds its elements in order, and the computation of the root with it is the one on lists
(SolProof, C15, C66, C135).
-/
namespace Verif.SolProof
open Verif Verif.Merkle Verif.Mbt

/-- Specification: the elements of a queue, from the front on around the array. -/
def elems (q : Queue) : List SNode := (List.range q.length).map fun k => q.nodes.getD ((q.front + k) % q.nodes.length) zeroNode

/-- The state of a queue that was filled by pushes. -/
structure Good (q : Queue) : Prop where
  len : q.length ≤ q.nodes.length
  front : q.front < q.nodes.length
  rear : q.rear = (q.front + q.length) % q.nodes.length

theorem mod_wrap {a c : Nat} (h : a < 2 * c) : a % c = if a < c then a else a - c := by
  split
  · exact Nat.mod_eq_of_lt (by assumption)
  · rw [Nat.mod_eq_sub_mod (by omega), Nat.mod_eq_of_lt (by omega)]

theorem elems_length (q : Queue) : (elems q).length = q.length := by simp [elems]

/-- C152: an element pushed on a queue that is not full stands behind the others; nothing else changes. -/
theorem C152_push (q : Queue) (hg : Good q) (h : q.length < q.nodes.length) (x : SNode) :
    ∃ q', qpush q x = some q' ∧ Good q' ∧ elems q' = elems q ++ [x] ∧ q'.nodes.length = q.nodes.length := by
  obtain ⟨h1, h2, h3⟩ := hg
  have hr : q.rear < q.nodes.length := by rw [h3]; exact Nat.mod_lt _ (by omega)
  refine ⟨⟨q.front, if q.rear + 1 = q.nodes.length then 0 else q.rear + 1, q.length + 1, q.nodes.set q.rear x⟩, ?_, ?_, ?_, by simp⟩
  · unfold qpush
    rw [if_pos h, if_pos hr]
  · refine ⟨by simp; omega, by simpa using h2, ?_⟩
    simp only [List.length_set]
    rw [mod_wrap (by omega)]
    rw [mod_wrap (by omega)] at h3
    split at h3 <;> split <;> split <;> omega
  · unfold elems
    simp only [List.length_set]
    rw [List.range_succ, List.map_append, List.map_cons, List.map_nil]
    congr 1
    · apply List.map_congr_left
      intro k hk
      rw [List.mem_range] at hk
      have hne : q.rear ≠ (q.front + k) % q.nodes.length := by
        rw [h3, mod_wrap (by omega), mod_wrap (by omega)]
        split <;> split <;> omega
      simp only [List.getD_eq_getElem?_getD, List.getElem?_set_ne hne]
    · rw [← h3]
      simp [List.getD_eq_getElem?_getD, hr]

/-- C152: the element taken from a queue is the first. -/
theorem C152_pop (q : Queue) (hg : Good q) (x : SNode) (t : List SNode) (h : elems q = x :: t) :
    ∃ q', qpop q = some (x, q') ∧ Good q' ∧ elems q' = t ∧ q'.nodes.length = q.nodes.length := by
  obtain ⟨h1, h2, h3⟩ := hg
  have hl : q.length = t.length + 1 := by rw [← elems_length, h]; rfl
  have hx : q.nodes[q.front]? = some x := by
    unfold elems at h
    rw [hl, List.range_succ_eq_map, List.map_cons] at h
    simp only [List.cons.injEq] at h
    obtain ⟨h, _⟩ := h
    rw [Nat.add_zero, Nat.mod_eq_of_lt h2, List.getD_eq_getElem?_getD, List.getElem?_eq_getElem h2, Option.getD_some] at h
    rw [List.getElem?_eq_getElem h2, h]
  refine ⟨⟨if q.front + 1 = q.nodes.length then 0 else q.front + 1, q.rear, q.length - 1, q.nodes⟩, ?_, ⟨?_, ?_, ?_⟩, ?_, rfl⟩
  · unfold qpop
    rw [if_pos (by omega), hx]
  · simp only; omega
  · simp only; split <;> omega
  · simp only
    rw [h3, mod_wrap (by omega), mod_wrap (by split <;> omega)]
    split <;> split <;> split <;> omega
  · unfold elems at h ⊢
    rw [hl, List.range_succ_eq_map, List.map_cons] at h
    simp only [List.cons.injEq] at h
    rw [← h.2]
    simp only [hl, Nat.add_sub_cancel, List.map_map]
    apply List.map_congr_left
    intro k hk
    rw [List.mem_range] at hk
    simp only [Function.comp_apply]
    congr 1
    rw [mod_wrap (by split <;> omega), mod_wrap (by omega)]
    split <;> split <;> split <;> omega

theorem qinner_pass (H : Bytes → Bytes) (thr : Nat) : ∀ (fuel : Nat) (rem out : List SNode) (j t : Nat) (q : Queue), Good q →
    elems q = rem ++ out → t = j + rem.length → rem.length ≤ fuel →
    (pass H thr rem = none → qinner H thr fuel j t rem.length q = none) ∧
    (∀ r, pass H thr rem = some r → ∃ q', qinner H thr fuel j t rem.length q = some q' ∧ Good q' ∧ elems q' = out ++ r) := by
  intro fuel
  induction fuel with
  | zero =>
    intro rem out j t q hg he ht hf
    have : rem = [] := List.length_eq_zero_iff.mp (by omega)
    subst this
    refine ⟨fun h => by simp [pass] at h, fun r h => ⟨q, rfl, hg, ?_⟩⟩
    simp [pass] at h
    subst h; simpa using he
  | succ fuel ih =>
    intro rem out j t q hg he ht hf
    match rem, he, ht, hf with
    | [], he, ht, hf =>
      refine ⟨fun h => by simp [pass] at h, fun r h => ⟨q, ?_, hg, ?_⟩⟩
      · rw [qinner, if_neg (by simp at ht; omega)]
      · simp [pass] at h
        subst h; simpa using he
    | [l], he, ht, hf =>
      obtain ⟨q1, e1, g1, s1, n1⟩ := C152_pop q hg l out he
      obtain ⟨q2, e2, g2, s2, n2⟩ := C152_push q1 g1 (by
        have := hg.len
        rw [← elems_length, he] at this
        rw [← elems_length, s1, n1]; simp at this; omega) l
      refine ⟨fun h => by simp [pass] at h, fun r h => ?_⟩
      simp [pass] at h
      subst h
      have := (ih [] (out ++ [l]) (j + 1) t q2 g2 (by rw [s2, s1]; rfl) (by simp at ht ⊢; omega) (by simp)).2 [] (by simp [pass])
      obtain ⟨q3, e3, g3, s3⟩ := this
      refine ⟨q3, ?_, g3, by simpa using s3⟩
      rw [qinner, if_pos (by simp at ht; omega), e1]
      simp only [Option.bind_some, List.length_cons, List.length_nil]
      rw [if_neg (by omega), if_neg (by omega), e2]
      simpa using e3
    | l :: r :: rest, he, ht, hf =>
      obtain ⟨q1, e1, g1, s1, n1⟩ := C152_pop q hg l (r :: rest ++ out) he
      have hlen : (r :: rest ++ out).length < q.nodes.length := by
        have := hg.len
        rw [← elems_length, he] at this
        simp at this ⊢; omega
      rw [qinner, if_pos (by simp at ht; omega), e1]
      simp only [Option.bind_some, List.length_cons]
      rw [if_neg (by omega), pass]
      by_cases hc : l.level ≤ thr
      · rw [if_pos hc, if_pos (show l.level ≤ thr ∧ rest.length + 1 + 1 - 1 > 0 from ⟨hc, by omega⟩)]
        obtain ⟨q2, e2, g2, s2, n2⟩ := C152_pop q1 g1 r (rest ++ out) s1
        rw [e2]
        simp only [Option.bind_some]
        cases hx : concat H l r with
        | none => exact ⟨fun _ => by simp, fun r h => by simp at h⟩
        | some x =>
          simp only [Option.bind_some]
          rw [if_neg (by omega)]
          obtain ⟨q3, e3, g3, s3, n3⟩ := C152_push q2 g2 (by
            rw [← elems_length, s2, n2, n1]; simp at hlen ⊢; omega) x
          rw [e3]
          simp only [Option.bind_some]
          have := ih rest (out ++ [x]) (j + 2) t q3 g3 (by rw [s3, s2, List.append_assoc]) (by simp at ht ⊢; omega)
            (by simp at hf; omega)
          rw [show rest.length + 1 + 1 - 2 = rest.length by omega]
          refine ⟨fun h => this.1 (by simpa using h), fun r' h => ?_⟩
          simp only [Option.map_eq_some_iff] at h
          obtain ⟨r0, h0, rfl⟩ := h
          obtain ⟨q4, e4, g4, s4⟩ := this.2 r0 h0
          exact ⟨q4, e4, g4, by simp [s4]⟩
      · rw [if_neg hc, if_neg (show ¬(l.level ≤ thr ∧ rest.length + 1 + 1 - 1 > 0) from fun h => hc h.1)]
        obtain ⟨q2, e2, g2, s2, n2⟩ := C152_push q1 g1 (by rw [← elems_length, s1, n1]; exact hlen) l
        rw [e2]
        simp only [Option.bind_some]
        have := ih (r :: rest) (out ++ [l]) (j + 1) t q2 g2 (by rw [s2, s1]; simp) (by simp at ht ⊢; omega)
          (by simp at hf ⊢; omega)
        rw [show rest.length + 1 + 1 - 1 = (r :: rest).length by simp]
        refine ⟨fun h => this.1 (by simpa using h), fun r' h => ?_⟩
        simp only [Option.map_eq_some_iff] at h
        obtain ⟨r0, h0, rfl⟩ := h
        obtain ⟨q4, e4, g4, s4⟩ := this.2 r0 h0
        exact ⟨q4, e4, g4, by simp [s4]⟩

theorem qrounds_rounds (H : Bytes → Bytes) : ∀ (n thr : Nat) (q : Queue), Good q →
    (rounds H n thr (elems q) = none → qrounds H n thr q = none) ∧
    (∀ r, rounds H n thr (elems q) = some r → ∃ q', qrounds H n thr q = some q' ∧ Good q' ∧ elems q' = r) := by
  intro n
  induction n with
  | zero => intro thr q hg; exact ⟨fun h => by simp [rounds] at h, fun r h => ⟨q, rfl, hg, by simpa [rounds] using h⟩⟩
  | succ n ih =>
    intro thr q hg
    obtain ⟨h1, h2⟩ := qinner_pass H thr q.length (elems q) [] 0 q.length q hg (by simp) (by simp [elems_length])
      (by simp [elems_length])
    rw [elems_length] at h1 h2
    rw [rounds, qrounds]
    cases hp : pass H thr (elems q) with
    | none => rw [h1 hp]; exact ⟨fun _ => rfl, fun r h => by simp at h⟩
    | some r =>
      obtain ⟨q', e, g, s⟩ := h2 r hp
      rw [e]
      simp only [Option.bind_some]
      rw [List.nil_append] at s
      have := ih (thr + 1) q' g
      rw [s] at this
      exact this

theorem qpushAll_elems : ∀ (l : List SNode) (q : Queue), Good q → q.length + l.length ≤ q.nodes.length →
    ∃ q', qpushAll q l = some q' ∧ Good q' ∧ elems q' = elems q ++ l ∧ q'.nodes.length = q.nodes.length := by
  intro l
  induction l with
  | nil => intro q hg _; exact ⟨q, rfl, hg, by simp, rfl⟩
  | cons x t ih =>
    intro q hg h
    simp at h
    obtain ⟨q1, e1, g1, s1, n1⟩ := C152_push q hg (by omega) x
    have hl : q1.length = q.length + 1 := by rw [← elems_length, s1]; simp [elems_length]
    obtain ⟨q2, e2, g2, s2, n2⟩ := ih q1 g1 (by omega)
    exact ⟨q2, by rw [qpushAll, e1]; exact e2, g2, by rw [s2, s1]; simp, by omega⟩

/-- The array of a queue filled from the start is the list of its elements. -/
theorem nodes_full {q : Queue} (h0 : q.front = 0) (hl : q.length = q.nodes.length) : q.nodes = elems q := by
  apply List.ext_getElem
  · simp [elems, hl]
  · intro i h1 h2
    simp [elems, h0, Nat.mod_eq_of_lt h1, h1]

theorem qpushAll_front : ∀ (l : List SNode) (q q' : Queue), qpushAll q l = some q' → q'.front = q.front := by
  intro l
  induction l with
  | nil => intro q q' h; simp [qpushAll] at h; rw [h]
  | cons x t ih =>
    intro q q' h
    rw [qpushAll] at h
    cases hp : qpush q x with
    | none => simp [hp] at h
    | some q1 =>
      rw [hp] at h
      have := ih q1 q' h
      rw [this]
      unfold qpush at hp
      split at hp
      · split at hp
        · simp at hp; rw [← hp]
        · simp at hp
      · simp at hp

/-- **C152**: `calculate` with the circular queue gives the root and the leaf count exactly when the computation on lists does, and
the same ones; it never runs over the array. -/
theorem C152_calculate (H : Bytes → Bytes) (l : List SNode) : qcalculate H l = calculate H l := by
  by_cases hne : l = []
  · subst hne
    rw [qcalculate, calculate]
    have h0 : halvings 0 = 0 := by rw [halvings]; rfl
    simp [qof, qpushAll, h0, qrounds, qinner, rounds, pass]
  · have hpos : 0 < l.length := List.length_pos_iff.mpr hne
    have hg : Good ⟨0, 0, 0, List.replicate l.length zeroNode⟩ :=
      ⟨Nat.zero_le _, by simpa using hpos, by simp⟩
    obtain ⟨q, e, g, s, n⟩ := qpushAll_elems l _ hg (by simp)
    have hs : elems q = l := by rw [s]; simp [elems]
    have hn : q.nodes = l := by
      rw [nodes_full (qpushAll_front _ _ _ e) (by rw [← elems_length, hs, n]; simp), hs]
    unfold qcalculate calculate qof
    rw [e]
    simp only [Option.bind_some, hn]
    split
    · rfl
    · obtain ⟨h1, h2⟩ := qrounds_rounds H (1 + halvings (l.map (·.cnt)).sum) 1 q g
      rw [hs] at h1 h2
      cases hr : rounds H (1 + halvings (l.map (·.cnt)).sum) 1 l with
      | none => rw [h1 hr]; rfl
      | some r =>
        obtain ⟨q', e', g', s'⟩ := h2 r hr
        rw [e']
        simp only [Option.bind_some]
        have hl' : q'.length = r.length := by rw [← elems_length, s']
        match r, s', hl' with
        | [], _, hl' => rw [if_neg (by simp at hl'; omega)]
        | [x], s', hl' =>
          rw [if_pos (by simpa using hl')]
          obtain ⟨q'', e'', _⟩ := C152_pop q' g' x [] s'
          rw [e'']
          rfl
        | _ :: _ :: _, _, hl' => rw [if_neg (by simp at hl'; omega)]

/-! ### examples -/

example : qcalculate (fun b => b.take 1) [⟨1, 1, [1]⟩, ⟨1, 1, [2]⟩, ⟨1, 1, [3]⟩] = some ([1], 3) := by decide +kernel
example : (qof [⟨1, 1, [1]⟩, ⟨1, 1, [2]⟩]).map elems = some [⟨1, 1, [1]⟩, ⟨1, 1, [2]⟩] := by decide +kernel
example : ((qof [⟨1, 1, [1]⟩, ⟨1, 1, [2]⟩]).bind qpop).map (fun p => (p.1, elems p.2)) = some (⟨1, 1, [1]⟩, [⟨1, 1, [2]⟩]) := by
  decide +kernel

end Verif.SolProof
