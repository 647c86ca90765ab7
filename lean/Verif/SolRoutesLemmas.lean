import Verif.SolRoutes
/-!
Lemmas for the Solidity management contract: array removal, route entries, and the consistency invariant.
-/
namespace Verif.SolRoutes
open Verif
open Verif.SolBmc (upd)

theorem swapRemove_perm {α : Type} [DecidableEq α] : ∀ (l : List α) (x : α), x ∈ l → (x :: swapRemove l x).Perm l
  | [], x, h => by simp at h
  | a :: t, x, h => by
    simp only [swapRemove]
    by_cases e : a = x
    · subst e
      rw [if_pos rfl]
      cases ht : t.getLast? with
      | none =>
        rw [List.getLast?_eq_none_iff] at ht
        subst ht
        exact List.Perm.refl _
      | some z =>
        dsimp only
        apply List.Perm.cons
        obtain ⟨ys, rfl⟩ := List.getLast?_eq_some_iff.1 ht
        rw [List.dropLast_concat]
        exact (List.perm_append_comm (l₁ := [z]) (l₂ := ys))
    · rw [if_neg e]
      have hx : x ∈ t := by
        rcases List.mem_cons.1 h with h | h
        · exact absurd h.symm e
        · exact h
      exact (List.Perm.swap a x _).trans ((swapRemove_perm t x hx).cons a)

theorem swapRemove_not_mem {α : Type} [DecidableEq α] : ∀ (l : List α) (x : α), x ∉ l → swapRemove l x = l
  | [], _, _ => rfl
  | a :: t, x, h => by
    simp only [swapRemove]
    rw [if_neg (fun e : a = x => h (e ▸ List.mem_cons_self ..)), swapRemove_not_mem t x (fun hx => h (List.mem_cons_of_mem _ hx))]

theorem swapRemove_subset {α : Type} [DecidableEq α] (l : List α) (x y : α) (h : y ∈ swapRemove l x) : y ∈ l := by
  by_cases hx : x ∈ l
  · exact (swapRemove_perm l x hx).mem_iff.1 (List.mem_cons_of_mem _ h)
  · rwa [swapRemove_not_mem l x hx] at h

theorem swapRemove_nodup {α : Type} [DecidableEq α] (l : List α) (x : α) (h : l.Nodup) :
    (swapRemove l x).Nodup ∧ x ∉ swapRemove l x ∧ ∀ y, y ∈ swapRemove l x ↔ (y ∈ l ∧ y ≠ x) := by
  by_cases hx : x ∈ l
  · have hp := swapRemove_perm l x hx
    have hn : (x :: swapRemove l x).Nodup := hp.nodup_iff.2 h
    rw [List.nodup_cons] at hn
    refine ⟨hn.2, hn.1, fun y => ⟨fun hy => ⟨hp.mem_iff.1 (List.mem_cons_of_mem _ hy), fun e => hn.1 (e ▸ hy)⟩, fun hy => ?_⟩⟩
    rcases List.mem_cons.1 (hp.mem_iff.2 hy.1) with e | e
    · exact absurd e hy.2
    · exact e
  · rw [swapRemove_not_mem l x hx]
    exact ⟨h, hx, fun y => ⟨fun hy => ⟨hy, fun e => hx (e ▸ hy)⟩, fun hy => hy.1⟩⟩

theorem remove_some {α : Type} [DecidableEq α] {l r : List α} {x : α} (h : remove l x = some r) : l ≠ [] ∧ r = swapRemove l x := by
  unfold remove at h
  split at h
  · cases h
  · rename_i hl; exact ⟨hl, (Option.some.inj h).symm⟩

theorem upd_self {K V : Type} [DecidableEq K] (f : K → V) (k : K) (v : V) : upd f k v k = v := by simp [upd]
theorem upd_ne {K V : Type} [DecidableEq K] (f : K → V) {k x : K} (v : V) (h : x ≠ k) : upd f k v x = f x := by simp [upd, h]
theorem upd_upd {K V : Type} [DecidableEq K] (f : K → V) (k : K) (v w : V) : upd (upd f k v) k w = upd f k w := by
  funext x; unfold upd; split <;> rfl

variable (na : String → Option String)

/-- What `_removeRouteInfo` does, when it does not revert. -/
theorem rri_cases {s s' : St} {dst link : String} {b : Bool} (h : removeRouteInfo na s dst b link = some s') :
    (b = true → (s.route dst).reachable > 0) ∧
    (((s.route dst).reachable - (if b then 1 else 0) > 0 ∧ ∃ nx,
        ((b = false ∨ (s.route dst).next = link) ∧ resolveReach na s.reach dst s.links = some nx ∨
          b = true ∧ (s.route dst).next ≠ link ∧ nx = (s.route dst).next) ∧
        s' = { s with route := upd s.route dst ⟨nx, (s.route dst).reachable - (if b then 1 else 0), if b then (s.route dst).type else .reachable⟩ }) ∨
     ((s.route dst).reachable - (if b then 1 else 0) = 0 ∧ s.routes ≠ [] ∧
        s' = { s with route := upd s.route dst RI.empty, routes := swapRemove s.routes dst, fee := upd s.fee dst [] })) := by
  unfold removeRouteInfo at h
  split at h
  · cases h
  rename_i hz
  dsimp only at h
  cases b with
  | true =>
    have hpos : (s.route dst).reachable > 0 := by
      apply Nat.pos_of_ne_zero; intro e; exact hz ⟨rfl, e⟩
    refine ⟨fun _ => hpos, ?_⟩
    simp only [if_true, upd_self, not_true_eq_false, false_or, if_false] at h ⊢
    split at h
    · rename_i hk
      left
      refine ⟨hk, ?_⟩
      by_cases hn : (s.route dst).next = link
      · rw [if_pos hn] at h
        cases hr : resolveReach na s.reach dst s.links with
        | none => rw [hr] at h; simp at h
        | some nx =>
          rw [hr] at h
          simp only [Option.map_some, Option.some.injEq] at h
          exact ⟨nx, Or.inl ⟨Or.inr hn, rfl⟩, by rw [← h, upd_upd]⟩
      · rw [if_neg hn] at h
        simp only [Option.some.injEq] at h
        exact ⟨_, Or.inr ⟨trivial, hn, rfl⟩, h.symm⟩
    · rename_i hk
      right
      cases hr : remove s.routes dst with
      | none => rw [hr] at h; cases h
      | some r =>
        rw [hr] at h
        simp only [Option.some.injEq] at h
        obtain ⟨h1, h2⟩ := remove_some hr
        exact ⟨by omega, h1, by rw [← h, upd_upd, h2]⟩
  | false =>
    refine ⟨fun e => Bool.noConfusion e, ?_⟩
    simp only [Bool.false_eq_true, if_false, not_false_eq_true, true_or, if_true, Nat.sub_zero] at h ⊢
    split at h
    · rename_i hk
      left
      refine ⟨hk, ?_⟩
      cases hr : resolveReach na s.reach dst s.links with
      | none => rw [hr] at h; simp at h
      | some nx =>
        rw [hr] at h
        simp only [Option.map_some, Option.some.injEq, upd_upd, upd_self] at h
        exact ⟨nx, Or.inl ⟨trivial, rfl⟩, h.symm⟩
    · rename_i hk
      right
      cases hr : remove s.routes dst with
      | none => rw [hr] at h; cases h
      | some r =>
        rw [hr] at h
        simp only [Option.some.injEq] at h
        obtain ⟨h1, h2⟩ := remove_some hr
        exact ⟨by omega, h1, by rw [← h, h2]⟩

/-- When `_removeRouteInfo` cannot revert. -/
theorem rri_exists (s : St) (dst link : String) (b : Bool) (h1 : b = true → (s.route dst).reachable > 0)
    (h2 : (s.route dst).reachable - (if b then 1 else 0) > 0 → (resolveReach na s.reach dst s.links).isSome)
    (h3 : s.routes ≠ []) : ∃ s', removeRouteInfo na s dst b link = some s' := by
  unfold removeRouteInfo
  have hz : ¬ (b = true ∧ (s.route dst).reachable = 0) := fun ⟨hb, e⟩ => by have := h1 hb; omega
  rw [if_neg hz]
  have hrem : remove s.routes dst = some (swapRemove s.routes dst) := by unfold remove; rw [if_neg h3]
  cases b with
  | true =>
    simp only [if_true, upd_self, not_true_eq_false, false_or, if_false] at h2 ⊢
    by_cases hk : (s.route dst).reachable - 1 > 0
    · rw [if_pos hk]
      obtain ⟨nx, hnx⟩ := Option.isSome_iff_exists.1 (h2 hk)
      by_cases hn : (s.route dst).next = link
      · rw [if_pos hn, hnx]; exact ⟨_, rfl⟩
      · rw [if_neg hn]; exact ⟨_, rfl⟩
    · rw [if_neg hk, hrem]; exact ⟨_, rfl⟩
  | false =>
    simp only [Bool.false_eq_true, if_false, not_false_eq_true, true_or, if_true, Nat.sub_zero] at h2 ⊢
    by_cases hk : (s.route dst).reachable > 0
    · rw [if_pos hk]
      obtain ⟨nx, hnx⟩ := Option.isSome_iff_exists.1 (h2 hk)
      rw [hnx]; exact ⟨_, rfl⟩
    · rw [if_neg hk, hrem]; exact ⟨_, rfl⟩

/-- Link `l` reports network `n` as reachable. -/
def rep (s : St) (n l : String) : Bool := decide (some n ∈ (s.reach l).map na)

theorem findNet_eq (dst : String) : ∀ (l : List String), (∀ r ∈ l, na r ≠ none) → findNet na dst l = some (decide (some dst ∈ l.map na))
  | [], _ => by simp [findNet]
  | r :: t, h => by
    simp only [findNet]
    cases hr : na r with
    | none => exact absurd hr (h r (List.mem_cons_self ..))
    | some n =>
      simp only [List.map_cons, hr, List.mem_cons, Option.some.injEq]
      by_cases e : n = dst
      · subst e; simp
      · rw [if_neg e, findNet_eq dst t (fun x hx => h x (List.mem_cons_of_mem _ hx))]
        have : ¬ dst = n := fun x => e x.symm
        simp [this]

theorem resolveReach_some {s : St} {dst nx : String} : ∀ {ls : List String}, (∀ l ∈ ls, ∀ r ∈ s.reach l, na r ≠ none) →
    resolveReach na s.reach dst ls = some nx → nx ∈ ls ∧ rep na s dst nx = true
  | [], _, h => by simp [resolveReach] at h
  | l :: t, hp, h => by
    simp only [resolveReach] at h
    rw [findNet_eq na dst _ (hp l (List.mem_cons_self ..))] at h
    by_cases e : some dst ∈ (s.reach l).map na
    · rw [decide_eq_true e] at h
      simp only [Option.some.injEq] at h
      subst h
      exact ⟨List.mem_cons_self .., by simp only [rep]; exact decide_eq_true e⟩
    · rw [decide_eq_false e] at h
      have := resolveReach_some (fun l hl => hp l (List.mem_cons_of_mem _ hl)) h
      exact ⟨List.mem_cons_of_mem _ this.1, this.2⟩

theorem resolveReach_exists {s : St} {dst : String} : ∀ {ls : List String}, (∀ l ∈ ls, ∀ r ∈ s.reach l, na r ≠ none) →
    ls.countP (rep na s dst) > 0 → (resolveReach na s.reach dst ls).isSome
  | [], _, h => by simp at h
  | l :: t, hp, h => by
    simp only [resolveReach]
    rw [findNet_eq na dst _ (hp l (List.mem_cons_self ..))]
    by_cases e : some dst ∈ (s.reach l).map na
    · rw [decide_eq_true e]; rfl
    · rw [decide_eq_false e]
      apply resolveReach_exists (fun l hl => hp l (List.mem_cons_of_mem _ hl))
      have hr : rep na s dst l = false := decide_eq_false e
      rw [List.countP_cons_of_neg (by simp [hr])] at h
      exact h

/-- Consistency of the tables. `gone` is a link that is being removed (or whose list is being changed) and `rem` the entries of
    its list that are no longer in the tables but still counted. -/
structure Tab (s : St) (gone : Option String) (rem : List String) : Prop where
  nd : s.links.Nodup
  lk : ∀ l ∈ s.links, s.isLink l = true ∧ ∃ n, na l = some n ∧ (s.route n).type = .link ∧ (s.route n).next = l
  tl : ∀ n, (s.route n).type = .link → (s.route n).next ∈ s.links ∧ na (s.route n).next = some n ∧ (s.route n).reachable = 0
  il : ∀ l, s.isLink l = true → l ∈ s.links ∨ gone = some l
  mn : ∀ n, (s.route n).type = .manual → (s.route n).next ∈ s.links
  ct : ∀ n, (s.route n).reachable = s.links.countP (rep na s n) + (if some n ∈ rem.map na then 1 else 0)
  rt : ∀ n, (s.route n).type = .reachable →
    ((s.route n).next ∈ s.links ∧ rep na s n (s.route n).next = true) ∨ (gone = some (s.route n).next ∧ some n ∈ rem.map na)
  no : ∀ n, n ∈ s.routes ↔ (s.route n).type ≠ .none
  nr : s.routes.Nodup
  ze : ∀ n, (s.route n).type = .none → s.route n = RI.empty
  ps : ∀ l ∈ s.links, ∀ r ∈ s.reach l, na r ≠ none
  pr : ∀ r ∈ rem, na r ≠ none
  un : ∀ l ∈ s.links, ((s.reach l).map na).Nodup
  ur : (rem.map na).Nodup
  em : ∀ l, l ∉ s.links → gone ≠ some l → s.reach l = []

theorem init_tab (creator : Nat) : Tab na (init creator) none [] where
  nd := List.nodup_nil
  lk := fun l h => by simp [init] at h
  tl := fun n h => by simp [init, RI.empty] at h
  il := fun l h => by simp [init] at h
  mn := fun n h => by simp [init, RI.empty] at h
  ct := fun n => by simp [init, RI.empty]
  rt := fun n h => by simp [init, RI.empty] at h
  no := fun n => by simp [init, RI.empty]
  nr := List.nodup_nil
  ze := fun n _ => rfl
  ps := fun l h => by simp [init] at h
  pr := fun r h => by simp at h
  un := fun l h => by simp [init] at h
  ur := List.nodup_nil
  em := fun l _ _ => rfl

/-- The removal of one entry keeps the tables consistent, and cannot fail. -/
theorem tab_drop {s : St} {g r n : String} {rem : List String} (T : Tab na s (some g) (r :: rem)) (hr : na r = some n) :
    (∃ s', removeRouteInfo na s n true g = some s') ∧
    ∀ s', removeRouteInfo na s n true g = some s' → Tab na s' (some g) rem ∧ s'.links = s.links ∧ s'.reach = s.reach ∧ s'.isLink = s.isLink := by
  have hcount := T.ct n
  rw [if_pos (by simp [hr])] at hcount
  have hnot : some n ∉ rem.map na := by
    have := T.ur
    rw [List.map_cons, List.nodup_cons, hr] at this
    exact this.1
  have htl : (s.route n).type ≠ .link := fun e => by have := (T.tl n e).2.2; omega
  have htn : (s.route n).type ≠ .none := fun e => by
    have := T.ze n e; rw [this] at hcount; simp [RI.empty] at hcount
  have hmem : n ∈ s.routes := (T.no n).2 htn
  have hothers : ∀ m, m ≠ n → (some m ∈ (r :: rem).map na ↔ some m ∈ rem.map na) := by
    intro m hm
    rw [List.map_cons, List.mem_cons, hr]
    constructor
    · rintro (h | h)
      · exact absurd (Option.some.inj h) hm
      · exact h
    · exact Or.inr
  constructor
  · apply rri_exists na s n g true (fun _ => by omega)
    · intro hk
      apply resolveReach_exists na T.ps
      simp only [if_true] at hk
      omega
    · exact fun e => by rw [e] at hmem; simp at hmem
  · intro s' h
    obtain ⟨-, h⟩ := rri_cases na h
    simp only [if_true] at h
    rcases h with ⟨hk, nx, hnx, rfl⟩ | ⟨hk, -, rfl⟩
    · have hnx' : nx ∈ s.links ∧ ((s.route n).type = .reachable → rep na s n nx = true) := by
        rcases hnx with ⟨-, h⟩ | ⟨-, h1, h2⟩
        · have := resolveReach_some na T.ps h
          exact ⟨this.1, fun _ => this.2⟩
        · subst h2
          cases ht : (s.route n).type with
          | none => exact absurd ht htn
          | link => exact absurd ht htl
          | manual => exact ⟨T.mn n ht, fun h => by cases h⟩
          | reachable =>
            rcases T.rt n ht with h | h
            · exact ⟨h.1, fun _ => h.2⟩
            · exact absurd (Option.some.inj h.1).symm h1
      refine ⟨?_, rfl, rfl, rfl⟩
      constructor
      · exact T.nd
      · intro l hl
        obtain ⟨h1, m, h2, h3, h4⟩ := T.lk l hl
        have hm : m ≠ n := fun e => htl (e ▸ h3)
        exact ⟨h1, m, h2, by simp only [upd_ne _ _ hm]; exact h3, by simp only [upd_ne _ _ hm]; exact h4⟩
      · intro m
        by_cases hm : m = n
        · subst hm; simp only [upd_self]; intro e; exact absurd e htl
        · simp only [upd_ne _ _ hm]; exact T.tl m
      · exact T.il
      · intro m
        by_cases hm : m = n
        · subst hm; simp only [upd_self]; intro _; exact hnx'.1
        · simp only [upd_ne _ _ hm]; exact T.mn m
      · intro m
        by_cases hm : m = n
        · subst hm
          simp only [upd_self]
          rw [if_neg hnot]
          show (s.route m).reachable - 1 = s.links.countP (rep na s m) + 0
          omega
        · simp only [upd_ne _ _ hm]
          have := T.ct m
          simp only [hothers m hm] at this
          exact this
      · intro m
        by_cases hm : m = n
        · subst hm; simp only [upd_self]; intro e; exact Or.inl ⟨hnx'.1, hnx'.2 e⟩
        · simp only [upd_ne _ _ hm]
          intro e
          rcases T.rt m e with h | h
          · exact Or.inl h
          · exact Or.inr ⟨h.1, (hothers m hm).1 h.2⟩
      · intro m
        by_cases hm : m = n
        · subst hm; simp only [upd_self]; exact ⟨fun _ => htn, fun _ => hmem⟩
        · simp only [upd_ne _ _ hm]; exact T.no m
      · exact T.nr
      · intro m
        by_cases hm : m = n
        · subst hm; simp only [upd_self]; intro e; exact absurd e htn
        · simp only [upd_ne _ _ hm]; exact T.ze m
      · exact T.ps
      · exact fun x hx => T.pr x (List.mem_cons_of_mem _ hx)
      · exact T.un
      · have := T.ur; rw [List.map_cons, List.nodup_cons] at this; exact this.2
      · exact T.em
    · have hsr := swapRemove_nodup s.routes n T.nr
      refine ⟨?_, rfl, rfl, rfl⟩
      constructor
      · exact T.nd
      · intro l hl
        obtain ⟨h1, m, h2, h3, h4⟩ := T.lk l hl
        have hm : m ≠ n := fun e => htl (e ▸ h3)
        exact ⟨h1, m, h2, by simp only [upd_ne _ _ hm]; exact h3, by simp only [upd_ne _ _ hm]; exact h4⟩
      · intro m
        by_cases hm : m = n
        · subst hm; simp only [upd_self]; intro e; cases e
        · simp only [upd_ne _ _ hm]; exact T.tl m
      · exact T.il
      · intro m
        by_cases hm : m = n
        · subst hm; simp only [upd_self]; intro e; cases e
        · simp only [upd_ne _ _ hm]; exact T.mn m
      · intro m
        by_cases hm : m = n
        · subst hm
          simp only [upd_self]
          rw [if_neg hnot]
          show 0 = s.links.countP (rep na s m) + 0
          omega
        · simp only [upd_ne _ _ hm]
          have := T.ct m
          simp only [hothers m hm] at this
          exact this
      · intro m
        by_cases hm : m = n
        · subst hm; simp only [upd_self]; intro e; cases e
        · simp only [upd_ne _ _ hm]
          intro e
          rcases T.rt m e with h | h
          · exact Or.inl h
          · exact Or.inr ⟨h.1, (hothers m hm).1 h.2⟩
      · intro m
        by_cases hm : m = n
        · subst hm; simp only [upd_self]; exact ⟨fun h => absurd h hsr.2.1, fun h => absurd rfl h⟩
        · simp only [upd_ne _ _ hm]; rw [← T.no m]; exact ⟨fun h => ((hsr.2.2 m).1 h).1, fun h => (hsr.2.2 m).2 ⟨h, hm⟩⟩
      · exact hsr.1
      · intro m
        by_cases hm : m = n
        · subst hm; simp only [upd_self]; intro _; trivial
        · simp only [upd_ne _ _ hm]; exact T.ze m
      · exact T.ps
      · exact fun x hx => T.pr x (List.mem_cons_of_mem _ hx)
      · exact T.un
      · have := T.ur; rw [List.map_cons, List.nodup_cons] at this; exact this.2
      · exact T.em

theorem tab_dropAll {g : String} : ∀ (rem : List String) (s : St), Tab na s (some g) rem →
    (∃ s', removeAll na g rem s = some s') ∧
    ∀ s', removeAll na g rem s = some s' → Tab na s' (some g) [] ∧ s'.links = s.links ∧ s'.reach = s.reach ∧ s'.isLink = s.isLink
  | [], s, T => ⟨⟨s, rfl⟩, fun s' h => by simp only [removeAll, Option.some.injEq] at h; subst h; exact ⟨T, rfl, rfl, rfl⟩⟩
  | r :: t, s, T => by
    cases hr : na r with
    | none => exact absurd hr (T.pr r (List.mem_cons_self ..))
    | some n =>
      have hd := tab_drop na T hr
      obtain ⟨⟨s1, h1⟩, h2⟩ := hd
      obtain ⟨T1, e1, e2, e3⟩ := h2 s1 h1
      obtain ⟨⟨s2, h3⟩, h4⟩ := tab_dropAll t s1 T1
      have hrun : removeAll na g (r :: t) s = removeAll na g t s1 := by simp only [removeAll, hr, h1]
      rw [hrun]
      refine ⟨⟨s2, h3⟩, fun s' h => ?_⟩
      obtain ⟨a, b, d, e⟩ := h4 s' h
      exact ⟨a, b.trans e1, d.trans e2, e.trans e3⟩

end Verif.SolRoutes
