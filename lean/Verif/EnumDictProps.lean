import Verif.EnumDict
/-!
Property C46: the enumerable dictionary of the ICON BMC contract behaves like a finite map.
-/
namespace Verif.EnumDict
open Verif
open Verif.SolBmc (upd)

variable {K V : Type} [DecidableEq K]

theorem upd_self {A B : Type} [DecidableEq A] (f : A → B) (a : A) (b : B) : upd f a b a = b := by simp [upd]

theorem upd_ne {A B : Type} [DecidableEq A] (f : A → B) {a x : A} (b : B) (h : x ≠ a) : upd f a b x = f x := by simp [upd, h]

/-! ### Specification: a map as a function -/

/-- The specification's result and new map. -/
def specStep (m : K → Option V) : Op K V → (K → Option V) × Option V
  | .put k v => (fun x => if x = k then some v else m x, m k)
  | .remove k => (fun x => if x = k then none else m x, m k)
  | .clear => (fun _ => none, none)

def specRun : (K → Option V) → List (Op K V) → (K → Option V) × List (Option V)
  | m, [] => (m, [])
  | m, o :: t => let r := specRun (specStep m o).1 t; (r.1, (specStep m o).2 :: r.2)

/-- The stores represent the map `m`. -/
structure Rep (s : St K V) (m : K → Option V) : Prop where
  ik : ∀ k i, s.idx k = some i → i < s.vals.length ∧ s.keys i = some k
  ki : ∀ i, i < s.vals.length → ∃ k, s.keys i = some k ∧ s.idx k = some i
  mp : ∀ k, m k = match s.idx k with | none => none | some i => s.vals[i]?

theorem Rep.init : Rep (init : St K V) (fun _ => none) :=
  ⟨fun k i h => by simp [EnumDict.init] at h, fun i h => by simp [EnumDict.init] at h, fun _ => rfl⟩

theorem Rep.getValue {s : St K V} {m : K → Option V} (h : Rep s m) (k : K) : getValue s (s.idx k) = some (m k) := by
  rw [h.mp k]
  cases hi : s.idx k with
  | none => rfl
  | some i =>
    have := (h.ik k i hi).1
    simp [EnumDict.getValue, this]

theorem Rep.put {s : St K V} {m : K → Option V} (h : Rep s m) (k : K) (v : V) :
    ∃ s', put s k v = some (s', m k) ∧ Rep s' (fun x => if x = k then some v else m x) := by
  unfold EnumDict.put
  rw [h.getValue k]
  have hm := h.mp k
  cases hi : s.idx k with
  | none =>
    rw [hi] at hm
    dsimp only at hm
    rw [hm]
    dsimp only
    refine ⟨_, rfl, ⟨fun x i hx => ?_, fun i hlt => ?_, fun x => ?_⟩⟩
    · simp only [List.length_append, List.length_cons, List.length_nil] at hx ⊢
      by_cases e : x = k
      · subst e
        rw [upd_self] at hx
        cases hx
        refine ⟨by omega, by rw [show s.vals.length + (0 + 1) - 1 = s.vals.length by omega, upd_self]⟩
      · rw [upd_ne _ _ e] at hx
        have := h.ik x i hx
        refine ⟨by omega, ?_⟩
        rw [upd_ne _ _ (by omega)]; exact this.2
    · simp only [List.length_append, List.length_cons, List.length_nil] at hlt ⊢
      by_cases e : i = s.vals.length
      · refine ⟨k, by rw [show s.vals.length + (0 + 1) - 1 = i by omega, upd_self], ?_⟩
        rw [upd_self]; congr 1; omega
      · obtain ⟨x, h1, h2⟩ := h.ki i (by omega)
        refine ⟨x, by rw [upd_ne _ _ (by omega)]; exact h1, ?_⟩
        rw [upd_ne _ _ (fun e => by rw [e, hi] at h2; cases h2)]; exact h2
    · dsimp only
      by_cases e : x = k
      · subst e
        rw [if_pos rfl, upd_self]
        simp
      · rw [if_neg e, upd_ne _ _ e, h.mp x]
        cases hx : s.idx x with
        | none => rfl
        | some i =>
          have := (h.ik x i hx).1
          simp only
          rw [List.getElem?_append_left this]
  | some i =>
    rw [hi] at hm
    dsimp only at hm
    have hlt := (h.ik k i hi).1
    have hget : m k = some s.vals[i] := by rw [hm]; simp [hlt]
    rw [hget]
    dsimp only
    refine ⟨_, rfl, ⟨fun x j hx => ?_, fun j hj => ?_, fun x => ?_⟩⟩
    · have := h.ik x j hx
      exact ⟨by simpa using this.1, this.2⟩
    · exact h.ki j (by simpa using hj)
    · dsimp only
      by_cases e : x = k
      · subst e
        rw [if_pos rfl, hi]
        simp [hlt]
      · rw [if_neg e, h.mp x]
        cases hx : s.idx x with
        | none => rfl
        | some j =>
          have hne : i ≠ j := fun e2 => by
            have h1 := (h.ik x j hx).2
            rw [← e2, (h.ik k i hi).2] at h1
            exact e (Option.some.inj h1).symm
          simp [List.getElem?_set_ne hne]

theorem Rep.remove {s : St K V} {m : K → Option V} (h : Rep s m) (k : K) :
    ∃ s', remove s k = some (s', m k) ∧ Rep s' (fun x => if x = k then none else m x) := by
  unfold EnumDict.remove
  rw [h.getValue k]
  have hm := h.mp k
  cases hi : s.idx k with
  | none =>
    rw [hi] at hm
    dsimp only at hm
    rw [hm]
    dsimp only
    refine ⟨_, rfl, ⟨h.ik, h.ki, fun x => ?_⟩⟩
    by_cases e : x = k
    · subst e; simp [hi]
    · rw [if_neg e]; exact h.mp x
  | some i =>
    rw [hi] at hm
    dsimp only at hm
    have hik := h.ik k i hi
    have hlt := hik.1
    have hget : m k = some s.vals[i] := by rw [hm]; simp [hlt]
    rw [hget]
    have hne : s.vals ≠ [] := fun e => by rw [e] at hlt; simp at hlt
    rw [List.getLast?_eq_some_getLast hne]
    dsimp only
    have hlen : s.vals.dropLast.length = s.vals.length - 1 := List.length_dropLast
    -- no two keys share an index
    have hinj : ∀ x j, s.idx x = some j → x ≠ k → j ≠ i := fun x j hx e e2 => by
      have h1 := (h.ik x j hx).2
      rw [e2, hik.2] at h1
      exact e (Option.some.inj h1).symm
    by_cases hlast : i = s.vals.length - 1
    · have hv : (if i ≠ s.vals.dropLast.length then s.vals.dropLast.set i (s.vals.getLast hne) else s.vals.dropLast) = s.vals.dropLast := by
        rw [if_neg (by rw [hlen]; simp [hlast])]
      rw [hv, if_pos (by rw [hlen]; exact hlast)]
      refine ⟨_, rfl, ⟨fun x j hx => ?_, fun j hj => ?_, fun x => ?_⟩⟩
      · dsimp only at hx ⊢
        by_cases e : x = k
        · subst e; rw [upd_self] at hx; cases hx
        · rw [upd_ne _ _ e] at hx
          have hji := hinj x j hx e
          have := h.ik x j hx
          refine ⟨by rw [hlen]; omega, by rw [upd_ne _ _ hji]; exact this.2⟩
      · dsimp only at hj ⊢
        rw [hlen] at hj
        obtain ⟨x, h1, h2⟩ := h.ki j (by omega)
        refine ⟨x, by rw [upd_ne _ _ (by omega)]; exact h1, ?_⟩
        rw [upd_ne _ _ (fun e => by rw [e, hi] at h2; cases h2; omega)]; exact h2
      · dsimp only
        by_cases e : x = k
        · subst e; rw [if_pos rfl, upd_self]
        · rw [if_neg e, upd_ne _ _ e, h.mp x]
          cases hx : s.idx x with
          | none => rfl
          | some j =>
            have hji := hinj x j hx e
            have := (h.ik x j hx).1
            simp only
            rw [List.getElem?_dropLast, if_pos (by omega)]
    · have hv : (if i ≠ s.vals.dropLast.length then s.vals.dropLast.set i (s.vals.getLast hne) else s.vals.dropLast) =
          s.vals.dropLast.set i (s.vals.getLast hne) := by
        rw [if_pos (by rw [hlen]; exact hlast)]
      rw [hv]
      have hsl : (s.vals.dropLast.set i (s.vals.getLast hne)).length = s.vals.length - 1 := by rw [List.length_set, hlen]
      rw [if_neg (by rw [hsl]; exact hlast)]
      obtain ⟨lk, hk1, hk2⟩ := h.ki (s.vals.length - 1) (by omega)
      rw [hsl, hk1]
      dsimp only
      have hlk : lk ≠ k := fun e => by rw [e, hi] at hk2; cases hk2; exact hlast rfl
      have hlk' : ∀ x j, s.idx x = some j → x ≠ lk → j ≠ s.vals.length - 1 := fun x j hx e e2 => by
        have h1 := (h.ik x j hx).2
        rw [e2, hk1] at h1
        exact e (Option.some.inj h1).symm
      refine ⟨_, rfl, ⟨fun x j hx => ?_, fun j hj => ?_, fun x => ?_⟩⟩
      · dsimp only at hx ⊢
        rw [hsl]
        by_cases e : x = lk
        · subst e
          rw [upd_self] at hx
          cases hx
          exact ⟨by omega, upd_self ..⟩
        · rw [upd_ne _ _ e] at hx
          by_cases e2 : x = k
          · subst e2; rw [upd_self] at hx; cases hx
          · rw [upd_ne _ _ e2] at hx
            have h1 := hinj x j hx e2
            have h2 := hlk' x j hx e
            have := h.ik x j hx
            exact ⟨by omega, by rw [upd_ne _ _ h1]; exact this.2⟩
      · dsimp only at hj ⊢
        rw [hsl] at hj
        by_cases e : j = i
        · subst e; exact ⟨lk, upd_self .., upd_self ..⟩
        · obtain ⟨x, h1, h2⟩ := h.ki j (by omega)
          have hx1 : x ≠ lk := fun e2 => by rw [e2, hk2] at h2; cases h2; omega
          have hx2 : x ≠ k := fun e2 => by rw [e2, hi] at h2; cases h2; exact e rfl
          exact ⟨x, by rw [upd_ne _ _ e]; exact h1, by rw [upd_ne _ _ hx1, upd_ne _ _ hx2]; exact h2⟩
      · dsimp only
        by_cases e : x = lk
        · subst e
          rw [if_neg hlk, upd_self, h.mp x, hk2]
          have : i < s.vals.dropLast.length := by rw [hlen]; omega
          simp only [List.getElem?_set_self this]
          rw [List.getLast_eq_getElem]
          simp
        · rw [upd_ne _ _ e]
          by_cases e2 : x = k
          · subst e2; rw [if_pos rfl, upd_self]
          · rw [if_neg e2, upd_ne _ _ e2, h.mp x]
            cases hx : s.idx x with
            | none => rfl
            | some j =>
              have h1 := hinj x j hx e2
              have h2 := hlk' x j hx e
              have := (h.ik x j hx).1
              simp only
              rw [List.getElem?_set_ne (fun e => h1 e.symm), List.getElem?_dropLast, if_pos (by omega)]

/-- State of `clear` with keys up to `i` gone. -/
theorem clearLoop_ok (n : Nat) : ∀ (i : Nat) (s : St K V), s.vals.length = n →
    (∀ k j, s.idx k = some j → i ≤ j ∧ j < i + n ∧ s.keys j = some k) → (∀ j, i ≤ j → j < i + n → ∃ k, s.keys j = some k ∧ s.idx k = some j) →
    ∃ s', clearLoop n i s = some s' ∧ Rep s' (fun _ => none) := by
  induction n with
  | zero =>
    intro i s hl h1 h2
    refine ⟨s, rfl, ⟨fun k j hk => ?_, fun j hj => by omega, fun k => ?_⟩⟩
    · have := h1 k j hk; omega
    · cases hk : s.idx k with
      | none => rfl
      | some j => have := h1 k j hk; omega
  | succ n ih =>
    intro i s hl h1 h2
    obtain ⟨k, hk1, hk2⟩ := h2 i (by omega) (by omega)
    simp only [clearLoop, hk1]
    apply ih (i + 1)
    · simp [hl]
    · intro x j hx
      dsimp only at hx ⊢
      by_cases e : x = k
      · subst e; rw [upd_self] at hx; cases hx
      · rw [upd_ne _ _ e] at hx
        have := h1 x j hx
        have hji : j ≠ i := fun e2 => by
          rw [e2, hk1] at this
          exact e (Option.some.inj this.2.2).symm
        exact ⟨by omega, by omega, by rw [upd_ne _ _ hji]; exact this.2.2⟩
    · intro j hj1 hj2
      obtain ⟨x, hx1, hx2⟩ := h2 j (by omega) (by omega)
      have hxk : x ≠ k := fun e => by rw [e, hk2] at hx2; cases hx2; omega
      exact ⟨x, by dsimp only; rw [upd_ne _ _ (by omega)]; exact hx1, by dsimp only; rw [upd_ne _ _ hxk]; exact hx2⟩

theorem Rep.clear {s : St K V} {m : K → Option V} (h : Rep s m) : ∃ s', clear s = some s' ∧ Rep s' (fun _ => none) :=
  clearLoop_ok s.vals.length 0 s rfl (fun k j hk => ⟨Nat.zero_le _, by have := h.ik k j hk; omega, (h.ik k j hk).2⟩)
    (fun j _ hj => h.ki j (by omega))

theorem Rep.step {s : St K V} {m : K → Option V} (h : Rep s m) (o : Op K V) :
    ∃ s', step s o = some (s', (specStep m o).2) ∧ Rep s' (specStep m o).1 := by
  cases o with
  | put k v => exact h.put k v
  | remove k => exact h.remove k
  | clear =>
    obtain ⟨s', h1, h2⟩ := h.clear
    exact ⟨s', by simp [EnumDict.step, h1, specStep], h2⟩

/-- **C46**: every sequence of `put`, `remove` and `clear` runs without exception, returns what a map would return, and ends in
    stores representing the map. -/
theorem run_rep {s : St K V} {m : K → Option V} (h : Rep s m) (ops : List (Op K V)) :
    ∃ s', run s ops = some (s', (specRun m ops).2) ∧ Rep s' (specRun m ops).1 := by
  induction ops generalizing s m with
  | nil => exact ⟨s, rfl, h⟩
  | cons o t ih =>
    obtain ⟨s1, h1, h2⟩ := h.step o
    obtain ⟨s', h3, h4⟩ := ih h2
    exact ⟨s', by simp [run, h1, h3, specRun], h4⟩

/-- **C46**: any sequence of calls behaves like the same calls on a map: no exception, the same results, and afterwards `get` and
    `containsKey` answer as the map does. -/
theorem C46_map (ops : List (Op K V)) :
    ∃ s', run init ops = some (s', (specRun (fun _ => none) ops).2) ∧
      ∀ k, get s' k = some ((specRun (fun _ => none) ops).1 k) ∧ (containsKey s' k = true ↔ (specRun (fun _ => (none : Option V)) ops).1 k ≠ none) := by
  obtain ⟨s', h1, h2⟩ := run_rep Rep.init ops
  refine ⟨s', h1, fun k => ⟨h2.getValue k, ?_⟩⟩
  rw [h2.mp k]
  unfold containsKey
  cases hi : s'.idx k with
  | none => simp
  | some i => have := (h2.ik k i hi).1; simp [this]

/-- **C46**: after any sequence of calls the enumeration lists each key of the map exactly once, with its value at the same
    place in `values`, and nothing else. -/
theorem C46_enumeration (ops : List (Op K V)) (s' : St K V) (rs : List (Option V)) (h : run init ops = some (s', rs)) :
    (keySet s').Nodup ∧ none ∉ keySet s' ∧ (keySet s').length = (values s').length ∧
    (∀ k, some k ∈ keySet s' ↔ (specRun (fun _ => (none : Option V)) ops).1 k ≠ none) ∧
    ∀ k v, (some k, v) ∈ toMap s' ↔ (specRun (fun _ => (none : Option V)) ops).1 k = some v := by
  obtain ⟨s2, h1, R⟩ := run_rep (K := K) (V := V) Rep.init ops
  rw [h1, Option.some.injEq] at h
  obtain ⟨rfl, -⟩ : s2 = s' ∧ _ = rs := Prod.mk.inj h
  have hlen : (keySet s2).length = s2.vals.length := by simp [keySet]
  have hgetk : ∀ i, i < s2.vals.length → (keySet s2)[i]? = some (s2.keys i) := by
    intro i hi; unfold keySet; rw [List.getElem?_map, List.getElem?_range hi]; rfl
  have hmem : ∀ x, x ∈ keySet s2 ↔ ∃ i, i < s2.vals.length ∧ s2.keys i = x := by
    intro x; unfold keySet; simp [List.mem_map, List.mem_range]
  have hsome : ∀ k, (specRun (fun _ => (none : Option V)) ops).1 k ≠ none ↔ ∃ i, s2.idx k = some i := by
    intro k
    rw [R.mp k]
    cases hi : s2.idx k with
    | none => simp
    | some i => have := (R.ik k i hi).1; simp [this]
  refine ⟨?_, ?_, hlen, fun k => ?_, fun k v => ?_⟩
  · unfold keySet List.Nodup
    rw [List.pairwise_map]
    refine List.Pairwise.imp_of_mem ?_ List.pairwise_lt_range
    intro i j hi hj hij e
    rw [List.mem_range] at hi hj
    obtain ⟨k, a1, a2⟩ := R.ki i hi
    obtain ⟨k', b1, b2⟩ := R.ki j hj
    rw [a1, b1] at e
    cases e
    rw [a2] at b2
    cases b2
    omega
  · intro hn
    obtain ⟨i, hi, e⟩ := (hmem none).1 hn
    obtain ⟨k, a1, -⟩ := R.ki i hi
    rw [a1] at e; cases e
  · rw [hmem, hsome]
    constructor
    · rintro ⟨i, hi, e⟩
      obtain ⟨k', a1, a2⟩ := R.ki i hi
      rw [a1] at e; cases e
      exact ⟨i, a2⟩
    · rintro ⟨i, hi⟩
      exact ⟨i, R.ik k i hi⟩
  · have hz : ∀ i : Nat, (toMap s2)[i]? = match ((keySet s2)[i]? : Option (Option K)), (s2.vals[i]? : Option V) with
        | some a, some b => some (a, b)
        | _, _ => none := by
      intro i
      unfold toMap
      rw [List.zip_eq_zipWith, List.getElem?_zipWith]
      cases (keySet s2)[i]? <;> cases s2.vals[i]? <;> rfl
    rw [List.mem_iff_getElem?, R.mp k]
    constructor
    · rintro ⟨i, hi⟩
      rw [hz] at hi
      by_cases hlt : i < s2.vals.length
      · rw [hgetk i hlt, List.getElem?_eq_getElem hlt] at hi
        simp only [Option.some.injEq, Prod.mk.injEq] at hi
        obtain ⟨k', a1, a2⟩ := R.ki i hlt
        rw [a1] at hi
        obtain ⟨e1, e2⟩ := hi
        cases e1
        rw [a2]
        simp [hlt, e2]
      · rw [List.getElem?_eq_none (by rw [hlen]; omega)] at hi
        cases hi
    · intro hv
      cases hi : s2.idx k with
      | none => rw [hi] at hv; cases hv
      | some i =>
        rw [hi] at hv
        dsimp only at hv
        have := R.ik k i hi
        exact ⟨i, by rw [hz, hgetk i this.1, hv, this.2]⟩

/-- Adding three keys, removing the first (the last takes its place) and putting one again. -/
example : (run (init : St String Nat) [.put "a" 1, .put "b" 2, .put "c" 3, .remove "a", .put "b" 5, .remove "x"]).map
    (fun x => (toMap x.1, x.2)) = some ([(some "c", 3), (some "b", 5)], [none, none, none, some 1, some 2, none]) := by decide +kernel

end Verif.EnumDict
