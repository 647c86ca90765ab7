import Verif.WsMonitor
/-!
Properties of the websocket subscriptions of the ICON client (`Verif.WsMonitor`): C173.
-/
namespace Verif.WsMonitor
open Verif

/-! ### The table of connections in orderly histories -/

/-- The table holds exactly the connections of monitors that have not returned and are not closed, and two such monitors have different
local addresses. -/
structure Tidy {V : Type} (s : St V) : Prop where
  own : ∀ la i, (la, i) ∈ s.conns → ∃ m, s.mons[i]? = some m ∧ m.la = some la ∧ m.pc.isDone = false ∧ m.closed = false
  live : ∀ (i : Nat) (m : Mon V) (la : Nat), s.mons[i]? = some m → m.la = some la → m.pc.isDone = false → m.closed = false → (la, i) ∈ s.conns
  one : ∀ (i j : Nat) (m n : Mon V) (la : Nat), s.mons[i]? = some m → s.mons[j]? = some n → m.la = some la → n.la = some la → m.pc.isDone = false →
    n.pc.isDone = false → i = j
  dialled : ∀ (i : Nat) (m : Mon V), s.mons[i]? = some m → m.pc.isDone = false → ∃ la, m.la = some la

theorem mem_del (la a i : Nat) (c : List (Nat × Nat)) : (a, i) ∈ del la c ↔ (a, i) ∈ c ∧ a ≠ la := by
  simp [del]

theorem has_iff (la : Nat) (c : List (Nat × Nat)) : has la c = true ↔ ∃ i, (la, i) ∈ c := by
  simp [has]

theorem set_self {α : Type} (l : List α) (i : Nat) (x y : α) (h : l[i]? = some y) : (l.set i x)[i]? = some x := by
  rw [getElem?_set_eq _ _ _ _ _ h, if_pos rfl]

/-- A monitor that stays in place and only changes what does not concern the table. -/
theorem tidy_set {V : Type} (s : St V) (j : Nat) (m m' : Mon V) (h : Tidy s) (hm : s.mons[j]? = some m) (hla : m'.la = m.la)
    (hp : m.pc.isDone = false) (hp' : m'.pc.isDone = false) (hc : m'.closed = m.closed) : Tidy ⟨s.conns, s.mons.set j m'⟩ := by
  constructor
  · intro la i hi
    obtain ⟨n, h1, h2, h3, h4⟩ := h.own la i hi
    simp only [getElem?_set_eq _ _ _ _ _ hm]
    by_cases e : i = j
    · subst e
      rw [hm] at h1; cases h1
      exact ⟨m', by simp, by rw [hla]; exact h2, hp', by rw [hc]; exact h4⟩
    · exact ⟨n, by simp [e, h1], h2, h3, h4⟩
  · intro i n la hn h2 h3 h4
    simp only [getElem?_set_eq _ _ _ _ _ hm] at hn
    by_cases e : i = j
    · subst e
      simp at hn; subst hn
      exact h.live i m la hm (hla ▸ h2) hp (hc ▸ h4)
    · simp [e] at hn
      exact h.live i n la hn h2 h3 h4
  · intro i k x y la hx hy h1 h2 h3 h4
    simp only [getElem?_set_eq _ _ _ _ _ hm] at hx hy
    by_cases e : i = j
    · by_cases e' : k = j
      · rw [e, e']
      · simp [e] at hx; simp [e'] at hy
        subst hx
        rw [e]
        exact h.one j k m y la hm hy (hla ▸ h1) h2 hp h4
    · by_cases e' : k = j
      · simp [e] at hx; simp [e'] at hy
        subst hy
        rw [e']
        exact h.one i j x m la hx hm h1 (hla ▸ h2) h3 hp
      · simp [e] at hx; simp [e'] at hy
        exact h.one i k x y la hx hy h1 h2 h3 h4
  · intro i n hn h1
    simp only [getElem?_set_eq _ _ _ _ _ hm] at hn
    by_cases e : i = j
    · simp [e] at hn; subst hn
      rw [hla]; exact h.dialled j m hm hp
    · simp [e] at hn; exact h.dialled i n hn h1

/-- A monitor whose connection is closed. -/
theorem tidy_close {V : Type} (s : St V) (j : Nat) (m m' : Mon V) (h : Tidy s) (hm : s.mons[j]? = some m) (hla : m'.la = m.la)
    (hp : m.pc.isDone = false) (hc : m'.closed = true) : Tidy ⟨drop m.la s.conns, s.mons.set j m'⟩ := by
  obtain ⟨a, ha⟩ := h.dialled j m hm hp
  have hd : drop m.la s.conns = del a s.conns := by rw [ha]; rfl
  rw [hd]
  constructor
  · intro la i hi
    obtain ⟨hi, hne⟩ := (mem_del a la i s.conns).mp hi
    obtain ⟨n, h1, h2, h3, h4⟩ := h.own la i hi
    simp only [getElem?_set_eq _ _ _ _ _ hm]
    have e : i ≠ j := by
      intro e
      subst e
      rw [hm] at h1; cases h1
      rw [ha] at h2; cases h2
      exact hne rfl
    exact ⟨n, by simp [e, h1], h2, h3, h4⟩
  · intro i n la hn h2 h3 h4
    simp only [getElem?_set_eq _ _ _ _ _ hm] at hn
    by_cases e : i = j
    · simp [e] at hn; subst hn
      rw [hc] at h4; cases h4
    · simp [e] at hn
      refine (mem_del a la i s.conns).mpr ⟨h.live i n la hn h2 h3 h4, fun g => ?_⟩
      subst g
      exact e (h.one i j n m la hn hm h2 ha h3 hp)
  · intro i k x y la hx hy h1 h2 h3 h4
    simp only [getElem?_set_eq _ _ _ _ _ hm] at hx hy
    by_cases e : i = j
    · by_cases e' : k = j
      · rw [e, e']
      · simp [e] at hx; simp [e'] at hy
        subst hx
        rw [e]
        exact h.one j k m y la hm hy (hla ▸ h1) h2 hp h4
    · by_cases e' : k = j
      · simp [e] at hx; simp [e'] at hy
        subst hy
        rw [e']
        exact h.one i j x m la hx hm h1 (hla ▸ h2) h3 hp
      · simp [e] at hx; simp [e'] at hy
        exact h.one i k x y la hx hy h1 h2 h3 h4
  · intro i n hn h1
    simp only [getElem?_set_eq _ _ _ _ _ hm] at hn
    by_cases e : i = j
    · simp [e] at hn; subst hn
      rw [hla]; exact ⟨a, ha⟩
    · simp [e] at hn; exact h.dialled i n hn h1

theorem getElem?_snoc {α : Type} (l : List α) (x : α) (i : Nat) :
    (l ++ [x])[i]? = if i = l.length then some x else l[i]? := by
  rw [List.getElem?_append]
  by_cases h : i < l.length
  · rw [if_pos h, if_neg (by omega)]
  · rw [if_neg h]
    by_cases e : i = l.length
    · subst e; simp
    · rw [if_neg e, List.getElem?_eq_none_iff.mpr (by simp; omega), List.getElem?_eq_none_iff.mpr (by omega)]

theorem tidy_step {V : Type} (s s' : St V) (e : Ev V) (h : Tidy s) (ho : Orderly s [e]) (hs : step s e = some s') : Tidy s' := by
  have ho := ho.1
  unfold step at hs
  cases e with
  | dial la =>
    cases la with
    | none =>
      cases hs
      have key : ∀ (i : Nat) (m : Mon V), (s.mons ++ [(⟨none, .done .connect, false, []⟩ : Mon V)])[i]? = some m → m.pc.isDone = false →
          s.mons[i]? = some m := by
        intro i m hm hp
        rw [getElem?_snoc] at hm
        split at hm
        · cases hm; cases hp
        · exact hm
      constructor
      · intro la i hi
        obtain ⟨m, h1, h2⟩ := h.own la i hi
        refine ⟨m, ?_, h2⟩
        rw [getElem?_snoc, if_neg, h1]
        intro g
        rw [g, List.getElem?_eq_none_iff.mpr (Nat.le_refl _)] at h1
        cases h1
      · intro i m la hm h1 h2 h3
        exact h.live i m la (key i m hm h2) h1 h2 h3
      · intro i j m n la hm hn h1 h2 h3 h4
        exact h.one i j m n la (key i m hm h3) (key j n hn h4) h1 h2 h3 h4
      · intro i m hm h1
        exact h.dialled i m (key i m hm h1) h1
    | some a =>
      cases hs
      dsimp only at ho
      have lt : ∀ i m, s.mons[i]? = some m → i ≠ s.mons.length := by
        intro i m h1 g
        rw [g, List.getElem?_eq_none_iff.mpr (Nat.le_refl _)] at h1
        cases h1
      constructor
      · intro la i hi
        dsimp only at hi ⊢
        rw [getElem?_snoc]
        rcases List.mem_cons.mp hi with g | g
        · cases g
          exact ⟨⟨some a, .asking, false, []⟩, by simp, rfl, rfl, rfl⟩
        · obtain ⟨g1, g2⟩ := (mem_del a la i s.conns).mp g
          obtain ⟨m, h1, h2⟩ := h.own la i g1
          exact ⟨m, by rw [if_neg (lt i m h1), h1], h2⟩
      · intro i m la hm h1 h2 h3
        dsimp only at hm ⊢
        rw [getElem?_snoc] at hm
        split at hm
        · rename_i g
          cases hm
          cases h1
          rw [g]; exact List.mem_cons_self
        · refine List.mem_cons_of_mem _ ((mem_del a la i s.conns).mpr ⟨h.live i m la hm h1 h2 h3, fun g => ?_⟩)
          subst g
          rw [ho m (List.mem_of_getElem? hm) h1] at h2
          cases h2
      · intro i j m n la hm hn h1 h2 h3 h4
        dsimp only at hm hn
        rw [getElem?_snoc] at hm hn
        split at hm
        · rename_i gi
          split at hn
          · rename_i gj
            rw [gi, gj]
          · cases hm
            cases h1
            rw [ho n (List.mem_of_getElem? hn) h2] at h4
            cases h4
        · split at hn
          · cases hn
            cases h2
            rw [ho m (List.mem_of_getElem? hm) h1] at h3
            cases h3
          · exact h.one i j m n la hm hn h1 h2 h3 h4
      · intro i m hm h1
        dsimp only at hm
        rw [getElem?_snoc] at hm
        split at hm
        · cases hm; exact ⟨a, rfl⟩
        · exact h.dialled i m hm h1
  | reply j r =>
    dsimp only at hs
    cases hm : s.mons[j]? with
    | none => rw [hm] at hs; cases hs
    | some m =>
      rw [hm] at hs
      dsimp only at hs
      split at hs
      · rename_i hp
        have hd : m.pc.isDone = false := by rw [hp]; rfl
        split at hs
        · cases hs; exact tidy_set s j m _ h hm rfl hd rfl rfl
        · cases hs; exact tidy_close s j m _ h hm rfl hd rfl
      · cases hs
  | check j =>
    dsimp only at hs
    cases hm : s.mons[j]? with
    | none => rw [hm] at hs; cases hs
    | some m =>
      rw [hm] at hs
      dsimp only at hs
      split at hs
      · rename_i hp
        have hd : m.pc.isDone = false := by rw [hp]; rfl
        split at hs
        · cases hs
        · split at hs
          · cases hs; exact tidy_set s j m _ h hm rfl hd rfl rfl
          · cases hs; exact tidy_close s j m _ h hm rfl hd rfl
      · cases hs
  | frame j f =>
    dsimp only at hs
    cases hm : s.mons[j]? with
    | none => rw [hm] at hs; cases hs
    | some m =>
      rw [hm] at hs
      dsimp only at hs
      split at hs
      · rename_i hp
        have hd : m.pc.isDone = false := by rw [hp]; rfl
        split at hs
        · cases hs; exact tidy_set s j m _ h hm rfl hd rfl rfl
        all_goals
          cases hs
          exact tidy_close s j m _ h hm rfl hd rfl
      · cases hs
  | close j =>
    dsimp only at hs
    cases hm : s.mons[j]? with
    | none => rw [hm] at hs; cases hs
    | some m =>
      rw [hm] at hs
      cases hs
      exact tidy_close s j m _ h hm rfl (ho m hm) rfl
  | closeAll =>
    cases hs
    have key : ∀ (i : Nat) (m : Mon V), (s.mons.mapIdx (fun i (m : Mon V) => { m with closed := m.closed || s.conns.any (fun x => x.2 == i) }))[i]? = some m →
        ∃ n, s.mons[i]? = some n ∧ m = { n with closed := n.closed || s.conns.any (fun x => x.2 == i) } := by
      intro i m hm
      rw [List.getElem?_mapIdx] at hm
      cases hn : s.mons[i]? with
      | none => rw [hn] at hm; cases hm
      | some n => rw [hn] at hm; cases hm; exact ⟨n, rfl, rfl⟩
    constructor
    · intro la i hi; cases hi
    · intro i m la hm h1 h2 h3
      obtain ⟨n, hn, e⟩ := key i m hm
      subst e
      simp only [Bool.or_eq_false_iff] at h3
      have := h.live i n la hn h1 h2 h3.1
      have g : s.conns.any (fun x => x.2 == i) = true := List.any_eq_true.mpr ⟨(la, i), this, by simp⟩
      rw [g] at h3; cases h3.2
    · intro i j m n la hm hn h1 h2 h3 h4
      obtain ⟨m0, hm0, e⟩ := key i m hm
      obtain ⟨n0, hn0, e'⟩ := key j n hn
      subst e e'
      exact h.one i j m0 n0 la hm0 hn0 h1 h2 h3 h4
    · intro i m hm h1
      obtain ⟨m0, hm0, e⟩ := key i m hm
      subst e
      exact h.dialled i m0 hm0 h1

theorem tidy_run {V : Type} (h : List (Ev V)) (s s' : St V) (hi : Tidy s) (ho : Orderly s h) (hr : run s h = some s') : Tidy s' := by
  induction h generalizing s with
  | nil => cases hr; exact hi
  | cons e l ih =>
    simp only [run] at hr
    cases hs : step s e with
    | none => rw [hs] at hr; cases hr
    | some s1 =>
      rw [hs] at hr
      exact ih s1 (tidy_step s s1 e hi ⟨ho.1, fun _ _ => trivial⟩ hs) (ho.2 s1 hs) hr

theorem tidy_init {V : Type} : Tidy (St.init : St V) := by
  constructor
  · intro la i hi; cases hi
  · intro i m la hm; cases hm
  · intro i j m n la hm; cases hm
  · intro i m hm; cases hm

/-! ### What the callbacks are given -/

theorem mons_lt {V : Type} (s : St V) (i : Nat) (h : heardOf s i ≠ []) : ∃ m, s.mons[i]? = some m := by
  unfold heardOf at h
  cases e : s.mons[i]? with
  | none => rw [e] at h; exact absurd rfl h
  | some m => exact ⟨m, rfl⟩

/-- The value in a callback. -/
def valOf {V : Type} : Cb V → Option V
  | .value v => some v
  | _ => none

theorem filterMap_told {V : Type} (e : Err) : (told e : List (Cb V)).filterMap valOf = [] := by
  unfold told; split <;> simp [valOf]

theorem vals_said {V : Type} (i : Nat) (h : List (Ev V)) : (h.flatMap (saidBy i)).filterMap valOf = valsOf i h := by
  induction h with
  | nil => rfl
  | cons e l ih =>
    have step1 : valsOf i (e :: l) = (saidBy i e).filterMap valOf ++ valsOf i l := by
      unfold valsOf framesOf
      cases e with
      | frame j f =>
        by_cases g : j = i
        · cases f with
          | data v => cases v <;> simp [saidBy, g, valOf]
          | close c => simp only [saidBy, g, filterMap_told, List.nil_append, if_true, List.filterMap_cons]
          | fail => simp [saidBy, g, valOf]
        · simp [saidBy, g]
      | reply j r => simp only [saidBy, List.filterMap_cons]; split <;> simp [valOf]
      | _ => simp [saidBy]
    rw [List.flatMap_cons, List.filterMap_append, ih, step1]

theorem init_said {V : Type} (i : Nat) (h : List (Ev V)) : (Cb.init : Cb V) ∈ h.flatMap (saidBy i) ↔ acceptedIn i h = true := by
  unfold acceptedIn
  rw [List.mem_flatMap, List.any_eq_true]
  constructor
  · rintro ⟨e, he, hi⟩
    refine ⟨e, he, ?_⟩
    cases e with
    | reply j r =>
      simp only [saidBy] at hi
      split at hi
      · rename_i g; simp [g]
      · cases hi
    | frame j f =>
      simp only [saidBy] at hi
      split at hi
      · split at hi
        · simp at hi
        · simp at hi
        · unfold told at hi; split at hi <;> simp at hi
        · simp at hi
      · cases hi
    | _ => cases hi
  · rintro ⟨e, he, hi⟩
    refine ⟨e, he, ?_⟩
    cases e with
    | reply j r =>
      dsimp only at hi
      simp only [Bool.and_eq_true, beq_iff_eq] at hi
      simp [saidBy, hi]
    | _ => cases hi

theorem filterMap_value {V : Type} (vs : List V) : (vs.map Cb.value).filterMap valOf = vs := by
  induction vs with
  | nil => rfl
  | cons v l ih => simp only [List.map_cons, List.filterMap_cons, valOf, ih]

theorem init_told {V : Type} (e : Err) : (Cb.init : Cb V) ∉ told e := by
  unfold told; split <;> simp

/-- **C173** In every history, if the node accepted the request of a monitor, its callback was given the start first, then exactly the
notifications that the frames read for it decode to, each once and in the order of the frames; after them an error only if the monitor has
returned with it and it is no normal closure. If the node did not accept the request, or did not answer yet, it was given nothing. -/
theorem C173_notifications {V : Type} (h : List (Ev V)) (s : St V) (i : Nat) (hr : run St.init h = some s) :
    (acceptedIn i h = false → heardOf s i = [] ∧ valsOf i h = []) ∧
      (acceptedIn i h = true → ∃ m tail, s.mons[i]? = some m ∧ heardOf s i = .init :: ((valsOf i h).map .value ++ tail) ∧
        ((tail = [] ∧ (m.pc.isDone = false ∨ m.pc = .done .nil ∨ m.pc = .done (.read (.closed 1000)))) ∨
          ∃ e, tail = [.error e] ∧ m.pc = .done (.read e) ∧ e ≠ .closed 1000)) := by
  have hh := heard_run h St.init s i hr
  have h0 : heardOf (St.init : St V) i = [] := rfl
  rw [h0, List.nil_append] at hh
  have hv := vals_said i h
  have hi := init_said i h
  rw [← hh] at hv hi
  constructor
  · intro ha
    rw [ha] at hi
    have key : heardOf s i = [] := by
      cases hm : s.mons[i]? with
      | none => simp [heardOf, hm]
      | some m =>
        have sm := shape_run h St.init s (by intro m hm; cases hm) hr m (List.mem_of_getElem? hm)
        have he : heardOf s i = m.heard := by simp [heardOf, hm]
        rw [he] at hi ⊢
        have no : (Cb.init : Cb V) ∉ m.heard := fun g => by simpa using hi.mp g
        unfold Shape at sm
        split at sm
        all_goals first
          | exact sm
          | (obtain ⟨vs, g⟩ := sm; rw [g] at no; simp at no)
    exact ⟨key, by rw [← hv, key]; rfl⟩
  · intro ha
    have hin := hi.mpr ha
    obtain ⟨m, hm⟩ := mons_lt s i (fun g => by rw [g] at hin; cases hin)
    have he : heardOf s i = m.heard := by simp [heardOf, hm]
    have sm := shape_run h St.init s (by intro m hm; cases hm) hr m (List.mem_of_getElem? hm)
    rw [he] at hin hv ⊢
    have plain : (∃ vs : List V, m.heard = .init :: vs.map .value) → m.heard = .init :: ((valsOf i h).map .value ++ []) := by
      rintro ⟨vs, g⟩
      rw [g, List.filterMap_cons] at hv
      simp only [valOf, filterMap_value] at hv
      rw [g, hv, List.append_nil]
    unfold Shape at sm
    split at sm
    · rw [sm] at hin; cases hin
    · rename_i hp
      exact ⟨m, [], hm, plain sm, .inl ⟨rfl, .inl (by rw [hp]; rfl)⟩⟩
    · rename_i hp
      exact ⟨m, [], hm, plain sm, .inl ⟨rfl, .inl (by rw [hp]; rfl)⟩⟩
    · rename_i hp
      exact ⟨m, [], hm, plain sm, .inl ⟨rfl, .inr (.inl hp)⟩⟩
    · rw [sm] at hin; cases hin
    · rw [sm] at hin; cases hin
    · rename_i e hp
      obtain ⟨vs, g⟩ := sm
      have gv : vs = valsOf i h := by
        rw [g, List.filterMap_cons, List.filterMap_append] at hv
        simpa only [valOf, filterMap_value, filterMap_told, List.append_nil] using hv
      refine ⟨m, told e, hm, by rw [g, gv], ?_⟩
      by_cases ee : e = .closed 1000
      · left; exact ⟨by simp [told, ee], .inr (.inr (by rw [hp, ee]))⟩
      · right; exact ⟨e, by simp [told, ee], hp, ee⟩

/-! ### How monitors end -/

/-- Where monitor `i` is after it read: a frame that is no notification is its last. -/
theorem framesOf_append {V : Type} (i : Nat) (a b : List (Ev V)) : framesOf i (a ++ b) = framesOf i a ++ framesOf i b := by
  unfold framesOf; rw [List.filterMap_append]

/-- A monitor that has returned stays so. -/
theorem done_step {V : Type} (s s' : St V) (e : Ev V) (i : Nat) (m : Mon V) (r : Ret) (hm : s.mons[i]? = some m)
    (hp : m.pc = .done r) (hs : step s e = some s') :
    (∃ m', s'.mons[i]? = some m' ∧ m'.pc = .done r) ∧ framesOf i [e] = [] := by
  have hlt : i < s.mons.length := by
    rcases Nat.lt_or_ge i s.mons.length with g | g
    · exact g
    · rw [List.getElem?_eq_none_iff.mpr g] at hm; cases hm
  unfold step at hs
  cases e with
  | dial la =>
    cases la <;> (cases hs; exact ⟨⟨m, by rw [List.getElem?_append, if_pos hlt, hm], hp⟩, rfl⟩)
  | closeAll =>
    cases hs
    refine ⟨⟨{ m with closed := m.closed || s.conns.any (fun x => x.2 == i) }, by rw [List.getElem?_mapIdx, hm]; rfl, hp⟩, rfl⟩
  | close j =>
    dsimp only at hs
    cases hj : s.mons[j]? with
    | none => rw [hj] at hs; cases hs
    | some n =>
      rw [hj] at hs
      cases hs
      refine ⟨?_, rfl⟩
      simp only [getElem?_set_eq _ _ _ _ _ hj]
      by_cases e : i = j
      · subst e; rw [hm] at hj; cases hj; exact ⟨{ m with closed := true }, by simp, hp⟩
      · exact ⟨m, by simp [e, hm], hp⟩
  | reply j x =>
    dsimp only at hs
    cases hj : s.mons[j]? with
    | none => rw [hj] at hs; cases hs
    | some n =>
      rw [hj] at hs
      dsimp only at hs
      split at hs
      · rename_i hn
        have e : i ≠ j := by
          intro e; subst e; rw [hm] at hj; cases hj; rw [hp] at hn; cases hn
        refine ⟨⟨m, ?_, hp⟩, rfl⟩
        split at hs <;> (cases hs; simp [leave, getElem?_set_eq _ _ _ _ _ hj, e, hm])
      · cases hs
  | check j =>
    dsimp only at hs
    cases hj : s.mons[j]? with
    | none => rw [hj] at hs; cases hs
    | some n =>
      rw [hj] at hs
      dsimp only at hs
      split at hs
      · rename_i hn
        have e : i ≠ j := by
          intro e; subst e; rw [hm] at hj; cases hj; rw [hp] at hn; cases hn
        refine ⟨⟨m, ?_, hp⟩, rfl⟩
        split at hs
        · cases hs
        · split at hs <;> (cases hs; simp [leave, getElem?_set_eq _ _ _ _ _ hj, e, hm])
      · cases hs
  | frame j f =>
    dsimp only at hs
    cases hj : s.mons[j]? with
    | none => rw [hj] at hs; cases hs
    | some n =>
      rw [hj] at hs
      dsimp only at hs
      split at hs
      · rename_i hn
        have e : i ≠ j := by
          intro e; subst e; rw [hm] at hj; cases hj; rw [hp] at hn; cases hn
        refine ⟨⟨m, ?_, hp⟩, by simp [framesOf, show ¬ j = i from fun g => e g.symm]⟩
        split at hs <;> (cases hs; simp [leave, getElem?_set_eq _ _ _ _ _ hj, e, hm])
      · cases hs

theorem done_run {V : Type} (h : List (Ev V)) (s s' : St V) (i : Nat) (m : Mon V) (r : Ret) (hm : s.mons[i]? = some m)
    (hp : m.pc = .done r) (hr : run s h = some s') : (∃ m', s'.mons[i]? = some m' ∧ m'.pc = .done r) ∧ framesOf i h = [] := by
  induction h generalizing s m with
  | nil => cases hr; exact ⟨⟨m, hm, hp⟩, rfl⟩
  | cons e l ih =>
    simp only [run] at hr
    cases hs : step s e with
    | none => rw [hs] at hr; cases hr
    | some s1 =>
      rw [hs] at hr
      obtain ⟨⟨m', hm', hp'⟩, hf⟩ := done_step s s1 e i m r hm hp hs
      obtain ⟨g1, g2⟩ := ih s1 m' hm' hp' hr
      exact ⟨g1, by rw [show e :: l = [e] ++ l from rfl, framesOf_append, hf, g2]; rfl⟩

theorem run_append {V : Type} (a b : List (Ev V)) (s s' : St V) (h : run s (a ++ b) = some s') :
    ∃ t, run s a = some t ∧ run t b = some s' := by
  induction a generalizing s with
  | nil => exact ⟨s, rfl, h⟩
  | cons e l ih =>
    simp only [List.cons_append, run] at h ⊢
    cases hs : step s e with
    | none => rw [hs] at h; cases h
    | some s1 => rw [hs] at h; exact ih s1 h

/-- **C173** A frame that is no notification (not JSON of the right type, a close frame, a failure) is the last that its monitor reads: the
monitor returns with that error, and stays returned. -/
theorem C173_failure_ends {V : Type} (pre post : List (Ev V)) (i : Nat) (f : Frame V) (e : Err) (s : St V) (he : errOf f = some e)
    (hr : run St.init (pre ++ .frame i f :: post) = some s) :
    (∃ m, s.mons[i]? = some m ∧ m.pc = .done (.read e)) ∧ framesOf i post = [] := by
  obtain ⟨t, _, hr⟩ := run_append _ _ _ _ hr
  simp only [run] at hr
  cases hs : step t (.frame i f) with
  | none => rw [hs] at hr; cases hr
  | some t' =>
    rw [hs] at hr
    have : ∃ m, t'.mons[i]? = some m ∧ m.pc = .done (.read e) := by
      unfold step at hs
      dsimp only at hs
      cases hj : t.mons[i]? with
      | none => rw [hj] at hs; cases hs
      | some n =>
        rw [hj] at hs
        dsimp only at hs
        split at hs
        · split at hs
          · cases he
          all_goals
            cases he
            cases hs
            exact ⟨_, set_self _ _ _ _ hj, rfl⟩
        · cases hs
    obtain ⟨m, hm, hp⟩ := this
    exact done_run post t' s i m _ hm hp hr

/-- **C173** In every orderly history the table of connections holds exactly the monitors that have neither returned nor been closed: no
connection is forgotten, and none is kept after its monitor ended, whatever it ended with. -/
theorem C173_table_partial {V : Type} (h : List (Ev V)) (s : St V) (hr : run St.init h = some s) (ho : Orderly St.init h) (la i : Nat) :
    (la, i) ∈ s.conns ↔ ∃ m, s.mons[i]? = some m ∧ m.la = some la ∧ m.pc.isDone = false ∧ m.closed = false := by
  have t := tidy_run h St.init s tidy_init ho hr
  exact ⟨t.own la i, fun ⟨m, h1, h2, h3, h4⟩ => t.live i m la h1 h2 h3 h4⟩

/-- The calls that close monitor `i`. -/
def closedIn {V : Type} (i : Nat) (h : List (Ev V)) : Prop := .close i ∈ h ∨ .closeAll ∈ h

/-- Monitor `i` was closed while it runs, or ended without an error. -/
def hushed {V : Type} (s : St V) (i : Nat) : Prop :=
  ∃ m, s.mons[i]? = some m ∧ (m.closed = true ∧ m.pc.isDone = false ∨ m.pc = .done .nil)

theorem hushed_step {V : Type} (s s' : St V) (e : Ev V) (i : Nat) (t : Tidy s) (hs : step s e = some s') (h : hushed s' i) :
    hushed s i ∨ closedIn i [e] := by
  obtain ⟨m, hm, hq⟩ := h
  unfold step at hs
  cases e with
  | dial la =>
    left
    cases la with
    | none =>
      cases hs
      rw [getElem?_snoc] at hm
      split at hm
      · cases hm; simp [Pc.isDone] at hq
      · exact ⟨m, hm, hq⟩
    | some a =>
      cases hs
      rw [getElem?_snoc] at hm
      split at hm
      · cases hm; simp at hq
      · exact ⟨m, hm, hq⟩
  | closeAll => exact .inr (.inr List.mem_cons_self)
  | close j =>
    by_cases e : j = i
    · subst e; exact .inr (.inl List.mem_cons_self)
    · left
      dsimp only at hs
      cases hj : s.mons[j]? with
      | none => rw [hj] at hs; cases hs
      | some n =>
        rw [hj] at hs
        cases hs
        rw [getElem?_set_eq _ _ _ _ _ hj, if_neg (fun g : i = j => e g.symm)] at hm
        exact ⟨m, hm, hq⟩
  | reply j x =>
    left
    dsimp only at hs
    cases hj : s.mons[j]? with
    | none => rw [hj] at hs; cases hs
    | some n =>
      rw [hj] at hs
      dsimp only at hs
      split at hs
      · rename_i hn
        split at hs
        · cases hs
          rw [getElem?_set_eq _ _ _ _ _ hj] at hm
          split at hm
          · rename_i e
            cases hm
            simp only [Pc.isDone, and_true, reduceCtorEq, or_false] at hq
            rw [e]
            exact ⟨n, hj, .inl ⟨hq, by rw [hn]; rfl⟩⟩
          · exact ⟨m, hm, hq⟩
        · cases hs
          simp only [leave] at hm
          rw [getElem?_set_eq _ _ _ _ _ hj] at hm
          split at hm
          · cases hm; simp [Pc.isDone] at hq
          · exact ⟨m, hm, hq⟩
      · cases hs
  | check j =>
    left
    dsimp only at hs
    cases hj : s.mons[j]? with
    | none => rw [hj] at hs; cases hs
    | some n =>
      rw [hj] at hs
      dsimp only at hs
      split at hs
      · rename_i hn
        split at hs
        · cases hs
        · rename_i la hla
          split at hs
          · cases hs
            rw [getElem?_set_eq _ _ _ _ _ hj] at hm
            split at hm
            · rename_i e
              cases hm
              simp only [Pc.isDone, and_true, reduceCtorEq, or_false] at hq
              rw [e]
              exact ⟨n, hj, .inl ⟨hq, by rw [hn]; rfl⟩⟩
            · exact ⟨m, hm, hq⟩
          · rename_i hno
            cases hs
            simp only [leave] at hm
            rw [getElem?_set_eq _ _ _ _ _ hj] at hm
            split at hm
            · rename_i e
              have hd : n.pc.isDone = false := by rw [hn]; rfl
              cases hc : n.closed with
              | true => rw [e]; exact ⟨n, hj, .inl ⟨hc, hd⟩⟩
              | false => exact absurd ((has_iff la s.conns).mpr ⟨j, t.live j n la hj hla hd hc⟩) hno
            · exact ⟨m, hm, hq⟩
      · cases hs
  | frame j f =>
    left
    dsimp only at hs
    cases hj : s.mons[j]? with
    | none => rw [hj] at hs; cases hs
    | some n =>
      rw [hj] at hs
      dsimp only at hs
      split at hs
      · rename_i hn
        split at hs
        · cases hs
          rw [getElem?_set_eq _ _ _ _ _ hj] at hm
          split at hm
          · rename_i e
            cases hm
            simp only [Pc.isDone, and_true, reduceCtorEq, or_false] at hq
            rw [e]
            exact ⟨n, hj, .inl ⟨hq, by rw [hn]; rfl⟩⟩
          · exact ⟨m, hm, hq⟩
        all_goals
          cases hs
          simp only [leave] at hm
          rw [getElem?_set_eq _ _ _ _ _ hj] at hm
          split at hm
          · cases hm; simp [Pc.isDone] at hq
          · exact ⟨m, hm, hq⟩
      · cases hs

theorem hushed_run {V : Type} (h : List (Ev V)) (s s' : St V) (i : Nat) (t : Tidy s) (ho : Orderly s h) (hr : run s h = some s')
    (hq : hushed s' i) : hushed s i ∨ closedIn i h := by
  induction h generalizing s with
  | nil => cases hr; exact .inl hq
  | cons e l ih =>
    simp only [run] at hr
    cases hs : step s e with
    | none => rw [hs] at hr; cases hr
    | some s1 =>
      rw [hs] at hr
      rcases ih s1 (tidy_step s s1 e t ⟨ho.1, fun _ _ => trivial⟩ hs) (ho.2 s1 hs) hr with g | g
      · rcases hushed_step s s1 e i t hs g with g | g
        · exact .inl g
        · rcases g with g | g <;> simp only [List.mem_singleton] at g <;> subst g
          · exact .inr (.inl List.mem_cons_self)
          · exact .inr (.inr List.mem_cons_self)
      · rcases g with g | g
        · exact .inr (.inl (List.mem_cons_of_mem _ g))
        · exact .inr (.inr (List.mem_cons_of_mem _ g))

/-- **C173** In every orderly history a subscription does not end unnoticed: a monitor that has returned either returned an error, or somebody
closed it. -/
theorem C173_no_silent_end_partial {V : Type} (h : List (Ev V)) (s : St V) (i : Nat) (m : Mon V) (r : Ret)
    (hr : run St.init h = some s) (ho : Orderly St.init h) (hm : s.mons[i]? = some m) (hp : m.pc = .done r) :
    r ≠ .nil ∨ closedIn i h := by
  by_cases e : r = .nil
  · right
    subst e
    rcases hushed_run h St.init s i tidy_init ho hr ⟨m, hm, .inr hp⟩ with ⟨m, hm, _⟩ | g
    · cases hm
    · exact g
  · exact .inl e

/-- How many frames a closed monitor may still read. -/
def budget : Pc → Nat
  | .reading => 1
  | _ => 0

theorem budget_step {V : Type} (s s' : St V) (e : Ev V) (i : Nat) (m : Mon V) (t : Tidy s) (hm : s.mons[i]? = some m)
    (hc : m.closed = true) (hs : step s e = some s') :
    ∃ m', s'.mons[i]? = some m' ∧ m'.closed = true ∧ budget m'.pc + (framesOf i [e]).length ≤ budget m.pc := by
  have hlt : i < s.mons.length := by
    rcases Nat.lt_or_ge i s.mons.length with g | g
    · exact g
    · rw [List.getElem?_eq_none_iff.mpr g] at hm; cases hm
  unfold step at hs
  cases e with
  | dial la => cases la <;> (cases hs; exact ⟨m, by rw [List.getElem?_append, if_pos hlt, hm], hc, Nat.le_refl _⟩)
  | closeAll =>
    cases hs
    refine ⟨{ m with closed := m.closed || s.conns.any (fun x => x.2 == i) }, by rw [List.getElem?_mapIdx, hm]; rfl, ?_, Nat.le_refl _⟩
    simp [hc]
  | close j =>
    dsimp only at hs
    cases hj : s.mons[j]? with
    | none => rw [hj] at hs; cases hs
    | some n =>
      rw [hj] at hs
      cases hs
      simp only [getElem?_set_eq _ _ _ _ _ hj]
      by_cases e : i = j
      · subst e; rw [hm] at hj; cases hj; exact ⟨{ m with closed := true }, by simp, rfl, Nat.le_refl _⟩
      · exact ⟨m, by simp [e, hm], hc, Nat.le_refl _⟩
  | reply j x =>
    dsimp only at hs
    cases hj : s.mons[j]? with
    | none => rw [hj] at hs; cases hs
    | some n =>
      rw [hj] at hs
      dsimp only at hs
      split at hs
      · by_cases e : i = j
        · subst e
          rw [hm] at hj; cases hj
          split at hs
          · cases hs; exact ⟨_, set_self _ _ _ _ hm, hc, Nat.zero_le _⟩
          · cases hs; exact ⟨_, set_self _ _ _ _ hm, rfl, Nat.zero_le _⟩
        · refine ⟨m, ?_, hc, Nat.le_refl _⟩
          split at hs <;> (cases hs; simp [leave, getElem?_set_eq _ _ _ _ _ hj, e, hm])
      · cases hs
  | check j =>
    dsimp only at hs
    cases hj : s.mons[j]? with
    | none => rw [hj] at hs; cases hs
    | some n =>
      rw [hj] at hs
      dsimp only at hs
      split at hs
      · rename_i hn
        split at hs
        · cases hs
        · rename_i la hla
          by_cases e : i = j
          · subst e
            rw [hm] at hj; cases hj
            split at hs
            · rename_i hh
              obtain ⟨k, hk⟩ := (has_iff la s.conns).mp hh
              obtain ⟨x, h1, h2, h3, h4⟩ := t.own la k hk
              have := t.one i k m x la hm h1 hla h2 (by rw [hn]; rfl) h3
              subst this
              rw [hm] at h1; cases h1
              rw [hc] at h4; cases h4
            · cases hs; exact ⟨_, set_self _ _ _ _ hm, rfl, Nat.zero_le _⟩
          · refine ⟨m, ?_, hc, Nat.le_refl _⟩
            split at hs <;> (cases hs; simp [leave, getElem?_set_eq _ _ _ _ _ hj, e, hm])
      · cases hs
  | frame j f =>
    dsimp only at hs
    cases hj : s.mons[j]? with
    | none => rw [hj] at hs; cases hs
    | some n =>
      rw [hj] at hs
      dsimp only at hs
      split at hs
      · rename_i hn
        by_cases e : i = j
        · subst e
          rw [hm] at hj; cases hj
          have hl : (framesOf i [Ev.frame i f]).length = 1 := by simp [framesOf]
          rw [hl, hn]
          split at hs
          · cases hs; exact ⟨_, set_self _ _ _ _ hm, hc, Nat.le_refl _⟩
          all_goals
            cases hs
            exact ⟨_, set_self _ _ _ _ hm, rfl, Nat.le_refl _⟩
        · have hl : framesOf i [Ev.frame j f] = [] := by simp [framesOf, show ¬ j = i from fun g => e g.symm]
          rw [hl]
          refine ⟨m, ?_, hc, Nat.le_refl _⟩
          split at hs <;> (cases hs; simp [leave, getElem?_set_eq _ _ _ _ _ hj, e, hm])
      · cases hs

theorem budget_run {V : Type} (h : List (Ev V)) (s s' : St V) (i : Nat) (m : Mon V) (t : Tidy s) (ho : Orderly s h)
    (hm : s.mons[i]? = some m) (hc : m.closed = true) (hr : run s h = some s') : (framesOf i h).length ≤ budget m.pc := by
  induction h generalizing s m with
  | nil => exact Nat.zero_le _
  | cons e l ih =>
    simp only [run] at hr
    cases hs : step s e with
    | none => rw [hs] at hr; cases hr
    | some s1 =>
      rw [hs] at hr
      obtain ⟨m', hm', hc', hb⟩ := budget_step s s1 e i m t hm hc hs
      have := ih s1 m' (tidy_step s s1 e t ⟨ho.1, fun _ _ => trivial⟩ hs) (ho.2 s1 hs) hm' hc' hr
      rw [show e :: l = [e] ++ l from rfl, framesOf_append, List.length_append]
      omega

theorem orderly_append {V : Type} (a b : List (Ev V)) (s t : St V) (h : Orderly s (a ++ b)) (hr : run s a = some t) :
    Orderly s a ∧ Orderly t b := by
  induction a generalizing s with
  | nil => cases hr; exact ⟨trivial, h⟩
  | cons e l ih =>
    simp only [run] at hr
    cases hs : step s e with
    | none => rw [hs] at hr; cases hr
    | some s1 =>
      rw [hs] at hr
      refine ⟨⟨h.1, fun s' hs' => ?_⟩, (ih s1 (h.2 s1 hs) hr).2⟩
      rw [hs] at hs'; cases hs'
      exact (ih s1 (h.2 s1 hs) hr).1

/-- **C173** In every orderly history a monitor that is closed by `CloseMonitor` reads at most one more frame, that of the read it was
blocked in. -/
theorem C173_close_stops_partial {V : Type} (pre post : List (Ev V)) (i : Nat) (s : St V)
    (hr : run St.init (pre ++ .close i :: post) = some s) (ho : Orderly St.init (pre ++ .close i :: post)) :
    (framesOf i post).length ≤ 1 := by
  obtain ⟨t, h1, h2⟩ := run_append _ _ _ _ hr
  obtain ⟨o1, o2⟩ := orderly_append _ _ _ t ho h1
  have ht := tidy_run pre St.init t tidy_init o1 h1
  simp only [run] at h2
  cases hs : step t (.close i) with
  | none => rw [hs] at h2; cases h2
  | some t' =>
    rw [hs] at h2
    have : ∃ m, t'.mons[i]? = some m ∧ m.closed = true := by
      unfold step at hs
      dsimp only at hs
      cases hj : t.mons[i]? with
      | none => rw [hj] at hs; cases hs
      | some n => rw [hj] at hs; cases hs; exact ⟨_, set_self _ _ _ _ hj, rfl⟩
    obtain ⟨m, hm, hc⟩ := this
    have := budget_run post t' s i m (tidy_step t t' _ ht ⟨o2.1, fun _ _ => trivial⟩ hs) (o2.2 t' hs) hm hc h2
    have hb : budget m.pc ≤ 1 := by cases m.pc <;> simp [budget]
    omega

/-! ### The three functions -/

/-- **C173** `MonitorEvent` calls the error callback, with no error to report, as soon as the node has accepted the request: its first call
is always that. -/
theorem C173_event_starts_with_error {V : Type} (h : List (Ev V)) (s : St V) (i : Nat) (scb : Bool) (hr : run St.init h = some s)
    (ha : acceptedIn i h = true) : ∃ l, calls .event scb (heardOf s i) = .error none :: l := by
  obtain ⟨m, tail, _, h2, _⟩ := (C173_notifications h s i hr).2 ha
  rw [h2]
  exact ⟨calls .event scb ((valsOf i h).map .value ++ tail), by simp [calls, dispatch]⟩

theorem calls_values {V : Type} (k : Kind) (scb : Bool) (vs : List V) : calls k scb (vs.map .value) = vs.map .value := by
  induction vs with
  | nil => rfl
  | cons v l ih =>
    simp only [calls] at ih ⊢
    simp [List.flatMap_cons, dispatch, ih]

/-- **C173** `MonitorBTP` and `MonitorBlock` call the error callback only with an error that the monitor has returned with, once and after
all notifications. -/
theorem C173_errors_are_real {V : Type} (h : List (Ev V)) (s : St V) (i : Nat) (k : Kind) (scb : Bool) (hk : k ≠ .event)
    (hr : run St.init h = some s) (pre post : List (User V)) (e : Option Err)
    (hc : calls k scb (heardOf s i) = pre ++ .error e :: post) :
    post = [] ∧ (∃ x m, e = some x ∧ s.mons[i]? = some m ∧ m.pc = .done (.read x) ∧ x ≠ .closed 1000) ∧
      pre = (if scb then [.start] else []) ++ (valsOf i h).map .value := by
  cases ha : acceptedIn i h with
  | false =>
    rw [((C173_notifications h s i hr).1 ha).1] at hc
    simp [calls] at hc
  | true =>
    obtain ⟨m, tail, h1, h2, h3⟩ := (C173_notifications h s i hr).2 ha
    have hd : dispatch k scb (.init : Cb V) = if scb then [.start] else [] := by cases k <;> simp [dispatch] at hk ⊢
    have hall : calls k scb (heardOf s i) = ((if scb then [.start] else []) ++ (valsOf i h).map .value) ++ calls k scb tail := by
      rw [h2]
      have := calls_values k scb (valsOf i h)
      simp only [calls] at this ⊢
      rw [List.flatMap_cons, List.flatMap_append, hd, this, List.append_assoc]
    have hno : ∀ x ∈ ((if scb then [.start] else []) ++ (valsOf i h).map .value : List (User V)), x ≠ .error e := by
      intro x hx
      rcases List.mem_append.mp hx with g | g
      · split at g
        · rw [List.mem_singleton.mp g]; simp
        · cases g
      · obtain ⟨v, _, rfl⟩ := List.mem_map.mp g; simp
    rw [hall] at hc
    rcases h3 with ⟨ht, _⟩ | ⟨x, ht, hp, hx⟩
    · subst ht
      simp only [calls, List.flatMap_nil, List.append_nil] at hc
      exact absurd rfl (hno (.error e) (by rw [hc]; simp))
    · subst ht
      have ht : calls k scb [(Cb.error x : Cb V)] = [.error (some x)] := by simp [calls, dispatch]
      rw [ht] at hc
      rcases List.append_eq_append_iff.mp hc with ⟨a, g1, g2⟩ | ⟨a, g1, g2⟩
      · cases a with
        | nil =>
          simp only [List.nil_append] at g2
          injection g2 with g3 g4
          injection g3 with g3
          exact ⟨g4.symm, ⟨x, m, g3.symm, h1, hp, hx⟩, by rw [g1]; simp⟩
        | cons b l =>
          simp only [List.cons_append] at g2
          injection g2 with _ g4
          cases l <;> simp at g4
      · cases a with
        | nil =>
          simp only [List.nil_append] at g2
          injection g2 with g3 g4
          injection g3 with g3
          exact ⟨g4, ⟨x, m, g3, h1, hp, hx⟩, by rw [g1]; simp⟩
        | cons b l =>
          simp only [List.cons_append] at g2
          injection g2 with g3 _
          exact absurd g3.symm (hno b (by rw [g1]; simp))

theorem feed_append {V σ : Type} (cb : σ → V → σ) (a b : List (User V)) (s : σ) : feed cb s (a ++ b) = feed cb (feed cb s a) b := by
  induction a generalizing s with
  | nil => rfl
  | cons x l ih => cases x <;> simp only [List.cons_append, feed, ih]

theorem feed_values {V σ : Type} (cb : σ → V → σ) (vs : List V) (s : σ) : feed cb s (vs.map .value) = vs.foldl cb s := by
  induction vs generalizing s with
  | nil => rfl
  | cons v l ih => simp only [List.map_cons, feed, List.foldl_cons, ih]

/-- **C173** A caller's callback with a state has worked through exactly the notifications in the frames read, in order; neither the start,
nor an error, nor errors of the callback itself change that. -/
theorem C173_callback {V σ : Type} (h : List (Ev V)) (s : St V) (i : Nat) (k : Kind) (scb : Bool) (cb : σ → V → σ) (c : σ)
    (hr : run St.init h = some s) : feed cb c (calls k scb (heardOf s i)) = (valsOf i h).foldl cb c := by
  cases ha : acceptedIn i h with
  | false =>
    obtain ⟨h1, h2⟩ := (C173_notifications h s i hr).1 ha
    rw [h1, h2]; rfl
  | true =>
    obtain ⟨m, tail, _, h2, h3⟩ := (C173_notifications h s i hr).2 ha
    have ht : ∀ x : σ, feed cb x (calls k scb tail) = x := by
      intro x
      rcases h3 with ⟨g, _⟩ | ⟨e, g, _⟩ <;> subst g <;> rfl
    have hi : ∀ x : σ, feed cb x (dispatch k scb (.init : Cb V)) = x := by
      intro x
      cases k <;> simp only [dispatch]
      · split <;> rfl
      · split <;> rfl
      · rfl
    have hv := calls_values k scb (valsOf i h)
    rw [h2]
    simp only [calls] at hv ht ⊢
    rw [List.flatMap_cons, List.flatMap_append, hv, feed_append, hi, feed_append, feed_values, ht]

/-- **C173** The btp2 receiver over the subscription: if the frames that the node sent are the BTP blocks `blocks` in order, none of them the
start block, and every request for messages succeeded, then each is recorded, in order, with the number of messages up to and including
it; whatever the other monitors of the client did, and however this one ended. -/
theorem C173_btp2 (h : List (Ev Monitor.Notif)) (s : St Monitor.Notif) (i : Nat) (H : Bytes → Bytes) (start : Int) (b : Receiver.B2)
    (blocks : List (Int × Int × List Bytes)) (hr : run St.init h = some s)
    (hf : valsOf i h = blocks.map (fun b => ⟨some (b.1, b.2.1), some b.2.2⟩))
    (hs : ∀ b ∈ blocks, b.1 ≠ start) (ht : ∀ b ∈ blocks, Mbt.newTree Mbt.goCfg H (b.2.2.map some) ≠ none) (j : Nat)
    (hj : j < blocks.length) :
    ∃ t, Mbt.newTree Mbt.goCfg H (blocks[j].2.2.map some) = some t ∧
      (feed (Monitor.b2OnNotif H start) b (calls .btp true (heardOf s i))).rss[b.rss.length + j]? =
        some ⟨blocks[j].1, b.seq + (((blocks.take (j + 1)).map (fun b => b.2.2.length)).sum : Nat), t⟩ := by
  rw [C173_callback h s i .btp true _ b hr, hf]
  exact Monitor.C90_btp2_partial H start blocks b hs ht j hj

/-! ### The endpoint -/

/-- **C173** An endpoint that begins with `http` (so also `https`) becomes the same with `ws` (`wss`). -/
theorem C173_endpoint (r : List Char) : wsEndpoint ("http".toList ++ r) = "ws".toList ++ r := by
  simp [wsEndpoint, replaceFirst, List.isPrefixOf]

/-- **C173** The replacement takes the first `http` anywhere: an endpoint that is already a websocket address is spoilt if the name of its
host begins with `http`. -/
theorem C173_endpoint_host : wsEndpoint "ws://httpd:9080".toList = "ws://wsd:9080".toList := by decide +kernel

/-! ### Where the conditions are needed -/

namespace Ex

/-- A monitor is closed while its read is blocked; its local address is given to the next connection before the read returns. -/
def reuse : List (Ev Nat) :=
  [.dial (some 5), .reply 0 (.code 0), .check 0, .close 0, .dial (some 5), .reply 1 (.code 0), .check 1, .frame 1 (.data (some 7)),
    .frame 0 .fail, .check 1]

/-- `CloseMonitor` for a monitor that has returned, whose local address another one has by now. -/
def late : List (Ev Nat) :=
  [.dial (some 5), .reply 0 (.code 0), .check 0, .frame 0 (.close 1006), .dial (some 5), .reply 1 (.code 0), .close 0, .check 1]

/-- Two monitors, one closed by the node normally, one failing; a third whose request is refused, and a dial that fails. -/
def usual : List (Ev Nat) :=
  [.dial (some 5), .dial (some 6), .reply 1 (.code 0), .reply 0 (.code 0), .check 0, .check 1, .frame 0 (.data (some 3)),
    .frame 1 (.data (some 8)), .check 1, .check 0, .frame 1 (.data (some 9)), .dial none, .dial (some 7), .reply 3 (.code 2),
    .frame 0 (.data (some 4)), .check 0, .check 1, .frame 1 (.close 1000), .frame 0 (.data none)]

/-- A monitor that is closed while its read is blocked: the read gives one more notification, or fails. -/
def closing : List (Ev Nat) :=
  [.dial (some 5), .reply 0 (.code 0), .check 0, .close 0, .frame 0 (.data (some 3)), .check 0]

def closingFails : List (Ev Nat) := [.dial (some 5), .reply 0 (.code 0), .check 0, .close 0, .frame 0 .fail]

end Ex

/-- **C173** is false where local addresses are used again at once: closing a monitor may end a later one without any error and without its
callback being told, although nobody closed that one. Entries of the table are removed by address (client.go:421-430), so the end of the
first monitor removes the connection of the second. -/
theorem C173_reused_address_false :
    ∃ s m, run St.init Ex.reuse = some s ∧ s.mons[1]? = some m ∧ m.pc = .done .nil ∧ m.heard = [.init, .value 7] ∧
      ¬ closedIn 1 Ex.reuse := by
  refine ⟨⟨[], [⟨some 5, .done (.read .net), true, [.init, .error .net]⟩, ⟨some 5, .done .nil, true, [.init, .value 7]⟩]⟩, _,
    by decide +kernel, rfl, rfl, rfl, ?_⟩
  unfold closedIn
  decide +kernel

/-- **C173** The same by a late `CloseMonitor`. -/
theorem C173_late_close_false :
    ∃ s m, run St.init Ex.late = some s ∧ s.mons[1]? = some m ∧ m.pc = .done .nil ∧ m.heard = [.init] ∧ ¬ closedIn 1 Ex.late := by
  refine ⟨⟨[], [⟨some 5, .done (.read (.closed 1006)), true, [.init, .error (.closed 1006)]⟩, ⟨some 5, .done .nil, true, [.init]⟩]⟩, _,
    by decide +kernel, rfl, rfl, rfl, ?_⟩
  unfold closedIn
  decide +kernel

/-- **C173** Closing a monitor on purpose is reported to its error callback as a failure if its read was blocked: only a monitor at the head
of its loop ends quietly. -/
theorem C173_closing_reported :
    ∃ s m, run St.init Ex.closingFails = some s ∧ s.mons[0]? = some m ∧ m.pc = .done (.read .net) ∧
      calls .btp true (heardOf s 0) = [.start, .error (some .net)] :=
  ⟨⟨[], [⟨some 5, .done (.read .net), true, [.init, .error .net]⟩]⟩, _, by decide +kernel, rfl, rfl, by decide +kernel⟩

namespace Ex

def usualEnd : St Nat :=
  ⟨[], [⟨some 5, .done (.read .json), true, [.init, .value 3, .value 4, .error .json]⟩,
    ⟨some 6, .done (.read (.closed 1000)), true, [.init, .value 8, .value 9]⟩, ⟨none, .done .connect, false, []⟩,
    ⟨some 7, .done .request, true, []⟩]⟩

example : run St.init usual = some usualEnd := by decide +kernel
example : acceptedIn 0 usual = true ∧ acceptedIn 3 usual = false ∧ valsOf 0 usual = [3, 4] ∧ valsOf 1 usual = [8, 9] := by decide +kernel
example : calls .btp true (heardOf usualEnd 0) = [.start, .value 3, .value 4] ++ .error (some .json) :: [] := by decide +kernel
example : calls .event true (heardOf usualEnd 1) = [.error none, .value 8, .value 9] := by decide +kernel
example : ∃ s, run St.init closing = some s ∧ (s.mons[0]?).map (fun m => (m.pc, m.heard)) = some (.done .nil, [.init, .value 3]) :=
  ⟨⟨[], [⟨some 5, .done .nil, true, [.init, .value 3]⟩]⟩, by decide +kernel, rfl⟩

/-- The conditions of `Orderly`, decided along a run. -/
def orderlyB : St Nat → List (Ev Nat) → Bool
  | _, [] => true
  | s, e :: l =>
    (match e with
      | .dial (some la) => s.mons.all (fun m => m.la ≠ some la || m.pc.isDone)
      | .close i => match s.mons[i]? with | some m => !m.pc.isDone | none => true
      | _ => true) &&
    match step s e with
    | some s' => orderlyB s' l
    | none => true

theorem orderlyB_sound (l : List (Ev Nat)) (s : St Nat) (h : orderlyB s l = true) : Orderly s l := by
  induction l generalizing s with
  | nil => trivial
  | cons e l ih =>
    simp only [orderlyB, Bool.and_eq_true] at h
    refine ⟨?_, fun s' hs => ih s' (by simpa only [hs] using h.2)⟩
    have h := h.1
    cases e with
    | dial la =>
      cases la with
      | none => trivial
      | some a =>
        intro m hm hla
        have := List.all_eq_true.mp h m hm
        simpa [hla] using this
    | close i =>
      intro m hm
      dsimp only at h
      rw [hm] at h
      simpa using h
    | _ => trivial

/-- The histories above that meet the conditions. -/
example : Orderly St.init usual := orderlyB_sound _ _ (by decide +kernel)
example : Orderly St.init closing := orderlyB_sound _ _ (by decide +kernel)
example : (framesOf 0 [(.frame 0 (.data (some 3)) : Ev Nat), .check 0]).length = 1 := by decide +kernel
example : (framesOf 0 [(.frame 0 (.data (some 3)) : Ev Nat), .check 0]).length ≤ 1 :=
  C173_close_stops_partial [.dial (some 5), .reply 0 (.code 0), .check 0] [.frame 0 (.data (some 3)), .check 0] 0
    ⟨[], [⟨some 5, .done .nil, true, [.init, .value 3]⟩]⟩ (by decide +kernel) (orderlyB_sound _ _ (by decide +kernel))

/-- Two BTP blocks over the subscription, then the connection breaks. -/
def blocks : List (Ev Monitor.Notif) :=
  [.dial (some 5), .reply 0 (.code 0), .check 0, .frame 0 (.data (some ⟨some (12, 0), some [[1], [2]]⟩)), .check 0,
    .frame 0 (.data (some ⟨some (13, 0), some [[1]]⟩)), .check 0, .frame 0 .fail]

example : valsOf 0 blocks = [(12, 0, [[1], [2]]), (13, 0, [[1]])].map (fun b => ⟨some (b.1, b.2.1), some b.2.2⟩) := by decide +kernel
example : ((run St.init blocks).map fun s => (feed (Monitor.b2OnNotif Monitor.exH 1) ⟨[], 5⟩ (calls .btp true (heardOf s 0))).rss.map
    (fun r => (r.height, r.seq))) = some [(12, 7), (13, 8)] := by decide +kernel
example : orderlyB St.init reuse = false ∧ orderlyB St.init late = false := by decide +kernel

end Ex

end Verif.WsMonitor
