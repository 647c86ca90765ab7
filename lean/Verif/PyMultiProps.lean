import Verif.PyMulti
import Verif.SolRlpProps
/-!
C146: the sample tokens keep their books. C147: what the events of batch transfers say.
-/
namespace Verif.PyMulti
open Verif Verif.Rlp

/-! ### Sums over holders -/

/-- What the holders in `L` have together. -/
def held (L : List Nat) (f : Nat → Int) : Int := (L.map f).sum

theorem held_put (L : List Nat) (hn : L.Nodup) (f : Nat → Int) (a : Nat) (v : Int) :
    held L (fun x => if x = a then v else f x) = held L f + if a ∈ L then v - f a else 0 := by
  induction L with
  | nil => simp [held]
  | cons y t ih =>
    rw [List.nodup_cons] at hn
    have ih := ih hn.2
    unfold held at ih ⊢
    rw [List.map_cons, List.sum_cons, List.map_cons, List.sum_cons, ih]
    by_cases hy : y = a
    · subst hy; rw [if_pos rfl, if_neg hn.1, if_pos List.mem_cons_self]; omega
    · rw [if_neg hy]
      by_cases h : a ∈ t
      · rw [if_pos h, if_pos (List.mem_cons_of_mem _ h)]; omega
      · rw [if_neg h, if_neg (by rw [List.mem_cons]; rintro (h2 | h2); exact hy h2.symm; exact h h2)]; omega

theorem held_zero : ∀ L : List Nat, held L (fun _ => 0) = 0
  | [] => rfl
  | a :: t => by have := held_zero t; unfold held at this ⊢; rw [List.map_cons, List.sum_cons, this]; rfl

theorem held_put_eq (L : List Nat) (hn : L.Nodup) (b : Int → Nat → Int) (id i : Int) (a : Nat) (ha : a ∈ L) (v : Int) :
    held L (put b id a v i) = held L (b i) + if i = id then v - b id a else 0 := by
  by_cases h : i = id
  · subst h
    have : put b i a v i = fun x => if x = a then v else b i x := by funext x; simp [put]
    rw [this, held_put L hn, if_pos ha, if_pos rfl]
  · have : put b id a v i = b i := by funext x; simp [put, h]
    rw [this, if_neg h]; omega

/-! ### Moving tokens -/

theorem move_some {b b' : Int → Nat → Int} {frm to : Nat} {id v : Int} (h : move b frm to id v = some b') :
    0 ≤ v ∧ v ≤ b id frm ∧ b' = put (put b id frm (b id frm - v)) id to (put b id frm (b id frm - v) id to + v) := by
  unfold move at h
  by_cases hc : 0 ≤ v ∧ v ≤ b id frm
  · rw [if_pos hc] at h
    exact ⟨hc.1, hc.2, (Option.some.inj h).symm⟩
  · rw [if_neg hc] at h; exact absurd h (by simp)

/-- The balances after a transfer. -/
theorem move_bal {b b' : Int → Nat → Int} {frm to : Nat} {id v : Int} (h : move b frm to id v = some b') (i : Int) (a : Nat) :
    b' i a = b i a + (if i = id ∧ a = to then v else 0) - (if i = id ∧ a = frm then v else 0) := by
  obtain ⟨_, _, rfl⟩ := move_some h
  simp only [put]
  by_cases hi : i = id
  · subst hi
    by_cases h1 : a = to <;> by_cases h2 : a = frm <;> by_cases h3 : to = frm <;> simp_all <;> omega
  · simp [hi]

theorem move_held {b b' : Int → Nat → Int} {frm to : Nat} {id v : Int} (L : List Nat) (hn : L.Nodup) (hf : frm ∈ L) (ht : to ∈ L)
    (h : move b frm to id v = some b') (i : Int) : held L (b' i) = held L (b i) := by
  obtain ⟨_, _, rfl⟩ := move_some h
  rw [held_put_eq L hn _ _ _ _ ht, held_put_eq L hn _ _ _ _ hf]
  by_cases hi : i = id
  · rw [if_pos hi, if_pos hi]; omega
  · rw [if_neg hi, if_neg hi]; omega

theorem move_nonneg {b b' : Int → Nat → Int} {frm to : Nat} {id v : Int} (h : move b frm to id v = some b')
    (h0 : ∀ i a, 0 ≤ b i a) (i : Int) (a : Nat) : 0 ≤ b' i a := by
  have hm := move_some h
  rw [move_bal h]
  have := h0 i a
  by_cases h2 : i = id ∧ a = frm
  · obtain ⟨rfl, rfl⟩ := h2; simp only [true_and]; split <;> simp <;> omega
  · rw [if_neg h2]; split <;> omega

theorem move_zero {b b' : Int → Nat → Int} {frm to : Nat} {id v : Int} (h : move b frm to id v = some b') (i : Int)
    (h0 : ∀ a, b i a = 0) (a : Nat) : b' i a = 0 := by
  have hm := move_some h
  rw [move_bal h, h0]
  by_cases hi : i = id
  · subst hi
    have : v = 0 := by have := h0 frm; omega
    subst this; simp
  · simp [hi]

theorem moves_held {frm to : Nat} (L : List Nat) (hn : L.Nodup) (hf : frm ∈ L) (ht : to ∈ L) (i : Int) : ∀ (ids vs : List Int)
    (b b' : Int → Nat → Int), moves b frm to ids vs = some b' → held L (b' i) = held L (b i)
  | [], _, b, b', h => by simp only [moves, Option.some.injEq] at h; rw [h]
  | _ :: _, [], b, b', h => by simp only [moves, Option.some.injEq] at h; rw [h]
  | id :: is, v :: vs, b, b', h => by
    rw [moves, Option.bind_eq_some_iff] at h
    obtain ⟨b1, h1, h2⟩ := h
    rw [moves_held L hn hf ht i is vs b1 b' h2, move_held L hn hf ht h1]

theorem moves_nonneg {frm to : Nat} : ∀ (ids vs : List Int) (b b' : Int → Nat → Int), moves b frm to ids vs = some b' →
    (∀ i a, 0 ≤ b i a) → ∀ i a, 0 ≤ b' i a
  | [], _, b, b', h, h0 => by simp only [moves, Option.some.injEq] at h; rw [← h]; exact h0
  | _ :: _, [], b, b', h, h0 => by simp only [moves, Option.some.injEq] at h; rw [← h]; exact h0
  | id :: is, v :: vs, b, b', h, h0 => by
    rw [moves, Option.bind_eq_some_iff] at h
    obtain ⟨b1, h1, h2⟩ := h
    exact moves_nonneg is vs b1 b' h2 (move_nonneg h1 h0)

theorem moves_zero {frm to : Nat} (i : Int) : ∀ (ids vs : List Int) (b b' : Int → Nat → Int), moves b frm to ids vs = some b' →
    (∀ a, b i a = 0) → ∀ a, b' i a = 0
  | [], _, b, b', h, h0 => by simp only [moves, Option.some.injEq] at h; rw [← h]; exact h0
  | _ :: _, [], b, b', h, h0 => by simp only [moves, Option.some.injEq] at h; rw [← h]; exact h0
  | id :: is, v :: vs, b, b', h, h0 => by
    rw [moves, Option.bind_eq_some_iff] at h
    obtain ⟨b1, h1, h2⟩ := h
    exact moves_zero i is vs b1 b' h2 (move_zero h1 i h0)

/-- Who neither sends nor receives keeps what it has; only the sender has less. -/
theorem moves_other {frm to : Nat} (i : Int) (a : Nat) (ha : a ≠ frm) : ∀ (ids vs : List Int) (b b' : Int → Nat → Int),
    moves b frm to ids vs = some b' → b i a ≤ b' i a
  | [], _, b, b', h => by simp only [moves, Option.some.injEq] at h; rw [h]; exact Int.le_refl _
  | _ :: _, [], b, b', h => by simp only [moves, Option.some.injEq] at h; rw [h]; exact Int.le_refl _
  | id :: is, v :: vs, b, b', h => by
    rw [moves, Option.bind_eq_some_iff] at h
    obtain ⟨b1, h1, h2⟩ := h
    refine Int.le_trans ?_ (moves_other i a ha is vs b1 b' h2)
    have hm := move_some h1
    rw [move_bal h1, if_neg (c := i = id ∧ a = frm) (fun c => ha c.2)]; split <;> omega

/-! ### Histories -/

/-- Tokens of `id` made by a call. -/
def made (id : Int) (c : Nat × Op) : Int := match c.2 with | .mint i n _ => if i = id then n else 0 | _ => 0
/-- Tokens of `id` destroyed by a call. -/
def gone (id : Int) (c : Nat × Op) : Int := match c.2 with | .burn i n => if i = id then n else 0 | _ => 0

/-- The addresses in a call. -/
def addrs (c : Nat × Op) : List Nat := match c.2 with
  | .transfer f t _ _ _ => [c.1, f, t]
  | .batch f t _ _ _ => [c.1, f, t]
  | _ => [c.1]

/-- No balance is negative, and nobody has tokens that were never made. -/
structure Ok (s : S) : Prop where
  pos : ∀ i a, 0 ≤ s.bal i a
  none : ∀ i, s.creator i = none → ∀ a, s.bal i a = 0

theorem exec_ok {isc : Nat → Bool} {s s' : S} {c : Nat} {o : Op} (h : exec isc s c o = some s') (I : Ok s) : Ok s' := by
  cases o with
  | transfer f t id v ok =>
    simp only [exec] at h
    split at h
    · rw [Option.bind_eq_some_iff] at h
      obtain ⟨b, h1, h2⟩ := h
      split at h2
      · exact absurd h2 (by simp)
      · cases h2
        exact ⟨move_nonneg h1 I.pos, fun i hi => move_zero h1 i (I.none i hi)⟩
    · exact absurd h (by simp)
  | batch f t ids vs ok =>
    simp only [exec] at h
    split at h
    · simp only [Option.bind_eq_some_iff] at h
      obtain ⟨b, h1, x, hx, y, hy, h2⟩ := h
      split at h2
      · exact absurd h2 (by simp)
      · cases h2
        exact ⟨moves_nonneg ids vs _ _ h1 I.pos, fun i hi => moves_zero i ids vs _ _ h1 (I.none i hi)⟩
    · exact absurd h (by simp)
  | approve a y => simp only [exec, Option.some.injEq] at h; rw [← h]; exact ⟨I.pos, I.none⟩
  | mint id n u =>
    simp only [exec] at h
    split at h
    · rename_i hc
      cases h
      refine ⟨fun i a => ?_, fun i hi a => ?_⟩
      · simp only [put]; split
        · omega
        · exact I.pos i a
      · simp only at hi
        by_cases e : i = id
        · rw [if_pos e] at hi; exact absurd hi (by simp)
        · rw [if_neg e] at hi
          simp only [put]; rw [if_neg (fun c => e c.1)]; exact I.none i hi a
    · exact absurd h (by simp)
  | burn id n =>
    simp only [exec] at h
    split at h
    · rename_i hc
      cases h
      refine ⟨fun i a => ?_, fun i hi a => ?_⟩
      · simp only [put]; split
        · omega
        · exact I.pos i a
      · have e : i ≠ id := fun e => hc.1 (e ▸ hi)
        simp only [put]; rw [if_neg (fun c => e c.1)]; exact I.none i hi a
    · exact absurd h (by simp)
  | setUri id u =>
    simp only [exec] at h
    split at h
    · cases h; exact ⟨I.pos, I.none⟩
    · exact absurd h (by simp)

theorem step_ok (isc : Nat → Bool) (s : S) (c : Nat × Op) (I : Ok s) : Ok (step isc s c) := by
  unfold step
  cases h : exec isc s c.1 c.2 with
  | none => exact I
  | some s' => exact exec_ok h I

theorem run_ok (isc : Nat → Bool) : ∀ (l : List (Nat × Op)) (s : S), Ok s → Ok (run isc s l)
  | [], _, I => I
  | c :: l, s, I => run_ok isc l _ (step_ok isc s c I)

theorem start_ok : Ok start := ⟨fun _ _ => Int.le_refl 0, fun _ _ _ => rfl⟩

theorem exec_held {isc : Nat → Bool} {s s' : S} {c : Nat} {o : Op} (h : exec isc s c o = some s') (I : Ok s) (L : List Nat) (hn : L.Nodup)
    (hL : ∀ a ∈ addrs (c, o), a ∈ L) (i : Int) : held L (s'.bal i) = held L (s.bal i) + made i (c, o) - gone i (c, o) := by
  cases o with
  | transfer f t id v ok =>
    simp only [exec] at h
    split at h
    · rw [Option.bind_eq_some_iff] at h
      obtain ⟨b, h1, h2⟩ := h
      split at h2
      · exact absurd h2 (by simp)
      · cases h2
        rw [show held L _ = held L (s.bal i) from move_held L hn (hL f (by simp [addrs])) (hL t (by simp [addrs])) h1 i]
        simp [made, gone]
    · exact absurd h (by simp)
  | batch f t ids vs ok =>
    simp only [exec] at h
    split at h
    · simp only [Option.bind_eq_some_iff] at h
      obtain ⟨b, h1, x, hx, y, hy, h2⟩ := h
      split at h2
      · exact absurd h2 (by simp)
      · cases h2
        rw [show held L _ = held L (s.bal i) from moves_held L hn (hL f (by simp [addrs])) (hL t (by simp [addrs])) i ids vs _ _ h1]
        simp [made, gone]
    · exact absurd h (by simp)
  | approve a y => simp only [exec, Option.some.injEq] at h; rw [← h]; simp [made, gone]
  | mint id n u =>
    simp only [exec] at h
    split at h
    · rename_i hc
      cases h
      rw [held_put_eq L hn _ _ _ _ (hL c (by simp [addrs])), I.none id hc.1 c]
      simp only [made, gone]
      by_cases e : i = id
      · rw [if_pos e, if_pos e.symm]; omega
      · rw [if_neg e, if_neg (Ne.symm e)]; omega
    · exact absurd h (by simp)
  | burn id n =>
    simp only [exec] at h
    split at h
    · cases h
      rw [held_put_eq L hn _ _ _ _ (hL c (by simp [addrs]))]
      simp only [made, gone]
      by_cases e : i = id
      · rw [if_pos e, if_pos e.symm]; omega
      · rw [if_neg e, if_neg (Ne.symm e)]; omega
    · exact absurd h (by simp)
  | setUri id u =>
    simp only [exec] at h
    split at h
    · cases h; simp [made, gone]
    · exact absurd h (by simp)

theorem run_held (isc : Nat → Bool) (L : List Nat) (hn : L.Nodup) (i : Int) : ∀ (l : List (Nat × Op)) (s : S), Ok s →
    (∀ c ∈ l, ∀ a ∈ addrs c, a ∈ L) → held L ((run isc s l).bal i) = held L (s.bal i)
      + ((accepted isc s l).map (made i)).sum - ((accepted isc s l).map (gone i)).sum
  | [], s, _, _ => by simp [run, accepted]
  | c :: l, s, I, hL => by
    rw [run, run_held isc L hn i l _ (step_ok isc s c I) (fun d hd => hL d (List.mem_cons_of_mem _ hd)), accepted]
    cases h : exec isc s c.1 c.2 with
    | none => simp [step, h]
    | some s' =>
      have : held L (s'.bal i) = held L (s.bal i) + made i c - gone i c := exec_held h I L hn (hL c List.mem_cons_self) i
      simp only [step, h, Option.getD_some, Option.isSome_some, if_true, List.cons_append, List.nil_append, List.map_cons, List.sum_cons, this]
      omega

/-- C146: the holders have together exactly what was made less what was destroyed, for each kind of token, whatever is called. -/
theorem C146_supply (isc : Nat → Bool) (l : List (Nat × Op)) (L : List Nat) (hn : L.Nodup) (hL : ∀ c ∈ l, ∀ a ∈ addrs c, a ∈ L) (id : Int) :
    held L ((run isc start l).bal id)
      = ((accepted isc start l).map (made id)).sum - ((accepted isc start l).map (gone id)).sum := by
  rw [run_held isc L hn id l start start_ok hL]
  rw [show held L (start.bal id) = 0 from held_zero L]; omega

/-- C146: no balance is ever negative. -/
theorem C146_balances (isc : Nat → Bool) (l : List (Nat × Op)) (id : Int) (a : Nat) : 0 ≤ (run isc start l).bal id a :=
  (run_ok isc l start start_ok).pos id a

/-- The call makes tokens of `id`. -/
def isMint (id : Int) : Op → Bool
  | .mint i _ _ => i = id
  | _ => false

theorem exec_creator {isc : Nat → Bool} {s s' : S} {c : Nat} {o : Op} (h : exec isc s c o = some s') (i : Int) :
    s'.creator i = (if s.creator i = none ∧ isMint i o = true then some c else s.creator i) := by
  cases o with
  | transfer f t id v ok =>
    simp only [exec] at h
    split at h
    · rw [Option.bind_eq_some_iff] at h
      obtain ⟨b, h1, h2⟩ := h
      split at h2
      · exact absurd h2 (by simp)
      · cases h2; simp [isMint]
    · exact absurd h (by simp)
  | batch f t ids vs ok =>
    simp only [exec] at h
    split at h
    · simp only [Option.bind_eq_some_iff] at h
      obtain ⟨b, h1, x, hx, y, hy, h2⟩ := h
      split at h2
      · exact absurd h2 (by simp)
      · cases h2; simp [isMint]
    · exact absurd h (by simp)
  | approve a y => simp only [exec, Option.some.injEq] at h; rw [← h]; simp [isMint]
  | mint id n u =>
    simp only [exec] at h
    split at h
    · rename_i hc
      cases h
      by_cases e : i = id
      · subst e; simp [hc.1, isMint]
      · have : ¬ (id = i) := Ne.symm e
        simp [e, this, isMint]
    · exact absurd h (by simp)
  | burn id n =>
    simp only [exec] at h
    split at h
    · cases h; simp [isMint]
    · exact absurd h (by simp)
  | setUri id u =>
    simp only [exec] at h
    split at h
    · cases h; simp [isMint]
    · exact absurd h (by simp)

/-- The accepted calls that make tokens of `id`. -/
def mints (id : Int) (l : List (Nat × Op)) : List (Nat × Op) := l.filter fun c => isMint id c.2

theorem mints_le (isc : Nat → Bool) (id : Int) : ∀ (l : List (Nat × Op)) (s : S),
    (mints id (accepted isc s l)).length ≤ (if s.creator id = none then 1 else 0) ∧
    ((run isc s l).creator id = if s.creator id = none then ((mints id (accepted isc s l)).head?).map (·.1) else s.creator id)
  | [], s => by
    constructor
    · simp [accepted, mints]
    · simp only [run, accepted, mints, List.filter_nil, List.head?_nil, Option.map_none]
      split
      · assumption
      · rfl
  | c :: l, s => by
    obtain ⟨h1, h2⟩ := mints_le isc id l (step isc s c)
    rw [accepted, run]
    cases h : exec isc s c.1 c.2 with
    | none =>
      have : step isc s c = s := by simp [step, h]
      rw [this] at h1 h2 ⊢
      simpa [h] using ⟨h1, h2⟩
    | some s' =>
      have e : step isc s c = s' := by simp [step, h]
      rw [e] at h1 h2 ⊢
      have hc := exec_creator h id
      by_cases hm : isMint id c.2 = true
      · have hno : s.creator id = none := by
          by_cases hx : s.creator id = none
          · exact hx
          · exfalso
            cases ho : c.2 with
            | mint i n u =>
              rw [ho] at hm h
              simp only [isMint, decide_eq_true_eq] at hm
              subst hm
              simp only [exec] at h
              rw [if_neg (fun c => hx c.1)] at h; exact absurd h (by simp)
            | _ => rw [ho] at hm; exact absurd hm (by simp [isMint])
        rw [if_pos ⟨hno, hm⟩] at hc
        rw [hc, if_neg (by simp)] at h1 h2
        have hz : mints id (accepted isc s' l) = [] := List.length_eq_zero_iff.1 (by omega)
        have : mints id ([c] ++ accepted isc s' l) = [c] := by
          unfold mints at hz ⊢
          rw [List.filter_append, hz, List.filter_cons]; simp [hm]
        simp only [Option.isSome_some, if_true]
        rw [this, hno, h2]; simp
      · rw [if_neg (fun c => hm c.2)] at hc
        rw [hc] at h1 h2
        have : mints id ([c] ++ accepted isc s' l) = mints id (accepted isc s' l) := by
          unfold mints
          rw [List.filter_append, List.filter_cons]
          simp [hm]
        simp only [Option.isSome_some, if_true]
        rw [this]; exact ⟨h1, h2⟩

/-- C146: tokens of one kind are made once, and who made them stays their creator. -/
theorem C146_once (isc : Nat → Bool) (l : List (Nat × Op)) (id : Int) :
    (mints id (accepted isc start l)).length ≤ 1 ∧
    (run isc start l).creator id = (mints id (accepted isc start l)).head?.map (·.1) := by
  have := mints_le isc id l start
  have e : start.creator id = none := rfl
  rw [if_pos e, if_pos e] at this
  exact this

/-- C146: a balance gets smaller only by a call of its holder or of an operator the holder has approved. -/
theorem C146_permission (isc : Nat → Bool) (s : S) (c : Nat × Op) (id : Int) (a : Nat) (h : (step isc s c).bal id a < s.bal id a) :
    c.1 = a ∨ s.appr a c.1 = true := by
  unfold step at h
  cases he : exec isc s c.1 c.2 with
  | none => rw [he] at h; exact absurd h (by simp)
  | some s' =>
    rw [he, Option.getD_some] at h
    obtain ⟨c, o⟩ := c
    simp only at he h ⊢
    cases o with
    | transfer f t i v ok =>
      simp only [exec] at he
      split at he
      · rename_i hp
        rw [Option.bind_eq_some_iff] at he
        obtain ⟨b, h1, h2⟩ := he
        split at h2
        · exact absurd h2 (by simp)
        · cases h2
          simp only at h
          by_cases ha : a = f
          · have := hp.2
            simp only [mayMove, Bool.or_eq_true, beq_iff_eq] at this
            rw [ha]; rcases this with h3 | h3
            · exact .inl h3.symm
            · exact .inr h3
          · have hm := move_some h1
            rw [move_bal h1, if_neg (c := id = i ∧ a = f) (fun c => ha c.2)] at h
            split at h <;> omega
      · exact absurd he (by simp)
    | batch f t ids vs ok =>
      simp only [exec] at he
      split at he
      · rename_i hp
        simp only [Option.bind_eq_some_iff] at he
        obtain ⟨b, h1, x, hx, y, hy, h2⟩ := he
        split at h2
        · exact absurd h2 (by simp)
        · cases h2
          simp only at h
          by_cases ha : a = f
          · have := hp.2.2
            simp only [mayMove, Bool.or_eq_true, beq_iff_eq] at this
            rw [ha]; rcases this with h3 | h3
            · exact .inl h3.symm
            · exact .inr h3
          · have := moves_other id a ha ids vs _ _ h1
            omega
      · exact absurd he (by simp)
    | approve x y => simp only [exec, Option.some.injEq] at he; rw [← he] at h; exact absurd h (by simp)
    | mint i n u =>
      simp only [exec] at he
      split at he
      · rename_i hc
        cases he
        simp only [put] at h
        split at h
        · rename_i e
          exact .inl e.2.symm
        · omega
      · exact absurd he (by simp)
    | burn i n =>
      simp only [exec] at he
      split at he
      · cases he
        simp only [put] at h
        split at h
        · rename_i e; exact .inl e.2.symm
        · omega
      · exact absurd he (by simp)
    | setUri i u =>
      simp only [exec] at he
      split at he
      · cases he; exact absurd h (by simp)
      · exact absurd he (by simp)

/-- C146: an approval changes only by a call of the holder; the text of a kind only by its creator. -/
theorem C146_owner_only (isc : Nat → Bool) (s : S) (c : Nat × Op) :
    (∀ a o, (step isc s c).appr a o ≠ s.appr a o → c.1 = a) ∧
    (∀ id, (step isc s c).uri id ≠ s.uri id → (step isc s c).creator id = some c.1) := by
  unfold step
  cases he : exec isc s c.1 c.2 with
  | none => exact ⟨fun _ _ h => absurd rfl h, fun _ h => absurd rfl h⟩
  | some s' =>
    rw [Option.getD_some]
    obtain ⟨c, o⟩ := c
    simp only at he ⊢
    cases o with
    | transfer f t i v ok =>
      simp only [exec] at he
      split at he
      · rw [Option.bind_eq_some_iff] at he
        obtain ⟨b, h1, h2⟩ := he
        split at h2
        · exact absurd h2 (by simp)
        · cases h2; exact ⟨fun _ _ h => absurd rfl h, fun _ h => absurd rfl h⟩
      · exact absurd he (by simp)
    | batch f t ids vs ok =>
      simp only [exec] at he
      split at he
      · simp only [Option.bind_eq_some_iff] at he
        obtain ⟨b, h1, x, hx, y, hy, h2⟩ := he
        split at h2
        · exact absurd h2 (by simp)
        · cases h2; exact ⟨fun _ _ h => absurd rfl h, fun _ h => absurd rfl h⟩
      · exact absurd he (by simp)
    | approve x y =>
      simp only [exec, Option.some.injEq] at he; rw [← he]
      refine ⟨fun a o h => ?_, fun _ h => absurd rfl h⟩
      simp only at h
      by_cases e : a = c ∧ o = x
      · exact e.1.symm
      · rw [if_neg e] at h; exact absurd rfl h
    | mint i n u =>
      simp only [exec] at he
      split at he
      · cases he
        refine ⟨fun _ _ h => absurd rfl h, fun id h => ?_⟩
        simp only at h ⊢
        by_cases e : id = i
        · rw [if_pos e]
        · rw [if_neg e] at h; exact absurd rfl h
      · exact absurd he (by simp)
    | burn i n =>
      simp only [exec] at he
      split at he
      · cases he; exact ⟨fun _ _ h => absurd rfl h, fun _ h => absurd rfl h⟩
      · exact absurd he (by simp)
    | setUri i u =>
      simp only [exec] at he
      split at he
      · rename_i hc
        cases he
        refine ⟨fun _ _ h => absurd rfl h, fun id h => ?_⟩
        simp only at h ⊢
        by_cases e : id = i
        · rw [e]; exact hc.1
        · rw [if_neg e] at h; exact absurd rfl h
      · exact absurd he (by simp)

theorem moves_run (isc : Nat → Bool) (c f t : Nat) (hb : t ≠ 0) : ∀ (ids vs : List Int) (s : S) (b : Int → Nat → Int),
    mayMove s c f = true → ids.length = vs.length → moves s.bal f t ids vs = some b →
    (run isc s ((ids.zip vs).map fun p => (c, .transfer f t p.1 p.2 true))).bal = b ∧
    accepted isc s ((ids.zip vs).map fun p => (c, .transfer f t p.1 p.2 true)) = (ids.zip vs).map fun p => (c, .transfer f t p.1 p.2 true)
  | [], vs, s, b, _, _, h => by
    simp only [moves, Option.some.injEq] at h
    simpa [run, accepted] using h
  | i :: is, [], s, b, _, hl, h => by simp at hl
  | i :: is, v :: vs, s, b, hm, hl, h => by
    rw [moves, Option.bind_eq_some_iff] at h
    obtain ⟨b1, h1, h2⟩ := h
    have e : exec isc s c (.transfer f t i v true) = some { s with bal := b1, log := s.log ++ [.single c f t i v] } := by
      simp only [exec]; rw [if_pos ⟨hb, hm⟩, h1]; simp
    have := moves_run isc c f t hb is vs { s with bal := b1, log := s.log ++ [.single c f t i v] } b (by simpa [mayMove] using hm)
      (by simpa using hl) h2
    simp only [List.zip_cons_cons, List.map_cons, run, accepted, step, e, Option.getD_some, Option.isSome_some, if_true]
    exact ⟨this.1, by rw [this.2]; rfl⟩

/-- C146: a batch that is accepted leaves the balances that the single transfers would leave one after the other, each of them accepted. -/
theorem C146_batch (isc : Nat → Bool) (s s' : S) (c f t : Nat) (ids vs : List Int) (ok : Bool)
    (h : exec isc s c (.batch f t ids vs ok) = some s') :
    (run isc s ((ids.zip vs).map fun p => (c, .transfer f t p.1 p.2 true))).bal = s'.bal ∧
    accepted isc s ((ids.zip vs).map fun p => (c, .transfer f t p.1 p.2 true)) = (ids.zip vs).map fun p => (c, .transfer f t p.1 p.2 true) := by
  simp only [exec] at h
  split at h
  · rename_i hp
    simp only [Option.bind_eq_some_iff] at h
    obtain ⟨b, h1, x, hx, y, hy, h2⟩ := h
    split at h2
    · exact absurd h2 (by simp)
    · cases h2
      exact moves_run isc c f t hp.1 ids vs s b hp.2.2 hp.2.1 h1
  · exact absurd h (by simp)

/-! ### IRC2 -/
/-- C146: exactly when the multi-token takes each call but a batch (for batches see `C146_batch`). -/
theorem C146_accepts (isc : Nat → Bool) (s : S) (c : Nat) :
    (∀ f t id v ok, (exec isc s c (.transfer f t id v ok)).isSome = true ↔
      t ≠ 0 ∧ (f = c ∨ s.appr f c = true) ∧ 0 ≤ v ∧ v ≤ s.bal id f ∧ (isc t = true → ok = true)) ∧
    (∀ o y, (exec isc s c (.approve o y)).isSome = true) ∧
    (∀ id v u, (exec isc s c (.mint id v u)).isSome = true ↔ s.creator id = none ∧ 0 < v ∧ u ≠ []) ∧
    (∀ id v, (exec isc s c (.burn id v)).isSome = true ↔ s.creator id ≠ none ∧ 0 < v ∧ v ≤ s.bal id c) ∧
    (∀ id u, (exec isc s c (.setUri id u)).isSome = true ↔ s.creator id = some c ∧ u ≠ []) := by
  refine ⟨fun f t id v ok => ?_, fun _ _ => rfl, fun id v u => ?_, fun id v => ?_, fun id u => ?_⟩
  · dsimp only [exec]
    have hm : mayMove s c f = true ↔ f = c ∨ s.appr f c = true := by unfold mayMove; simp
    by_cases h1 : t ≠ 0 ∧ mayMove s c f = true
    · rw [if_pos h1]
      unfold move
      by_cases h2 : 0 ≤ v ∧ v ≤ s.bal id f
      · rw [if_pos h2, Option.bind_some]
        by_cases h3 : isc t = true ∧ ok = false
        · rw [if_pos h3]
          refine ⟨fun h => by simp at h, fun h => ?_⟩
          have := h.2.2.2.2 h3.1
          rw [h3.2] at this
          cases this
        · rw [if_neg h3]
          refine ⟨fun _ => ⟨h1.1, hm.mp h1.2, h2.1, h2.2, fun hi => ?_⟩, fun _ => rfl⟩
          cases ok with
          | true => rfl
          | false => exact absurd ⟨hi, rfl⟩ h3
      · rw [if_neg h2]
        exact ⟨fun h => by simp at h, fun h => absurd ⟨h.2.2.1, h.2.2.2.1⟩ h2⟩
    · rw [if_neg h1]
      exact ⟨fun h => by simp at h, fun h => absurd ⟨h.1, hm.mpr h.2.1⟩ h1⟩
  · dsimp only [exec]
    by_cases h : s.creator id = none ∧ v > 0 ∧ u.length > 0
    · rw [if_pos h]; exact ⟨fun _ => ⟨h.1, h.2.1, List.length_pos_iff.mp h.2.2⟩, fun _ => rfl⟩
    · rw [if_neg h]; exact ⟨fun q => by simp at q, fun q => absurd ⟨q.1, q.2.1, List.length_pos_iff.mpr q.2.2⟩ h⟩
  · dsimp only [exec]
    by_cases h : s.creator id ≠ none ∧ v > 0 ∧ 0 ≤ v ∧ v ≤ s.bal id c
    · rw [if_pos h]; exact ⟨fun _ => ⟨h.1, h.2.1, h.2.2.2⟩, fun _ => rfl⟩
    · rw [if_neg h]; exact ⟨fun q => by simp at q, fun q => absurd ⟨q.1, q.2.1, by omega, q.2.2⟩ h⟩
  · dsimp only [exec]
    by_cases h : s.creator id = some c ∧ u.length > 0
    · rw [if_pos h]; exact ⟨fun _ => ⟨h.1, List.length_pos_iff.mp h.2⟩, fun _ => rfl⟩
    · rw [if_neg h]; exact ⟨fun q => by simp at q, fun q => absurd ⟨q.1, List.length_pos_iff.mpr q.2⟩ h⟩

namespace Irc2

theorem transfer_some {isc : Nat → Bool} {s s' : S} {f t : Nat} {v : Int} {ok : Bool} (h : transfer isc s f t v ok = some s') :
    0 ≤ v ∧ v ≤ s.bal f ∧ s' = { s with bal := put (put s.bal f (s.bal f - v)) t (put s.bal f (s.bal f - v) t + v) } := by
  unfold transfer at h
  split at h
  · exact absurd h (by simp)
  · split at h
    · exact absurd h (by simp)
    · simp only at h
      split at h
      · exact absurd h (by simp)
      · exact ⟨by omega, by omega, (Option.some.inj h).symm⟩

theorem transfer_inv {isc : Nat → Bool} {s s' : S} {f t : Nat} {v : Int} {ok : Bool} (h : transfer isc s f t v ok = some s')
    (L : List Nat) (hn : L.Nodup) (hf : f ∈ L) (ht : t ∈ L) (h0 : ∀ a, 0 ≤ s.bal a) :
    held L s'.bal = held L s.bal ∧ s'.total = s.total ∧ (∀ a, 0 ≤ s'.bal a) ∧ (∀ a, a ≠ f → s.bal a ≤ s'.bal a) := by
  obtain ⟨h1, h2, rfl⟩ := transfer_some h
  refine ⟨?_, rfl, fun a => ?_, fun a ha => ?_⟩
  · simp only
    have e1 : ∀ (b : Nat → Int) (a : Nat) (v : Int), held L (put b a v) = held L b + if a ∈ L then v - b a else 0 :=
      fun b a v => held_put L hn b a v
    rw [e1, e1, if_pos hf, if_pos ht]; omega
  · simp only [put]
    have ha := h0 a; have hb := h0 t
    clear h0
    by_cases e : a = t <;> by_cases e2 : a = f <;> by_cases e3 : t = f <;> simp_all <;> omega
  · simp only [put]
    by_cases e : a = t <;> by_cases e3 : t = f <;> simp_all <;> omega

/-- C146: from the installation on, the holders of the IRC2 token have together the total supply, no balance is negative. -/
theorem C146_irc2 (isc : Nat → Bool) (d : Nat) (dec sup : Int) (o : Option Nat) (s : S) (hi : install d dec sup o = some s)
    (L : List Nat) (hn : L.Nodup) (ho : o.getD d ∈ L) (l : List (Nat × Nat × Int × Bool)) (hL : ∀ c ∈ l, c.1 ∈ L ∧ c.2.1 ∈ L) :
    held L (run isc s l).bal = sup * 10 ^ dec.toNat ∧ (run isc s l).total = sup * 10 ^ dec.toNat ∧ ∀ a, 0 ≤ (run isc s l).bal a := by
  have base : held L s.bal = sup * 10 ^ dec.toNat ∧ s.total = sup * 10 ^ dec.toNat ∧ ∀ a, 0 ≤ s.bal a := by
    unfold install at hi
    split at hi
    · exact absurd hi (by simp)
    · split at hi
      · exact absurd hi (by simp)
      · split at hi
        · exact absurd hi (by simp)
        · cases hi
          refine ⟨?_, rfl, fun a => ?_⟩
          · have := held_put L hn (fun _ => 0) (o.getD d) (sup * 10 ^ dec.toNat)
            rw [this, if_pos ho]
            rw [held_zero]; omega
          · simp only
            split
            · exact Int.mul_nonneg (by omega) (Int.pow_nonneg (by omega))
            · omega
  clear hi
  induction l generalizing s with
  | nil => exact base
  | cons c l ih =>
    obtain ⟨f, t, v, ok⟩ := c
    rw [run]
    refine ih _ (fun c hc => hL c (List.mem_cons_of_mem _ hc)) ?_
    cases h : transfer isc s f t v ok with
    | none => exact base
    | some s' =>
      obtain ⟨a1, a2, a3, _⟩ := transfer_inv h L hn (hL _ List.mem_cons_self).1 (hL _ List.mem_cons_self).2 base.2.2
      rw [Option.getD_some]
      exact ⟨by rw [a1]; exact base.1, by rw [a2]; exact base.2.1, a3⟩

/-- C146: only transfers of the holder itself make a balance of the IRC2 token smaller. -/
theorem C146_irc2_permission (isc : Nat → Bool) (s s' : S) (f t : Nat) (v : Int) (ok : Bool) (h : transfer isc s f t v ok = some s')
    (a : Nat) (hl : s'.bal a < s.bal a) : a = f := by
  obtain ⟨h1, h2, rfl⟩ := transfer_some h
  by_cases e : a = f
  · exact e
  · simp only [put] at hl
    by_cases e2 : a = t <;> by_cases e3 : t = f <;> simp_all <;> omega

/-- C146: exactly when the IRC2 token takes a transfer, and what every balance is then. -/
theorem C146_irc2_moves (isc : Nat → Bool) (s s' : S) (f t : Nat) (v : Int) (ok : Bool) : transfer isc s f t v ok = some s' ↔
    0 ≤ v ∧ v ≤ s.bal f ∧ (isc t = true → ok = true) ∧ s'.total = s.total ∧
      ∀ a, s'.bal a = s.bal a - (if a = f then v else 0) + (if a = t then v else 0) := by
  have val : ∀ a, put (put s.bal f (s.bal f - v)) t (put s.bal f (s.bal f - v) t + v) a =
      s.bal a - (if a = f then v else 0) + (if a = t then v else 0) := by
    intro a
    unfold put
    by_cases e1 : a = t <;> by_cases e2 : a = f <;> by_cases e3 : t = f <;> simp_all
  unfold transfer
  by_cases h1 : v < 0
  · rw [if_pos h1]
    exact ⟨fun h => (by cases h), fun h => (by omega)⟩
  by_cases h2 : s.bal f < v
  · rw [if_neg h1, if_pos h2]
    exact ⟨fun h => (by cases h), fun h => (by omega)⟩
  rw [if_neg h1, if_neg h2]
  dsimp only
  by_cases h3 : isc t = true ∧ ok = false
  · rw [if_pos h3]
    refine ⟨fun h => (by cases h), fun h => ?_⟩
    have := h.2.2.1 h3.1
    rw [h3.2] at this
    cases this
  · rw [if_neg h3]
    constructor
    · intro h
      cases h
      refine ⟨by omega, by omega, fun hi => ?_, rfl, val⟩
      cases ok with
      | true => rfl
      | false => exact absurd ⟨hi, rfl⟩ h3
    · rintro ⟨_, _, _, e1, e2⟩
      obtain ⟨b, tot⟩ := s'
      simp only [Option.some.injEq, S.mk.injEq]
      exact ⟨funext fun a => by rw [val a]; exact (e2 a).symm, e1.symm⟩

/-- C146: exactly when the IRC2 token is installed: up to 21 decimals, and the owner, else the one who installs, has all. -/
theorem C146_irc2_installs (d : Nat) (dec sup : Int) (o : Option Nat) (s : S) : install d dec sup o = some s ↔
    0 ≤ sup ∧ 0 ≤ dec ∧ dec ≤ 21 ∧ s.total = sup * 10 ^ dec.toNat ∧ (∀ a, o = some a → s.bal a = s.total) ∧ (o = none → s.bal d = s.total) ∧
      ∀ a, o ≠ some a → (o = none → a ≠ d) → s.bal a = 0 := by
  unfold install
  by_cases h1 : sup < 0
  · rw [if_pos h1]
    exact ⟨fun h => (by cases h), fun h => (by omega)⟩
  by_cases h2 : dec < 0
  · rw [if_neg h1, if_pos h2]
    exact ⟨fun h => (by cases h), fun h => (by omega)⟩
  by_cases h3 : dec > 21
  · rw [if_neg h1, if_neg h2, if_pos h3]
    exact ⟨fun h => (by cases h), fun h => (by omega)⟩
  rw [if_neg h1, if_neg h2, if_neg h3]
  dsimp only
  constructor
  · intro h
    cases h
    refine ⟨by omega, by omega, by omega, rfl, ?_, ?_, ?_⟩
    · rintro a rfl; simp
    · rintro rfl; simp
    · intro a e1 e2
      cases o with
      | none => simp [e2 rfl]
      | some w => have : a ≠ w := fun e => e1 (by rw [e])
                  simp [this]
  · rintro ⟨_, _, _, e0, e1, e2, e3⟩
    obtain ⟨b, tot⟩ := s
    dsimp only at e0 e1 e2 e3
    simp only [Option.some.injEq, S.mk.injEq]
    refine ⟨funext fun a => ?_, e0.symm⟩
    cases o with
    | none =>
      by_cases q : a = d
      · subst q; simp [e2 rfl, e0]
      · simp [q, e3 a (by simp) (fun _ => q)]
    | some w =>
      by_cases q : a = w
      · subst q; simp [e1 a rfl, e0]
      · have : b a = 0 := e3 a (by simp; exact fun e => q e.symm) (by simp)
        simp [q, this]

example : (install 1 3 5 none).map (fun s => (s.bal 1, s.bal 2, s.total)) = some (5000, 0, 5000) ∧ (install 1 22 5 none).isNone ∧
    ((install 1 0 5 (some 2)).bind fun s => transfer (fun _ => true) s 2 3 5 true).map (fun s => (s.bal 2, s.bal 3)) = some (0, 5) := by decide +kernel

end Irc2

end Verif.PyMulti
