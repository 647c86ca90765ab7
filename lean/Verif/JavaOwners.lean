import Verif.Bytes
/-!
Model of contract ownership on ICON: /repo/javascore/lib/src/main/java/foundation/icon/btp/lib/OwnerManagerImpl.java, and its
properties (C56).

Addresses are numbers. The contract's own owner (`Context.getOwner`) is kept by the platform; `setScoreOwner` stands for the
platform changing it. A result `none` is an exception (no change).
-/
namespace Verif.JavaOwners
open Verif

structure St where
  score : Nat
  owners : List Nat
deriving DecidableEq, Repr

/-- OwnerManagerImpl.java:30-37 `indexOf` (`none` for -1). -/
def indexOf (l : List Nat) (a : Nat) : Option Nat :=
  match l with
  | [] => none
  | x :: t => if x = a then some 0 else (indexOf t a).map (· + 1)

/-- OwnerManagerImpl.java:95-101 `isOwner`. -/
def isOwner (s : St) (a : Nat) : Bool := decide (s.score = a) || (indexOf s.owners a).isSome

/-- OwnerManagerImpl.java:69-74 `addOwner` with 39-45, 59-67. -/
def addOwner (s : St) (caller a : Nat) : Option St :=
  if ¬ isOwner s caller then none
  else if s.score = a then none
  else if (indexOf s.owners a).isSome then none
  else some { s with owners := s.owners ++ [a] }

/-- OwnerManagerImpl.java:76-81 `removeOwner` with 47-57: the last owner takes the place of the removed one. -/
def removeOwner (s : St) (caller a : Nat) : Option St :=
  if ¬ isOwner s caller then none
  else if s.score = a then none
  else match indexOf s.owners a with
    | none => none
    | some i => match s.owners.getLast? with
      | none => none
      | some last =>
        some { s with owners := if i ≠ s.owners.dropLast.length then s.owners.dropLast.set i last else s.owners.dropLast }

/-- OwnerManagerImpl.java:83-93 `getOwners`. -/
def getOwners (s : St) : List Nat := s.score :: s.owners

inductive Op where
  | addOwner (caller a : Nat)
  | removeOwner (caller a : Nat)
  | setScoreOwner (a : Nat)
deriving DecidableEq, Repr

def step (s : St) : Op → Option St
  | .addOwner c a => addOwner s c a
  | .removeOwner c a => removeOwner s c a
  | .setScoreOwner a => some { s with score := a }

def run (creator : Nat) (ops : List Op) : St := ops.foldl (fun s o => (step s o).getD s) ⟨creator, []⟩

/-! ### Lemmas -/

theorem indexOf_some {l : List Nat} {a i : Nat} (h : indexOf l a = some i) : l[i]? = some a ∧ i < l.length := by
  induction l generalizing i with
  | nil => simp [indexOf] at h
  | cons x t ih =>
    unfold indexOf at h
    split at h
    · cases h; rename_i e; simp [e]
    · cases hj : indexOf t a with
      | none => rw [hj] at h; cases h
      | some j =>
        rw [hj] at h
        simp only [Option.map_some, Option.some.injEq] at h
        subst h
        have := ih hj
        exact ⟨by simpa using this.1, by simp only [List.length_cons]; omega⟩

theorem indexOf_isSome (l : List Nat) (a : Nat) : (indexOf l a).isSome = true ↔ a ∈ l := by
  induction l with
  | nil => simp [indexOf]
  | cons x t ih =>
    unfold indexOf
    split
    · rename_i e; simp [e]
    · rename_i e
      rw [Option.isSome_map, ih, List.mem_cons]
      exact ⟨Or.inr, fun h => h.resolve_left (fun e2 => e e2.symm)⟩

/-- The removal drops exactly that entry. -/
theorem removed_perm {l : List Nat} {a i last : Nat} (hi : indexOf l a = some i) (hl : l.getLast? = some last) :
    (a :: (if i ≠ l.dropLast.length then l.dropLast.set i last else l.dropLast)).Perm l := by
  obtain ⟨h1, h2⟩ := indexOf_some hi
  have hne : l ≠ [] := fun e => by subst e; simp at h2
  have hdec : l = l.dropLast ++ [last] := by
    rw [List.getLast?_eq_some_getLast hne, Option.some.injEq] at hl
    rw [← hl, List.dropLast_concat_getLast hne]
  generalize l.dropLast = d at hdec
  subst hdec
  by_cases e : i = d.length
  · subst e
    rw [if_neg (by simp)]
    simp at h1
    subst h1
    exact (List.perm_append_singleton _ _).symm
  · rw [if_pos e]
    have hid : i < d.length := by simp at h2; omega
    rw [List.getElem?_append_left hid, List.getElem?_eq_getElem hid, Option.some.injEq] at h1
    subst h1
    have hp : ∀ (d : List Nat) (i : Nat) (h : i < d.length), (d[i] :: d.set i last).Perm (last :: d) := by
      intro d
      induction d with
      | nil => intro i h; simp at h
      | cons x t ih =>
        intro i h
        cases i with
        | zero => simp only [List.getElem_cons_zero, List.set_cons_zero]; exact List.Perm.swap _ _ _
        | succ i =>
          simp only [List.getElem_cons_succ, List.set_cons_succ]
          exact (List.Perm.swap _ _ _).trans (((ih i (by simp at h; omega)).cons x).trans (List.Perm.swap _ _ _))
    exact (hp d i hid).trans (List.perm_append_singleton _ _).symm

/-! ### C56 -/

/-- The accounts other than the contract's owner are listed once; removal forgets the account entirely. -/
theorem step_inv {s s' : St} {o : Op} (hn : s.owners.Nodup) (h : step s o = some s') :
    s'.owners.Nodup ∧ match o with
      | .addOwner c a => isOwner s c = true ∧ a ∉ s.owners ∧ a ≠ s.score ∧ s' = { s with owners := s.owners ++ [a] }
      | .removeOwner c a => isOwner s c = true ∧ a ∈ s.owners ∧ a ≠ s.score ∧ s'.score = s.score ∧ ∀ x, x ∈ s'.owners ↔ (x ∈ s.owners ∧ x ≠ a)
      | .setScoreOwner a => s' = { s with score := a } := by
  cases o with
  | addOwner c a =>
    simp only [step, addOwner] at h
    split at h; · cases h
    rename_i h1
    split at h; · cases h
    rename_i h2
    split at h; · cases h
    rename_i h3
    rw [indexOf_isSome] at h3
    cases h
    refine ⟨?_, by simpa using h1, h3, fun e => h2 e.symm, rfl⟩
    rw [List.nodup_append]
    exact ⟨hn, by simp, fun x hx y hy e => by simp only [List.mem_singleton] at hy; subst hy; exact h3 (e ▸ hx)⟩
  | removeOwner c a =>
    simp only [step, removeOwner] at h
    split at h; · cases h
    rename_i h1
    split at h; · cases h
    rename_i h2
    cases hi : indexOf s.owners a with
    | none => rw [hi] at h; cases h
    | some i =>
      rw [hi] at h
      dsimp only at h
      cases hl : s.owners.getLast? with
      | none => rw [hl] at h; cases h
      | some last =>
        rw [hl] at h
        simp only [Option.some.injEq] at h
        have hp := removed_perm hi hl
        subst h
        have hnd := hp.nodup_iff.2 hn
        rw [List.nodup_cons] at hnd
        refine ⟨hnd.2, by simpa using h1, hp.mem_iff.1 (List.mem_cons_self ..), fun e => h2 e.symm, rfl, fun x => ?_⟩
        rw [← hp.mem_iff, List.mem_cons]
        constructor
        · intro hx; exact ⟨Or.inr hx, fun e => hnd.1 (e ▸ hx)⟩
        · rintro ⟨hx, hxa⟩; exact hx.resolve_left hxa
  | setScoreOwner a =>
    simp only [step, Option.some.injEq] at h
    subst h; exact ⟨hn, rfl⟩

theorem run_nodup (creator : Nat) (ops : List Op) : (run creator ops).owners.Nodup := by
  unfold run
  have h0 : (⟨creator, []⟩ : St).owners.Nodup := List.nodup_nil
  generalize (⟨creator, []⟩ : St) = s at h0
  induction ops generalizing s with
  | nil => exact h0
  | cons o t ih =>
    rw [List.foldl_cons]
    apply ih
    cases h : step s o with
    | none => exact h0
    | some s' => exact (step_inv h0 h).1

/-- **C56** (ICON): after every history the accounts `getOwners` lists are exactly the accounts `isOwner` accepts, and there is
    at least one, the contract's owner. -/
theorem C56_java_owners (creator : Nat) (ops : List Op) :
    (∀ a, isOwner (run creator ops) a = true ↔ a ∈ getOwners (run creator ops)) ∧ (run creator ops).score ∈ getOwners (run creator ops) := by
  refine ⟨fun a => ?_, List.mem_cons_self ..⟩
  unfold isOwner getOwners
  rw [Bool.or_eq_true, decide_eq_true_eq, indexOf_isSome, List.mem_cons]
  exact ⟨fun h => h.imp Eq.symm id, fun h => h.imp Eq.symm id⟩

/-- **C56** (ICON): as long as the platform does not move the contract's ownership, `getOwners` lists nobody twice. -/
theorem C56_java_once_partial (creator : Nat) (ops : List Op) (h : ∀ a, Op.setScoreOwner a ∉ ops) : (getOwners (run creator ops)).Nodup := by
  unfold run
  have h0 : (getOwners ⟨creator, []⟩).Nodup := by simp [getOwners]
  generalize (⟨creator, []⟩ : St) = s at h0
  induction ops generalizing s with
  | nil => exact h0
  | cons o t ih =>
    rw [List.foldl_cons]
    apply ih (fun a hm => h a (List.mem_cons_of_mem _ hm))
    cases hs : step s o with
    | none => exact h0
    | some s' =>
      unfold getOwners at h0
      rw [List.nodup_cons] at h0
      obtain ⟨h1, h2⟩ := step_inv h0.2 hs
      show (getOwners s').Nodup
      unfold getOwners
      rw [List.nodup_cons]
      refine ⟨?_, h1⟩
      cases o with
      | addOwner c a =>
        obtain ⟨-, -, h3, rfl⟩ := h2
        simp only [List.mem_append, List.mem_singleton, not_or]
        exact ⟨h0.1, fun e => h3 e.symm⟩
      | removeOwner c a =>
        obtain ⟨-, -, h3, h4, h5⟩ := h2
        rw [h4, h5]
        exact fun hx => h0.1 hx.1
      | setScoreOwner a => exact absurd (List.mem_cons_self ..) (h a)

/-- **C56** (ICON): only an owner's call or the platform changes who is an owner; a call changes one account only and never takes
    ownership from the contract's owner. -/
theorem C56_java_only_owners (creator : Nat) (ops : List Op) (o : Op) (s' : St) (h : step (run creator ops) o = some s') (a : Nat)
    (hc : isOwner s' a ≠ isOwner (run creator ops) a) :
    (∃ c, isOwner (run creator ops) c = true ∧ (o = .addOwner c a ∧ isOwner s' a = true ∨ o = .removeOwner c a ∧ isOwner s' a = false)) ∨
    ∃ b, o = .setScoreOwner b := by
  have hnd := run_nodup creator ops
  generalize run creator ops = s at h hc hnd
  obtain ⟨-, h2⟩ := step_inv hnd h
  have hiff : ∀ (t : St) x, isOwner t x = true ↔ (t.score = x ∨ x ∈ t.owners) := by
    intro t x; unfold isOwner; rw [Bool.or_eq_true, decide_eq_true_eq, indexOf_isSome]
  have hx : ¬ (isOwner s' a = true ↔ isOwner s a = true) := fun e => hc (Bool.eq_iff_iff.2 e)
  rw [hiff, hiff] at hx
  cases o with
  | addOwner c b =>
    obtain ⟨h3, h4, h5, rfl⟩ := h2
    left
    refine ⟨c, h3, Or.inl ?_⟩
    by_cases e : a = b
    · subst e; exact ⟨rfl, by rw [hiff]; simp⟩
    · exact absurd (by simp [e]) hx
  | removeOwner c b =>
    obtain ⟨h3, h4, h5, h6, h7⟩ := h2
    left
    refine ⟨c, h3, Or.inr ?_⟩
    by_cases e : a = b
    · subst e
      refine ⟨rfl, ?_⟩
      cases hq : isOwner s' a with
      | false => rfl
      | true =>
        rw [hiff, h6, h7] at hq
        rcases hq with hq | hq
        · exact absurd hq.symm h5
        · exact absurd rfl hq.2
    · exact absurd (by rw [h6, h7]; simp [e]) hx
  | setScoreOwner b => exact Or.inr ⟨b, rfl⟩

/-- The account the platform makes the contract's owner can be in the list already: `getOwners` then lists it twice. -/
theorem C56_java_twice_witness : getOwners (run 1 [.addOwner 1 2, .setScoreOwner 2]) = [2, 2] := by decide

/-- Adding two owners and removing the first by the second. -/
example : run 1 [.addOwner 1 2, .addOwner 2 3, .removeOwner 3 2, .addOwner 2 4] = ⟨1, [3]⟩ := by decide

end Verif.JavaOwners
