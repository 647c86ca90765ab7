import Verif.Bytes
/-!
Tables (a `DictDB` or `BranchDB` of a contract) as association lists: `put` replaces the entry of a key or adds one at the end, `get?`
finds the first. The sum of a quantity over all entries.
-/
namespace Verif

abbrev Tab (K V : Type) := List (K × V)

namespace Tab
variable {K V : Type} [DecidableEq K]

def get? (t : Tab K V) (k : K) : Option V :=
  match t with
  | [] => none
  | (a, v) :: t => if a = k then some v else get? t k

def put (t : Tab K V) (k : K) (v : V) : Tab K V :=
  match t with
  | [] => [(k, v)]
  | (a, w) :: t => if a = k then (k, v) :: t else (a, w) :: put t k v

def getD (t : Tab K V) (k : K) (d : V) : V := (get? t k).getD d

/-- `set(k, null)`. -/
def del (t : Tab K V) (k : K) : Tab K V := t.filter fun p => p.1 ≠ k

def sum (w : K → V → Int) : Tab K V → Int
  | [] => 0
  | (k, v) :: t => w k v + sum w t

theorem get?_put_same (t : Tab K V) (k : K) (v : V) : get? (put t k v) k = some v := by
  induction t with
  | nil => simp [put, get?]
  | cons p t ih =>
    obtain ⟨a, w⟩ := p
    unfold put
    split
    · simp [get?]
    · rename_i h; simp only [get?, if_neg h]; exact ih

theorem get?_put_other (t : Tab K V) (k j : K) (v : V) (h : j ≠ k) : get? (put t k v) j = get? t j := by
  induction t with
  | nil => simp [put, get?, Ne.symm h]
  | cons p t ih =>
    obtain ⟨a, w⟩ := p
    unfold put
    split
    · rename_i e; subst e; simp [get?, Ne.symm h]
    · simp only [get?]; rw [ih]

theorem get?_put (t : Tab K V) (k j : K) (v : V) : get? (put t k v) j = if j = k then some v else get? t j := by
  by_cases h : j = k
  · subst h; rw [get?_put_same, if_pos rfl]
  · rw [get?_put_other t k j v h, if_neg h]

theorem getD_put (t : Tab K V) (k j : K) (v d : V) : getD (put t k v) j d = if j = k then v else getD t j d := by
  unfold getD
  rw [get?_put]
  split <;> rfl

theorem sum_put (w : K → V → Int) (t : Tab K V) (k : K) (v : V) :
    sum w (put t k v) = sum w t + w k v - (match get? t k with | some o => w k o | none => 0) := by
  induction t with
  | nil => simp [put, sum, get?]
  | cons p t ih =>
    obtain ⟨a, o⟩ := p
    unfold put
    by_cases h : a = k
    · subst h; simp only [if_true, sum, get?]; omega
    · simp only [if_neg h, sum, get?]; rw [ih]; omega

/-- With a default that counts for nothing. -/
theorem sum_put_getD (w : K → V → Int) (t : Tab K V) (k : K) (v d : V) (hd : w k d = 0) :
    sum w (put t k v) = sum w t + w k v - w k (getD t k d) := by
  rw [sum_put]
  unfold getD
  cases get? t k with
  | none => simp [hd]
  | some o => rfl

theorem sum_put_new (w : K → V → Int) (t : Tab K V) (k : K) (v : V) (h : get? t k = none) : sum w (put t k v) = sum w t + w k v := by
  rw [sum_put, h]; simp

theorem get?_none (t : Tab K V) (k : K) : get? t k = none ↔ k ∉ t.map (·.1) := by
  induction t with
  | nil => simp [get?]
  | cons p t ih =>
    obtain ⟨a, w⟩ := p
    simp only [get?, List.map_cons, List.mem_cons]
    by_cases h : a = k
    · subst h; simp
    · rw [if_neg h, ih]; simp [Ne.symm h]

theorem get?_mem (t : Tab K V) (k : K) (v : V) (h : get? t k = some v) : (k, v) ∈ t := by
  induction t with
  | nil => cases h
  | cons p t ih =>
    obtain ⟨a, w⟩ := p
    simp only [get?] at h
    split at h
    · rename_i e; cases h; subst e; exact List.mem_cons_self
    · exact List.mem_cons_of_mem _ (ih h)

theorem get?_of_mem (t : Tab K V) (hn : (t.map (·.1)).Nodup) (k : K) (v : V) (h : (k, v) ∈ t) : get? t k = some v := by
  induction t with
  | nil => cases h
  | cons p t ih =>
    obtain ⟨a, w⟩ := p
    rw [List.map_cons, List.nodup_cons] at hn
    simp only [get?]
    rcases List.mem_cons.1 h with h | h
    · cases h; simp
    · rw [if_neg, ih hn.2 h]
      rintro rfl
      exact hn.1 (List.mem_map.2 ⟨_, h, rfl⟩)

theorem keys_put (t : Tab K V) (k : K) (v : V) (h : get? t k = none) : (put t k v).map (·.1) = t.map (·.1) ++ [k] := by
  induction t with
  | nil => rfl
  | cons p t ih =>
    obtain ⟨a, w⟩ := p
    simp only [get?] at h
    split at h
    · cases h
    · rename_i e; simp only [put, if_neg e, List.map_cons, ih h, List.cons_append]

theorem get?_del (t : Tab K V) (k j : K) : get? (del t k) j = if j = k then none else get? t j := by
  induction t with
  | nil => simp [del, get?]
  | cons p t ih =>
    obtain ⟨a, w⟩ := p
    unfold del at ih ⊢
    by_cases h : a = k
    · subst h
      rw [List.filter_cons_of_neg (by simp), ih]
      simp only [get?]
      by_cases hj : j = a
      · rw [if_pos hj, if_pos hj]
      · rw [if_neg hj, if_neg hj, if_neg (Ne.symm hj)]
    · rw [List.filter_cons_of_pos (by simpa using h)]
      simp only [get?, ih]
      by_cases hj : a = j
      · subst hj; rw [if_pos rfl, if_pos rfl, if_neg h]
      · rw [if_neg hj, if_neg hj]

theorem keys_del (t : Tab K V) (k : K) : (del t k).map (·.1) = (t.map (·.1)).filter (· ≠ k) := by
  unfold del
  rw [List.filter_map]
  rfl

theorem mem_del (t : Tab K V) (k : K) (p : K × V) : p ∈ del t k ↔ p ∈ t ∧ p.1 ≠ k := by
  unfold del; rw [List.mem_filter]; simp

/-- Removing an entry takes its share off the sum. -/
theorem sum_del (w : K → V → Int) (t : Tab K V) (hn : (t.map (·.1)).Nodup) (k : K) (v : V) (h : get? t k = some v) :
    sum w (del t k) = sum w t - w k v := by
  induction t with
  | nil => cases h
  | cons p t ih =>
    obtain ⟨a, o⟩ := p
    rw [List.map_cons, List.nodup_cons] at hn
    simp only [get?] at h
    split at h
    · rename_i e
      subst e
      cases h
      have e2 : del ((a, v) :: t) a = t := by
        unfold del
        rw [List.filter_cons_of_neg (by simp), List.filter_eq_self]
        intro q hq
        simp only [ne_eq, decide_eq_true_eq]
        rintro rfl
        exact hn.1 (List.mem_map.2 ⟨_, hq, rfl⟩)
      rw [e2]; simp only [sum]; omega
    · rename_i e
      have e2 : del ((a, o) :: t) k = (a, o) :: del t k := by
        unfold del; rw [List.filter_cons_of_pos (by simpa using e)]
      rw [e2]; simp only [sum]; rw [ih hn.2 h]; omega

omit [DecidableEq K] in
theorem sum_nonneg (w : K → V → Int) (t : Tab K V) (h : ∀ p ∈ t, 0 ≤ w p.1 p.2) : 0 ≤ sum w t := by
  induction t with
  | nil => simp [sum]
  | cons p t ih =>
    have := h p List.mem_cons_self
    have := ih fun q hq => h q (List.mem_cons_of_mem _ hq)
    simp only [sum]; omega

omit [DecidableEq K] in
theorem sum_le (w u : K → V → Int) (t : Tab K V) (h : ∀ p ∈ t, w p.1 p.2 ≤ u p.1 p.2) : sum w t ≤ sum u t := by
  induction t with
  | nil => simp [sum]
  | cons p t ih =>
    have := h p List.mem_cons_self
    have := ih fun q hq => h q (List.mem_cons_of_mem _ hq)
    simp only [sum]; omega

omit [DecidableEq K] in
theorem sum_add (w u : K → V → Int) (t : Tab K V) : sum (fun k v => w k v + u k v) t = sum w t + sum u t := by
  induction t with
  | nil => rfl
  | cons p t ih => simp only [sum]; rw [ih]; omega

omit [DecidableEq K] in
theorem sum_congr (w u : K → V → Int) (t : Tab K V) (h : ∀ p ∈ t, w p.1 p.2 = u p.1 p.2) : sum w t = sum u t := by
  induction t with
  | nil => rfl
  | cons p t ih =>
    simp only [sum]
    rw [h p List.mem_cons_self, ih fun q hq => h q (List.mem_cons_of_mem _ hq)]

omit [DecidableEq K] in
/-- One entry is at most the sum. -/
theorem le_sum (w : K → V → Int) (t : Tab K V) (h : ∀ p ∈ t, 0 ≤ w p.1 p.2) (p : K × V) (hp : p ∈ t) : w p.1 p.2 ≤ sum w t := by
  induction t with
  | nil => cases hp
  | cons q t ih =>
    have h0 := h q List.mem_cons_self
    have ht : ∀ p ∈ t, 0 ≤ w p.1 p.2 := fun x hx => h x (List.mem_cons_of_mem _ hx)
    have hs := sum_nonneg w t ht
    simp only [sum]
    rcases List.mem_cons.1 hp with rfl | hp
    · omega
    · have := ih ht hp; omega

end Tab
end Verif
