import Verif.PyCpf
/-!
C145: the fund. C148: the price reference.
-/
namespace Verif.PyCpf
open Verif

theorem burnExtra_some {s s' : S} (h : burnExtra s = some s') :
    s'.bal ≤ s'.cap ∧ s'.bal + s'.burned = s.bal + s.burned ∧ s.burned ≤ s'.burned ∧ (s'.bal = s.bal ∨ s'.bal = s.cap ∧ s.cap < s.bal ∧ 0 ≤ s.cap) ∧
    s'.cap = s.cap ∧ s'.keys = s.keys ∧ s'.budget = s.budget ∧ s'.cps = s.cps ∧ s'.treasury = s.treasury ∧ s'.recv = s.recv ∧ s'.sent = s.sent := by
  unfold burnExtra at h
  simp only at h
  split at h
  · split at h
    · cases h
      refine ⟨?_, ?_, ?_, .inr ⟨?_, ?_, ?_⟩, rfl, rfl, rfl, rfl, rfl, rfl, rfl⟩ <;> first | omega | (simp only; omega)
    · exact absurd h (by simp)
  · cases h; exact ⟨by omega, rfl, by omega, .inl rfl, rfl, rfl, rfl, rfl, rfl, rfl, rfl⟩

theorem pay_some {s s' : S} {v : Int} {ok : Bool} (h : pay s v ok = some s') :
    0 ≤ v ∧ s.treasury ≠ none ∧ ok = true ∧ s' = { s with bal := s.bal - v, sent := s.sent + v } := by
  unfold pay at h
  split at h
  · rename_i hc; exact ⟨hc.2.1, hc.1, hc.2.2, (Option.some.inj h).symm⟩
  · exact absurd h (by simp)

/-! ### What calls mean, read off the calls alone -/

/-- The coins that come with a call. -/
def paid : Op → Int
  | .returnFund v => v
  | .disqualify _ v => v
  | .addFund v => v
  | .fallback v => v
  | _ => 0

/-- What a call has sent to the CPS treasury: the budget and two percent of it, rounded down. -/
def spent : Op → Int
  | .transfer _ b _ => b + b * 2 / 100
  | .update _ b _ => b + b * 2 / 100
  | _ => 0

/-- What a call changes of the recorded budget of `k`. -/
def booked (k : Bytes) : Op → Int
  | .transfer x b _ => if x = k then b + b * 2 / 100 else 0
  | .update x b _ => if x = k then b + b * 2 / 100 else 0
  | .disqualify x v => if x = k then - (v : Int) else 0
  | _ => 0

def total (f : Op → Int) (l : List (Nat × Op)) : Int := (l.map fun o => f o.2).sum

/-- One accepted call. -/
theorem exec_sum {c : Cfg} {s s' : S} {a : Nat} {o : Op} (h : exec c s a o = some s') :
    s'.bal + s'.burned + s'.sent = s.bal + s.burned + s.sent + paid o ∧ s'.recv = s.recv + paid o ∧ s'.sent = s.sent + spent o ∧
    s.burned ≤ s'.burned ∧ 0 ≤ spent o ∧ (0 ≤ s.bal → 0 ≤ s'.bal) := by
  cases o with
  | setMax v => simp only [exec] at h; split at h <;> cases h; simp [paid, spent]
  | setCps v => simp only [exec] at h; split at h <;> cases h; simp [paid, spent]
  | setTreasury v => simp only [exec] at h; split at h <;> cases h; simp [paid, spent]
  | fallback v => simp only [exec] at h; cases h
  | returnFund v =>
    simp only [exec] at h
    split at h
    · have := burnExtra_some h
      simp only [receive] at this
      simp only [paid, spent]; omega
    · cases h
  | addFund v =>
    simp only [exec] at h
    have := burnExtra_some h
    simp only [receive] at this
    simp only [paid, spent]; omega
  | disqualify k v =>
    simp only [exec] at h
    split at h
    · split at h
      · have := burnExtra_some h
        simp only [receive, setBudget] at this
        simp only [paid, spent]; omega
      · cases h
    · cases h
  | transfer k b ok =>
    simp only [exec] at h
    split at h
    · split at h
      · cases h
      · split at h
        · cases h
        · obtain ⟨h0, _, _, rfl⟩ := pay_some h
          simp only [paid, spent, setBudget, reward] at *
          refine ⟨?_, ?_, ?_, ?_, ?_, fun _ => ?_⟩ <;> first | omega | trivial
    · cases h
  | update k b ok =>
    simp only [exec] at h
    split at h
    · split at h
      · cases h
      · split at h
        · obtain ⟨h0, _, _, rfl⟩ := pay_some h
          simp only [paid, spent, setBudget, reward] at *
          refine ⟨?_, ?_, ?_, ?_, ?_, fun _ => ?_⟩ <;> first | omega | trivial
        · cases h
    · cases h

theorem run_sum (c : Cfg) : ∀ (l : List (Nat × Op)) (s : S),
    (run c s l).bal + (run c s l).burned + (run c s l).sent = s.bal + s.burned + s.sent + total paid (accepted c s l) ∧
    (run c s l).recv = s.recv + total paid (accepted c s l) ∧ (run c s l).sent = s.sent + total spent (accepted c s l) ∧
    s.burned ≤ (run c s l).burned ∧ s.sent ≤ (run c s l).sent ∧ (0 ≤ s.bal → 0 ≤ (run c s l).bal)
  | [], s => by simp [run, accepted, total]
  | o :: l, s => by
    have ih := run_sum c l (step c s o)
    rw [run, accepted]
    cases h : exec c s o.1 o.2 with
    | none =>
      have e : step c s o = s := by simp [step, h]
      rw [e] at ih ⊢
      simpa [h] using ih
    | some s' =>
      have e : step c s o = s' := by simp [step, h]
      rw [e] at ih ⊢
      have := exec_sum h
      simp only [Option.isSome_some, if_true, total, List.cons_append, List.nil_append, List.map_cons, List.sum_cons] at ih ⊢
      omega

/-- C145: every coin that came in is held, was burned, or was sent to the CPS treasury; none of the three is negative; what was sent is the
sum of the granted budgets with two percent. -/
theorem C145_money (c : Cfg) (m : Int) (l : List (Nat × Op)) :
    (run c (start m) l).bal + (run c (start m) l).burned + (run c (start m) l).sent = total paid (accepted c (start m) l) ∧
    (run c (start m) l).sent = total spent (accepted c (start m) l) ∧
    0 ≤ (run c (start m) l).bal ∧ 0 ≤ (run c (start m) l).burned ∧ 0 ≤ (run c (start m) l).sent := by
  have := run_sum c l (start m)
  have h0 : (start m).bal = 0 ∧ (start m).burned = 0 ∧ (start m).sent = 0 ∧ (start m).recv = 0 := ⟨rfl, rfl, rfl, rfl⟩
  refine ⟨by omega, by omega, this.2.2.2.2.2 (by omega), by omega, by omega⟩

/-- C145: after each accepted payment the fund holds at most its maximum. -/
theorem C145_cap (c : Cfg) (s s' : S) (a : Nat) (o : Op) (v : Nat) (k : Bytes) (ho : o = .addFund v ∨ o = .returnFund v ∨ o = .disqualify k v)
    (h : exec c s a o = some s') : s'.bal ≤ s'.cap := by
  rcases ho with rfl | rfl | rfl
  · exact (burnExtra_some h).1
  · simp only [exec] at h
    split at h
    · exact (burnExtra_some h).1
    · cases h
  · simp only [exec] at h
    split at h
    · split at h
      · exact (burnExtra_some h).1
      · cases h
    · cases h

/-- C145: unless the maximum is changed, the fund never holds more than it (a maximum that is not negative). -/
theorem C145_cap_always_partial (c : Cfg) (m : Int) (hm : 0 ≤ m) (l : List (Nat × Op)) (hl : ∀ o ∈ l, ∀ v, o.2 ≠ .setMax v) :
    (run c (start m) l).bal ≤ m := by
  suffices H : ∀ (l : List (Nat × Op)) (s : S), s.bal ≤ s.cap → s.cap = m → (∀ o ∈ l, ∀ v, o.2 ≠ .setMax v) →
      (run c s l).bal ≤ m from H l (start m) hm rfl hl
  intro l
  induction l with
  | nil => intro s h1 h2 _; simp only [run]; omega
  | cons o l ih =>
    intro s h1 h2 hl
    have hk := fun x hx => hl x (List.mem_cons_of_mem _ hx)
    rw [run]
    unfold step
    cases h : exec c s o.1 o.2 with
    | none => exact ih s h1 h2 hk
    | some s' =>
      rw [Option.getD_some]
      obtain ⟨a, o⟩ := o
      simp only at h
      have hb : s'.bal ≤ s'.cap ∧ s'.cap = s.cap := by
        cases o with
        | setMax v => exact absurd rfl (hl _ List.mem_cons_self v)
        | setCps v => simp only [exec] at h; split at h <;> cases h; exact ⟨h1, rfl⟩
        | setTreasury v => simp only [exec] at h; split at h <;> cases h; exact ⟨h1, rfl⟩
        | fallback v => simp only [exec] at h; cases h
        | returnFund v =>
          simp only [exec] at h
          split at h
          · have := burnExtra_some h; exact ⟨this.1, this.2.2.2.2.1⟩
          · cases h
        | addFund v => have := burnExtra_some h; exact ⟨this.1, this.2.2.2.2.1⟩
        | disqualify k v =>
          simp only [exec] at h
          split at h
          · split at h
            · have := burnExtra_some h; exact ⟨this.1, this.2.2.2.2.1⟩
            · cases h
          · cases h
        | transfer k b ok =>
          simp only [exec] at h
          split at h
          · split at h
            · cases h
            · split at h
              · cases h
              · obtain ⟨h0, _, _, rfl⟩ := pay_some h
                simp only [setBudget]; refine ⟨by omega, trivial⟩
          · cases h
        | update k b ok =>
          simp only [exec] at h
          split at h
          · split at h
            · cases h
            · split at h
              · obtain ⟨h0, _, _, rfl⟩ := pay_some h
                simp only [setBudget]; refine ⟨by omega, trivial⟩
              · cases h
          · cases h
      exact ih s' hb.1 (by omega) hk

/-- C145: a payment to the fund is accepted, whatever its amount, exactly if the maximum is not negative (the owner may set one that is, and
then no auction of the fee aggregation with bids can be ended). -/
theorem C145_accepts (c : Cfg) (s : S) (hb : 0 ≤ s.bal) (a v : Nat) : (exec c s a (.addFund v)).isSome = true ↔ 0 ≤ s.cap := by
  have e : ∀ t : S, burnExtra t = if t.bal - t.cap > 0 then
      if t.bal - t.cap ≤ t.bal then some { t with bal := t.bal - (t.bal - t.cap), burned := t.burned + (t.bal - t.cap) } else none
    else some t := fun _ => rfl
  rw [show exec c s a (.addFund v) = burnExtra (receive s v) from rfl, e]
  have e1 : (receive s v).bal = s.bal + v := rfl
  have e2 : (receive s v).cap = s.cap := rfl
  rw [e1, e2]
  by_cases h1 : s.bal + (v : Int) - s.cap > 0
  · rw [if_pos h1]
    by_cases h2 : s.bal + (v : Int) - s.cap ≤ s.bal + (v : Int)
    · rw [if_pos h2]; simp only [Option.isSome_some, true_iff]; omega
    · rw [if_neg h2]; simp only [Option.isSome_none, Bool.false_eq_true, false_iff]; omega
  · rw [if_neg h1]; simp only [Option.isSome_some, true_iff]; omega

/-- Keys are recorded once, and what is recorded for a key is what was sent for it less what came back. -/
structure Books (s : S) (l : List (Nat × Op)) : Prop where
  nodup : s.keys.Nodup
  book : ∀ k, s.budget k = total (booked k) l
  known : ∀ k, k ∉ s.keys → s.budget k = 0

theorem exec_books {c : Cfg} {s s' : S} {a : Nat} {o : Op} {l : List (Nat × Op)} (h : exec c s a o = some s') (I : Books s l) :
    Books s' (l ++ [(a, o)]) := by
  have snoc : ∀ k, total (booked k) (l ++ [(a, o)]) = total (booked k) l + booked k o := by
    intro k; simp [total, List.sum_append]
  have same : (∀ k, booked k o = 0) → s'.keys = s.keys → s'.budget = s.budget → Books s' (l ++ [(a, o)]) := by
    intro h1 h2 h3
    refine ⟨by rw [h2]; exact I.nodup, fun k => by rw [snoc, h1, h3, I.book]; omega, fun k hk => by rw [h3]; exact I.known k (h2 ▸ hk)⟩
  cases o with
  | setMax v => simp only [exec] at h; split at h <;> cases h; exact same (fun _ => rfl) rfl rfl
  | setCps v => simp only [exec] at h; split at h <;> cases h; exact same (fun _ => rfl) rfl rfl
  | setTreasury v => simp only [exec] at h; split at h <;> cases h; exact same (fun _ => rfl) rfl rfl
  | fallback v => simp only [exec] at h; cases h
  | returnFund v =>
    simp only [exec] at h
    split at h
    · have := burnExtra_some h; exact same (fun _ => rfl) this.2.2.2.2.2.1 this.2.2.2.2.2.2.1
    · cases h
  | addFund v => have := burnExtra_some h; exact same (fun _ => rfl) this.2.2.2.2.2.1 this.2.2.2.2.2.2.1
  | disqualify k v =>
    simp only [exec] at h
    split at h
    · split at h
      · rename_i hk
        have := burnExtra_some h
        have e1 := this.2.2.2.2.2.1
        have e2 := this.2.2.2.2.2.2.1
        simp only [setBudget, receive] at e1 e2
        refine ⟨by rw [e1]; exact I.nodup, fun x => ?_, fun x hx => ?_⟩
        · rw [snoc, e2, ← I.book x]
          simp only [booked]
          by_cases e : x = k
          · rw [if_pos e, if_pos e.symm, e]; omega
          · rw [if_neg e, if_neg (Ne.symm e)]; omega
        · rw [e1] at hx; rw [e2]; simp only
          rw [if_neg (fun e : x = k => hx (by rw [e]; exact hk))]; exact I.known x hx
      · cases h
    · cases h
  | transfer k b ok =>
    simp only [exec] at h
    split at h
    · split at h
      · cases h
      · split at h
        · cases h
        · rename_i hk
          obtain ⟨h0, _, _, rfl⟩ := pay_some h
          refine ⟨?_, fun x => ?_, fun x hx => ?_⟩
          · simp only [setBudget]
            rw [List.nodup_append]
            exact ⟨I.nodup, by simp, fun y hy z hz => by simp only [List.mem_singleton] at hz; exact fun e => hk (by rw [← hz, ← e]; exact hy)⟩
          · rw [snoc, ← I.book x]
            simp only [setBudget, booked, reward]
            by_cases e : x = k
            · rw [if_pos e, if_pos e.symm, e, I.known k hk]; omega
            · rw [if_neg e, if_neg (Ne.symm e)]; omega
          · simp only [setBudget, List.mem_append, List.mem_singleton, not_or] at hx ⊢
            rw [if_neg hx.2]; exact I.known x hx.1
    · cases h
  | update k b ok =>
    simp only [exec] at h
    split at h
    · split at h
      · cases h
      · split at h
        · rename_i hk
          obtain ⟨h0, _, _, rfl⟩ := pay_some h
          refine ⟨I.nodup, fun x => ?_, fun x hx => ?_⟩
          · rw [snoc, ← I.book x]
            simp only [setBudget, booked, reward]
            by_cases e : x = k
            · rw [if_pos e, if_pos e.symm, e]
            · rw [if_neg e, if_neg (Ne.symm e)]; omega
          · simp only [setBudget] at hx ⊢
            rw [if_neg (fun e : x = k => hx (by rw [e]; exact hk))]; exact I.known x hx
        · cases h
    · cases h

theorem run_books (c : Cfg) : ∀ (l : List (Nat × Op)) (s : S) (p : List (Nat × Op)), Books s p → Books (run c s l) (p ++ accepted c s l)
  | [], s, p, I => by simpa [run, accepted] using I
  | o :: l, s, p, I => by
    rw [run, accepted]
    cases h : exec c s o.1 o.2 with
    | none =>
      have e : step c s o = s := by simp [step, h]
      rw [e]; simpa using run_books c l s p I
    | some s' =>
      have e : step c s o = s' := by simp [step, h]
      rw [e]
      have := run_books c l s' (p ++ [o]) (exec_books h I)
      simpa using this

/-- C145: every key is recorded once, with what was sent for it less what came back for it. -/
theorem C145_books (c : Cfg) (m : Int) (l : List (Nat × Op)) :
    (run c (start m) l).keys.Nodup ∧ ∀ k, (run c (start m) l).budget k = total (booked k) (accepted c (start m) l) := by
  have := run_books c l (start m) [] ⟨by simp [start], fun k => rfl, fun k _ => rfl⟩
  rw [List.nil_append] at this
  exact ⟨this.nodup, this.book⟩

/-- C145: coins leave only by a call of the CPS contract that names a budget which is not negative; budgets get smaller only by a call of the
CPS treasury; maximum and addresses change only by a call of the owner. -/
theorem C145_permission (c : Cfg) (s s' : S) (p : List (Nat × Op)) (I : Books s p) (a : Nat) (o : Op) (h : exec c s a o = some s') :
    (s'.sent ≠ s.sent → some a = s.cps) ∧ (∀ k, s'.budget k < s.budget k → some a = s.treasury) ∧
    ((s'.cap ≠ s.cap ∨ s'.cps ≠ s.cps ∨ s'.treasury ≠ s.treasury) → a = c.owner) ∧
    (∀ k b ok, o = .transfer k b ok ∨ o = .update k b ok → 0 ≤ b) := by
  cases o with
  | setMax v =>
    simp only [exec] at h; split at h
    · rename_i hc; cases h; simp [hc]
    · cases h
  | setCps v =>
    simp only [exec] at h; split at h
    · rename_i hc; cases h; simp [hc.1]
    · cases h
  | setTreasury v =>
    simp only [exec] at h; split at h
    · rename_i hc; cases h; simp [hc.1]
    · cases h
  | fallback v => simp only [exec] at h; cases h
  | returnFund v =>
    simp only [exec] at h
    split at h
    · obtain ⟨_, _, _, _, e1, e2, e3, e4, e5, e6, e7⟩ := burnExtra_some h
      simp [e1, e3, e4, e5, e7, receive]
    · cases h
  | addFund v =>
    obtain ⟨_, _, _, _, e1, e2, e3, e4, e5, e6, e7⟩ := burnExtra_some h
    simp [e1, e3, e4, e5, e7, receive]
  | disqualify k v =>
    simp only [exec] at h
    split at h
    · rename_i hc
      split at h
      · obtain ⟨_, _, _, _, e1, e2, e3, e4, e5, e6, e7⟩ := burnExtra_some h
        simp [e1, e4, e5, e7, receive, setBudget, hc]
      · cases h
    · cases h
  | transfer k b ok =>
    simp only [exec] at h
    split at h
    · rename_i hc
      split at h
      · cases h
      · split at h
        · cases h
        · rename_i hk
          obtain ⟨h0, _, _, rfl⟩ := pay_some h
          have hb : 0 ≤ b := by simp only [reward] at h0; omega
          refine ⟨fun _ => hc, fun x hx => ?_, fun hx => by simp [setBudget] at hx, fun k' b' ok' he => ?_⟩
          · exfalso
            simp only [setBudget] at hx
            split at hx
            · rename_i e
              rw [e, I.known k hk] at hx; omega
            · omega
          · simp at he; omega
    · cases h
  | update k b ok =>
    simp only [exec] at h
    split at h
    · rename_i hc
      split at h
      · cases h
      · split at h
        · obtain ⟨h0, _, _, rfl⟩ := pay_some h
          have hb : 0 ≤ b := by simp only [reward] at h0; omega
          refine ⟨fun _ => hc, fun x hx => ?_, fun hx => by simp [setBudget] at hx, fun k' b' ok' he => ?_⟩
          · exfalso
            simp only [setBudget] at hx
            split at hx
            · rename_i e; subst e; omega
            · omega
          · simp at he; omega
        · cases h
    · cases h

/-! ### Pages -/

/-- What is recorded, in the order of recording. -/
def entries (s : S) : List (Bytes × Int) := s.keys.map fun k => (k, s.budget k)

theorem pageFrom_eq (s : S) : ∀ (n a : Nat), a + n ≤ s.keys.length → pageFrom s n a = some (((entries s).drop a).take n)
  | 0, a, _ => by simp [pageFrom]
  | n + 1, a, h => by
    have ha : a < s.keys.length := by omega
    have e : ((a : Int) + 1) = ((a + 1 : Nat) : Int) := rfl
    rw [pageFrom, Int.toNat_natCast, List.getElem?_eq_getElem ha]
    simp only
    rw [e, pageFrom_eq s n (a + 1) (by omega)]
    have hl : a < (entries s).length := by simpa [entries] using ha
    rw [List.drop_eq_getElem_cons hl, List.take_succ_cons]
    simp [entries]

/-- C145: asking for a page never fails; a page has at most 50 entries, and they are those at the places asked for. -/
theorem C145_page (s : S) (a b : Int) :
    (b - a > 50 → details s a b = some (none, 0)) ∧
    (b - a ≤ 50 → details s a b = some (some (((entries s).drop a.toNat).take (b - max a 0).toNat), s.keys.length) ∧
      (((entries s).drop a.toNat).take (b - max a 0).toNat).length ≤ 50) := by
  constructor
  · intro h; simp only [details]; rw [if_pos h]
  · intro h
    constructor
    · simp only [details]
      rw [if_neg (by omega)]
      have e : (if a < 0 then (0 : Int) else a) = ((a.toNat : Nat) : Int) := by split <;> omega
      rw [e]
      by_cases hb : b > (s.keys.length : Int)
      · rw [if_pos hb]
        by_cases hl : a.toNat ≤ s.keys.length
        · rw [show ((s.keys.length : Int) - (a.toNat : Int)).toNat = s.keys.length - a.toNat by omega, pageFrom_eq s _ _ (by omega),
            List.take_of_length_le (by simp [entries]), List.take_of_length_le (by simp [entries]; omega)]
          rfl
        · rw [show ((s.keys.length : Int) - (a.toNat : Int)).toNat = 0 by omega, List.drop_of_length_le (by simp [entries]; omega)]
          simp [pageFrom]
      · rw [if_neg hb]
        have e2 : (b - max a 0).toNat = (b - (a.toNat : Int)).toNat := by omega
        rw [e2]
        by_cases hl : (a.toNat : Int) ≤ b
        · rw [pageFrom_eq s _ _ (by omega)]; rfl
        · rw [show (b - (a.toNat : Int)).toNat = 0 by omega]; simp [pageFrom]
    · rw [List.length_take]; omega

/-- C145: pages of `n ≤ 50` entries one after the other give everything recorded, each entry once. -/
theorem C145_pages (s : S) (n : Nat) (hn : n ≤ 50) (m : Nat) :
    ((List.range m).map fun i => ((details s ((i * n : Nat) : Int) (((i + 1) * n : Nat) : Int)).bind (·.1)).getD []).flatten = (entries s).take (m * n) := by
  induction m with
  | zero => simp
  | succ m ih =>
    rw [List.range_succ, List.map_append, List.flatten_append, ih]
    have e : (m + 1) * n = m * n + n := Nat.succ_mul m n
    have := (C145_page s ((m * n : Nat) : Int) (((m + 1) * n : Nat) : Int)).2 (by omega)
    rw [List.map_singleton, this.1]
    simp only [Option.bind_some, Option.getD_some, List.flatten_singleton, Int.toNat_natCast]
    rw [show ((((m + 1) * n : Nat) : Int) - max ((m * n : Nat) : Int) 0).toNat = n by omega, e]
    exact (List.take_add (l := entries s)).symm

/-! ### What does not hold -/

/-- Owner 1, CPS contract 2, CPS treasury 3. -/
def cfg : Cfg := ⟨1, fun a => a == 2 || a == 3⟩

/-- The fund is filled beyond its maximum of 1000, a proposal gets 100, is raised by 50, and 30 come back. -/
def caseHist : List (Nat × Op) :=
  [(1, .setCps 2), (1, .setTreasury 3), (9, .setCps 9), (9, .addFund 1200), (2, .transfer [7] 100 true), (2, .transfer [7] 100 true),
   (9, .transfer [8] 100 true), (2, .update [7] 50 true), (3, .disqualify [7] 30), (2, .update [7] (-50) true), (9, .fallback 5)]

/-- C145 fails for a maximum that is lowered: the fund holds more than it until the next payment. -/
theorem C145_lowered : (run cfg (start 1000) [(9, .addFund 900), (1, .setMax 100)]).bal = 900 ∧
    (run cfg (start 1000) [(9, .addFund 900), (1, .setMax 100)]).cap = 100 ∧
    (run cfg (start 1000) [(9, .addFund 900), (1, .setMax 100), (9, .addFund 0)]).bal = 100 := by decide +kernel

/-- C145 fails for recorded budgets: nothing keeps the CPS treasury from returning more than was sent. -/
theorem C145_negative_budget : (run cfg (start 1000) [(1, .setCps 2), (1, .setTreasury 3), (9, .addFund 500), (2, .transfer [7] 100 true),
    (3, .disqualify [7] 110)]).budget [7] = -8 := by decide +kernel

example : (accepted cfg (start 1000) caseHist).length = 6 ∧ (run cfg (start 1000) caseHist).bal = 877 ∧
    (run cfg (start 1000) caseHist).burned = 200 ∧ (run cfg (start 1000) caseHist).sent = 153 ∧
    (run cfg (start 1000) caseHist).budget [7] = 123 ∧ (run cfg (start 1000) caseHist).keys = [[7]] ∧
    total paid (accepted cfg (start 1000) caseHist) = 1230 ∧ total (booked [7]) (accepted cfg (start 1000) caseHist) = 123 := by decide +kernel

example : ∀ o ∈ caseHist, ∀ v, o.2 ≠ .setMax v := by
  intro o ho v
  simp only [caseHist, List.mem_cons, List.not_mem_nil, or_false] at ho
  rcases ho with h | h | h | h | h | h | h | h | h | h | h <;> subst h <;> simp

/-- Three proposals. -/
def three : S := { start 5 with keys := [[1], [2], [3]], budget := fun k => if k = [2] then 20 else 10 }
example : details three (-7) 2 = some (some [([1], 10), ([2], 20)], 3) := by rfl
example : details three 1 50 = some (some [([2], 20), ([3], 10)], 3) := by rfl
example : details three 0 51 = some (none, 0) := by rfl
example : details three 9 12 = some (some [], 3) ∧ details three 2 1 = some (some [], 3) := ⟨by rfl, by rfl⟩

/-! ### The price reference -/
namespace Ref

/-- The entries written by the calls that were accepted, in order: symbol, rate, time in seconds, request. -/
def written (owner : Nat) : List Call → List (Bytes × Int × Int × Int)
  | [] => []
  | (c, a, b, d, e) :: l =>
    (if c = owner ∧ a.length = b.length ∧ a.length = d.length ∧ a.length = e.length then zip4 a b d e else []) ++ written owner l

/-- The last entry of a symbol in a list. -/
def lastOf (sym : Bytes) (l : List (Bytes × Int × Int × Int)) : Option Entry :=
  (l.reverse.find? fun x => x.1 == sym).map fun x => ⟨x.2.1, x.2.2.1 * 1000000, x.2.2.2⟩

theorem lastOf_cons (sym : Bytes) (x : Bytes × Int × Int × Int) (l : List (Bytes × Int × Int × Int)) :
    lastOf sym (x :: l) = (lastOf sym l).or (if x.1 = sym then some ⟨x.2.1, x.2.2.1 * 1000000, x.2.2.2⟩ else none) := by
  unfold lastOf
  rw [List.reverse_cons, List.find?_append]
  cases List.find? (fun x => x.1 == sym) l.reverse with
  | some y => simp
  | none =>
    by_cases h : x.1 = sym
    · simp [List.find?, h]
    · have : (x.1 == sym) = false := by simpa using h
      simp [List.find?, h, this]

theorem setAll_last (sym : Bytes) : ∀ (l : List (Bytes × Int × Int × Int)) (r : R), setAll r l sym = (lastOf sym l).or (r sym)
  | [], r => by simp [setAll, lastOf]
  | (s, v, t, q) :: l, r => by
    rw [setAll, setAll_last sym l, lastOf_cons]
    cases lastOf sym l with
    | some y => simp
    | none =>
      simp only [Option.none_or, setRef, micro]
      by_cases h : sym = s
      · rw [if_pos h, if_pos h.symm]; simp
      · rw [if_neg h, if_neg (Ne.symm h)]; simp

theorem lastOf_append (sym : Bytes) : ∀ (l k : List (Bytes × Int × Int × Int)), lastOf sym (l ++ k) = (lastOf sym k).or (lastOf sym l)
  | [], k => by simp [lastOf]
  | x :: l, k => by
    rw [List.cons_append, lastOf_cons, lastOf_append sym l k, lastOf_cons]
    cases lastOf sym k <;> cases lastOf sym l <;> simp

theorem relay_eq (owner : Nat) (r : R) (c : Nat) (a : List Bytes) (b d e : List Int) :
    (relay owner r c a b d e).getD r
      = setAll r (if c = owner ∧ a.length = b.length ∧ a.length = d.length ∧ a.length = e.length then zip4 a b d e else []) := by
  unfold relay
  by_cases h1 : c = owner
  · by_cases h2 : a.length = b.length
    · by_cases h3 : a.length = d.length
      · by_cases h4 : a.length = e.length
        · rw [if_neg (by simp [h1]), if_neg (by simp [h2]), if_neg (by simp [h3]), if_neg (by simp [h4]), if_pos ⟨h1, h2, h3, h4⟩]; rfl
        · rw [if_neg (by simp [h1]), if_neg (by simp [h2]), if_neg (by simp [h3]), if_pos h4, if_neg (fun c => h4 c.2.2.2)]; rfl
      · rw [if_neg (by simp [h1]), if_neg (by simp [h2]), if_pos h3, if_neg (fun c => h3 c.2.2.1)]; rfl
    · rw [if_neg (by simp [h1]), if_pos h2, if_neg (fun c => h2 c.2.1)]; rfl
  · rw [if_pos h1, if_neg (fun c => h1 c.1)]; rfl

/-- C148: what is told of a symbol is the last entry the owner gave for it in lists of equal length, and nothing if there is none. -/
theorem C148_last (owner : Nat) (l : List Call) (sym : Bytes) : run owner (fun _ => none) l sym = lastOf sym (written owner l) := by
  suffices H : ∀ (l : List Call) (r : R), run owner r l sym = (lastOf sym (written owner l)).or (r sym) by
    rw [H]; simp
  intro l
  induction l with
  | nil => intro r; simp [run, written, lastOf]
  | cons x l ih =>
    intro r
    obtain ⟨c, a, b, d, e⟩ := x
    rw [run, ih, written, lastOf_append, relay_eq, setAll_last]
    cases lastOf sym (written owner l) <;> simp

/-- C148: the dollar is always told as one, whatever was written. -/
theorem C148_usd (r : R) (now : Int) (sym : Bytes) (x : Entry) (h : refData r now sym = some x) :
    refData r now usd = some ⟨1000000000, now, 0⟩ ∧ reference r now sym usd = some (x.rate * 1000000000, x.time, now) := by
  constructor
  · rfl
  · simp only [reference, h, Option.bind_some]
    rw [show refData r now usd = some ⟨one, now, 0⟩ from rfl, Option.bind_some, if_neg (show ¬ one = 0 by decide)]
    rw [Int.mul_fdiv_cancel _ (by decide)]; rfl

/-- C148: a price is told exactly if both symbols are known and the rate of the second is not 0; many prices are told as one by one. -/
theorem C148_known (r : R) (now : Int) (b q : Bytes) : (reference r now b q).isSome = true ↔
    ∃ x y, refData r now b = some x ∧ refData r now q = some y ∧ y.rate ≠ 0 := by
  unfold reference
  cases hb : refData r now b with
  | none => simp
  | some x =>
    cases hq : refData r now q with
    | none => simp
    | some y => by_cases h : y.rate = 0 <;> simp [h]

theorem C148_bulk (r : R) (now : Int) : ∀ (bs qs : List Bytes) (out : List (Int × Int × Int)), bulk r now bs qs = some out →
    bs.length = qs.length ∧ out.length = bs.length ∧ ∀ i (h1 : i < bs.length) (h2 : i < qs.length) (h3 : i < out.length),
      reference r now bs[i] qs[i] = some out[i]
  | [], qs, out, h => by
    cases qs with
    | nil => simp only [bulk] at h; simp at h; subst h; simp
    | cons q qs => simp [bulk] at h
  | b :: bs, qs, out, h => by
    cases qs with
    | nil => simp [bulk] at h
    | cons q qs =>
      unfold bulk at h
      by_cases hl : (b :: bs).length = (q :: qs).length
      · rw [if_neg (by simpa using hl)] at h
        simp only [List.zip_cons_cons, List.mapM_cons, Option.pure_def, Option.bind_eq_bind, Option.bind_eq_some_iff, Option.some.injEq] at h
        obtain ⟨x, hx, ys, hy, rfl⟩ := h
        have := C148_bulk r now bs qs ys (by unfold bulk; rw [if_neg (by simpa using hl)]; exact hy)
        refine ⟨hl, by simp [this.2.1], ?_⟩
        intro i h1 h2 h3
        cases i with
        | zero => exact hx
        | succ i => exact this.2.2 i (by simpa using h1) (by simpa using h2) (by simpa using h3)
      · rw [if_pos (by simpa using hl)] at h; exact absurd h (by simp)

/-- C148: the price told is the quotient of the rates in units of 10^-18, rounded down (second rate positive). -/
theorem C148_value (r : R) (now : Int) (b q : Bytes) (x y : Entry) (hx : refData r now b = some x) (hy : refData r now q = some y)
    (h2 : 0 < y.rate) : ∃ p, reference r now b q = some (p, x.time, y.time) ∧ p * y.rate ≤ x.rate * 10 ^ 18 ∧ x.rate * 10 ^ 18 < (p + 1) * y.rate := by
  refine ⟨_, by simp only [reference, hx, hy, Option.bind_some]; rw [if_neg (by omega)], ?_⟩
  rw [Int.fdiv_eq_ediv_of_nonneg _ (by omega), Int.mul_assoc, show one * one = 10 ^ 18 from rfl]
  exact ⟨Int.ediv_mul_le _ (by omega), Int.lt_ediv_add_one_mul_self _ h2⟩

/-- C148: for positive rates the prices of a pair, there and back, do not multiply to more than one (10^18 is one). -/
theorem C148_pair (r : R) (now : Int) (b q : Bytes) (x y : Entry) (hx : refData r now b = some x) (hy : refData r now q = some y)
    (h1 : 0 < x.rate) (h2 : 0 < y.rate) : ∃ p p' t t', reference r now b q = some (p, t) ∧ reference r now q b = some (p', t') ∧
      0 ≤ p ∧ 0 ≤ p' ∧ p * p' ≤ 10 ^ 18 * 10 ^ 18 := by
  have pos : ∀ a c : Int, 0 < a → 0 < c → (a * one * one).fdiv c = a * 10 ^ 18 / c := by
    intro a c ha hc
    rw [Int.fdiv_eq_ediv_of_nonneg _ (by omega), Int.mul_assoc]; rfl
  refine ⟨_, _, (x.time, y.time), (y.time, x.time), by simp only [reference, hx, hy, Option.bind_some]; rw [if_neg (by omega)], by
    simp only [reference, hx, hy, Option.bind_some]; rw [if_neg (by omega)], ?_, ?_, ?_⟩
  · rw [pos _ _ h1 h2]; exact Int.ediv_nonneg (by omega) (by omega)
  · rw [pos _ _ h2 h1]; exact Int.ediv_nonneg (by omega) (by omega)
  · rw [pos _ _ h1 h2, pos _ _ h2 h1]
    generalize hp : x.rate * 10 ^ 18 / y.rate = p
    generalize hp' : y.rate * 10 ^ 18 / x.rate = p'
    have a1 : p * y.rate ≤ x.rate * 10 ^ 18 := by rw [← hp]; exact Int.ediv_mul_le _ (by omega)
    have a2 : p' * x.rate ≤ y.rate * 10 ^ 18 := by rw [← hp']; exact Int.ediv_mul_le _ (by omega)
    have n1 : 0 ≤ p := by rw [← hp]; exact Int.ediv_nonneg (by omega) (by omega)
    have n2 : 0 ≤ p' := by rw [← hp']; exact Int.ediv_nonneg (by omega) (by omega)
    have m : (p * y.rate) * (p' * x.rate) ≤ (x.rate * 10 ^ 18) * (y.rate * 10 ^ 18) :=
      Int.mul_le_mul a1 a2 (Int.mul_nonneg n2 (by omega)) (by omega)
    have hxy : 0 < x.rate * y.rate := Int.mul_pos h1 h2
    have e1 : (p * y.rate) * (p' * x.rate) = (p * p') * (x.rate * y.rate) := by
      rw [Int.mul_comm x.rate y.rate, Int.mul_assoc, Int.mul_assoc, ← Int.mul_assoc y.rate p', Int.mul_comm y.rate p', Int.mul_assoc]
    have e2 : (x.rate * 10 ^ 18) * (y.rate * 10 ^ 18) = (10 ^ 18 * 10 ^ 18) * (x.rate * y.rate) := by
      generalize (10 ^ 18 : Int) = n
      rw [Int.mul_comm x.rate n, Int.mul_assoc, Int.mul_comm y.rate n, ← Int.mul_assoc x.rate n, Int.mul_comm x.rate n, Int.mul_assoc n x.rate,
        Int.mul_assoc]
    rw [e1, e2] at m
    exact Int.le_of_mul_le_mul_right m hxy

/-- C148 fails for time: an entry resolved earlier replaces one resolved later. -/
theorem C148_older_wins : run 1 (fun _ => none) [(1, [[66]], [70], [2000], [8]), (1, [[66]], [60], [1000], [7])] [66]
    = some ⟨60, 1000 * 1000000, 7⟩ := by decide +kernel

/-- ICX at 2 dollars, a token at 3, given by the owner; the calls of another and with a list too short are refused. -/
def caseRef : R := run 1 (fun _ => none) [(1, [[73], [84]], [2000000000, 3000000000], [10, 11], [1, 2]), (2, [[73]], [5], [12], [3]),
  (1, [[73], [84]], [7], [12, 12], [4, 5])]
example : reference caseRef 99 [84] [73] = some (1500000000000000000, 11000000, 10000000) ∧
    reference caseRef 99 [84] usd = some (3000000000000000000, 11000000, 99) ∧
    bulk caseRef 99 [[84], usd] [[73], [84]] = some [(1500000000000000000, 11000000, 10000000), (333333333333333333, 99, 11000000)] ∧
    reference caseRef 99 [90] usd = none := by decide +kernel

end Ref
end Verif.PyCpf
