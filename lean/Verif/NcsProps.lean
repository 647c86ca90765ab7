import Verif.Ncs
/-!
Properties of the native coin service (`Verif.Ncs`) on one chain: the ledger (C97), refunds of tokens and answers that are always
carried out (C101).
-/
namespace Verif.Ncs
open Verif

/-! ### Quantities -/

/-- What the details of a transaction hold of a coin: amounts and fees. -/
def dsum (c : Bytes) : List Detail → Int
  | [] => 0
  | d :: l => (if d.coin = c then d.amount + d.fee else 0) + dsum c l

/-- The amounts alone. -/
def asum (c : Bytes) : List Detail → Int
  | [] => 0
  | d :: l => (if d.coin = c then d.amount else 0) + asum c l

/-- The amounts of a list of coins. -/
def vsum (c : Bytes) : List (Bytes × Int) → Int
  | [] => 0
  | p :: l => (if p.1 = c then p.2 else 0) + vsum c l

/-- What the pending transactions of an owner hold of a coin. -/
def pending (txs : Tab Int Tx) (c o : Bytes) : Int := txs.sum fun _ t => if t.frm = o then dsum c t.assets else 0

/-- All that is locked, refundable, of a coin. -/
def lsum (s : S) (c : Bytes) : Int := s.bals.sum fun k b => if k.1 = c then b.locked else 0
def rsum (s : S) (c : Bytes) : Int := s.bals.sum fun k b => if k.1 = c then b.refundable else 0

/-- All tokens with a number. -/
def tsum (i : Irc31) (id : Int) : Int := i.bals.sum fun k v => if k.1 = id then v else 0

/-! ### Tables -/

theorem at0_add {K : Type} [DecidableEq K] (t : Tab K Int) (k j : K) (v : Int) : at0 (add t k v) j = at0 t j + if j = k then v else 0 := by
  unfold at0 add
  rw [Tab.getD_put]
  by_cases h : j = k
  · subst h; rw [if_pos rfl, if_pos rfl]; rfl
  · rw [if_neg h, if_neg h]; omega

theorem sum_addIf {K : Type} [DecidableEq K] (P : K → Prop) [DecidablePred P] (t : Tab K Int) (k : K) (v : Int) :
    (add t k v).sum (fun j x => if P j then x else 0) = t.sum (fun j x => if P j then x else 0) + if P k then v else 0 := by
  unfold add at0
  rw [Tab.sum_put_getD _ t k _ 0 (by simp)]
  by_cases h : P k
  · rw [if_pos h, if_pos h, if_pos h]; omega
  · rw [if_neg h, if_neg h, if_neg h]; omega

theorem mem_put {K V : Type} [DecidableEq K] (t : Tab K V) (k : K) (v : V) (p : K × V) (h : p ∈ t.put k v) : p = (k, v) ∨ p ∈ t := by
  induction t with
  | nil => simp [Tab.put] at h; exact Or.inl h
  | cons q t ih =>
    unfold Tab.put at h
    by_cases e : q.1 = k
    · rw [if_pos e] at h
      rcases List.mem_cons.mp h with h | h
      · exact Or.inl h
      · exact Or.inr (List.mem_cons_of_mem _ h)
    · rw [if_neg e] at h
      rcases List.mem_cons.mp h with h | h
      · exact Or.inr (by rw [h]; exact List.mem_cons_self)
      · exact (ih h).imp id (List.mem_cons_of_mem _)

theorem getD_nonneg {K : Type} [DecidableEq K] (t : Tab K Int) (h : ∀ p ∈ t, 0 ≤ p.2) (k : K) : 0 ≤ at0 t k := by
  unfold at0 Tab.getD
  cases e : t.get? k with
  | none => exact Int.le_refl 0
  | some v => exact h _ (Tab.get?_mem t k v e)

theorem nonneg_add {K : Type} [DecidableEq K] (t : Tab K Int) (h : ∀ p ∈ t, 0 ≤ p.2) (k : K) (v : Int) (hv : 0 ≤ at0 t k + v) :
    ∀ p ∈ add t k v, 0 ≤ p.2 := by
  intro p hp
  rcases mem_put t k _ p hp with e | e
  · rw [e]; exact hv
  · exact h p e

theorem le_sumIf {K : Type} [DecidableEq K] (P : K → Prop) [DecidablePred P] (t : Tab K Int) (h : ∀ p ∈ t, 0 ≤ p.2) (k : K) (hk : P k) :
    at0 t k ≤ t.sum fun j x => if P j then x else 0 := by
  have hn : ∀ p ∈ t, 0 ≤ (fun j x => if P j then x else 0 : K → Int → Int) p.1 p.2 := by
    intro p hp
    show 0 ≤ if P p.1 then p.2 else 0
    by_cases e : P p.1
    · rw [if_pos e]; exact h p hp
    · rw [if_neg e]; omega
  unfold at0 Tab.getD
  cases e : t.get? k with
  | none => exact Tab.sum_nonneg _ _ hn
  | some v =>
    have := Tab.le_sum (fun j x => if P j then x else 0) t hn _ (Tab.get?_mem t k v e)
    simp only [if_pos hk] at this
    exact this

/-! ### The balances of the contract -/

theorem balance_set (s : S) (c o c' o' : Bytes) (b : Balance) :
    balance (setBalance s c o b) c' o' = if (c', o') = (c, o) then b else balance s c' o' := by
  unfold balance setBalance
  rw [Tab.getD_put]

theorem lsum_set (s : S) (c o c' : Bytes) (b : Balance) :
    lsum (setBalance s c o b) c' = lsum s c' + if c = c' then b.locked - (balance s c o).locked else 0 := by
  unfold lsum setBalance balance
  dsimp only
  rw [Tab.sum_put_getD _ s.bals (c, o) b ⟨0, 0⟩ (by simp)]
  by_cases h : c = c'
  · simp only [if_pos h]; omega
  · simp only [if_neg h]; omega

theorem rsum_set (s : S) (c o c' : Bytes) (b : Balance) :
    rsum (setBalance s c o b) c' = rsum s c' + if c = c' then b.refundable - (balance s c o).refundable else 0 := by
  unfold rsum setBalance balance
  dsimp only
  rw [Tab.sum_put_getD _ s.bals (c, o) b ⟨0, 0⟩ (by simp)]
  by_cases h : c = c'
  · simp only [if_pos h]; omega
  · simp only [if_neg h]; omega

/-- Two states that differ in `bals` alone: what was locked grew by `f` and what is refundable by `g`. -/
structure Moved (s s' : S) (f g : Bytes → Bytes → Int) (F G : Bytes → Int) : Prop where
  locked : ∀ c o, (balance s' c o).locked = (balance s c o).locked + f c o
  refund : ∀ c o, (balance s' c o).refundable = (balance s c o).refundable + g c o
  lsum : ∀ c, lsum s' c = lsum s c + F c
  rsum : ∀ c, rsum s' c = rsum s c + G c
  keys : (s.bals.map (·.1)).Nodup → (s'.bals.map (·.1)).Nodup

theorem nodup_put {K V : Type} [DecidableEq K] (t : Tab K V) (k : K) (v : V) (h : (t.map (·.1)).Nodup) : ((t.put k v).map (·.1)).Nodup := by
  cases e : t.get? k with
  | none =>
    rw [Tab.keys_put _ _ _ e, List.nodup_append]
    refine ⟨h, by simp, ?_⟩
    intro a ha b hb
    rw [List.mem_singleton] at hb
    subst hb
    intro e'
    subst e'
    exact (Tab.get?_none t a).mp e ha
  | some w =>
    have : (t.put k v).map (·.1) = t.map (·.1) := by
      clear h
      induction t with
      | nil => cases e
      | cons p t ih =>
        unfold Tab.get? at e
        unfold Tab.put
        by_cases q : p.1 = k
        · rw [if_pos q]; simp [q]
        · rw [if_neg q] at e ⊢
          rw [List.map_cons, List.map_cons, ih e]
    rw [this]; exact h

theorem moved_refl (s : S) : Moved s s (fun _ _ => 0) (fun _ _ => 0) (fun _ => 0) (fun _ => 0) :=
  ⟨by simp, by simp, by simp, by simp, id⟩

theorem moved_set (s : S) (c o : Bytes) (b : Balance) :
    Moved s (setBalance s c o b) (fun c' o' => if (c', o') = (c, o) then b.locked - (balance s c o).locked else 0)
      (fun c' o' => if (c', o') = (c, o) then b.refundable - (balance s c o).refundable else 0)
      (fun c' => if c = c' then b.locked - (balance s c o).locked else 0)
      (fun c' => if c = c' then b.refundable - (balance s c o).refundable else 0) := by
  refine ⟨?_, ?_, fun c' => lsum_set .., fun c' => rsum_set .., nodup_put _ _ _⟩
  · intro c' o'
    rw [balance_set]
    by_cases h : (c', o') = (c, o)
    · simp only [if_pos h]
      cases h; omega
    · rw [if_neg h]; simp only [if_neg h]; omega
  · intro c' o'
    rw [balance_set]
    by_cases h : (c', o') = (c, o)
    · simp only [if_pos h]
      cases h; omega
    · rw [if_neg h]; simp only [if_neg h]; omega

/-! ### Fees -/

theorem detail_ok (c : Bytes) (v r : Int) (d : Detail) (hv : 0 ≤ v) (hr : 0 ≤ r) (h : detail c v r = some d) :
    d.coin = c ∧ d.amount + d.fee = v ∧ 1 ≤ d.amount ∧ 0 ≤ d.fee := by
  unfold detail at h
  dsimp only at h
  have h0 : 0 ≤ (v * r).tdiv 10000 := Int.tdiv_nonneg (Int.mul_nonneg hv hr) (by omega)
  generalize (v * r).tdiv 10000 = q at h h0
  have hf : 0 ≤ if r > 0 ∧ q = 0 then 1 else q := by
    split <;> omega
  generalize (if r > 0 ∧ q = 0 then 1 else q) = f at h hf
  by_cases e : v - f < 1
  · rw [if_pos e] at h; cases h
  · rw [if_neg e] at h
    cases h
    exact ⟨rfl, by show v - f + f = v; omega, by show 1 ≤ v - f; omega, hf⟩

/-- The fee is the quotient rounded down, but at least 1. -/
theorem detail_fee (c : Bytes) (v r : Int) (d : Detail) (hv : 0 ≤ v) (hr : 0 < r) (h : detail c v r = some d) :
    d.fee = max 1 (v * r / 10000) := by
  unfold detail at h
  dsimp only at h
  have h0 : 0 ≤ v * r := Int.mul_nonneg hv (by omega)
  rw [Int.tdiv_eq_ediv_of_nonneg h0] at h
  have h1 : 0 ≤ v * r / 10000 := Int.ediv_nonneg h0 (by omega)
  generalize v * r / 10000 = q at h h1 ⊢
  by_cases e : q = 0
  · simp only [if_pos (show r > 0 ∧ q = 0 from ⟨hr, e⟩)] at h
    by_cases e' : v - 1 < 1
    · rw [if_pos e'] at h; cases h
    · rw [if_neg e'] at h; cases h; show (1 : Int) = _; omega
  · simp only [if_neg (show ¬(r > 0 ∧ q = 0) from fun x => e x.2)] at h
    by_cases e' : v - q < 1
    · rw [if_pos e'] at h; cases h
    · rw [if_neg e'] at h; cases h; show q = _; omega

/-! ### Sending -/

theorem lock_moved (s : S) (c o : Bytes) (v : Int) :
    Moved s (lock s c o v) (fun c' o' => if o' = o ∧ c = c' then v else 0) (fun _ _ => 0) (fun c' => if c = c' then v else 0) (fun _ => 0) := by
  have h := moved_set s c o { balance s c o with locked := (balance s c o).locked + v }
  refine ⟨?_, ?_, ?_, ?_, h.keys⟩
  · intro c' o'
    have := h.locked c' o'
    rw [show lock s c o v = setBalance s c o { balance s c o with locked := (balance s c o).locked + v } from rfl, this]
    by_cases e : (c', o') = (c, o)
    · have e1 : c' = c := congrArg Prod.fst e
      have e2 : o' = o := congrArg Prod.snd e
      rw [if_pos e]; dsimp only; rw [if_pos ⟨e2, e1.symm⟩]; omega
    · simp only [if_neg e]; rw [if_neg (fun x => e (by rw [x.1, x.2]))]
  · intro c' o'
    have := h.refund c' o'
    rw [show lock s c o v = setBalance s c o { balance s c o with locked := (balance s c o).locked + v } from rfl, this]
    dsimp only
    split <;> omega
  · intro c'
    have := h.lsum c'
    rw [show lock s c o v = setBalance s c o { balance s c o with locked := (balance s c o).locked + v } from rfl, this]
    dsimp only
    split <;> omega
  · intro c'
    have := h.rsum c'
    rw [show lock s c o v = setBalance s c o { balance s c o with locked := (balance s c o).locked + v } from rfl, this]
    dsimp only
    split <;> omega

theorem lockAll_ok (o : Bytes) (r : Int) (hr : 0 ≤ r) (l : List (Bytes × Int)) (hl : ∀ p ∈ l, 0 ≤ p.2) (s s' : S) (ds : List Detail)
    (h : lockAll o r s l = some (s', ds)) :
    s' = { s with bals := s'.bals } ∧
      Moved s s' (fun c' o' => if o' = o then vsum c' l else 0) (fun _ _ => 0) (fun c' => vsum c' l) (fun _ => 0) ∧
      (∀ d ∈ ds, 1 ≤ d.amount ∧ 0 ≤ d.fee) ∧ (∀ c, dsum c ds = vsum c l) ∧ ds.map (·.coin) = l.map (·.1) := by
  induction l generalizing s ds with
  | nil =>
    cases h
    exact ⟨rfl, ⟨by simp [vsum], by simp, by simp [vsum], by simp, id⟩, by simp, by simp [dsum, vsum], rfl⟩
  | cons p l ih =>
    obtain ⟨c, v⟩ := p
    unfold lockAll at h
    cases hd : detail c v r with
    | none => rw [hd] at h; cases h
    | some d =>
      rw [hd] at h
      dsimp only [Option.bind_some] at h
      cases hq : lockAll o r (lock s c o v) l with
      | none => rw [hq] at h; cases h
      | some x =>
        rw [hq] at h
        dsimp only [Option.bind_some] at h
        obtain ⟨x1, x2⟩ := x
        cases h
        obtain ⟨i1, i2, i3, i4, i5⟩ := ih (fun p hp => hl p (List.mem_cons_of_mem _ hp)) (lock s c o v) x2 hq
        obtain ⟨d1, d2, d3, d4⟩ := detail_ok c v r d (hl _ List.mem_cons_self) hr hd
        have m := lock_moved s c o v
        refine ⟨by rw [i1]; rfl, ⟨?_, ?_, ?_, ?_, fun x => i2.keys (m.keys x)⟩, ?_, ?_, ?_⟩
        · intro c' o'
          rw [i2.locked, m.locked]
          dsimp only [vsum]
          by_cases e : o' = o
          · by_cases e' : c = c'
            · simp only [if_pos e, if_pos e', if_pos (show o' = o ∧ c = c' from ⟨e, e'⟩)]; omega
            · simp only [if_pos e, if_neg e', if_neg (show ¬(o' = o ∧ c = c') from fun x => e' x.2)]; omega
          · simp only [if_neg e, if_neg (show ¬(o' = o ∧ c = c') from fun x => e x.1)]; omega
        · intro c' o'
          rw [i2.refund, m.refund]; omega
        · intro c'
          rw [i2.lsum, m.lsum]
          dsimp only [vsum]; omega
        · intro c'
          rw [i2.rsum, m.rsum]; omega
        · intro d' hd'
          rcases List.mem_cons.mp hd' with e | e
          · subst e; exact ⟨d3, d4⟩
          · exact i3 d' e
        · intro c'
          dsimp only [dsum, vsum]
          rw [i4 c', d1, d2]
        · rw [List.map_cons, List.map_cons, i5, d1]

/-! ### Settling and refunding -/

theorem unlock_moved (s : S) (c o : Bytes) (v : Int) :
    Moved s (unlock s c o v) (fun c' o' => if o' = o ∧ c = c' then -v else 0) (fun _ _ => 0) (fun c' => if c = c' then -v else 0) (fun _ => 0) := by
  have h := lock_moved s c o (-v)
  have e : lock s c o (-v) = unlock s c o v := by
    unfold lock unlock
    rw [show (balance s c o).locked + -v = (balance s c o).locked - v by omega]
  rw [e] at h
  exact h

theorem refund_moved (cfg : Cfg) (s : S) (c o : Bytes) (v : Int) (ho : o ≠ cfg.self) :
    Moved s (refund cfg s c o v) (fun c' o' => if o' = o ∧ c = c' then -v else 0) (fun c' o' => if o' = o ∧ c = c' then v else 0)
      (fun c' => if c = c' then -v else 0) (fun c' => if c = c' then v else 0) := by
  have e0 : refund cfg s c o v = setBalance s c o ⟨(balance s c o).locked - v, (balance s c o).refundable + v⟩ := by
    unfold refund; rw [if_pos ho]
  have h := moved_set s c o ⟨(balance s c o).locked - v, (balance s c o).refundable + v⟩
  rw [e0]
  refine ⟨?_, ?_, ?_, ?_, h.keys⟩
  · intro c' o'
    rw [h.locked c' o']
    by_cases e : (c', o') = (c, o)
    · have e1 : c' = c := congrArg Prod.fst e
      have e2 : o' = o := congrArg Prod.snd e
      rw [if_pos e]; dsimp only; rw [if_pos ⟨e2, e1.symm⟩]; omega
    · simp only [if_neg e]; rw [if_neg (fun x => e (by rw [x.1, x.2]))]
  · intro c' o'
    rw [h.refund c' o']
    by_cases e : (c', o') = (c, o)
    · have e1 : c' = c := congrArg Prod.fst e
      have e2 : o' = o := congrArg Prod.snd e
      rw [if_pos e]; dsimp only; rw [if_pos ⟨e2, e1.symm⟩]; omega
    · simp only [if_neg e]; rw [if_neg (fun x => e (by rw [x.1, x.2]))]
  · intro c'
    rw [h.lsum c']; dsimp only; split <;> omega
  · intro c'
    rw [h.rsum c']; dsimp only; split <;> omega

theorem refundAll_ok (cfg : Cfg) (o : Bytes) (ho : o ≠ cfg.self) (l : List Detail) (s : S)
    (hl : ∀ d ∈ l, d.coin = cfg.name ∨ d.coin ∈ s.coins) :
    ∃ s', refundAll cfg o s l = some s' ∧ s' = { s with bals := s'.bals } ∧
      Moved s s' (fun c' o' => if o' = o then -dsum c' l else 0) (fun c' o' => if o' = o then dsum c' l else 0) (fun c' => -dsum c' l)
        (fun c' => dsum c' l) := by
  induction l generalizing s with
  | nil => exact ⟨s, rfl, rfl, by simp [dsum], by simp [dsum], by simp [dsum], by simp [dsum], id⟩
  | cons d l ih =>
    have hd : cfg.name = d.coin ∨ d.coin ∈ s.coins := (hl d List.mem_cons_self).imp Eq.symm id
    obtain ⟨s', h1, h2, h3⟩ := ih (refund cfg s d.coin o (d.amount + d.fee)) (fun x hx => hl x (List.mem_cons_of_mem _ hx))
    have m := refund_moved cfg s d.coin o (d.amount + d.fee) ho
    refine ⟨s', ?_, by rw [h2]; rfl, ?_, ?_, ?_, ?_, fun x => h3.keys (m.keys x)⟩
    · unfold refundAll; rw [if_pos hd]; exact h1
    · intro c' o'
      rw [h3.locked, m.locked]
      dsimp only [dsum]
      by_cases e : o' = o
      · by_cases e' : d.coin = c'
        · simp only [if_pos e, if_pos e', if_pos (show o' = o ∧ d.coin = c' from ⟨e, e'⟩)]; omega
        · simp only [if_pos e, if_neg e', if_neg (show ¬(o' = o ∧ d.coin = c') from fun x => e' x.2)]; omega
      · simp only [if_neg e, if_neg (show ¬(o' = o ∧ d.coin = c') from fun x => e x.1)]; omega
    · intro c' o'
      rw [h3.refund, m.refund]
      dsimp only [dsum]
      by_cases e : o' = o
      · by_cases e' : d.coin = c'
        · simp only [if_pos e, if_pos e', if_pos (show o' = o ∧ d.coin = c' from ⟨e, e'⟩)]; omega
        · simp only [if_pos e, if_neg e', if_neg (show ¬(o' = o ∧ d.coin = c') from fun x => e' x.2)]; omega
      · simp only [if_neg e, if_neg (show ¬(o' = o ∧ d.coin = c') from fun x => e x.1)]; omega
    · intro c'
      rw [h3.lsum, m.lsum]
      dsimp only [dsum]; split <;> omega
    · intro c'
      rw [h3.rsum, m.rsum]
      dsimp only [dsum]; omega

theorem settleAll_ok (cfg : Cfg) (o : Bytes) (l : List Detail) (s : S) (hl : ∀ d ∈ l, d.coin = cfg.name ∨ d.coin ∈ s.coins) :
    ∃ s' b, settleAll cfg o s l = some (s', b) ∧ s' = { s with bals := s'.bals, fees := s'.fees, settled := s'.settled } ∧
      Moved s s' (fun c' o' => if o' = o then -dsum c' l else 0) (fun _ _ => 0) (fun c' => -dsum c' l) (fun _ => 0) ∧
      (∀ c, at0 s'.fees c = at0 s.fees c + (dsum c l - asum c l)) ∧ (∀ c, at0 s'.settled c = at0 s.settled c + asum c l) ∧
      (∀ c, c ≠ cfg.name → vsum c b = asum c l) ∧ (∀ p ∈ b, p.1 ≠ cfg.name ∧ ∃ d ∈ l, d.coin = p.1 ∧ d.amount = p.2) := by
  induction l generalizing s with
  | nil =>
    exact ⟨s, [], rfl, rfl, ⟨by simp [dsum], by simp, by simp [dsum], by simp, id⟩, by simp [dsum, asum], by simp [asum], by simp [vsum, asum], by simp⟩
  | cons d l ih =>
    have hd : cfg.name = d.coin ∨ d.coin ∈ s.coins := (hl d List.mem_cons_self).imp Eq.symm id
    obtain ⟨s', b, h1, h2, h3, h4, h5, h6, h7⟩ :=
      ih { unlock s d.coin o (d.amount + d.fee) with
        fees := add (unlock s d.coin o (d.amount + d.fee)).fees d.coin d.fee
        settled := add (unlock s d.coin o (d.amount + d.fee)).settled d.coin d.amount }
        (fun x hx => hl x (List.mem_cons_of_mem _ hx))
    have m := unlock_moved s d.coin o (d.amount + d.fee)
    refine ⟨s', if cfg.name = d.coin then b else (d.coin, d.amount) :: b, ?_, by rw [h2]; rfl, ⟨?_, ?_, ?_, ?_, fun x => h3.keys (m.keys x)⟩, ?_, ?_, ?_, ?_⟩
    · unfold settleAll; rw [if_pos hd]; dsimp only; rw [h1]; rfl
    · intro c' o'
      refine (h3.locked c' o').trans ?_
      refine (congrArg (· + _) (m.locked c' o')).trans ?_
      dsimp only [dsum]
      by_cases e : o' = o
      · by_cases e' : d.coin = c'
        · simp only [if_pos e, if_pos e', if_pos (show o' = o ∧ d.coin = c' from ⟨e, e'⟩)]; omega
        · simp only [if_pos e, if_neg e', if_neg (show ¬(o' = o ∧ d.coin = c') from fun x => e' x.2)]; omega
      · simp only [if_neg e, if_neg (show ¬(o' = o ∧ d.coin = c') from fun x => e x.1)]; omega
    · intro c' o'
      refine (h3.refund c' o').trans ?_
      refine (congrArg (· + _) (m.refund c' o')).trans ?_
      omega
    · intro c'
      refine (h3.lsum c').trans ?_
      refine (congrArg (· + _) (m.lsum c')).trans ?_
      dsimp only [dsum]; split <;> omega
    · intro c'
      refine (h3.rsum c').trans ?_
      refine (congrArg (· + _) (m.rsum c')).trans ?_
      omega
    · intro c'
      rw [h4]
      show at0 (add s.fees d.coin d.fee) c' + _ = _
      rw [at0_add]
      dsimp only [dsum, asum]
      by_cases e : d.coin = c'
      · rw [if_pos e, if_pos e, if_pos e.symm]; omega
      · rw [if_neg e, if_neg e, if_neg (Ne.symm e)]; omega
    · intro c'
      rw [h5]
      show at0 (add s.settled d.coin d.amount) c' + _ = _
      rw [at0_add]
      dsimp only [asum]
      by_cases e : d.coin = c'
      · rw [if_pos e, if_pos e.symm]; omega
      · rw [if_neg e, if_neg (Ne.symm e)]; omega
    · intro c' hc
      dsimp only [asum]
      by_cases e : cfg.name = d.coin
      · rw [if_pos e, h6 c' hc, if_neg (fun x => hc (by rw [e, x]))]; omega
      · rw [if_neg e]; dsimp only [vsum]; rw [h6 c' hc]
    · intro p hp
      by_cases e : cfg.name = d.coin
      · rw [if_pos e] at hp
        obtain ⟨a, x, hx, r⟩ := h7 p hp
        exact ⟨a, x, List.mem_cons_of_mem _ hx, r⟩
      · rw [if_neg e] at hp
        rcases List.mem_cons.mp hp with q | q
        · rw [q]; exact ⟨Ne.symm e, d, List.mem_cons_self, rfl, rfl⟩
        · obtain ⟨a, x, hx, r⟩ := h7 p q
          exact ⟨a, x, List.mem_cons_of_mem _ hx, r⟩

/-! ### Tokens -/

/-- Amounts by token number. -/
def isum (id : Int) : List (Int × Int) → Int
  | [] => 0
  | p :: l => (if p.1 = id then p.2 else 0) + isum id l

theorem isum_map (f : Bytes → Int) (hf : ∀ a b, f a = f b → a = b) (c : Bytes) (l : List (Bytes × Int)) :
    isum (f c) (l.map fun p => (f p.1, p.2)) = vsum c l := by
  induction l with
  | nil => rfl
  | cons p l ih =>
    rw [List.map_cons]
    unfold isum vsum
    rw [ih]
    by_cases h : p.1 = c
    · rw [if_pos (by rw [h]), if_pos h]
    · rw [if_neg (fun e => h (hf _ _ e)), if_neg h]

/-- The books of the token contract: a supply is the sum of the balances and no balance is negative. -/
structure Sound (i : Irc31) : Prop where
  supply : ∀ id, at0 i.supplies id = tsum i id
  nonneg : ∀ p ∈ i.bals, 0 ≤ p.2

theorem tsum_add (i : Irc31) (sup : Tab Int Int) (k : Int × Bytes) (v id : Int) :
    tsum ⟨sup, add i.bals k v⟩ id = tsum i id + if k.1 = id then v else 0 := by
  unfold tsum; exact sum_addIf (fun j : Int × Bytes => j.1 = id) i.bals k v

theorem move_sound (i : Irc31) (h : Sound i) (id : Int) (frm to : Bytes) (v : Int) (h0 : 0 ≤ v) (h1 : v ≤ at0 i.bals (id, frm)) :
    Sound { i with bals := add (add i.bals (id, frm) (-v)) (id, to) v } := by
  refine ⟨?_, ?_⟩
  · intro j
    show at0 i.supplies j = tsum ⟨i.supplies, add (Irc31.mk i.supplies (add i.bals (id, frm) (-v))).bals (id, to) v⟩ j
    rw [tsum_add, tsum_add, h.supply]
    dsimp only
    split <;> omega
  · have e1 : ∀ p ∈ add i.bals (id, frm) (-v), 0 ≤ p.2 := nonneg_add i.bals h.nonneg (id, frm) (-v) (by omega)
    have := getD_nonneg _ e1 (id, to)
    exact nonneg_add _ e1 (id, to) v (by omega)

theorem transferFrom_ok (cfg : Cfg) (i i' : Irc31) (frm to : Bytes) (id v : Int) (h : i.transferFrom cfg frm to id v = some i') (hs : Sound i) :
    0 ≤ v ∧ Sound i' ∧ i'.supplies = i.supplies ∧
      (∀ k, at0 i'.bals k = at0 i.bals k + (if k = (id, frm) then -v else 0) + if k = (id, to) then v else 0) := by
  unfold Irc31.transferFrom at h
  by_cases c : (frm = cfg.self ∨ cfg.approved frm = true) ∧ 0 ≤ v ∧ v ≤ at0 i.bals (id, frm) ∧ cfg.accepts to = true
  · rw [if_pos c] at h
    cases h
    exact ⟨c.2.1, move_sound i hs id frm to v c.2.1 c.2.2.1, rfl, fun k => by dsimp only; rw [at0_add, at0_add]⟩
  · rw [if_neg c] at h; cases h

theorem transferFromBatch_ok (cfg : Cfg) (frm to : Bytes) (hf : frm ≠ to) (l : List (Int × Int)) (i i' : Irc31)
    (h : i.transferFromBatch cfg frm to l = some i') (hs : Sound i) :
    (∀ p ∈ l, 0 ≤ p.2) ∧ Sound i' ∧ i'.supplies = i.supplies ∧ (∀ id, at0 i'.bals (id, to) = at0 i.bals (id, to) + isum id l) := by
  induction l generalizing i with
  | nil => cases h; exact ⟨by simp, hs, rfl, by simp [isum]⟩
  | cons p l ih =>
    obtain ⟨id, v⟩ := p
    unfold Irc31.transferFromBatch at h
    cases e : i.transferFrom cfg frm to id v with
    | none => rw [e] at h; cases h
    | some i1 =>
      rw [e] at h
      dsimp only [Option.bind_some] at h
      obtain ⟨a1, a2, a3, a4⟩ := transferFrom_ok cfg i i1 frm to id v e hs
      obtain ⟨b1, b2, b3, b4⟩ := ih i1 h a2
      refine ⟨?_, b2, b3.trans a3, ?_⟩
      · intro p hp
        rcases List.mem_cons.mp hp with q | q
        · rw [q]; exact a1
        · exact b1 p q
      · intro j
        rw [b4, a4]
        dsimp only [isum]
        rw [if_neg (fun x => hf (congrArg Prod.snd x).symm)]
        by_cases q : id = j
        · rw [if_pos (by rw [q]), if_pos q]; omega
        · rw [if_neg (fun x => q (congrArg Prod.fst x).symm), if_neg q]; omega

theorem mintBatch_ok (cfg : Cfg) (to : Bytes) (l : List (Int × Int)) (i i' : Irc31) (h : i.mintBatch cfg to l = some i') (hs : Sound i) :
    Sound i' ∧ (∀ id, at0 i'.supplies id = at0 i.supplies id + isum id l) ∧ (∀ k, at0 i.bals k ≤ at0 i'.bals k) := by
  induction l generalizing i with
  | nil => cases h; exact ⟨hs, by simp [isum], by simp⟩
  | cons p l ih =>
    obtain ⟨id, v⟩ := p
    unfold Irc31.mintBatch at h
    by_cases c : cfg.minter = true ∧ 0 < v ∧ cfg.accepts to = true
    · rw [if_pos c] at h
      have hs1 : Sound ⟨add i.supplies id v, add i.bals (id, to) v⟩ := by
        refine ⟨?_, ?_⟩
        · intro j
          rw [tsum_add]
          dsimp only
          rw [at0_add, hs.supply]
          by_cases q : id = j
          · rw [if_pos q, if_pos q.symm]
          · rw [if_neg q, if_neg (Ne.symm q)]
        · have := getD_nonneg i.bals hs.nonneg (id, to)
          exact nonneg_add i.bals hs.nonneg (id, to) v (by omega)
      obtain ⟨a1, a2, a3⟩ := ih _ h hs1
      refine ⟨a1, ?_, ?_⟩
      · intro j
        rw [a2]
        dsimp only [isum]
        rw [at0_add]
        by_cases q : id = j
        · rw [if_pos q, if_pos q.symm]; omega
        · rw [if_neg q, if_neg (Ne.symm q)]; omega
      · intro k
        refine Int.le_trans ?_ (a3 k)
        dsimp only
        rw [at0_add]
        split <;> omega
    · rw [if_neg c] at h; cases h

theorem burnBatch_ok (cfg : Cfg) (o : Bytes) (l : List (Int × Int)) (i : Irc31) (hm : cfg.minter = true ∨ l.map (·.1) = []) (hs : Sound i)
    (hp : ∀ p ∈ l, 0 < p.2) (he : ∀ id, isum id l ≤ at0 i.bals (id, o)) :
    ∃ i', i.burnBatch cfg o l = some i' ∧ Sound i' ∧ (∀ id, at0 i'.supplies id = at0 i.supplies id - isum id l) ∧
      (∀ id, at0 i'.bals (id, o) = at0 i.bals (id, o) - isum id l) := by
  induction l generalizing i with
  | nil => exact ⟨i, rfl, hs, by simp [isum], by simp [isum]⟩
  | cons p l ih =>
    obtain ⟨id, v⟩ := p
    have hm : cfg.minter = true := hm.resolve_right (by simp)
    have hv : 0 < v := hp _ List.mem_cons_self
    have hl : 0 ≤ isum id l := by
      have : ∀ l : List (Int × Int), (∀ p ∈ l, 0 < p.2) → 0 ≤ isum id l := by
        intro l
        induction l with
        | nil => intro _; exact Int.le_refl 0
        | cons q l ih =>
          intro hq
          have a := ih (fun p hp => hq p (List.mem_cons_of_mem _ hp))
          have b := hq q List.mem_cons_self
          unfold isum; split <;> omega
      exact this l (fun p h => hp p (List.mem_cons_of_mem _ h))
    have hb : v ≤ at0 i.bals (id, o) := by
      have := he id
      dsimp only [isum] at this
      rw [if_pos rfl] at this
      omega
    have hsum : at0 i.bals (id, o) ≤ tsum i id := le_sumIf (fun j : Int × Bytes => j.1 = id) i.bals hs.nonneg (id, o) rfl
    have hsome : (i.supplies.get? id).isSome = true := by
      have := hs.supply id
      unfold at0 Tab.getD at this
      cases e : i.supplies.get? id with
      | none =>
        rw [e] at this
        dsimp only [Option.getD] at this
        omega
      | some x => rfl
    have hs1 : Sound ⟨add i.supplies id (-v), add i.bals (id, o) (-v)⟩ := by
      refine ⟨?_, ?_⟩
      · intro j
        rw [tsum_add]
        dsimp only
        rw [at0_add, hs.supply]
        by_cases q : id = j
        · rw [if_pos q, if_pos q.symm]
        · rw [if_neg q, if_neg (Ne.symm q)]
      · exact nonneg_add i.bals hs.nonneg (id, o) (-v) (by omega)
    obtain ⟨i', a1, a2, a3, a4⟩ := ih ⟨add i.supplies id (-v), add i.bals (id, o) (-v)⟩ (Or.inl hm) hs1
      (fun p h => hp p (List.mem_cons_of_mem _ h)) (by
        intro j
        dsimp only
        rw [at0_add]
        have := he j
        dsimp only [isum] at this
        by_cases q : id = j
        · rw [if_pos q] at this; rw [if_pos (by rw [q])]; omega
        · rw [if_neg q] at this; rw [if_neg (fun x => q (congrArg Prod.fst x).symm)]; omega)
    refine ⟨i', ?_, a2, ?_, ?_⟩
    · unfold Irc31.burnBatch
      rw [if_pos ⟨hm, hv, hsome, hb⟩]
      exact a1
    · intro j
      rw [a3]
      dsimp only [isum]
      rw [at0_add]
      by_cases q : id = j
      · rw [if_pos q, if_pos q.symm]; omega
      · rw [if_neg q, if_neg (Ne.symm q)]; omega
    · intro j
      rw [a4]
      dsimp only [isum]
      rw [at0_add]
      by_cases q : id = j
      · rw [if_pos q, if_pos (by rw [q])]; omega
      · rw [if_neg q, if_neg (fun x => q (congrArg Prod.fst x).symm)]; omega

/-! ### The ledger -/

/-- The ledger of the service: see the fields. -/
structure Inv (cfg : Cfg) (s : S) : Prop where
  keys : (s.txs.map (·.1)).Nodup
  range : ∀ p ∈ s.txs, 0 < p.1 ∧ p.1 ≤ s.sn
  sn : 0 ≤ s.sn
  ratio : 1 ≤ s.feeRatio ∧ s.feeRatio < 10000
  name : cfg.name ∉ s.coins
  good : ∀ p ∈ s.txs, p.2.frm ≠ cfg.self ∧ ∀ d ∈ p.2.assets, 1 ≤ d.amount ∧ 0 ≤ d.fee ∧ (d.coin = cfg.name ∨ d.coin ∈ s.coins)
  locked : ∀ c o, (balance s c o).locked = pending s.txs c o
  lsum : ∀ c, lsum s c = s.txs.sum fun _ t => dsum c t.assets
  refund : ∀ c o, 0 ≤ (balance s c o).refundable
  bkeys : (s.bals.map (·.1)).Nodup
  fees : ∀ c, 0 ≤ at0 s.fees c
  coins : at0 s.icx cfg.self = Ncs.lsum s cfg.name + Ncs.rsum s cfg.name + at0 s.fees cfg.name + at0 s.settled cfg.name - at0 s.paid cfg.name
  icx : ∀ p ∈ s.icx, 0 ≤ p.2
  irc : Sound s.irc
  tokens : ∀ c, c ≠ cfg.name → Ncs.lsum s c + Ncs.rsum s c + at0 s.fees c ≤ at0 s.irc.bals (cfg.id c, cfg.self)
  minted : ∀ c, c ≠ cfg.name → at0 s.irc.supplies (cfg.id c) = at0 s.paid c - at0 s.settled c

theorem inv_init (cfg : Cfg) (icx : Tab Bytes Int) (h0 : at0 icx cfg.self = 0) (hn : ∀ p ∈ icx, 0 ≤ p.2) : Inv cfg (init icx) := by
  refine ⟨List.nodup_nil, by simp [init], Int.le_refl 0, ⟨by show (1 : Int) ≤ 10; omega, by show (10 : Int) < 10000; omega⟩, by simp [init], by simp [init], ?_, ?_, ?_, ?_,
    ?_, ?_, hn, ⟨fun _ => rfl, by simp [init]⟩, ?_, ?_⟩
  · intro c o; rfl
  · intro c; rfl
  · intro c o; exact Int.le_refl 0
  · exact List.nodup_nil
  · intro c; exact Int.le_refl 0
  · exact h0
  · intro c _; exact Int.le_refl 0
  · intro c _; rfl

theorem Inv.rsum {cfg : Cfg} {s : S} (h : Inv cfg s) (c : Bytes) : 0 ≤ rsum s c := by
  unfold Ncs.rsum
  refine Tab.sum_nonneg _ _ ?_
  intro p hp
  show 0 ≤ if p.1.1 = c then p.2.refundable else 0
  have e := Tab.get?_of_mem s.bals h.bkeys p.1 p.2 hp
  have := h.refund p.1.1 p.1.2
  unfold balance Tab.getD at this
  rw [show (p.1.1, p.1.2) = p.1 from rfl, e] at this
  split
  · exact this
  · omega

theorem dsum_nonneg (c : Bytes) (l : List Detail) (h : ∀ d ∈ l, 1 ≤ d.amount ∧ 0 ≤ d.fee) : 0 ≤ dsum c l := by
  induction l with
  | nil => exact Int.le_refl 0
  | cons d l ih =>
    have a := ih (fun x hx => h x (List.mem_cons_of_mem _ hx))
    have b := h d List.mem_cons_self
    unfold dsum; split <;> omega

theorem asum_nonneg (c : Bytes) (l : List Detail) (h : ∀ d ∈ l, 1 ≤ d.amount ∧ 0 ≤ d.fee) : 0 ≤ asum c l := by
  induction l with
  | nil => exact Int.le_refl 0
  | cons d l ih =>
    have a := ih (fun x hx => h x (List.mem_cons_of_mem _ hx))
    have b := h d List.mem_cons_self
    unfold asum; split <;> omega

theorem asum_le (c : Bytes) (l : List Detail) (h : ∀ d ∈ l, 1 ≤ d.amount ∧ 0 ≤ d.fee) : asum c l ≤ dsum c l := by
  induction l with
  | nil => exact Int.le_refl 0
  | cons d l ih =>
    have a := ih (fun x hx => h x (List.mem_cons_of_mem _ hx))
    have b := h d List.mem_cons_self
    unfold asum dsum; split <;> omega

theorem Inv.details {cfg : Cfg} {s : S} (h : Inv cfg s) (p : Int × Tx) (hp : p ∈ s.txs) : ∀ d ∈ p.2.assets, 1 ≤ d.amount ∧ 0 ≤ d.fee :=
  fun d hd => ⟨((h.good p hp).2 d hd).1, ((h.good p hp).2 d hd).2.1⟩

theorem Inv.lsum0 {cfg : Cfg} {s : S} (h : Inv cfg s) (c : Bytes) : 0 ≤ Ncs.lsum s c := by
  rw [h.lsum]
  exact Tab.sum_nonneg _ _ (fun p hp => dsum_nonneg c _ (h.details p hp))

theorem txs_new {cfg : Cfg} {s : S} (h : Inv cfg s) : s.txs.get? (s.sn + 1) = none := by
  rw [Tab.get?_none]
  intro hm
  obtain ⟨p, hp, e⟩ := List.mem_map.mp hm
  have := (h.range p hp).2
  omega

/-- The steps of sending a request. -/
theorem sendRequest_ok (cfg : Cfg) (s s' : S) (o net acc : Bytes) (l : List (Bytes × Int)) (out : List Out) (hr : 0 ≤ s.feeRatio)
    (hl : ∀ p ∈ l, 0 ≤ p.2) (h : sendRequest cfg s o net acc l = some (s', out)) :
    ∃ b ds, s' = { s with bals := b, sn := s.sn + 1, txs := s.txs.put (s.sn + 1) ⟨o, net, acc, ds⟩ } ∧
      out = [⟨net, s.sn + 1, .request o acc (ds.map fun d => ⟨d.coin, some d.amount⟩)⟩] ∧ cfg.sends net = true ∧
      Moved s { s with bals := b } (fun c' o' => if o' = o then vsum c' l else 0) (fun _ _ => 0) (fun c' => vsum c' l) (fun _ => 0) ∧
      (∀ d ∈ ds, 1 ≤ d.amount ∧ 0 ≤ d.fee) ∧ (∀ c, dsum c ds = vsum c l) ∧ ds.map (·.coin) = l.map (·.1) := by
  unfold sendRequest at h
  cases e : lockAll o (if o = cfg.self then 0 else s.feeRatio) s l with
  | none => rw [e] at h; cases h
  | some x =>
    obtain ⟨x1, ds⟩ := x
    rw [e] at h
    dsimp only [Option.bind_some] at h
    obtain ⟨a1, a2, a3, a4, a5⟩ := lockAll_ok o _ (by split <;> omega) l hl s x1 ds e
    by_cases c : cfg.sends net = true
    · rw [if_pos c] at h
      cases h
      refine ⟨x1.bals, ds, by rw [a1], by rw [a1], c, ?_, a3, a4, a5⟩
      rw [a1] at a2
      exact a2
    · rw [if_neg c] at h; cases h

/-- A request keeps the ledger, if the coins came in before. -/
theorem sendRequest_inv (cfg : Cfg) (s s0 s' : S) (h : Inv cfg s0) (o net acc : Bytes) (l : List (Bytes × Int)) (out : List Out)
    (ho : o ≠ cfg.self) (hl : ∀ p ∈ l, 0 ≤ p.2) (hc : ∀ p ∈ l, p.1 = cfg.name ∨ p.1 ∈ s.coins)
    (hx : s = { s0 with icx := s.icx, irc := s.irc }) (hi : at0 s.icx cfg.self = at0 s0.icx cfg.self + vsum cfg.name l)
    (hicx : ∀ p ∈ s.icx, 0 ≤ p.2) (hirc : Sound s.irc) (hsup : s.irc.supplies = s0.irc.supplies)
    (ht : ∀ c, c ≠ cfg.name → at0 s0.irc.bals (cfg.id c, cfg.self) + vsum c l ≤ at0 s.irc.bals (cfg.id c, cfg.self))
    (hs : sendRequest cfg s o net acc l = some (s', out)) : Inv cfg s' := by
  obtain ⟨b, ds, e1, e2, e3, m, d1, d2, d3⟩ := sendRequest_ok cfg s s' o net acc l out (by rw [hx]; exact Int.le_trans (by omega) h.ratio.1) hl hs
  have hnew := txs_new h
  have etx : s.txs = s0.txs := by rw [hx]
  have esn : s.sn = s0.sn := by rw [hx]
  have eco : s.coins = s0.coins := by rw [hx]
  have efe : s.fees = s0.fees := by rw [hx]
  have ese : s.settled = s0.settled := by rw [hx]
  have epa : s.paid = s0.paid := by rw [hx]
  have era : s.feeRatio = s0.feeRatio := by rw [hx]
  have ebl : s.bals = s0.bals := by rw [hx]
  have hnew' : s.txs.get? (s.sn + 1) = none := by rw [etx, esn]; exact hnew
  have els : ∀ c, Ncs.lsum s c = Ncs.lsum s0 c := by intro c; unfold Ncs.lsum; rw [ebl]
  have ers : ∀ c, Ncs.rsum s c = Ncs.rsum s0 c := by intro c; unfold Ncs.rsum; rw [ebl]
  have ebal : ∀ c o, balance s c o = balance s0 c o := by intro c o; unfold balance; rw [ebl]
  have l1 : ∀ c, Ncs.lsum s' c = Ncs.lsum s c + vsum c l := fun c => by rw [e1]; exact m.lsum c
  have r1 : ∀ c, Ncs.rsum s' c = Ncs.rsum s c + 0 := fun c => by rw [e1]; exact m.rsum c
  have f1 : s'.fees = s0.fees := by rw [e1]; exact efe
  have t1 : s'.txs = s0.txs.put (s0.sn + 1) ⟨o, net, acc, ds⟩ := by rw [e1, ← etx, ← esn]
  have k1 : s'.coins = s0.coins := by rw [e1]; exact eco
  have i1 : s'.icx = s.icx := by rw [e1]
  have n1 : s'.sn = s0.sn + 1 := by rw [e1, ← esn]
  have z1 : s'.settled = s0.settled := by rw [e1]; exact ese
  have p1 : s'.paid = s0.paid := by rw [e1]; exact epa
  have c1 : s'.irc = s.irc := by rw [e1]
  refine ⟨?_, ?_, ?_, ?_, ?_, ?_, ?_, ?_, ?_, ?_, ?_, ?_, ?_, ?_, ?_, ?_⟩
  · rw [t1, Tab.keys_put _ _ _ hnew]
    rw [List.nodup_append]
    refine ⟨h.keys, by simp, ?_⟩
    intro a ha b hb
    rw [List.mem_singleton] at hb
    obtain ⟨p, hp, e⟩ := List.mem_map.mp ha
    have := (h.range p hp).2
    omega
  · intro p hp
    rw [t1] at hp
    rw [n1]
    have hsn := h.sn
    rcases mem_put _ _ _ _ hp with e | e
    · rw [e]; dsimp only; omega
    · have := h.range p e; omega
  · rw [n1]; have := h.sn; omega
  · rw [show s'.feeRatio = s0.feeRatio by rw [e1]; exact era]; exact h.ratio
  · rw [k1]; exact h.name
  · intro p hp
    rw [t1] at hp
    rw [k1]
    rcases mem_put _ _ _ _ hp with e | e
    · rw [e]
      refine ⟨ho, ?_⟩
      intro d hd
      refine ⟨(d1 d hd).1, (d1 d hd).2, ?_⟩
      have hd2 : d.coin ∈ ds.map (·.coin) := List.mem_map.mpr ⟨d, hd, rfl⟩
      rw [d3] at hd2
      obtain ⟨q, hq, eq⟩ := List.mem_map.mp hd2
      have := hc q hq
      rw [eq, eco] at this
      exact this
    · exact h.good p e
  · intro c' o'
    rw [t1]
    unfold pending
    rw [Tab.sum_put_new _ _ _ _ hnew]
    have a := m.locked c' o'
    have b1 : balance s' c' o' = balance { s with bals := b } c' o' := by rw [e1]; rfl
    rw [b1, a, ebal, h.locked]
    unfold pending
    dsimp only
    by_cases q : o' = o
    · rw [if_pos q, if_pos q.symm, d2]
    · rw [if_neg q, if_neg (Ne.symm q)]
  · intro c'
    rw [t1, Tab.sum_put_new _ _ _ _ hnew, l1, els, h.lsum, d2]
  · intro c' o'
    have b1 : balance s' c' o' = balance { s with bals := b } c' o' := by rw [e1]; rfl
    rw [b1, m.refund, ebal]
    have := h.refund c' o'
    omega
  · have := m.keys (by rw [ebl]; exact h.bkeys)
    rw [e1]; exact this
  · intro c'
    rw [f1]; exact h.fees c'
  · rw [i1, hi, l1, r1, els, ers, f1, z1, p1]
    have := h.coins
    omega
  · rw [i1]; exact hicx
  · rw [c1]; exact hirc
  · intro c' hc'
    rw [l1, r1, els, ers, f1, c1]
    have a := h.tokens c' hc'
    have b := ht c' hc'
    omega
  · intro c' hc'
    rw [c1, hsup, p1, z1]
    exact h.minted c' hc'

/-! ### Coins moving on the chain -/

theorem pay_ok (cfg : Cfg) (s s' : S) (to : Bytes) (v : Int) (h : pay cfg s to v = some s') (hn : ∀ p ∈ s.icx, 0 ≤ p.2) :
    0 ≤ v ∧ s' = { s with icx := s'.icx } ∧ at0 s'.icx cfg.self = at0 s.icx cfg.self - v ∧ (∀ p ∈ s'.icx, 0 ≤ p.2) := by
  unfold pay at h
  by_cases c : to ≠ cfg.self ∧ cfg.accepts to = true ∧ 0 ≤ v ∧ v ≤ at0 s.icx cfg.self
  · rw [if_pos c] at h
    cases h
    have n1 : ∀ p ∈ add s.icx cfg.self (-v), 0 ≤ p.2 := nonneg_add s.icx hn cfg.self (-v) (by omega)
    have g := getD_nonneg _ n1 to
    refine ⟨c.2.2.1, rfl, ?_, nonneg_add _ n1 to v (by omega)⟩
    dsimp only
    rw [at0_add, at0_add, if_pos rfl, if_neg (Ne.symm c.1)]
    omega
  · rw [if_neg c] at h; cases h

theorem receive_ok (cfg : Cfg) (s s' : S) (frm : Bytes) (v : Int) (h : receive cfg s frm v = some s') (hn : ∀ p ∈ s.icx, 0 ≤ p.2) :
    frm ≠ cfg.self ∧ 0 ≤ v ∧ s' = { s with icx := s'.icx } ∧ at0 s'.icx cfg.self = at0 s.icx cfg.self + v ∧ (∀ p ∈ s'.icx, 0 ≤ p.2) := by
  unfold receive at h
  by_cases c : frm ≠ cfg.self ∧ 0 ≤ v ∧ v ≤ at0 s.icx frm
  · rw [if_pos c] at h
    cases h
    have n1 : ∀ p ∈ add s.icx frm (-v), 0 ≤ p.2 := nonneg_add s.icx hn frm (-v) (by omega)
    have g := getD_nonneg _ n1 cfg.self
    refine ⟨c.1, c.2.1, rfl, ?_, nonneg_add _ n1 cfg.self v (by omega)⟩
    dsimp only
    rw [at0_add, at0_add, if_pos rfl, if_neg (Ne.symm c.1)]
    omega
  · rw [if_neg c] at h; cases h

/-! ### The calls -/

theorem vsum_append (c : Bytes) (l m : List (Bytes × Int)) : vsum c (l ++ m) = vsum c l + vsum c m := by
  induction l with
  | nil => simp [vsum]
  | cons p l ih => rw [List.cons_append]; dsimp only [vsum]; rw [ih]; omega

theorem vsum_other (c : Bytes) (l : List (Bytes × Int)) (h : ∀ p ∈ l, p.1 ≠ c) : vsum c l = 0 := by
  induction l with
  | nil => rfl
  | cons p l ih =>
    unfold vsum
    rw [ih (fun q hq => h q (List.mem_cons_of_mem _ hq)), if_neg (h p List.mem_cons_self)]
    rfl

theorem transferNative_inv (cfg : Cfg) (s s' : S) (h : Inv cfg s) (o : Bytes) (v : Int) (n a : Bytes) (out : List Out)
    (hs : transferNative cfg s o v n a = some (s', out)) : Inv cfg s' := by
  unfold transferNative at hs
  by_cases c : 0 < v
  · rw [if_pos c] at hs
    cases e : receive cfg s o v with
    | none => rw [e] at hs; cases hs
    | some s1 =>
      rw [e] at hs
      dsimp only [Option.bind_some] at hs
      obtain ⟨r1, r2, r3, r4, r5⟩ := receive_ok cfg s s1 o v e h.icx
      refine sendRequest_inv cfg s1 s s' h o n a _ out r1 ?_ ?_ (by rw [r3]) ?_ r5 ?_ ?_ ?_ hs
      · intro p hp; rw [List.mem_singleton.mp hp]; exact r2
      · intro p hp; rw [List.mem_singleton.mp hp]; exact Or.inl rfl
      · rw [r4]; simp [vsum]
      · rw [r3]; exact h.irc
      · rw [r3]
      · intro c' hc'; rw [r3]; simp [vsum, Ne.symm hc']
  · rw [if_neg c] at hs; cases hs

theorem transfer_inv (cfg : Cfg) (hid : ∀ a b, cfg.id a = cfg.id b → a = b) (s s' : S) (h : Inv cfg s) (o coin : Bytes) (ho : o ≠ cfg.self) (v : Int) (n a : Bytes)
    (out : List Out) (hs : transfer cfg s o coin v n a = some (s', out)) : Inv cfg s' := by
  unfold transfer at hs
  by_cases c : 0 < v ∧ cfg.name ≠ coin ∧ coin ∈ s.coins
  · rw [if_pos c] at hs
    cases e : s.irc.transferFrom cfg o cfg.self (cfg.id coin) v with
    | none => rw [e] at hs; cases hs
    | some i =>
      rw [e] at hs
      dsimp only [Option.bind_some] at hs
      obtain ⟨r1, r2, r3, r4⟩ := transferFrom_ok cfg s.irc i o cfg.self (cfg.id coin) v e h.irc
      refine sendRequest_inv cfg { s with irc := i } s s' h o n a _ out ho ?_ ?_ rfl ?_ h.icx r2 r3 ?_ hs
      · intro p hp; rw [List.mem_singleton.mp hp]; exact r1
      · intro p hp; rw [List.mem_singleton.mp hp]; exact Or.inr c.2.2
      · simp [vsum, Ne.symm c.2.1]
      · intro c' hc'
        dsimp only [vsum]
        rw [r4, if_neg (fun x => ho (congrArg Prod.snd x).symm)]
        by_cases q : coin = c'
        · rw [if_pos q, if_pos (by rw [q])]; omega
        · rw [if_neg q, if_neg (fun x => q (hid _ _ (congrArg Prod.fst x).symm))]; omega
  · rw [if_neg c] at hs; cases hs

theorem transferBatch_inv (cfg : Cfg) (hid : ∀ a b, cfg.id a = cfg.id b → a = b) (s s' : S) (h : Inv cfg s) (o : Bytes) (l : List (Bytes × Int)) (v : Int) (n a : Bytes)
    (out : List Out) (hs : transferBatch cfg s o l v n a = some (s', out)) : Inv cfg s' := by
  unfold transferBatch at hs
  cases e : receive cfg s o v with
  | none => rw [e] at hs; cases hs
  | some s1 =>
    rw [e] at hs
    dsimp only [Option.bind_some] at hs
    obtain ⟨r1, r2, r3, r4, r5⟩ := receive_ok cfg s s1 o v e h.icx
    have ei : s1.irc = s.irc := by rw [r3]
    have ec : s1.coins = s.coins := by rw [r3]
    by_cases c : ∀ p ∈ l, cfg.name ≠ p.1 ∧ p.1 ∈ s1.coins
    · rw [if_pos c] at hs
      cases e2 : s1.irc.transferFromBatch cfg o cfg.self (l.map fun p => (cfg.id p.1, p.2)) with
      | none => rw [e2] at hs; cases hs
      | some i =>
        rw [e2] at hs
        dsimp only [Option.bind_some] at hs
        obtain ⟨t1, t2, t3, t4⟩ := transferFromBatch_ok cfg o cfg.self r1 _ s1.irc i e2 (by rw [ei]; exact h.irc)
        have t1' : ∀ p ∈ l, 0 ≤ p.2 := fun p hp => t1 (cfg.id p.1, p.2) (List.mem_map.mpr ⟨p, hp, rfl⟩)
        have hv : ∀ c', vsum c' (if 0 < v then l ++ [(cfg.name, v)] else l) = vsum c' l + if cfg.name = c' then v else 0 := by
          intro c'
          by_cases q : 0 < v
          · rw [if_pos q, vsum_append]; simp [vsum]
          · have : v = 0 := by omega
            rw [if_neg q, this]; simp
        have hn : vsum cfg.name l = 0 := vsum_other _ _ (fun p hp => Ne.symm (c p hp).1)
        refine sendRequest_inv cfg { s1 with irc := i } s s' h o n a _ out r1 ?_ ?_ ?_ ?_ r5 t2 (by rw [← ei]; exact t3) ?_ hs
        · intro p hp
          by_cases q : 0 < v
          · rw [if_pos q] at hp
            rcases List.mem_append.mp hp with w | w
            · exact t1' p w
            · rw [List.mem_singleton.mp w]; exact r2
          · rw [if_neg q] at hp; exact t1' p hp
        · intro p hp
          by_cases q : 0 < v
          · rw [if_pos q] at hp
            rcases List.mem_append.mp hp with w | w
            · exact Or.inr (c p w).2
            · rw [List.mem_singleton.mp w]; exact Or.inl rfl
          · rw [if_neg q] at hp; exact Or.inr (c p hp).2
        · rw [r3]
        · rw [hv, hn, if_pos rfl]
          show at0 s1.icx cfg.self = _
          rw [r4]; omega
        · intro c' hc'
          rw [hv, if_neg (Ne.symm hc')]
          show _ ≤ at0 i.bals _
          rw [t4, isum_map cfg.id hid, ei]; omega
    · rw [if_neg c] at hs; cases hs

theorem reclaim_inv (cfg : Cfg) (hid : ∀ a b, cfg.id a = cfg.id b → a = b) (s s' : S) (h : Inv cfg s) (o coin : Bytes) (ho : o ≠ cfg.self) (v : Int)
    (hs : reclaim cfg s o coin v = some s') : Inv cfg s' := by
  unfold reclaim at hs
  by_cases c : 0 < v ∧ v ≤ (balance s coin o).refundable
  · rw [if_pos c] at hs
    dsimp only at hs
    have m := moved_set s coin o { balance s coin o with refundable := (balance s coin o).refundable - v }
    generalize es : setBalance s coin o { balance s coin o with refundable := (balance s coin o).refundable - v } = s1 at hs m
    have e1 : s1 = { s with bals := s1.bals } := by rw [← es]; rfl
    have eirc : s1.irc = s.irc := by rw [e1]
    have eicx : s1.icx = s.icx := by rw [e1]
    have l1 : ∀ c', Ncs.lsum s1 c' = Ncs.lsum s c' := by
      intro c'; rw [m.lsum]; dsimp only; split <;> omega
    have r1 : ∀ c', Ncs.rsum s1 c' = Ncs.rsum s c' - if coin = c' then v else 0 := by
      intro c'; rw [m.rsum]; dsimp only; split <;> omega
    have b1 : ∀ c' o', (balance s1 c' o').locked = (balance s c' o').locked := by
      intro c' o'; rw [m.locked]; dsimp only; split <;> omega
    have b2 : ∀ c' o', 0 ≤ (balance s1 c' o').refundable := by
      intro c' o'
      rw [m.refund]
      dsimp only
      have := h.refund c' o'
      by_cases q : (c', o') = (coin, o)
      · rw [if_pos q]
        have q1 : c' = coin := congrArg Prod.fst q
        have q2 : o' = o := congrArg Prod.snd q
        rw [q1, q2]; omega
      · rw [if_neg q]; omega
    have base : ∀ s2 : S, s2 = { s1 with icx := s2.icx, irc := s2.irc } → (∀ p ∈ s2.icx, 0 ≤ p.2) → Sound s2.irc → s2.irc.supplies = s.irc.supplies →
        at0 s2.icx cfg.self = at0 s.icx cfg.self - (if coin = cfg.name then v else 0) →
        (∀ c', c' ≠ cfg.name → at0 s.irc.bals (cfg.id c', cfg.self) - (if coin = c' then v else 0) ≤ at0 s2.irc.bals (cfg.id c', cfg.self)) → Inv cfg s2 := by
      intro s2 x1 x2 x3 x4 x5 x6
      have x7 : s2.bals = s1.bals := by rw [x1]
      have bl : ∀ c' o', balance s2 c' o' = balance s1 c' o' := by intro c' o'; unfold balance; rw [x7]
      have ls : ∀ c', Ncs.lsum s2 c' = Ncs.lsum s1 c' := by intro c'; unfold Ncs.lsum; rw [x7]
      have rs : ∀ c', Ncs.rsum s2 c' = Ncs.rsum s1 c' := by intro c'; unfold Ncs.rsum; rw [x7]
      have x8 : s2 = { s with bals := s1.bals, icx := s2.icx, irc := s2.irc } := by rw [x1, e1]
      have t1 : s2.txs = s.txs := by rw [x8]
      have t2 : s2.sn = s.sn := by rw [x8]
      have t3 : s2.coins = s.coins := by rw [x8]
      have t4 : s2.fees = s.fees := by rw [x8]
      have t5 : s2.settled = s.settled := by rw [x8]
      have t6 : s2.paid = s.paid := by rw [x8]
      have t7 : s2.feeRatio = s.feeRatio := by rw [x8]
      refine ⟨by rw [t1]; exact h.keys, by rw [t1, t2]; exact h.range, by rw [t2]; exact h.sn, by rw [t7]; exact h.ratio, by rw [t3]; exact h.name,
        by rw [t1, t3]; exact h.good, ?_, ?_, ?_, ?_, ?_, ?_, x2, x3, ?_, ?_⟩
      · intro c' o'; rw [bl, b1, t1]; exact h.locked c' o'
      · intro c'; rw [ls, l1, t1]; exact h.lsum c'
      · intro c' o'; rw [bl]; exact b2 c' o'
      · rw [x7]; exact m.keys h.bkeys
      · intro c'; rw [t4]; exact h.fees c'
      · rw [x5, ls, rs, l1, r1, t4, t5, t6, h.coins]; omega
      · intro c' hc'
        have a := x6 c' hc'
        have b := h.tokens c' hc'
        rw [ls, rs, l1, r1, t4]; omega
      · intro c' hc'; rw [x4, t5, t6]; exact h.minted c' hc'
    by_cases q : cfg.name = coin
    · rw [if_pos q] at hs
      obtain ⟨p1, p2, p3, p4⟩ := pay_ok cfg s1 s' o v hs (by rw [eicx]; exact h.icx)
      have ei : s'.irc = s.irc := by rw [p2]; exact eirc
      refine base s' (by rw [p2]) p4 (by rw [ei]; exact h.irc) (by rw [ei]) ?_ ?_
      · rw [p3, eicx, if_pos q.symm]
      · intro c' hc'; rw [ei, if_neg (fun x => hc' (x.symm.trans q.symm))]; omega
    · rw [if_neg q] at hs
      cases e : s1.irc.transferFrom cfg cfg.self o (cfg.id coin) v with
      | none => rw [e] at hs; cases hs
      | some i =>
        rw [e] at hs
        cases hs
        obtain ⟨p1, p2, p3, p4⟩ := transferFrom_ok cfg s1.irc i cfg.self o (cfg.id coin) v e (by rw [eirc]; exact h.irc)
        refine base { s1 with irc := i } rfl (by show ∀ p ∈ s1.icx, _; rw [eicx]; exact h.icx) p2 (by rw [← eirc]; exact p3) ?_ ?_
        · show at0 s1.icx _ = _
          rw [eicx, if_neg (Ne.symm q)]; omega
        · intro c' hc'
          show _ ≤ at0 i.bals _
          rw [p4, eirc, if_neg (show (cfg.id c', cfg.self) ≠ (cfg.id coin, o) from fun x => ho (congrArg Prod.snd x).symm)]
          by_cases w : coin = c'
          · rw [if_pos w, if_pos (by rw [w])]; omega
          · rw [if_neg w, if_neg (fun x => w (hid _ _ (congrArg Prod.fst x).symm))]; omega
  · rw [if_neg c] at hs; cases hs

/-! ### Requests from other networks -/

theorem sortAssets_ok (cfg : Cfg) (coins : List Bytes) (l : List Asset) (x : List (Bytes × Int) × Option Int) (h : sortAssets cfg coins l = some x) :
    (∀ p ∈ x.1, p.1 ∈ coins ∧ 0 < p.2) ∧ (∀ v, x.2 = some v → 0 < v) := by
  induction l generalizing x with
  | nil => cases h; exact ⟨by simp, by simp⟩
  | cons a l ih =>
    unfold sortAssets at h
    cases ea : a.amount with
    | none => rw [ea] at h; cases h
    | some v =>
      rw [ea] at h
      dsimp only at h
      by_cases c : v < 1
      · rw [if_pos c] at h; cases h
      · rw [if_neg c] at h
        cases e : sortAssets cfg coins l with
        | none => rw [e] at h; cases h
        | some y =>
          rw [e] at h
          dsimp only [Option.bind_some] at h
          obtain ⟨a1, a2⟩ := ih y e
          by_cases c1 : a.coin ∈ coins
          · rw [if_pos c1] at h
            cases h
            refine ⟨?_, a2⟩
            intro p hp
            rcases List.mem_cons.mp hp with q | q
            · rw [q]; exact ⟨c1, by show 0 < v; omega⟩
            · exact a1 p q
          · rw [if_neg c1] at h
            by_cases c2 : cfg.name = a.coin
            · rw [if_pos c2] at h
              cases h
              refine ⟨a1, ?_⟩
              intro w hw
              dsimp only at hw
              cases e2 : y.2 with
              | none => rw [e2] at hw; cases hw; omega
              | some u => rw [e2] at hw; cases hw; exact a2 _ e2
            · rw [if_neg c2] at h; cases h

theorem at0_count (l : List (Bytes × Int)) (t : Tab Bytes Int) (c : Bytes) : at0 (count t l) c = at0 t c + vsum c l := by
  induction l generalizing t with
  | nil => simp [count, vsum]
  | cons p l ih =>
    obtain ⟨a, v⟩ := p
    unfold count
    rw [ih, at0_add]
    dsimp only [vsum]
    by_cases h : a = c
    · rw [if_pos h, if_pos h.symm]; omega
    · rw [if_neg h, if_neg (Ne.symm h)]; omega

theorem payNative_ok (cfg : Cfg) (s s' : S) (to : Bytes) (v : Option Int) (h : payNative cfg s to v = some s') (hn : ∀ p ∈ s.icx, 0 ≤ p.2) :
    s' = { s with icx := s'.icx, paid := s'.paid } ∧ at0 s'.icx cfg.self = at0 s.icx cfg.self - v.getD 0 ∧ (∀ p ∈ s'.icx, 0 ≤ p.2) ∧
      (∀ c, at0 s'.paid c = at0 s.paid c + if c = cfg.name then v.getD 0 else 0) := by
  cases v with
  | none =>
    cases h
    refine ⟨rfl, by simp, hn, ?_⟩
    intro c
    simp
  | some v =>
    unfold payNative at h
    dsimp only at h
    cases e : pay cfg s to v with
    | none => rw [e] at h; cases h
    | some s1 =>
      rw [e] at h
      cases h
      obtain ⟨a1, a2, a3, a4⟩ := pay_ok cfg s s1 to v e hn
      have e0 : s1.paid = s.paid := by rw [a2]
      refine ⟨by rw [a2], a3, a4, ?_⟩
      intro c
      show at0 (add s1.paid cfg.name v) c = _
      rw [at0_add, e0]
      rfl

/-- The effects of a request that is accepted. -/
theorem handleRequest_ok (cfg : Cfg) (s s' : S) (to : Bytes) (l : List Asset) (net : Bytes) (sn : Int) (out : List Out)
    (hn : ∀ p ∈ s.icx, 0 ≤ p.2) (hs : Sound s.irc) (h : handleRequest cfg s to l net sn = some (s', out)) :
    ∃ x, sortAssets cfg s.coins l = some x ∧ s' = { s with icx := s'.icx, irc := s'.irc, paid := s'.paid } ∧ out = [⟨net, sn, .response 0⟩] ∧
      at0 s'.icx cfg.self = at0 s.icx cfg.self - x.2.getD 0 ∧ (∀ p ∈ s'.icx, 0 ≤ p.2) ∧ Sound s'.irc ∧
      (∀ c, at0 s'.paid c = at0 s.paid c + vsum c x.1 + if c = cfg.name then x.2.getD 0 else 0) ∧
      (∀ id, at0 s'.irc.supplies id = at0 s.irc.supplies id + isum id (x.1.map fun p => (cfg.id p.1, p.2))) ∧
      (∀ k, at0 s.irc.bals k ≤ at0 s'.irc.bals k) := by
  unfold handleRequest at h
  cases e1 : cfg.parse to with
  | none => rw [e1] at h; cases h
  | some to' =>
    rw [e1] at h
    dsimp only at h
    cases e2 : sortAssets cfg s.coins l with
    | none => rw [e2] at h; cases h
    | some x =>
      rw [e2] at h
      dsimp only [Option.bind_some] at h
      cases e3 : payNative cfg s to' x.2 with
      | none => rw [e3] at h; cases h
      | some s1 =>
        rw [e3] at h
        dsimp only [Option.bind_some] at h
        unfold mintAll at h
        cases e4 : s1.irc.mintBatch cfg to' (x.1.map fun p => (cfg.id p.1, p.2)) with
        | none => rw [e4] at h; cases h
        | some i =>
          rw [e4] at h
          dsimp only [Option.map_some, Option.bind_some] at h
          by_cases c : cfg.sends net = true
          · rw [if_pos c] at h
            cases h
            obtain ⟨p1, p2, p3, p4⟩ := payNative_ok cfg s s1 to' x.2 e3 hn
            have ei : s1.irc = s.irc := by rw [p1]
            rw [ei] at e4
            obtain ⟨m1, m2, m3⟩ := mintBatch_ok cfg to' _ s.irc i e4 hs
            refine ⟨x, rfl, by rw [p1], rfl, p2, p3, m1, ?_, m2, m3⟩
            intro c
            show at0 (count s1.paid x.1) c = _
            rw [at0_count, p4]; omega
          · rw [if_neg c] at h; cases h

theorem handleRequest_inv (cfg : Cfg) (hid : ∀ a b, cfg.id a = cfg.id b → a = b) (s s' : S) (h : Inv cfg s) (to : Bytes) (l : List Asset) (net : Bytes) (sn : Int)
    (out : List Out) (hs : handleRequest cfg s to l net sn = some (s', out)) : Inv cfg s' := by
  obtain ⟨x, x1, x2, x3, x4, x5, x6, x7, x8, x9⟩ := handleRequest_ok cfg s s' to l net sn out h.icx h.irc hs
  obtain ⟨y1, y2⟩ := sortAssets_ok cfg s.coins l x x1
  have ebl : s'.bals = s.bals := by rw [x2]
  have bl : ∀ c' o', balance s' c' o' = balance s c' o' := by intro c' o'; unfold balance; rw [ebl]
  have ls : ∀ c', Ncs.lsum s' c' = Ncs.lsum s c' := by intro c'; unfold Ncs.lsum; rw [ebl]
  have rs : ∀ c', Ncs.rsum s' c' = Ncs.rsum s c' := by intro c'; unfold Ncs.rsum; rw [ebl]
  have t1 : s'.txs = s.txs := by rw [x2]
  have t2 : s'.sn = s.sn := by rw [x2]
  have t3 : s'.coins = s.coins := by rw [x2]
  have t4 : s'.fees = s.fees := by rw [x2]
  have t5 : s'.settled = s.settled := by rw [x2]
  have t7 : s'.feeRatio = s.feeRatio := by rw [x2]
  have hn : vsum cfg.name x.1 = 0 := vsum_other _ _ (fun p hp e => h.name (by rw [← e]; exact (y1 p hp).1))
  refine ⟨by rw [t1]; exact h.keys, by rw [t1, t2]; exact h.range, by rw [t2]; exact h.sn, by rw [t7]; exact h.ratio, by rw [t3]; exact h.name,
    by rw [t1, t3]; exact h.good, ?_, ?_, ?_, ?_, ?_, ?_, x5, x6, ?_, ?_⟩
  · intro c' o'; rw [bl, t1]; exact h.locked c' o'
  · intro c'; rw [ls, t1]; exact h.lsum c'
  · intro c' o'; rw [bl]; exact h.refund c' o'
  · rw [ebl]; exact h.bkeys
  · intro c'; rw [t4]; exact h.fees c'
  · rw [x4, ls, rs, t4, t5, x7, hn, if_pos rfl, h.coins]; omega
  · intro c' hc'
    have := h.tokens c' hc'
    have := x9 (cfg.id c', cfg.self)
    rw [ls, rs, t4]; omega
  · intro c' hc'
    rw [x8, x7, t5, isum_map cfg.id hid, if_neg hc', h.minted c' hc']; omega

/-! ### Answers -/

theorem isum_zero (id : Int) (l : List (Int × Int)) (h : ∀ p ∈ l, p.1 ≠ id) : isum id l = 0 := by
  induction l with
  | nil => rfl
  | cons p l ih =>
    unfold isum
    rw [ih (fun q hq => h q (List.mem_cons_of_mem _ hq)), if_neg (h p List.mem_cons_self)]
    rfl

theorem asum_mem (l : List Detail) (h : ∀ d ∈ l, 1 ≤ d.amount ∧ 0 ≤ d.fee) (d : Detail) (hd : d ∈ l) : d.amount ≤ asum d.coin l := by
  induction l with
  | nil => cases hd
  | cons e l ih =>
    have h' : ∀ d ∈ l, 1 ≤ d.amount ∧ 0 ≤ d.fee := fun x hx => h x (List.mem_cons_of_mem _ hx)
    unfold asum
    rcases List.mem_cons.mp hd with q | q
    · subst q; rw [if_pos rfl]; have := asum_nonneg d.coin l h'; omega
    · have := ih h' q
      have := (h e List.mem_cons_self).1
      split <;> omega

/-- Every answer to a pending request is carried out (a success needs the right to burn), and this is what it does. -/
theorem handleResponse_ok (cfg : Cfg) (hid : ∀ a b, cfg.id a = cfg.id b → a = b) (s : S) (h : Inv cfg s) (sn code : Int) (tx : Tx)
    (ht : s.txs.get? sn = some tx) (hm : code = 0 → cfg.minter = true ∨ ∀ d ∈ tx.assets, d.coin = cfg.name) :
    ∃ s', handleResponse cfg s sn code = some s' ∧ Inv cfg s' ∧
      s' = { s with bals := s'.bals, fees := s'.fees, settled := s'.settled, irc := s'.irc, txs := s.txs.del sn } ∧
      (∀ c, at0 s'.settled c = at0 s.settled c + if code = 0 then asum c tx.assets else 0) ∧
      (∀ c, at0 s'.fees c = at0 s.fees c + if code = 0 then dsum c tx.assets - asum c tx.assets else 0) ∧
      (∀ c o, (balance s' c o).locked = (balance s c o).locked - if o = tx.frm then dsum c tx.assets else 0) ∧
      (∀ c o, (balance s' c o).refundable = (balance s c o).refundable + if o = tx.frm ∧ code ≠ 0 then dsum c tx.assets else 0) := by
  have hmem := Tab.get?_mem _ _ _ ht
  have hg := h.good (sn, tx) hmem
  have hd := h.details (sn, tx) hmem
  dsimp only at hg hd
  have hle : ∀ c, dsum c tx.assets ≤ Ncs.lsum s c := by
    intro c
    rw [h.lsum]
    exact Tab.le_sum (fun _ t => dsum c t.assets) s.txs (fun p hp => dsum_nonneg c _ (h.details p hp)) (sn, tx) hmem
  have keys : ((s.txs.del sn).map (·.1)).Nodup := by
    rw [Tab.keys_del]; exact h.keys.filter _
  have range : ∀ p ∈ s.txs.del sn, 0 < p.1 ∧ p.1 ≤ s.sn := fun p hp => h.range p ((Tab.mem_del _ _ _).mp hp).1
  have good : ∀ p ∈ s.txs.del sn, p.2.frm ≠ cfg.self ∧ ∀ d ∈ p.2.assets, 1 ≤ d.amount ∧ 0 ≤ d.fee ∧ (d.coin = cfg.name ∨ d.coin ∈ s.coins) :=
    fun p hp => h.good p ((Tab.mem_del _ _ _).mp hp).1
  have pend : ∀ c o, pending (s.txs.del sn) c o = pending s.txs c o - if o = tx.frm then dsum c tx.assets else 0 := by
    intro c o
    unfold pending
    rw [Tab.sum_del _ _ h.keys sn tx ht]
    by_cases q : o = tx.frm
    · rw [if_pos q, if_pos q.symm]
    · rw [if_neg q, if_neg (Ne.symm q)]
  by_cases hc : code = 0
  · obtain ⟨s1, b, a1, a2, a3, a4, a5, a6, a7⟩ := settleAll_ok cfg tx.frm tx.assets s (fun d hd => (hg.2 d hd).2.2)
    have eirc : s1.irc = s.irc := by rw [a2]
    obtain ⟨i, b1, b2, b3, b4⟩ := burnBatch_ok cfg cfg.self (b.map fun p => (cfg.id p.1, p.2)) s.irc ((hm hc).imp id fun x => by
      show (b.map fun p => (cfg.id p.1, p.2)).map (·.1) = []
      cases b with
      | nil => rfl
      | cons p b =>
        obtain ⟨y1, d, hd', y2, _⟩ := a7 p List.mem_cons_self
        exact absurd (y2.symm.trans (x d hd')) y1) h.irc (by
      intro p hp
      obtain ⟨q, hq, e⟩ := List.mem_map.mp hp
      obtain ⟨_, d, hd', _, e2⟩ := a7 q hq
      rw [← e]
      show 0 < q.2
      have := (hd d hd').1
      omega) (by
      intro id
      by_cases hx : ∃ p ∈ b, cfg.id p.1 = id
      · obtain ⟨p, hp, e⟩ := hx
        have hpn := (a7 p hp).1
        rw [← e, isum_map cfg.id hid, a6 _ hpn]
        have x1 := h.tokens p.1 hpn
        have x2 := hle p.1
        have x3 := asum_le p.1 tx.assets hd
        have x4 := h.rsum p.1
        have x5 := h.fees p.1
        omega
      · rw [isum_zero]
        · exact getD_nonneg _ h.irc.nonneg _
        · intro q hq e
          obtain ⟨p, hp, e'⟩ := List.mem_map.mp hq
          exact hx ⟨p, hp, by rw [← e, ← e']⟩)
    have er : handleResponse cfg s sn code = some { s1 with irc := i, txs := s1.txs.del sn } := by
      unfold handleResponse
      rw [ht]
      dsimp only
      rw [if_pos hc, a1]
      dsimp only [Option.bind_some]
      rw [eirc, b1]
      rfl
    have et : s1.txs = s.txs := by rw [a2]
    have ei : at0 s1.icx cfg.self = at0 s.icx cfg.self := by rw [a2]
    refine ⟨_, er, ?_, by rw [a2], ?_, ?_, ?_, ?_⟩
    · refine ⟨by rw [et]; exact keys, ?_, ?_, ?_, ?_, ?_, ?_, ?_, ?_, a3.keys h.bkeys, ?_, ?_, ?_, b2, ?_, ?_⟩
      · show ∀ p ∈ s1.txs.del sn, 0 < p.1 ∧ p.1 ≤ s1.sn
        rw [et, show s1.sn = s.sn by rw [a2]]; exact range
      · show 0 ≤ s1.sn
        rw [a2]; exact h.sn
      · show 1 ≤ s1.feeRatio ∧ s1.feeRatio < 10000
        rw [a2]; exact h.ratio
      · show cfg.name ∉ s1.coins
        rw [a2]; exact h.name
      · show ∀ p ∈ s1.txs.del sn, p.2.frm ≠ cfg.self ∧ ∀ d ∈ p.2.assets, 1 ≤ d.amount ∧ 0 ≤ d.fee ∧ (d.coin = cfg.name ∨ d.coin ∈ s1.coins)
        rw [et, show s1.coins = s.coins by rw [a2]]; exact good
      · intro c o
        show (balance s1 c o).locked = pending (s1.txs.del sn) c o
        rw [et, pend, a3.locked, h.locked]
        split <;> omega
      · intro c
        show Ncs.lsum s1 c = (s1.txs.del sn).sum _
        rw [et, Tab.sum_del _ _ h.keys sn tx ht, a3.lsum, h.lsum]; omega
      · intro c o
        show 0 ≤ (balance s1 c o).refundable
        rw [a3.refund]; have := h.refund c o; omega
      · intro c
        show 0 ≤ at0 s1.fees c
        rw [a4]
        have := h.fees c
        have := asum_le c tx.assets hd
        omega
      · show at0 s1.icx cfg.self = Ncs.lsum s1 cfg.name + Ncs.rsum s1 cfg.name + at0 s1.fees cfg.name + at0 s1.settled cfg.name - at0 s1.paid cfg.name
        rw [ei, a3.lsum, a3.rsum, a4, a5, show s1.paid = s.paid by rw [a2], h.coins]; omega
      · show ∀ p ∈ s1.icx, 0 ≤ p.2
        rw [a2]; exact h.icx
      · intro c hcn
        show Ncs.lsum s1 c + Ncs.rsum s1 c + at0 s1.fees c ≤ at0 i.bals (cfg.id c, cfg.self)
        rw [b4, isum_map cfg.id hid, a6 c hcn, a3.lsum, a3.rsum, a4]
        have := h.tokens c hcn
        omega
      · intro c hcn
        show at0 i.supplies (cfg.id c) = at0 s1.paid c - at0 s1.settled c
        rw [b3, isum_map cfg.id hid, a6 c hcn, a5, show s1.paid = s.paid by rw [a2], h.minted c hcn]; omega
    · intro c
      rw [if_pos hc]; exact a5 c
    · intro c
      rw [if_pos hc]; exact a4 c
    · intro c o
      show (balance s1 c o).locked = _
      rw [a3.locked]; split <;> omega
    · intro c o
      show (balance s1 c o).refundable = _
      rw [a3.refund, if_neg (fun x => x.2 hc)]
  · obtain ⟨s1, a1, a2, a3⟩ := refundAll_ok cfg tx.frm hg.1 tx.assets s (fun d hd => (hg.2 d hd).2.2)
    have er : handleResponse cfg s sn code = some { s1 with txs := s1.txs.del sn } := by
      unfold handleResponse
      rw [ht]
      dsimp only
      rw [if_neg hc, a1]
      rfl
    have et : s1.txs = s.txs := by rw [a2]
    have ei : at0 s1.icx cfg.self = at0 s.icx cfg.self := by rw [a2]
    have ef : s1.fees = s.fees := by rw [a2]
    have ese : s1.settled = s.settled := by rw [a2]
    have epa : s1.paid = s.paid := by rw [a2]
    have eirc : s1.irc = s.irc := by rw [a2]
    refine ⟨_, er, ?_, by rw [a2], ?_, ?_, ?_, ?_⟩
    · refine ⟨by rw [et]; exact keys, ?_, ?_, ?_, ?_, ?_, ?_, ?_, ?_, a3.keys h.bkeys, ?_, ?_, ?_, ?_, ?_, ?_⟩
      · show ∀ p ∈ s1.txs.del sn, 0 < p.1 ∧ p.1 ≤ s1.sn
        rw [et, show s1.sn = s.sn by rw [a2]]; exact range
      · show 0 ≤ s1.sn
        rw [a2]; exact h.sn
      · show 1 ≤ s1.feeRatio ∧ s1.feeRatio < 10000
        rw [a2]; exact h.ratio
      · show cfg.name ∉ s1.coins
        rw [a2]; exact h.name
      · show ∀ p ∈ s1.txs.del sn, p.2.frm ≠ cfg.self ∧ ∀ d ∈ p.2.assets, 1 ≤ d.amount ∧ 0 ≤ d.fee ∧ (d.coin = cfg.name ∨ d.coin ∈ s1.coins)
        rw [et, show s1.coins = s.coins by rw [a2]]; exact good
      · intro c o
        show (balance s1 c o).locked = pending (s1.txs.del sn) c o
        rw [et, pend, a3.locked, h.locked]
        split <;> omega
      · intro c
        show Ncs.lsum s1 c = (s1.txs.del sn).sum _
        rw [et, Tab.sum_del _ _ h.keys sn tx ht, a3.lsum, h.lsum]; omega
      · intro c o
        show 0 ≤ (balance s1 c o).refundable
        rw [a3.refund]
        have := h.refund c o
        have := dsum_nonneg c tx.assets hd
        split <;> omega
      · intro c
        show 0 ≤ at0 s1.fees c
        rw [ef]; exact h.fees c
      · show at0 s1.icx cfg.self = Ncs.lsum s1 cfg.name + Ncs.rsum s1 cfg.name + at0 s1.fees cfg.name + at0 s1.settled cfg.name - at0 s1.paid cfg.name
        rw [ei, a3.lsum, a3.rsum, ef, ese, epa, h.coins]; omega
      · show ∀ p ∈ s1.icx, 0 ≤ p.2
        rw [a2]; exact h.icx
      · show Sound s1.irc
        rw [eirc]; exact h.irc
      · intro c hcn
        show Ncs.lsum s1 c + Ncs.rsum s1 c + at0 s1.fees c ≤ at0 s1.irc.bals (cfg.id c, cfg.self)
        rw [eirc, a3.lsum, a3.rsum, ef]
        have := h.tokens c hcn
        omega
      · intro c hcn
        show at0 s1.irc.supplies (cfg.id c) = at0 s1.paid c - at0 s1.settled c
        rw [eirc, ese, epa]; exact h.minted c hcn
    · intro c
      show at0 s1.settled c = _
      rw [ese, if_neg hc]; omega
    · intro c
      show at0 s1.fees c = _
      rw [ef, if_neg hc]; omega
    · intro c o
      show (balance s1 c o).locked = _
      rw [a3.locked]; split <;> omega
    · intro c o
      show (balance s1 c o).refundable = _
      rw [a3.refund]
      by_cases q : o = tx.frm
      · simp only [if_pos q, if_pos (show o = tx.frm ∧ code ≠ 0 from ⟨q, hc⟩)]
      · simp only [if_neg q, if_neg (show ¬(o = tx.frm ∧ code ≠ 0) from fun x => q x.1)]

theorem handleResponse_inv (cfg : Cfg) (hid : ∀ a b, cfg.id a = cfg.id b → a = b) (s s' : S) (h : Inv cfg s) (sn code : Int)
    (hs : handleResponse cfg s sn code = some s') : Inv cfg s' := by
  cases ht : s.txs.get? sn with
  | none => unfold handleResponse at hs; rw [ht] at hs; cases hs; exact h
  | some tx =>
    by_cases hm : code = 0 → cfg.minter = true ∨ ∀ d ∈ tx.assets, d.coin = cfg.name
    · obtain ⟨s1, e1, e2, _⟩ := handleResponse_ok cfg hid s h sn code tx ht hm
      rw [e1] at hs; cases hs; exact e2
    · exfalso
      obtain ⟨hc, hm⟩ := Classical.not_imp.mp hm
      have hg := h.good (sn, tx) (Tab.get?_mem _ _ _ ht)
      dsimp only at hg
      obtain ⟨s1, b, a1, a2, a3, a4, a5, a6, a7⟩ := settleAll_ok cfg tx.frm tx.assets s (fun d hd => (hg.2 d hd).2.2)
      have hd : ∃ d ∈ tx.assets, d.coin ≠ cfg.name := by
        apply Classical.byContradiction
        intro x
        exact hm (Or.inr (fun d hd => Classical.byContradiction fun y => x ⟨d, hd, y⟩))
      obtain ⟨d, hd1, hd2⟩ := hd
      have hb : ∃ p b', b = p :: b' := by
        cases b with
        | cons p b' => exact ⟨p, b', rfl⟩
        | nil =>
          have e := a6 d.coin hd2
          have : d.amount ≤ asum d.coin tx.assets := asum_mem tx.assets (h.details (sn, tx) (Tab.get?_mem _ _ _ ht)) d hd1
          have := (hg.2 d hd1).1
          dsimp only [vsum] at e
          omega
      obtain ⟨p, b', hb⟩ := hb
      unfold handleResponse at hs
      rw [ht] at hs
      dsimp only at hs
      rw [if_pos hc, a1] at hs
      dsimp only [Option.bind_some] at hs
      rw [hb, List.map_cons] at hs
      unfold Irc31.burnBatch at hs
      rw [if_neg (fun x => hm (Or.inl x.1))] at hs
      cases hs

/-! ### All calls -/

/-- Every call that succeeds keeps the ledger. -/
theorem step_inv (cfg : Cfg) (hid : ∀ a b, cfg.id a = cfg.id b → a = b) (s s' : S) (h : Inv cfg s) (o : Op) (out : List Out)
    (hs : step cfg s o = some (s', out)) : Inv cfg s' := by
  cases o with
  | transferNative c v n a => exact transferNative_inv cfg s s' h c v n a out hs
  | transfer c coin v n a =>
    unfold step at hs
    dsimp only at hs
    by_cases q : c = cfg.self
    · rw [if_pos q] at hs; cases hs
    · rw [if_neg q] at hs; exact transfer_inv cfg hid s s' h c coin q v n a out hs
  | transferBatch c l v n a => exact transferBatch_inv cfg hid s s' h c l v n a out hs
  | reclaim c coin v =>
    unfold step at hs
    dsimp only at hs
    by_cases q : c = cfg.self
    · rw [if_pos q] at hs; cases hs
    · rw [if_neg q] at hs
      cases e : reclaim cfg s c coin v with
      | none => rw [e] at hs; cases hs
      | some s1 => rw [e] at hs; cases hs; exact reclaim_inv cfg hid s _ h c coin q v e
  | message c n sn m =>
    have hs : handleMessage cfg s c n sn m = some (s', out) := hs
    unfold handleMessage at hs
    by_cases q : c = cfg.bmc
    · rw [if_pos q] at hs
      cases m with
      | request f t l => exact handleRequest_inv cfg hid s s' h t l n sn out hs
      | response code =>
        dsimp only at hs
        cases e : handleResponse cfg s sn code with
        | none => rw [e] at hs; cases hs
        | some s1 => rw [e] at hs; cases hs; exact handleResponse_inv cfg hid s _ h sn code e
      | unknown => cases hs; exact h
      | other =>
        dsimp only at hs
        by_cases w : cfg.sends n = true
        · rw [if_pos w] at hs; cases hs; exact h
        · rw [if_neg w] at hs; cases hs
      | bad => cases hs
    · rw [if_neg q] at hs; cases hs
  | error c sn =>
    have hs : (handleError cfg s c sn).map (fun s => (s, [])) = some (s', out) := hs
    unfold handleError at hs
    by_cases q : c = cfg.bmc
    · rw [if_pos q] at hs
      cases e : handleResponse cfg s sn 1 with
      | none => rw [e] at hs; cases hs
      | some s1 => rw [e] at hs; cases hs; exact handleResponse_inv cfg hid s _ h sn 1 e
    · rw [if_neg q] at hs; cases hs
  | register a coin =>
    have hs : (register cfg s a coin).map (fun s => (s, [])) = some (s', out) := hs
    unfold register at hs
    by_cases q : a = true ∧ cfg.name ≠ coin ∧ coin ∉ s.coins
    · rw [if_pos q] at hs
      cases hs
      refine ⟨h.keys, h.range, h.sn, h.ratio, ?_, ?_, h.locked, h.lsum, h.refund, h.bkeys, h.fees, h.coins, h.icx, h.irc, h.tokens, h.minted⟩
      · simp only [List.mem_append, List.mem_singleton]
        intro x
        exact x.elim h.name q.2.1
      · intro p hp
        refine ⟨(h.good p hp).1, fun d hd => ⟨((h.good p hp).2 d hd).1, ((h.good p hp).2 d hd).2.1, ?_⟩⟩
        exact ((h.good p hp).2 d hd).2.2.imp id (fun x => List.mem_append_left _ x)
    · rw [if_neg q] at hs; cases hs
  | setFeeRatio a v =>
    have hs : (setFeeRatio s a v).map (fun s => (s, [])) = some (s', out) := hs
    unfold setFeeRatio at hs
    by_cases q : a = true ∧ 1 ≤ v ∧ v < 10000
    · rw [if_pos q] at hs
      cases hs
      exact ⟨h.keys, h.range, h.sn, q.2, h.name, h.good, h.locked, h.lsum, h.refund, h.bkeys, h.fees, h.coins, h.icx, h.irc, h.tokens, h.minted⟩
    · rw [if_neg q] at hs; cases hs
  | coinSend f t v =>
    unfold step at hs
    dsimp only at hs
    by_cases q : f ≠ cfg.self ∧ t ≠ cfg.self ∧ 0 ≤ v ∧ v ≤ at0 s.icx f
    · rw [if_pos q] at hs
      cases hs
      have n1 : ∀ p ∈ add s.icx f (-v), 0 ≤ p.2 := nonneg_add s.icx h.icx f (-v) (by omega)
      have g := getD_nonneg _ n1 t
      refine ⟨h.keys, h.range, h.sn, h.ratio, h.name, h.good, h.locked, h.lsum, h.refund, h.bkeys, h.fees, ?_, nonneg_add _ n1 t v (by omega), h.irc, h.tokens, h.minted⟩
      dsimp only
      rw [at0_add, at0_add, if_neg (Ne.symm q.1), if_neg (Ne.symm q.2.1)]
      have := h.coins
      show at0 s.icx cfg.self + 0 + 0 = Ncs.lsum s cfg.name + Ncs.rsum s cfg.name + at0 s.fees cfg.name + at0 s.settled cfg.name - at0 s.paid cfg.name
      omega
    · rw [if_neg q] at hs; cases hs
  | tokenSend f t id v =>
    unfold step at hs
    dsimp only at hs
    by_cases q : f ≠ cfg.self ∧ 0 ≤ v ∧ v ≤ at0 s.irc.bals (id, f)
    · rw [if_pos q] at hs
      cases hs
      refine ⟨h.keys, h.range, h.sn, h.ratio, h.name, h.good, h.locked, h.lsum, h.refund, h.bkeys, h.fees, h.coins, h.icx,
        move_sound s.irc h.irc id f t v q.2.1 q.2.2, ?_, h.minted⟩
      intro c hc
      refine Int.le_trans (h.tokens c hc) ?_
      dsimp only
      rw [at0_add, at0_add, if_neg (show (cfg.id c, cfg.self) ≠ (id, f) from fun x => q.1 (congrArg Prod.snd x).symm)]
      split <;> omega
    · rw [if_neg q] at hs; cases hs

theorem run_inv (cfg : Cfg) (hid : ∀ a b, cfg.id a = cfg.id b → a = b) (l : List Op) (s : S) (h : Inv cfg s) : Inv cfg (run cfg s l) := by
  induction l generalizing s with
  | nil => exact h
  | cons o l ih =>
    unfold run
    cases e : step cfg s o with
    | none => exact ih s h
    | some x => exact ih x.1 (step_inv cfg hid s x.1 h o x.2 (by rw [e]))

end Verif.Ncs
