import Verif.FeeAgg
import Verif.NcsProps
/-!
Properties of the contract that sells fees (`Verif.FeeAgg`): C107 to C111.
-/
namespace Verif.FeeAgg
open Verif
open Verif.Ncs (at0 add at0_add mem_put nodup_put sum_addIf)

/-! ### Quantities -/

/-- The sum of a quantity over a list. -/
def asum {A : Type} (f : A → Int) : List A → Int
  | [] => 0
  | u :: l => f u + asum f l

theorem asum_append {A : Type} (f : A → Int) (l m : List A) : asum f (l ++ m) = asum f l + asum f m := by
  induction l with
  | nil => simp [asum]
  | cons a l ih => rw [List.cons_append]; dsimp only [asum]; rw [ih]; omega

theorem asum_congr {A : Type} (f g : A → Int) (l : List A) (h : ∀ u ∈ l, f u = g u) : asum f l = asum g l := by
  induction l with
  | nil => rfl
  | cons a l ih => dsimp only [asum]; rw [h a List.mem_cons_self, ih fun u hu => h u (List.mem_cons_of_mem _ hu)]

theorem asum_nonneg {A : Type} (f : A → Int) (l : List A) (h : ∀ u ∈ l, 0 ≤ f u) : 0 ≤ asum f l := by
  induction l with
  | nil => exact Int.le_refl _
  | cons a l ih =>
    have := h a List.mem_cons_self
    have := ih fun u hu => h u (List.mem_cons_of_mem _ hu)
    dsimp only [asum]
    omega

theorem le_asum {A : Type} (f : A → Int) (l : List A) (h : ∀ u ∈ l, 0 ≤ f u) (u : A) (hu : u ∈ l) : f u ≤ asum f l := by
  induction l with
  | nil => cases hu
  | cons a l ih =>
    have h1 := h a List.mem_cons_self
    have h2 := asum_nonneg f l fun u hu => h u (List.mem_cons_of_mem _ hu)
    dsimp only [asum]
    rcases List.mem_cons.mp hu with e | e
    · rw [e]; omega
    · have := ih (fun u hu => h u (List.mem_cons_of_mem _ hu)) e; omega

theorem asum_one {A : Type} [DecidableEq A] (f : A → Int) (l : List A) (hn : l.Nodup) (u : A) : asum (fun w => if w = u then f w else 0) l = if u ∈ l then f u else 0 := by
  induction l with
  | nil => rw [if_neg List.not_mem_nil]; rfl
  | cons a l ih =>
    rw [List.nodup_cons] at hn
    dsimp only [asum]
    rw [ih hn.2]
    by_cases e : a = u
    · rw [if_pos e, if_neg (by rw [← e]; exact hn.1), if_pos (by rw [e]; exact List.mem_cons_self), e]; omega
    · rw [if_neg e]
      by_cases h : u ∈ l
      · rw [if_pos h, if_pos (List.mem_cons_of_mem _ h)]; omega
      · rw [if_neg h, if_neg (fun x => (List.mem_cons.mp x).elim (fun y => e y.symm) h)]; rfl

/-- Adding up what was divided: rounding loses, it does not gain. -/
theorem asum_div {A : Type} (a : A → Int) (c q : Int) (hc : 0 ≤ c) (hq : 0 < q) (l : List A) (ha : ∀ u ∈ l, 0 ≤ a u) :
    asum (fun u => (a u * c).tdiv q) l * q ≤ asum a l * c := by
  induction l with
  | nil => simp [asum]
  | cons u l ih =>
    have ih := ih fun u hu => ha u (List.mem_cons_of_mem _ hu)
    dsimp only [asum]
    have h : (a u * c).tdiv q * q ≤ a u * c := by
      have h0 : 0 ≤ a u * c := Int.mul_nonneg (ha u List.mem_cons_self) hc
      rw [Int.tdiv_eq_ediv_of_nonneg h0]
      exact Int.ediv_mul_le _ (by omega)
    rw [Int.add_mul, Int.add_mul]
    omega

/-- All that depositors may claim of a token. -/
def claims (s : S) (n : Bytes) : Int := s.tokBal.sum fun k x => if k.2 = n then x else 0

/-- All deposits in open auctions. -/
def open_ (s : S) : Int := s.synd.sum fun _ y => y.total

/-- The amount in the open auction of a token. -/
def active (s : S) (n : Bytes) : Int := match s.synd.get? n with | some y => y.tokenAmount | none => 0

/-! ### The distribution -/

/-- The tokens for a deposit, and the coins left. -/
def tokensFor (T unit p total amt : Int) : Int := match share T unit p total amt with | some x => x.1 | none => 0
def coinsLeft (T unit p total amt : Int) : Int := match share T unit p total amt with | some x => if 0 < x.2 then x.2 else 0 | none => 0

theorem distLoop_ok (name : Bytes) (y : Synd) (unit p : Int) (l : List Bytes) (s s' : S) (acc d : Int) (h : distLoop name y unit p s acc l = some (s', d)) :
    s' = { s with tokBal := s'.tokBal, refund := s'.refund } ∧
      d = acc + asum (fun u => tokensFor y.tokenAmount unit p y.total (at0 s.depAmt (y.id, u))) l ∧
      (∀ n, claims s' n = claims s n + if n = name then d - acc else 0) ∧
      (∀ u n, at0 s'.tokBal (u, n) = at0 s.tokBal (u, n) + if n = name then asum (fun w => if w = u then tokensFor y.tokenAmount unit p y.total (at0 s.depAmt (y.id, w)) else 0) l else 0) ∧
      (∀ u, at0 s'.refund u = at0 s.refund u + asum (fun w => if w = u then coinsLeft y.tokenAmount unit p y.total (at0 s.depAmt (y.id, w)) else 0) l) ∧
      ((s.tokBal.map (·.1)).Nodup → (s'.tokBal.map (·.1)).Nodup) := by
  induction l generalizing s acc with
  | nil =>
    cases h
    refine ⟨rfl, by simp [asum], fun n => ?_, fun u n => ?_, fun u => by simp [asum], fun x => x⟩
    · by_cases q : n = name
      · rw [if_pos q]; omega
      · rw [if_neg q]; omega
    · by_cases q : n = name
      · rw [if_pos q]; simp [asum]
      · rw [if_neg q]; omega
  | cons u l ih =>
    unfold distLoop at h
    cases e : share y.tokenAmount unit p y.total (at0 s.depAmt (y.id, u)) with
    | none => rw [e] at h; cases h
    | some x =>
      rw [e] at h
      dsimp only at h
      obtain ⟨i1, i2, i3, i4, i5, i6⟩ := ih (credit name s u x) (acc + x.1) h
      have d0 : (credit name s u x).depAmt = s.depAmt := rfl
      have et : tokensFor y.tokenAmount unit p y.total (at0 s.depAmt (y.id, u)) = x.1 := by unfold tokensFor; rw [e]
      have er : coinsLeft y.tokenAmount unit p y.total (at0 s.depAmt (y.id, u)) = if 0 < x.2 then x.2 else 0 := by unfold coinsLeft; rw [e]
      rw [d0] at i2 i4 i5
      refine ⟨?_, ?_, ?_, ?_, ?_, fun x => i6 (nodup_put _ _ _ x)⟩
      · rw [i1]; rfl
      · dsimp only [asum]; rw [et]; omega
      · intro n
        rw [i3]
        have : claims (credit name s u x) n = claims s n + if n = name then x.1 else 0 := by
          unfold claims credit
          dsimp only
          rw [sum_addIf (fun k : Bytes × Bytes => k.2 = n)]
          by_cases q : n = name
          · rw [if_pos q, if_pos q.symm]
          · rw [if_neg q, if_neg (Ne.symm q)]
        rw [this]
        by_cases q : n = name
        · rw [if_pos q, if_pos q, if_pos q]; omega
        · rw [if_neg q, if_neg q, if_neg q]; omega
      · intro w n
        rw [i4]
        have : at0 (credit name s u x).tokBal (w, n) = at0 s.tokBal (w, n) + if w = u ∧ n = name then x.1 else 0 := by
          unfold credit
          dsimp only
          rw [at0_add]
          by_cases q : w = u ∧ n = name
          · rw [if_pos q, if_pos (by rw [q.1, q.2])]
          · rw [if_neg q, if_neg (fun z => q ⟨congrArg Prod.fst z, congrArg Prod.snd z⟩)]
        rw [this]
        by_cases q : n = name
        · rw [if_pos q, if_pos q]
          dsimp only [asum]
          by_cases c : u = w
          · rw [if_pos c, if_pos ⟨c.symm, q⟩, et]; omega
          · rw [if_neg c, if_neg (fun z => c z.1.symm)]; omega
        · rw [if_neg q, if_neg q, if_neg (fun z => q z.2)]; omega
      · intro w
        rw [i5]
        have : at0 (credit name s u x).refund w = at0 s.refund w + if u = w then (if 0 < x.2 then x.2 else 0) else 0 := by
          unfold credit
          dsimp only
          by_cases q : 0 < x.2
          · rw [if_pos q, if_pos q, at0_add]
            by_cases c : u = w
            · rw [if_pos c, if_pos c.symm]
            · rw [if_neg c, if_neg (Ne.symm c)]
          · rw [if_neg q, if_neg q]
            by_cases c : u = w
            · rw [if_pos c]; omega
            · rw [if_neg c]; omega
        rw [this]
        dsimp only [asum]
        by_cases c : u = w
        · rw [if_pos c, if_pos c, er]; omega
        · rw [if_neg c, if_neg c]; omega

/-- What an ended auction changes. -/
theorem endAuction_ok (cfg : Cfg) (s s' : S) (e : Env) (t : Token) (name : Bytes) (y : Synd) (h : endAuction cfg s e t name y = some s') :
    y.tokenAmount ≤ at0 s.held t.key ∧ (y.total ≠ 0 → y.total ≤ s.coins) ∧ ∃ p, e.price = some p ∧
      ∃ d, d = asum (fun u => tokensFor y.tokenAmount (unitOf cfg t) (discounted p) y.total (at0 s.depAmt (y.id, u))) (s.depList.getD y.id []) ∧
        s' = { s with coins := s.coins - y.total, funded := s.funded + y.total, tokBal := s'.tokBal, refund := s'.refund, locked := add s.locked name d } ∧
        (∀ n, claims s' n = claims s n + if n = name then d else 0) ∧
        (∀ u n, at0 s'.tokBal (u, n) = at0 s.tokBal (u, n) + if n = name then asum (fun w => if w = u then tokensFor y.tokenAmount (unitOf cfg t) (discounted p) y.total (at0 s.depAmt (y.id, w)) else 0) (s.depList.getD y.id []) else 0) ∧
        (∀ u, at0 s'.refund u = at0 s.refund u + asum (fun w => if w = u then coinsLeft y.tokenAmount (unitOf cfg t) (discounted p) y.total (at0 s.depAmt (y.id, w)) else 0) (s.depList.getD y.id [])) ∧
        ((s.tokBal.map (·.1)).Nodup → (s'.tokBal.map (·.1)).Nodup) := by
  have main : ∀ (s0 : S), s0.depAmt = s.depAmt → s0.depList = s.depList → s0.tokBal = s.tokBal → s0.refund = s.refund → s0.locked = s.locked →
      distribute cfg s0 e t name y = some s' → ∃ p, e.price = some p ∧ ∃ d, d = asum (fun u => tokensFor y.tokenAmount (unitOf cfg t) (discounted p) y.total (at0 s.depAmt (y.id, u))) (s.depList.getD y.id []) ∧
        s' = { s0 with tokBal := s'.tokBal, refund := s'.refund, locked := add s.locked name d } ∧
        (∀ n, claims s' n = claims s n + if n = name then d else 0) ∧
        (∀ u n, at0 s'.tokBal (u, n) = at0 s.tokBal (u, n) + if n = name then asum (fun w => if w = u then tokensFor y.tokenAmount (unitOf cfg t) (discounted p) y.total (at0 s.depAmt (y.id, w)) else 0) (s.depList.getD y.id []) else 0) ∧
        (∀ u, at0 s'.refund u = at0 s.refund u + asum (fun w => if w = u then coinsLeft y.tokenAmount (unitOf cfg t) (discounted p) y.total (at0 s.depAmt (y.id, w)) else 0) (s.depList.getD y.id [])) ∧
        ((s.tokBal.map (·.1)).Nodup → (s'.tokBal.map (·.1)).Nodup) := by
    intro s0 k1 k2 k3 k4 k5 hd
    unfold distribute at hd
    cases ep : e.price with
    | none => rw [ep] at hd; cases hd
    | some p =>
      rw [ep] at hd
      dsimp only at hd
      cases er : distLoop name y (unitOf cfg t) (discounted p) s0 0 (s0.depList.getD y.id []) with
      | none => rw [er] at hd; cases hd
      | some r =>
        rw [er] at hd
        cases hd
        obtain ⟨i1, i2, i3, i4, i5, i6⟩ := distLoop_ok name y (unitOf cfg t) (discounted p) _ s0 r.1 0 r.2 er
        rw [k1, k2] at i2 i4 i5
        have c0 : ∀ n, claims s0 n = claims s n := fun n => by unfold claims; rw [k3]
        refine ⟨p, rfl, r.2, by omega, ?_, ?_, ?_, ?_, fun x => i6 (by rw [k3]; exact x)⟩
        · have : r.1.locked = s.locked := by rw [i1]; exact k5
          have z : ({ r.1 with locked := add r.1.locked name r.2 } : S) = { s0 with tokBal := r.1.tokBal, refund := r.1.refund, locked := add r.1.locked name r.2 } :=
            congrArg (fun z : S => { z with locked := add r.1.locked name r.2 }) i1
          rw [this] at z
          show ({ r.1 with locked := add r.1.locked name r.2 } : S) = _
          rw [this]
          exact z
        · intro n
          show claims r.1 n = _
          rw [i3, c0]
          by_cases q : n = name
          · rw [if_pos q, if_pos q]; omega
          · rw [if_neg q, if_neg q]
        · intro u n
          show at0 r.1.tokBal (u, n) = _
          rw [i4, k3]
        · intro u
          show at0 r.1.refund u = _
          rw [i5, k4]
  unfold endAuction at h
  by_cases c1 : at0 s.held t.key < y.tokenAmount
  · rw [if_pos c1] at h; cases h
  rw [if_neg c1] at h
  by_cases c2 : y.total = 0
  · rw [if_pos c2] at h
    obtain ⟨p, hp, d, hd, m1, m2⟩ := main s rfl rfl rfl rfl rfl h
    refine ⟨by omega, fun x => absurd c2 x, p, hp, d, hd, ?_, m2⟩
    have z1 : s.coins - y.total = s.coins := by omega
    have z2 : s.funded + y.total = s.funded := by omega
    rw [z1, z2]
    exact m1
  rw [if_neg c2] at h
  by_cases c3 : e.cps = true ∧ y.total ≤ s.coins
  · rw [if_pos c3] at h
    obtain ⟨p, hp, d, hd, m1, m2⟩ := main { s with coins := s.coins - y.total, funded := s.funded + y.total } rfl rfl rfl rfl rfl h
    exact ⟨by omega, fun _ => c3.2, p, hp, d, hd, m1, m2⟩
  · rw [if_neg c3] at h; cases h

/-! ### The ledger of all histories -/

structure Inv (s : S) : Prop where
  locked : ∀ n, claims s n = at0 s.locked n
  keys : (s.synd.map (·.1)).Nodup
  coins : s.coins + s.withdrawn = open_ s
  totals : ∀ n y, s.synd.get? n = some y → 0 ≤ y.total
  pos : 0 ≤ s.coins ∧ 0 ≤ s.withdrawn

theorem inv_init : Inv init := ⟨fun _ => rfl, List.nodup_nil, rfl, fun _ _ h => (by cases h), (by decide)⟩

theorem nodup_del {K V : Type} [DecidableEq K] (t : Tab K V) (k : K) (h : (t.map (·.1)).Nodup) : ((t.del k).map (·.1)).Nodup := by
  rw [Tab.keys_del]; exact h.filter _

/-- An auction ends: it was left out of the open ones before. -/
theorem end_inv (cfg : Cfg) (s0 s' : S) (e : Env) (t : Token) (name : Bytes) (y : Synd) (h : endAuction cfg s0 e t name y = some s')
    (hl : ∀ n, claims s0 n = at0 s0.locked n) (hk : (s0.synd.map (·.1)).Nodup) (hc : s0.coins - y.total + s0.withdrawn = open_ s0)
    (ht : ∀ n y, s0.synd.get? n = some y → 0 ≤ y.total) (hp : 0 ≤ s0.coins ∧ 0 ≤ s0.withdrawn) : Inv s' := by
  obtain ⟨_, k2, p, _, d, _, e1, e2, _⟩ := endAuction_ok cfg s0 s' e t name y h
  have f1 : s'.locked = add s0.locked name d := by rw [e1]
  have f2 : s'.synd = s0.synd := by rw [e1]
  have f3 : s'.coins = s0.coins - y.total := by rw [e1]
  have f4 : s'.withdrawn = s0.withdrawn := by rw [e1]
  refine ⟨?_, by rw [f2]; exact hk, ?_, by rw [f2]; exact ht, ?_⟩
  · intro n
    rw [e2, hl, f1, at0_add]
  · unfold open_
    rw [f2, f3, f4]
    exact hc
  · rw [f3, f4]
    by_cases q : y.total = 0
    · rw [q]; omega
    · have := k2 q; omega

theorem start_claims (s : S) (name : Bytes) (a : Int) (u : Bytes) (v now : Int) (n : Bytes) : claims (start s name a u v now) n = claims s n := rfl

theorem start_open (s : S) (name : Bytes) (a : Int) (u : Bytes) (v now : Int) :
    open_ (start s name a u v now) = open_ s + v - match s.synd.get? name with | some y => y.total | none => 0 := by
  show (s.synd.put name _).sum _ = _
  rw [Tab.sum_put]
  cases s.synd.get? name <;> rfl

theorem payTokens_same (s : S) (e : Env) (t : Token) (c n : Bytes) :
    (payTokens s e t c n).synd = s.synd ∧ (payTokens s e t c n).coins = s.coins ∧ (payTokens s e t c n).withdrawn = s.withdrawn ∧
      (payTokens s e t c n).depAmt = s.depAmt ∧ (payTokens s e t c n).depList = s.depList ∧ (payTokens s e t c n).tokens = s.tokens ∧
      (payTokens s e t c n).count = s.count ∧ (payTokens s e t c n).refund = s.refund ∧ (payTokens s e t c n).duration = s.duration := by
  unfold payTokens
  by_cases h : e.accepts = true ∧ at0 s.tokBal (c, n) ≤ at0 s.held t.key
  · rw [if_pos h]; exact ⟨rfl, rfl, rfl, rfl, rfl, rfl, rfl, rfl, rfl⟩
  · rw [if_neg h]; exact ⟨rfl, rfl, rfl, rfl, rfl, rfl, rfl, rfl, rfl⟩

theorem payTokens_keys (s : S) (e : Env) (t : Token) (c n : Bytes) (h : (s.tokBal.map (·.1)).Nodup) : ((payTokens s e t c n).tokBal.map (·.1)).Nodup := by
  unfold payTokens
  by_cases q : e.accepts = true ∧ at0 s.tokBal (c, n) ≤ at0 s.held t.key
  · rw [if_pos q]; exact nodup_put _ _ _ h
  · rw [if_neg q]; exact h

theorem payTokens_claims (s : S) (e : Env) (t : Token) (c name n : Bytes) :
    claims (payTokens s e t c name) n - at0 (payTokens s e t c name).locked n = claims s n - at0 s.locked n := by
  unfold payTokens
  by_cases h : e.accepts = true ∧ at0 s.tokBal (c, name) ≤ at0 s.held t.key
  · rw [if_pos h]
    unfold claims
    dsimp only
    rw [at0_add, Tab.sum_put_getD _ _ _ _ 0 (by simp)]
    unfold at0
    by_cases q : n = name
    · rw [if_pos q]; simp only [if_pos q.symm]; omega
    · rw [if_neg q]; simp only [if_neg (Ne.symm q)]; omega
  · rw [if_neg h]

theorem step_inv (cfg : Cfg) (s s' : S) (h : Inv s) (e : Env) (o : Op) (eq : step cfg s e o = some s') : Inv s' := by
  cases o with
  | register c n t =>
    have eq : register cfg s c n t = some s' := eq
    unfold register at eq
    split at eq
    · cases eq; exact ⟨h.locked, h.keys, h.coins, h.totals, h.pos⟩
    · cases eq
  | setDuration c d =>
    have eq : setDuration cfg s c d = some s' := eq
    unfold setDuration at eq
    split at eq
    · cases eq; exact ⟨h.locked, h.keys, h.coins, h.totals, h.pos⟩
    · cases eq
  | fees k v => cases eq; exact ⟨h.locked, h.keys, h.coins, h.totals, h.pos⟩
  | coins v =>
    have eq : (if 0 < v ∧ e.cps = true then some { s with funded := s.funded + v } else none) = some s' := eq
    by_cases q : 0 < v ∧ e.cps = true
    · rw [if_pos q] at eq; cases eq; exact ⟨h.locked, h.keys, h.coins, h.totals, h.pos⟩
    · rw [if_neg q] at eq; cases eq
  | withdrawal c =>
    have eq : withdrawal s e c = some s' := eq
    unfold withdrawal at eq
    by_cases q : at0 s.refund c ≤ 0
    · rw [if_pos q] at eq; cases eq
    rw [if_neg q] at eq
    by_cases w : e.accepts = true ∧ at0 s.refund c ≤ s.coins
    · rw [if_pos w] at eq
      cases eq
      refine ⟨h.locked, h.keys, ?_, h.totals, ?_⟩
      · show s.coins - at0 s.refund c + (s.withdrawn + at0 s.refund c) = open_ s
        have := h.coins
        omega
      · have := h.pos
        constructor
        · show 0 ≤ s.coins - at0 s.refund c; omega
        · show 0 ≤ s.withdrawn + at0 s.refund c; omega
    · rw [if_neg w] at eq; cases eq; exact h
  | deposit c n v =>
    have eq : deposit cfg s e c n v = some s' := eq
    unfold deposit at eq
    have hpos := h.pos
    have hcoins := h.coins
    have hput : ∀ (T : Tab Bytes Synd) y, T = s.synd → 0 ≤ y.total → ∀ m z, (T.put n y).get? m = some z → 0 ≤ z.total := by
      intro T y hT hy m z hz
      rw [Tab.get?_put, hT] at hz
      by_cases q : m = n
      · rw [if_pos q] at hz; cases hz; exact hy
      · rw [if_neg q] at hz; exact h.totals m z hz
    cases et : s.tokens.get? n with
    | none => rw [et] at eq; cases eq
    | some t =>
      rw [et] at eq
      dsimp only at eq
      by_cases c0 : at0 s.held t.key = 0
      · rw [if_pos c0] at eq; cases eq
      rw [if_neg c0] at eq
      cases es : s.synd.get? n with
      | none =>
        rw [es] at eq
        dsimp only at eq
        by_cases c1 : at0 s.held t.key - at0 s.locked n ≤ 0
        · rw [if_pos c1] at eq; cases eq
        rw [if_neg c1] at eq
        cases eq
        refine ⟨h.locked, nodup_put _ _ _ h.keys, ?_, hput s.synd _ rfl (show (0 : Int) ≤ v by omega), ?_⟩
        · rw [start_open]
          show s.coins + v + s.withdrawn = open_ s + v - match s.synd.get? n with | some y => y.total | none => 0
          rw [es]
          dsimp only
          omega
        · exact ⟨show 0 ≤ s.coins + v by omega, hpos.2⟩
      | some y =>
        rw [es] at eq
        dsimp only at eq
        by_cases c1 : y.endTime ≤ e.now
        · rw [if_pos c1] at eq
          by_cases c2 : at0 s.held t.key - at0 s.locked n - y.tokenAmount ≤ 0
          · rw [if_pos c2] at eq; cases eq
          rw [if_neg c2] at eq
          refine end_inv cfg _ s' e t n y eq h.locked (nodup_put _ _ _ h.keys) ?_ (hput s.synd _ rfl (show (0 : Int) ≤ v by omega)) ?_
          · rw [start_open]
            show s.coins + v - y.total + s.withdrawn = open_ s + v - match s.synd.get? n with | some y => y.total | none => 0
            rw [es]
            dsimp only
            omega
          · exact ⟨show 0 ≤ s.coins + v by omega, hpos.2⟩
        · rw [if_neg c1] at eq
          cases eq
          refine ⟨h.locked, nodup_put _ _ _ h.keys, ?_, hput s.synd _ rfl (show 0 ≤ y.total + v by have := h.totals n y es; omega), ?_⟩
          · show s.coins + v + s.withdrawn = (s.synd.put n _).sum _
            rw [Tab.sum_put, es]
            have : open_ s = s.synd.sum fun _ y => y.total := rfl
            dsimp only
            omega
          · exact ⟨show 0 ≤ s.coins + v by omega, hpos.2⟩
  | claim c n =>
    have eq : claim cfg s e c n = some s' := eq
    unfold claim at eq
    cases et : s.tokens.get? n with
    | none => rw [et] at eq; cases eq
    | some t =>
      rw [et] at eq
      dsimp only at eq
      by_cases c0 : at0 s.tokBal (c, n) ≤ 0
      · rw [if_pos c0] at eq; cases eq
      rw [if_neg c0] at eq
      obtain ⟨p1, p2, p3, _⟩ := payTokens_same s e t c n
      have pc := payTokens_claims s e t c n
      generalize payTokens s e t c n = s1 at eq p1 p2 p3 pc
      have hl : ∀ m, claims s1 m = at0 s1.locked m := by
        intro m
        have := pc m
        have := h.locked m
        omega
      have i1 : Inv s1 := ⟨hl, by rw [p1]; exact h.keys, by unfold open_; rw [p1, p2, p3]; exact h.coins, by rw [p1]; exact h.totals, by rw [p2, p3]; exact h.pos⟩
      cases es : s1.synd.get? n with
      | none => rw [es] at eq; cases eq; exact i1
      | some y =>
        rw [es] at eq
        dsimp only at eq
        by_cases c1 : y.endTime ≤ e.now
        · rw [if_pos c1] at eq
          refine end_inv cfg _ s' e t n y eq hl (nodup_del _ _ i1.keys) ?_ ?_ i1.pos
          · show s1.coins - y.total + s1.withdrawn = (s1.synd.del n).sum _
            rw [Tab.sum_del _ _ i1.keys n y es]
            have := i1.coins
            have : open_ s1 = s1.synd.sum fun _ y => y.total := rfl
            omega
          · intro m z hz
            have hz : (s1.synd.del n).get? m = some z := hz
            rw [Tab.get?_del] at hz
            by_cases q : m = n
            · rw [if_pos q] at hz; cases hz
            · rw [if_neg q] at hz; exact i1.totals m z hz
        · rw [if_neg c1] at eq; cases eq; exact i1

theorem run_inv (cfg : Cfg) (l : List (Env × Op)) (s : S) (h : Inv s) : Inv (run cfg s l) := by
  induction l generalizing s with
  | nil => exact h
  | cons o l ih =>
    unfold run
    cases e : step cfg s o.1 o.2 with
    | none => exact ih s h
    | some s' => exact ih s' (step_inv cfg s s' h o.1 o.2 e)

/-! ### Shares -/

theorem unit_pos (cfg : Cfg) (t : Token) : 0 < unitOf cfg t := by
  unfold unitOf
  exact Int.pow_pos (by decide)

theorem discounted_nonneg (p : Int) (h : 0 ≤ p) : 0 ≤ discounted p := by
  unfold discounted
  rw [Int.tdiv_eq_ediv_of_nonneg (by omega)]
  omega

/-- The two ways of `share`. -/
theorem share_cases (T unit p total amt : Int) (x : Int × Int) (h : share T unit p total amt = some x) :
    (total < (T * p).tdiv unit ∧ p ≠ 0 ∧ x = ((amt * unit).tdiv p, 0)) ∨
      ((T * p).tdiv unit ≤ total ∧ total ≠ 0 ∧ x = ((amt * T).tdiv total, amt - ((amt * T).tdiv total * p).tdiv unit)) := by
  unfold share at h
  by_cases c : (T * p).tdiv unit > total
  · rw [if_pos c] at h
    by_cases q : p = 0
    · rw [if_pos q] at h; cases h
    · rw [if_neg q] at h; cases h; exact Or.inl ⟨c, q, rfl⟩
  · rw [if_neg c] at h
    by_cases q : total = 0
    · rw [if_pos q] at h; cases h
    · rw [if_neg q] at h; cases h; exact Or.inr ⟨by omega, q, rfl⟩

/-- What is sold for more than there is: the deposits are worth less than the tokens. -/
theorem worth (T unit p total : Int) (hT : 0 ≤ T) (hu : 0 < unit) (hp : 0 ≤ p) (h : total < (T * p).tdiv unit) : (total + 1) * unit ≤ T * p := by
  rw [Int.tdiv_eq_ediv_of_nonneg (Int.mul_nonneg hT hp)] at h
  have h1 : (total + 1) * unit ≤ T * p / unit * unit := Int.mul_le_mul_of_nonneg_right (by omega) (by omega)
  have h2 := Int.ediv_mul_le (T * p) (b := unit) (by omega)
  omega

theorem worth' (T unit p total : Int) (hT : 0 ≤ T) (hu : 0 < unit) (hp : 0 ≤ p) (h : (T * p).tdiv unit ≤ total) : T * p < (total + 1) * unit := by
  rw [Int.tdiv_eq_ediv_of_nonneg (Int.mul_nonneg hT hp)] at h
  exact Int.lt_of_lt_of_le (Int.lt_ediv_add_one_mul_self _ hu) (Int.mul_le_mul_of_nonneg_right (by omega) (by omega))

theorem tdiv_nonneg' (a b : Int) (ha : 0 ≤ a) (hb : 0 ≤ b) : 0 ≤ a.tdiv b := Int.tdiv_nonneg ha hb

theorem tokens_nonneg (T unit p total amt : Int) (hT : 0 ≤ T) (hu : 0 < unit) (hp : 0 ≤ p) (ht : 0 ≤ total) (ha : 0 ≤ amt) : 0 ≤ tokensFor T unit p total amt := by
  unfold tokensFor
  cases e : share T unit p total amt with
  | none => exact Int.le_refl _
  | some x =>
    dsimp only
    rcases share_cases T unit p total amt x e with ⟨_, _, h⟩ | ⟨_, _, h⟩
    · rw [h]; exact Int.tdiv_nonneg (Int.mul_nonneg ha (by omega)) hp
    · rw [h]; exact Int.tdiv_nonneg (Int.mul_nonneg ha hT) ht

/-- No more tokens are given out than are sold, if each depositor is counted once. -/
theorem tokens_le {A : Type} (T unit p total : Int) (a : A → Int) (l : List A) (hT : 0 < T) (hu : 0 < unit) (hp : 0 ≤ p) (ht : asum a l = total)
    (ha : ∀ u ∈ l, 0 ≤ a u) : asum (fun u => tokensFor T unit p total (a u)) l ≤ T := by
  have t0 : 0 ≤ total := by rw [← ht]; exact asum_nonneg a l ha
  by_cases c : total < (T * p).tdiv unit
  · by_cases q : p = 0
    · rw [q, Int.mul_zero, Int.zero_tdiv] at c; omega
    have e : asum (fun u => tokensFor T unit p total (a u)) l = asum (fun u => (a u * unit).tdiv p) l := by
      apply asum_congr
      intro u _
      unfold tokensFor share
      rw [if_pos c, if_neg q]
    rw [e]
    have h1 := asum_div a unit p (by omega) (by omega) l ha
    rw [ht] at h1
    have h2 := worth T unit p total (by omega) hu hp c
    have h3 : total * unit ≤ (total + 1) * unit := Int.mul_le_mul_of_nonneg_right (by omega) (by omega)
    exact Int.le_of_mul_le_mul_right (by omega : asum (fun u => (a u * unit).tdiv p) l * p ≤ T * p) (by omega)
  · by_cases q : total = 0
    · have e : asum (fun u => tokensFor T unit p total (a u)) l = asum (fun _ => 0) l := by
        apply asum_congr
        intro u _
        unfold tokensFor share
        rw [if_neg c, if_pos q]
      have z : ∀ l : List A, asum (fun _ => (0 : Int)) l = 0 := by
        intro l
        induction l with
        | nil => rfl
        | cons a l ih => dsimp only [asum]; rw [ih]; rfl
      rw [e, z]
      omega
    · have e : asum (fun u => tokensFor T unit p total (a u)) l = asum (fun u => (a u * T).tdiv total) l := by
        apply asum_congr
        intro u _
        unfold tokensFor share
        rw [if_neg c, if_neg q]
      rw [e]
      have h1 := asum_div a T total (by omega) (by omega) l ha
      rw [ht, Int.mul_comm total T] at h1
      exact Int.le_of_mul_le_mul_right h1 (by omega)

/-! ### The ledger of good histories -/

/-- Every asset has one name, `D` tells it, deposits are not empty, prices not negative. -/
def good (D : Bytes → Bytes × Int) : Env × Op → Prop
  | (e, o) => (∀ p, e.price = some p → 0 ≤ p) ∧
    match o with
    | .register _ n t => t.key = D n
    | .deposit _ _ v => 0 < v
    | _ => True

/-- The books of deposits. -/
structure Deps (s : S) : Prop where
  ids : ∀ n y, s.synd.get? n = some y → y.id ≤ s.count
  distinct : ∀ n m y z, s.synd.get? n = some y → s.synd.get? m = some z → y.id = z.id → n = m
  list : ∀ id, (s.depList.getD id []).Nodup ∧ ∀ u, 0 ≤ at0 s.depAmt (id, u) ∧ (u ∈ s.depList.getD id [] ↔ 0 < at0 s.depAmt (id, u))
  fresh : ∀ id, s.count < id → s.depList.getD id [] = []
  total : ∀ n y, s.synd.get? n = some y → asum (fun u => at0 s.depAmt (y.id, u)) (s.depList.getD y.id []) = y.total

theorem record_list (s : S) (id : Int) (u : Bytes) (v : Int) (hv : 0 < v)
    (h : ∀ id, (s.depList.getD id []).Nodup ∧ ∀ u, 0 ≤ at0 s.depAmt (id, u) ∧ (u ∈ s.depList.getD id [] ↔ 0 < at0 s.depAmt (id, u))) :
    (∀ j, ((record s id u v).depList.getD j []).Nodup ∧ ∀ w, 0 ≤ at0 (record s id u v).depAmt (j, w) ∧ (w ∈ (record s id u v).depList.getD j [] ↔ 0 < at0 (record s id u v).depAmt (j, w))) ∧
    (∀ j, j ≠ id → (record s id u v).depList.getD j [] = s.depList.getD j [] ∧ ∀ w, at0 (record s id u v).depAmt (j, w) = at0 s.depAmt (j, w)) ∧
    asum (fun w => at0 (record s id u v).depAmt (id, w)) ((record s id u v).depList.getD id []) = asum (fun w => at0 s.depAmt (id, w)) (s.depList.getD id []) + v := by
  have hd : ∀ j w, at0 (record s id u v).depAmt (j, w) = at0 s.depAmt (j, w) + if j = id ∧ w = u then v else 0 := by
    intro j w
    show at0 (add s.depAmt (id, u) v) (j, w) = _
    rw [at0_add]
    by_cases q : j = id ∧ w = u
    · rw [if_pos q, if_pos (by rw [q.1, q.2])]
    · rw [if_neg q, if_neg (fun z => q ⟨congrArg Prod.fst z, congrArg Prod.snd z⟩)]
  have hl : ∀ j, (record s id u v).depList.getD j [] = if j = id ∧ u ∉ s.depList.getD id [] then s.depList.getD id [] ++ [u] else s.depList.getD j [] := by
    intro j
    have hu := ((h id).2 u)
    show (if at0 s.depAmt (id, u) = 0 then s.depList.put id (s.depList.getD id [] ++ [u]) else s.depList).getD j [] = _
    by_cases q : at0 s.depAmt (id, u) = 0
    · have nm : u ∉ s.depList.getD id [] := fun z => by have := hu.2.mp z; omega
      rw [if_pos q, Tab.getD_put]
      by_cases w : j = id
      · rw [if_pos w, if_pos ⟨w, nm⟩]
      · rw [if_neg w, if_neg (fun z => w z.1)]
    · have m : u ∈ s.depList.getD id [] := hu.2.mpr (by omega)
      rw [if_neg q, if_neg (fun z => z.2 m)]
  refine ⟨?_, ?_, ?_⟩
  · intro j
    by_cases q : j = id ∧ u ∉ s.depList.getD id []
    · rw [hl, if_pos q]
      constructor
      · rw [List.nodup_append]
        refine ⟨(h id).1, List.nodup_cons.mpr ⟨List.not_mem_nil, List.nodup_nil⟩, ?_⟩
        intro a ha b hb
        rw [List.mem_singleton] at hb
        exact fun z => q.2 (by rw [← hb, ← z]; exact ha)
      · intro w
        rw [hd, q.1]
        obtain ⟨h1, h2⟩ := (h id).2 w
        by_cases c : w = u
        · rw [if_pos ⟨rfl, c⟩, c]
          rw [c] at h1
          exact ⟨by omega, ⟨fun _ => by omega, fun _ => List.mem_append_right _ (List.mem_singleton.mpr rfl)⟩⟩
        · rw [if_neg (fun z => c z.2), List.mem_append, List.mem_singleton]
          refine ⟨by omega, ⟨fun z => ?_, fun z => ?_⟩⟩
          · rcases z with z | z
            · have := h2.mp z; omega
            · exact absurd z c
          · exact Or.inl (h2.mpr (by omega))
    · rw [hl, if_neg q]
      refine ⟨(h j).1, ?_⟩
      intro w
      rw [hd]
      obtain ⟨h1, h2⟩ := (h j).2 w
      by_cases c : j = id ∧ w = u
      · have m : u ∈ s.depList.getD id [] := by
          by_cases z : u ∈ s.depList.getD id []
          · exact z
          · exact absurd ⟨c.1, z⟩ q
        rw [if_pos c]
        exact ⟨by omega, ⟨fun _ => by omega, fun _ => by rw [c.1, c.2]; exact m⟩⟩
      · rw [if_neg c]
        exact ⟨by omega, by rw [h2]; omega⟩
  · intro j hj
    rw [hl, if_neg (fun z => hj z.1)]
    exact ⟨rfl, fun w => by rw [hd, if_neg (fun z => hj z.1)]; omega⟩
  · have key : ∀ l : List Bytes, l.Nodup → asum (fun w => at0 (record s id u v).depAmt (id, w)) l = asum (fun w => at0 s.depAmt (id, w)) l + if u ∈ l then v else 0 := by
      intro l hn
      have e : asum (fun w => at0 (record s id u v).depAmt (id, w)) l = asum (fun w => at0 s.depAmt (id, w) + if w = u then v else 0) l := by
        apply asum_congr
        intro w _
        rw [hd]
        by_cases c : w = u
        · rw [if_pos ⟨rfl, c⟩, if_pos c]
        · rw [if_neg (fun z => c z.2), if_neg c]
      have ad : ∀ (f g : Bytes → Int) (l : List Bytes), asum (fun w => f w + g w) l = asum f l + asum g l := by
        intro f g l
        induction l with
        | nil => rfl
        | cons a l ih => dsimp only [asum]; rw [ih]; omega
      rw [e, ad, asum_one (fun _ => v) l hn u]
      by_cases c : u ∈ l <;> simp [c]
    rw [hl]
    by_cases q : u ∉ s.depList.getD id []
    · have z : at0 s.depAmt (id, u) = 0 := by
        obtain ⟨h1, h2⟩ := (h id).2 u
        by_cases c : 0 < at0 s.depAmt (id, u)
        · exact absurd (h2.mpr c) q
        · omega
      rw [if_pos ⟨rfl, q⟩, asum_append, key _ (h id).1, if_neg q]
      dsimp only [asum]
      rw [hd, if_pos ⟨rfl, rfl⟩, z]
      omega
    · rw [if_neg (fun z => q z.2), key _ (h id).1, if_pos (Decidable.not_not.mp q)]

theorem start_deps (s : S) (name : Bytes) (a : Int) (u : Bytes) (v now : Int) (hv : 0 < v) (h : Deps s) : Deps (start s name a u v now) := by
  have r := record_list { s with count := s.count + 1, synd := s.synd.put name ⟨s.count + 1, a, v, now, wrap64 (now + s.duration)⟩ } (s.count + 1) u v hv h.list
  have hs : (start s name a u v now).synd = s.synd.put name ⟨s.count + 1, a, v, now, wrap64 (now + s.duration)⟩ := rfl
  have hc : (start s name a u v now).count = s.count + 1 := rfl
  have e : start s name a u v now = record { s with count := s.count + 1, synd := s.synd.put name ⟨s.count + 1, a, v, now, wrap64 (now + s.duration)⟩ } (s.count + 1) u v := rfl
  rw [← e] at r
  obtain ⟨r1, r2, r3⟩ := r
  have old : ∀ n y, (start s name a u v now).synd.get? n = some y → (n = name ∧ y = ⟨s.count + 1, a, v, now, wrap64 (now + s.duration)⟩) ∨ (n ≠ name ∧ s.synd.get? n = some y) := by
    intro n y hy
    rw [hs, Tab.get?_put] at hy
    by_cases q : n = name
    · rw [if_pos q] at hy; cases hy; exact Or.inl ⟨q, rfl⟩
    · rw [if_neg q] at hy; exact Or.inr ⟨q, hy⟩
  refine ⟨?_, ?_, r1, ?_, ?_⟩
  · intro n y hy
    rw [hc]
    rcases old n y hy with ⟨_, q⟩ | ⟨_, q⟩
    · rw [q]; exact Int.le_refl _
    · have := h.ids n y q; omega
  · intro n m y z hy hz hid
    rcases old n y hy with ⟨q, q'⟩ | ⟨q, q'⟩ <;> rcases old m z hz with ⟨w, w'⟩ | ⟨w, w'⟩
    · rw [q, w]
    · rw [q'] at hid; have := h.ids m z w'; dsimp only at hid; omega
    · rw [w'] at hid; have := h.ids n y q'; dsimp only at hid; omega
    · exact h.distinct n m y z q' w' hid
  · intro id hid
    rw [hc] at hid
    rw [(r2 id (by omega)).1]
    exact h.fresh id (by omega)
  · intro n y hy
    rcases old n y hy with ⟨_, q⟩ | ⟨_, q⟩
    · rw [q]
      dsimp only
      rw [r3]
      show asum _ (s.depList.getD (s.count + 1) []) + v = v
      rw [h.fresh _ (by omega)]
      simp [asum]
    · have hne : y.id ≠ s.count + 1 := by have := h.ids n y q; omega
      rw [(r2 _ hne).1, asum_congr _ _ _ (fun w _ => (r2 _ hne).2 w)]
      exact h.total n y q

theorem more_deps (s : S) (name : Bytes) (y : Synd) (u : Bytes) (v : Int) (hv : 0 < v) (h : Deps s) (hy : s.synd.get? name = some y) :
    Deps (record { s with synd := s.synd.put name { y with total := y.total + v } } y.id u v) := by
  have r := record_list { s with synd := s.synd.put name { y with total := y.total + v } } y.id u v hv h.list
  generalize eq : record { s with synd := s.synd.put name { y with total := y.total + v } } y.id u v = s' at r
  have hs : s'.synd = s.synd.put name { y with total := y.total + v } := by rw [← eq]; rfl
  have hc : s'.count = s.count := by rw [← eq]; rfl
  obtain ⟨r1, r2, r3⟩ := r
  have old : ∀ n z, s'.synd.get? n = some z → (n = name ∧ z = { y with total := y.total + v }) ∨ (n ≠ name ∧ s.synd.get? n = some z) := by
    intro n z hz
    rw [hs, Tab.get?_put] at hz
    by_cases q : n = name
    · rw [if_pos q] at hz; cases hz; exact Or.inl ⟨q, rfl⟩
    · rw [if_neg q] at hz; exact Or.inr ⟨q, hz⟩
  refine ⟨?_, ?_, r1, ?_, ?_⟩
  · intro n z hz
    rw [hc]
    rcases old n z hz with ⟨_, q⟩ | ⟨_, q⟩
    · rw [q]; exact h.ids name y hy
    · exact h.ids n z q
  · intro n m z w hz hw hid
    rcases old n z hz with ⟨q, q'⟩ | ⟨q, q'⟩ <;> rcases old m w hw with ⟨k, k'⟩ | ⟨k, k'⟩
    · rw [q, k]
    · rw [q'] at hid; exact absurd (h.distinct name m y w hy k' hid) (Ne.symm k)
    · rw [k'] at hid; exact absurd (h.distinct n name z y q' hy hid) q
    · exact h.distinct n m z w q' k' hid
  · intro id hid
    rw [hc] at hid
    have := h.ids name y hy
    rw [(r2 id (by omega)).1]
    exact h.fresh id hid
  · intro n z hz
    rcases old n z hz with ⟨_, q⟩ | ⟨hn, q⟩
    · rw [q]
      dsimp only
      rw [r3]
      exact congrArg (· + v) (h.total name y hy)
    · have hne : z.id ≠ y.id := fun x => hn (h.distinct n name z y q hy x)
      rw [(r2 _ hne).1, asum_congr _ _ _ (fun w _ => (r2 _ hne).2 w)]
      exact h.total n z q

theorem Deps.same {s s' : S} (h : Deps s) (h1 : ∀ n y, s'.synd.get? n = some y → s.synd.get? n = some y) (h2 : s'.count = s.count) (h3 : s'.depAmt = s.depAmt)
    (h4 : s'.depList = s.depList) : Deps s' := by
  refine ⟨?_, ?_, ?_, ?_, ?_⟩
  · intro n y hy; rw [h2]; exact h.ids n y (h1 n y hy)
  · intro n m y z hy hz; exact h.distinct n m y z (h1 n y hy) (h1 m z hz)
  · rw [h3, h4]; exact h.list
  · rw [h2, h4]; exact h.fresh
  · intro n y hy; rw [h3, h4]; exact h.total n y (h1 n y hy)

/-- The rest of the books. -/
structure Good (D : Bytes → Bytes × Int) (s : S) : Prop where
  reg : ∀ n t, s.tokens.get? n = some t → t.key = D n
  unreg : ∀ n, s.tokens.get? n = none → s.synd.get? n = none ∧ at0 s.locked n = 0
  cover : ∀ n t, s.tokens.get? n = some t → at0 s.locked n + active s n ≤ at0 s.held t.key
  bal : ∀ u n, 0 ≤ at0 s.tokBal (u, n)
  bkeys : (s.tokBal.map (·.1)).Nodup
  amt : ∀ n y, s.synd.get? n = some y → 0 < y.tokenAmount
  deps : Deps s

theorem good_init (D : Bytes → Bytes × Int) : Good D init := by
  refine ⟨fun n t h => (by cases h), fun n _ => ⟨rfl, rfl⟩, fun n t h => (by cases h), fun u n => Int.le_refl 0, List.nodup_nil, fun n y h => (by cases h), ?_⟩
  exact ⟨fun n y h => (by cases h), fun n m y z h => (by cases h), fun id => ⟨List.nodup_nil, fun u => ⟨Int.le_refl _, ⟨fun h => (by cases h), fun h => absurd h (Int.lt_irrefl 0)⟩⟩⟩,
    fun id _ => rfl, fun n y h => (by cases h)⟩

theorem end_good (D : Bytes → Bytes × Int) (cfg : Cfg) (s s' : S) (e : Env) (t : Token) (name : Bytes) (y : Synd)
    (h : endAuction cfg s e t name y = some s') (hp : ∀ p, e.price = some p → 0 ≤ p) (ht : s.tokens.get? name = some t)
    (hy : 0 < y.tokenAmount) (hr : ∀ n t, s.tokens.get? n = some t → t.key = D n) (hun : ∀ n, s.tokens.get? n = none → s.synd.get? n = none ∧ at0 s.locked n = 0)
    (hc : ∀ n t, s.tokens.get? n = some t → at0 s.locked n + active s n + (if n = name then y.tokenAmount else 0) ≤ at0 s.held t.key)
    (hb : ∀ u n, 0 ≤ at0 s.tokBal (u, n)) (hbk : (s.tokBal.map (·.1)).Nodup) (ha : ∀ n y, s.synd.get? n = some y → 0 < y.tokenAmount) (hd : Deps s)
    (htot : asum (fun u => at0 s.depAmt (y.id, u)) (s.depList.getD y.id []) = y.total) : Good D s' := by
  obtain ⟨_, k2, p, hpr, d, hd', e1, e2, e3, _, e5⟩ := endAuction_ok cfg s s' e t name y h
  have p0 := discounted_nonneg p (hp p hpr)
  have am : ∀ u ∈ s.depList.getD y.id [], 0 ≤ at0 s.depAmt (y.id, u) := fun u _ => ((hd.list y.id).2 u).1
  have t0 : 0 ≤ y.total := by rw [← htot]; exact asum_nonneg _ _ am
  have dle : d ≤ y.tokenAmount := by rw [hd']; exact tokens_le _ _ _ _ _ _ hy (unit_pos cfg t) p0 htot am
  have f1 : s'.locked = add s.locked name d := by rw [e1]
  have f2 : s'.synd = s.synd := by rw [e1]
  have f3 : s'.tokens = s.tokens := by rw [e1]
  have f4 : s'.held = s.held := by rw [e1]
  have f5 : s'.count = s.count := by rw [e1]
  have f6 : s'.depAmt = s.depAmt := by rw [e1]
  have f7 : s'.depList = s.depList := by rw [e1]
  have fa : ∀ n, active s' n = active s n := fun n => by unfold active; rw [f2]
  refine ⟨by rw [f3]; exact hr, ?_, ?_, ?_, e5 hbk, by rw [f2]; exact ha, hd.same (fun n y hy => by rw [← f2]; exact hy) f5 f6 f7⟩
  · intro n hn
    rw [f3] at hn
    rw [f2, f1, at0_add]
    refine ⟨(hun n hn).1, ?_⟩
    rw [if_neg (fun q => by rw [q, ht] at hn; cases hn), (hun n hn).2]
    rfl
  · intro n t' hn
    rw [f3] at hn
    have c := hc n t' hn
    rw [f4, fa, f1, at0_add]
    by_cases q : n = name
    · rw [if_pos q] at c ⊢; omega
    · rw [if_neg q] at c ⊢; omega
  · intro u n
    rw [e3]
    have b := hb u n
    by_cases q : n = name
    · rw [if_pos q]
      have : 0 ≤ asum (fun w => if w = u then tokensFor y.tokenAmount (unitOf cfg t) (discounted p) y.total (at0 s.depAmt (y.id, w)) else 0) (s.depList.getD y.id []) := by
        apply asum_nonneg
        intro w hw
        by_cases c : w = u
        · rw [if_pos c]; exact tokens_nonneg _ _ _ _ _ (by omega) (unit_pos cfg t) p0 t0 (am w hw)
        · rw [if_neg c]; exact Int.le_refl _
      omega
    · rw [if_neg q]; omega

theorem active_put (s : S) (name n : Bytes) (y : Synd) : active { s with synd := s.synd.put name y } n = if n = name then y.tokenAmount else active s n := by
  unfold active
  dsimp only
  rw [Tab.get?_put]
  by_cases q : n = name
  · rw [if_pos q, if_pos q]
  · rw [if_neg q, if_neg q]

theorem step_good (D : Bytes → Bytes × Int) (hD : ∀ n m, D n = D m → n = m) (cfg : Cfg) (s s' : S) (h : Good D s) (e : Env) (o : Op)
    (hg : good D (e, o)) (hneg : ∀ k, 0 ≤ at0 s.held k) (eq : step cfg s e o = some s') : Good D s' := by
  obtain ⟨hp, hg⟩ := hg
  cases o with
  | register c n t =>
    have hg : t.key = D n := hg
    have eq : register cfg s c n t = some s' := eq
    unfold register at eq
    by_cases q : c = cfg.owner ∧ s.tokens.get? n = none ∧ cfg.isContract t.addr = true ∧ (0 < t.id ∨ t.id = 0 ∧ t.dec = none)
    · rw [if_pos q] at eq
      cases eq
      obtain ⟨u1, u2⟩ := h.unreg n q.2.1
      refine ⟨?_, ?_, ?_, h.bal, h.bkeys, h.amt, h.deps.same (fun _ _ x => x) rfl rfl rfl⟩
      · intro m t' ht
        have ht : (s.tokens.put n t).get? m = some t' := ht
        rw [Tab.get?_put] at ht
        by_cases w : m = n
        · rw [if_pos w] at ht; cases ht; rw [w]; exact hg
        · rw [if_neg w] at ht; exact h.reg m t' ht
      · intro m hm
        have hm : (s.tokens.put n t).get? m = none := hm
        rw [Tab.get?_put] at hm
        by_cases w : m = n
        · rw [if_pos w] at hm; cases hm
        · rw [if_neg w] at hm; exact h.unreg m hm
      · intro m t' ht
        have ht : (s.tokens.put n t).get? m = some t' := ht
        rw [Tab.get?_put] at ht
        by_cases w : m = n
        · rw [if_pos w] at ht
          cases ht
          show at0 s.locked m + active s m ≤ at0 s.held t.key
          have : active s m = 0 := by unfold active; rw [w, u1]
          rw [this, w, u2]
          have := hneg t.key
          omega
        · rw [if_neg w] at ht; exact h.cover m t' ht
    · rw [if_neg q] at eq; cases eq
  | setDuration c d =>
    have eq : setDuration cfg s c d = some s' := eq
    unfold setDuration at eq
    split at eq
    · cases eq; exact ⟨h.reg, h.unreg, h.cover, h.bal, h.bkeys, h.amt, h.deps.same (fun _ _ x => x) rfl rfl rfl⟩
    · cases eq
  | fees k v =>
    cases eq
    refine ⟨h.reg, h.unreg, ?_, h.bal, h.bkeys, h.amt, h.deps.same (fun _ _ x => x) rfl rfl rfl⟩
    intro n t ht
    have := h.cover n t ht
    show at0 s.locked n + active s n ≤ at0 (add s.held k v) t.key
    rw [at0_add]
    by_cases q : t.key = k
    · rw [if_pos q]; omega
    · rw [if_neg q]; omega
  | coins v =>
    have eq : (if 0 < v ∧ e.cps = true then some { s with funded := s.funded + v } else none) = some s' := eq
    by_cases q : 0 < v ∧ e.cps = true
    · rw [if_pos q] at eq; cases eq; exact ⟨h.reg, h.unreg, h.cover, h.bal, h.bkeys, h.amt, h.deps.same (fun _ _ x => x) rfl rfl rfl⟩
    · rw [if_neg q] at eq; cases eq
  | withdrawal c =>
    have eq : withdrawal s e c = some s' := eq
    unfold withdrawal at eq
    by_cases q : at0 s.refund c ≤ 0
    · rw [if_pos q] at eq; cases eq
    rw [if_neg q] at eq
    by_cases w : e.accepts = true ∧ at0 s.refund c ≤ s.coins
    · rw [if_pos w] at eq; cases eq; exact ⟨h.reg, h.unreg, h.cover, h.bal, h.bkeys, h.amt, h.deps.same (fun _ _ x => x) rfl rfl rfl⟩
    · rw [if_neg w] at eq; cases eq; exact h
  | deposit c n v =>
    have hv : 0 < v := hg
    have hv : (0 : Int) < v := by omega
    have eq : deposit cfg s e c n v = some s' := eq
    unfold deposit at eq
    cases et : s.tokens.get? n with
    | none => rw [et] at eq; cases eq
    | some t =>
      rw [et] at eq
      dsimp only at eq
      by_cases c0 : at0 s.held t.key = 0
      · rw [if_pos c0] at eq; cases eq
      rw [if_neg c0] at eq
      have hamt : ∀ y, 0 < y.tokenAmount → ∀ m z, (s.synd.put n y).get? m = some z → 0 < z.tokenAmount := by
        intro y hy m z hz
        rw [Tab.get?_put] at hz
        by_cases q : m = n
        · rw [if_pos q] at hz; cases hz; exact hy
        · rw [if_neg q] at hz; exact h.amt m z hz
      have hun : ∀ y m, s.tokens.get? m = none → (s.synd.put n y).get? m = none ∧ at0 s.locked m = 0 := by
        intro y m hm
        rw [Tab.get?_put, if_neg (fun q => by rw [q, et] at hm; cases hm)]
        exact h.unreg m hm
      have d1 : Deps { s with coins := s.coins + v } := h.deps.same (fun _ _ x => x) rfl rfl rfl
      cases es : s.synd.get? n with
      | none =>
        rw [es] at eq
        dsimp only at eq
        by_cases c1 : at0 s.held t.key - at0 s.locked n ≤ 0
        · rw [if_pos c1] at eq; cases eq
        rw [if_neg c1] at eq
        cases eq
        refine ⟨h.reg, hun _, ?_, h.bal, h.bkeys, hamt _ (show 0 < at0 s.held t.key - at0 s.locked n by omega), start_deps _ _ _ _ _ _ hv d1⟩
        intro m t' ht
        have ht : s.tokens.get? m = some t' := ht
        show at0 s.locked m + active { s with synd := s.synd.put n _ } m ≤ at0 s.held t'.key
        rw [active_put]
        by_cases q : m = n
        · rw [if_pos q]
          dsimp only
          rw [q, et] at ht
          cases ht
          rw [q]
          omega
        · rw [if_neg q]; exact h.cover m t' ht
      | some y =>
        rw [es] at eq
        dsimp only at eq
        have ay : active s n = y.tokenAmount := by unfold active; rw [es]
        by_cases c1 : y.endTime ≤ e.now
        · rw [if_pos c1] at eq
          by_cases c2 : at0 s.held t.key - at0 s.locked n - y.tokenAmount ≤ 0
          · rw [if_pos c2] at eq; cases eq
          rw [if_neg c2] at eq
          refine end_good D cfg _ s' e t n y eq hp et (h.amt n y es) h.reg (hun _) ?_ h.bal h.bkeys (hamt _ (show 0 < at0 s.held t.key - at0 s.locked n - y.tokenAmount by omega)) (start_deps _ _ _ _ _ _ hv d1) ?_
          · intro m t' ht
            have ht : s.tokens.get? m = some t' := ht
            show at0 s.locked m + active { s with synd := s.synd.put n _ } m + (if m = n then y.tokenAmount else 0) ≤ at0 s.held t'.key
            rw [active_put]
            by_cases q : m = n
            · rw [if_pos q, if_pos q]
              dsimp only
              rw [q, et] at ht
              cases ht
              rw [q]
              omega
            · rw [if_neg q, if_neg q]; have := h.cover m t' ht; omega
          · have r := record_list { ({ s with coins := s.coins + v } : S) with count := s.count + 1, synd := s.synd.put n ⟨s.count + 1, at0 s.held t.key - at0 s.locked n - y.tokenAmount, v, e.now, wrap64 (e.now + s.duration)⟩ } (s.count + 1) c v hv h.deps.list
            have hne : y.id ≠ s.count + 1 := by have := h.deps.ids n y es; omega
            have r2 := r.2.1 y.id hne
            have l1 : (start { s with coins := s.coins + v } n (at0 s.held t.key - at0 s.locked n - y.tokenAmount) c v e.now).depList.getD y.id [] = s.depList.getD y.id [] := r2.1
            have l2 : ∀ w, at0 (start { s with coins := s.coins + v } n (at0 s.held t.key - at0 s.locked n - y.tokenAmount) c v e.now).depAmt (y.id, w) = at0 s.depAmt (y.id, w) := r2.2
            rw [l1, asum_congr _ _ _ (fun w _ => l2 w)]
            exact h.deps.total n y es
        · rw [if_neg c1] at eq
          cases eq
          have es' : ({ s with coins := s.coins + v } : S).synd.get? n = some y := es
          refine ⟨h.reg, hun _, ?_, h.bal, h.bkeys, hamt _ (h.amt n y es), more_deps _ n y c v hv d1 es'⟩
          intro m t' ht
          have ht : s.tokens.get? m = some t' := ht
          show at0 s.locked m + active { s with synd := s.synd.put n _ } m ≤ at0 s.held t'.key
          rw [active_put]
          have c := h.cover m t' ht
          by_cases q : m = n
          · rw [if_pos q]
            rw [q, ay] at c
            rw [q]
            exact c
          · rw [if_neg q]; exact c
  | claim c n =>
    have eq : claim cfg s e c n = some s' := eq
    unfold claim at eq
    cases et : s.tokens.get? n with
    | none => rw [et] at eq; cases eq
    | some t =>
      rw [et] at eq
      dsimp only at eq
      by_cases c0 : at0 s.tokBal (c, n) ≤ 0
      · rw [if_pos c0] at eq; cases eq
      rw [if_neg c0] at eq
      obtain ⟨p1, p2, p3, p4, p5, p6, p7, _⟩ := payTokens_same s e t c n
      have g1 : Good D (payTokens s e t c n) := by
        refine ⟨by rw [p6]; exact h.reg, ?_, ?_, ?_, payTokens_keys s e t c n h.bkeys, by rw [p1]; exact h.amt, h.deps.same (fun _ _ x => by rw [← p1]; exact x) p7 p4 p5⟩
        · intro m hm
          rw [p6] at hm
          rw [p1]
          refine ⟨(h.unreg m hm).1, ?_⟩
          unfold payTokens
          split
          · show at0 (add s.locked n _) m = 0
            rw [at0_add, if_neg (fun q => by rw [q, et] at hm; cases hm), (h.unreg m hm).2]
            rfl
          · exact (h.unreg m hm).2
        · intro m t' ht
          rw [p6] at ht
          have cv := h.cover m t' ht
          have pa : active (payTokens s e t c n) m = active s m := by unfold active; rw [p1]
          rw [pa]
          unfold payTokens
          split
          · show at0 (add s.locked n _) m + active s m ≤ at0 (add s.held t.key _) t'.key
            rw [at0_add, at0_add]
            by_cases q : m = n
            · rw [q, et] at ht
              cases ht
              rw [if_pos q, if_pos rfl]
              omega
            · have : t'.key ≠ t.key := by
                rw [h.reg m t' ht, h.reg n t et]
                exact fun z => q (hD m n z)
              rw [if_neg q, if_neg this]
              omega
          · exact cv
        · intro u m
          unfold payTokens
          split
          · show 0 ≤ at0 (s.tokBal.put (c, n) 0) (u, m)
            unfold at0
            rw [Tab.getD_put]
            by_cases q : (u, m) = (c, n)
            · rw [if_pos q]; exact Int.le_refl _
            · rw [if_neg q]; exact h.bal u m
          · exact h.bal u m
      generalize payTokens s e t c n = s1 at eq p1 p2 p3 p4 p5 p6 p7 g1
      cases es : s1.synd.get? n with
      | none => rw [es] at eq; cases eq; exact g1
      | some y =>
        rw [es] at eq
        dsimp only at eq
        by_cases c1 : y.endTime ≤ e.now
        · rw [if_pos c1] at eq
          have dl : ∀ m z, (s1.synd.del n).get? m = some z → s1.synd.get? m = some z := by
            intro m z hz
            rw [Tab.get?_del] at hz
            by_cases q : m = n
            · rw [if_pos q] at hz; cases hz
            · rw [if_neg q] at hz; exact hz
          refine end_good D cfg _ s' e t n y eq hp (show s1.tokens.get? n = some t by rw [p6]; exact et) (g1.amt n y es) g1.reg ?_ ?_ g1.bal g1.bkeys (fun m z hz => g1.amt m z (dl m z hz)) (g1.deps.same dl rfl rfl rfl) (g1.deps.total n y es)
          · intro m hm
            show (s1.synd.del n).get? m = none ∧ at0 s1.locked m = 0
            rw [Tab.get?_del]
            refine ⟨?_, (g1.unreg m hm).2⟩
            by_cases q : m = n
            · rw [if_pos q]
            · rw [if_neg q]; exact (g1.unreg m hm).1
          · intro m t' ht
            have cv := g1.cover m t' ht
            have da : active { s1 with synd := s1.synd.del n } m = if m = n then 0 else active s1 m := by
              unfold active
              dsimp only
              rw [Tab.get?_del]
              by_cases q : m = n
              · rw [if_pos q, if_pos q]
              · rw [if_neg q, if_neg q]
            show at0 s1.locked m + active { s1 with synd := s1.synd.del n } m + _ ≤ at0 s1.held t'.key
            rw [da]
            by_cases q : m = n
            · rw [if_pos q, if_pos q]
              have : active s1 m = y.tokenAmount := by unfold active; rw [q, es]
              omega
            · rw [if_neg q, if_neg q]; omega
        · rw [if_neg c1] at eq; cases eq; exact g1

/-- Balances of token contracts are never negative. -/
theorem step_held (cfg : Cfg) (s s' : S) (e : Env) (o : Op) (eq : step cfg s e o = some s') (h : ∀ k, 0 ≤ at0 s.held k) : ∀ k, 0 ≤ at0 s'.held k := by
  have eh : ∀ (s0 : S) t n y, (∀ k, 0 ≤ at0 s0.held k) → endAuction cfg s0 e t n y = some s' → ∀ k, 0 ≤ at0 s'.held k := by
    intro s0 t n y h0 he
    obtain ⟨_, _, p, _, d, _, e1, _⟩ := endAuction_ok cfg s0 s' e t n y he
    have : s'.held = s0.held := by rw [e1]
    rw [this]
    exact h0
  cases o with
  | register c n t =>
    have eq : register cfg s c n t = some s' := eq
    unfold register at eq
    split at eq
    · cases eq; exact h
    · cases eq
  | setDuration c d =>
    have eq : setDuration cfg s c d = some s' := eq
    unfold setDuration at eq
    split at eq
    · cases eq; exact h
    · cases eq
  | fees k v =>
    cases eq
    intro j
    show 0 ≤ at0 (add s.held k v) j
    rw [at0_add]
    have := h j
    by_cases q : j = k
    · rw [if_pos q]; omega
    · rw [if_neg q]; omega
  | coins v =>
    have eq : (if 0 < v ∧ e.cps = true then some { s with funded := s.funded + v } else none) = some s' := eq
    by_cases q : 0 < v ∧ e.cps = true
    · rw [if_pos q] at eq; cases eq; exact h
    · rw [if_neg q] at eq; cases eq
  | withdrawal c =>
    have eq : withdrawal s e c = some s' := eq
    unfold withdrawal at eq
    by_cases q : at0 s.refund c ≤ 0
    · rw [if_pos q] at eq; cases eq
    rw [if_neg q] at eq
    by_cases w : e.accepts = true ∧ at0 s.refund c ≤ s.coins
    · rw [if_pos w] at eq; cases eq; exact h
    · rw [if_neg w] at eq; cases eq; exact h
  | deposit c n v =>
    have eq : deposit cfg s e c n v = some s' := eq
    unfold deposit at eq
    cases et : s.tokens.get? n with
    | none => rw [et] at eq; cases eq
    | some t =>
      rw [et] at eq
      dsimp only at eq
      by_cases c0 : at0 s.held t.key = 0
      · rw [if_pos c0] at eq; cases eq
      rw [if_neg c0] at eq
      cases es : s.synd.get? n with
      | none =>
        rw [es] at eq
        dsimp only at eq
        by_cases c1 : at0 s.held t.key - at0 s.locked n ≤ 0
        · rw [if_pos c1] at eq; cases eq
        rw [if_neg c1] at eq
        cases eq
        exact h
      | some y =>
        rw [es] at eq
        dsimp only at eq
        by_cases c1 : y.endTime ≤ e.now
        · rw [if_pos c1] at eq
          by_cases c2 : at0 s.held t.key - at0 s.locked n - y.tokenAmount ≤ 0
          · rw [if_pos c2] at eq; cases eq
          rw [if_neg c2] at eq
          exact eh (start { s with coins := s.coins + v } n (at0 s.held t.key - at0 s.locked n - y.tokenAmount) c v e.now) t n y h eq
        · rw [if_neg c1] at eq; cases eq; exact h
  | claim c n =>
    have eq : claim cfg s e c n = some s' := eq
    unfold claim at eq
    cases et : s.tokens.get? n with
    | none => rw [et] at eq; cases eq
    | some t =>
      rw [et] at eq
      dsimp only at eq
      by_cases c0 : at0 s.tokBal (c, n) ≤ 0
      · rw [if_pos c0] at eq; cases eq
      rw [if_neg c0] at eq
      have h1 : ∀ k, 0 ≤ at0 (payTokens s e t c n).held k := by
        intro k
        unfold payTokens
        by_cases q : e.accepts = true ∧ at0 s.tokBal (c, n) ≤ at0 s.held t.key
        · rw [if_pos q]
          show 0 ≤ at0 (add s.held t.key _) k
          rw [at0_add]
          have := h k
          by_cases w : k = t.key
          · rw [if_pos w, w]; omega
          · rw [if_neg w]; omega
        · rw [if_neg q]; exact h k
      generalize payTokens s e t c n = s1 at eq h1
      cases es : s1.synd.get? n with
      | none => rw [es] at eq; cases eq; exact h1
      | some y =>
        rw [es] at eq
        dsimp only at eq
        by_cases c1 : y.endTime ≤ e.now
        · rw [if_pos c1] at eq
          exact eh { s1 with synd := s1.synd.del n } t n y h1 eq
        · rw [if_neg c1] at eq; cases eq; exact h1

theorem run_good (D : Bytes → Bytes × Int) (hD : ∀ n m, D n = D m → n = m) (cfg : Cfg) (l : List (Env × Op)) (hl : ∀ o ∈ l, good D o) (s : S) (h : Good D s)
    (hh : ∀ k, 0 ≤ at0 s.held k) : Good D (run cfg s l) := by
  induction l generalizing s with
  | nil => exact h
  | cons o l ih =>
    unfold run
    have tl : ∀ o ∈ l, good D o := fun o ho => hl o (List.mem_cons_of_mem _ ho)
    cases e : step cfg s o.1 o.2 with
    | none => exact ih tl s h hh
    | some s' => exact ih tl s' (step_good D hD cfg s s' h o.1 o.2 (hl o List.mem_cons_self) hh e) (step_held cfg s s' o.1 o.2 e hh)

theorem run_good' (D : Bytes → Bytes × Int) (hD : ∀ n m, D n = D m → n = m) (cfg : Cfg) (l : List (Env × Op)) (hl : ∀ o ∈ l, good D o) : Good D (run cfg init l) :=
  run_good D hD cfg l hl init (good_init D) (fun _ => Int.le_refl 0)

theorem bal_le_claims (s : S) (hb : ∀ u n, 0 ≤ at0 s.tokBal (u, n)) (hk : (s.tokBal.map (·.1)).Nodup) (u n : Bytes) : at0 s.tokBal (u, n) ≤ claims s n := by
  have nn : ∀ p ∈ s.tokBal, 0 ≤ (fun (k : Bytes × Bytes) (x : Int) => if k.2 = n then x else 0) p.1 p.2 := by
    intro p hp
    show 0 ≤ if p.1.2 = n then p.2 else 0
    by_cases q : p.1.2 = n
    · rw [if_pos q]
      have b := hb p.1.1 p.1.2
      have g : s.tokBal.get? (p.1.1, p.1.2) = some p.2 := Tab.get?_of_mem _ hk p.1 p.2 hp
      unfold at0 Tab.getD at b
      rw [g] at b
      exact b
    · rw [if_neg q]; exact Int.le_refl _
  cases e : s.tokBal.get? (u, n) with
  | none =>
    have : at0 s.tokBal (u, n) = 0 := by unfold at0 Tab.getD; rw [e]; rfl
    rw [this]
    exact Tab.sum_nonneg _ _ nn
  | some x =>
    have : at0 s.tokBal (u, n) = x := by unfold at0 Tab.getD; rw [e]; rfl
    rw [this]
    have le := Tab.le_sum (fun (k : Bytes × Bytes) (x : Int) => if k.2 = n then x else 0) _ nn _ (Tab.get?_mem _ _ _ e)
    have le : (if (u, n).2 = n then x else 0) ≤ claims s n := le
    rw [if_pos rfl] at le
    exact le

/-! ### C107: tokens -/

/-- In every history the amount kept as locked is what depositors may claim. -/
theorem C107_locked_is_promised (cfg : Cfg) (l : List (Env × Op)) (n : Bytes) :
    at0 (run cfg init l).locked n = (run cfg init l).tokBal.sum (fun k x => if k.2 = n then x else 0) :=
  ((run_inv cfg l init inv_init).locked n).symm

/-- If each asset has one name and no deposit is empty: what may be claimed, together with what is on sale, is held. -/
theorem C107_held_partial (D : Bytes → Bytes × Int) (hD : ∀ n m, D n = D m → n = m) (cfg : Cfg) (l : List (Env × Op)) (hl : ∀ o ∈ l, good D o) (n : Bytes) (t : Token)
    (h : (run cfg init l).tokens.get? n = some t) :
    (run cfg init l).tokBal.sum (fun k x => if k.2 = n then x else 0) + (match (run cfg init l).synd.get? n with | some y => y.tokenAmount | none => 0)
      ≤ at0 (run cfg init l).held t.key := by
  have g := (run_good' D hD cfg l hl).cover n t h
  rw [C107_locked_is_promised] at g
  exact g

/-- Then a depositor gets the tokens claimed, unless the claim is to end an auction, which may fail. -/
theorem C107_claim_pays_partial (D : Bytes → Bytes × Int) (hD : ∀ n m, D n = D m → n = m) (cfg : Cfg) (l : List (Env × Op)) (hl : ∀ o ∈ l, good D o) (c n : Bytes) (e : Env)
    (hp : 0 < at0 (run cfg init l).tokBal (c, n)) (ha : e.accepts = true) (ho : ∀ y, (run cfg init l).synd.get? n = some y → e.now < y.endTime) :
    ∃ t s', (run cfg init l).tokens.get? n = some t ∧ step cfg (run cfg init l) e (.claim c n) = some s' ∧ at0 s'.tokBal (c, n) = 0 ∧
      at0 s'.held t.key = at0 (run cfg init l).held t.key - at0 (run cfg init l).tokBal (c, n) := by
  have g := run_good' D hD cfg l hl
  have i := run_inv cfg l init inv_init
  generalize run cfg init l = s at g i hp ho ⊢
  have hle := bal_le_claims s g.bal g.bkeys c n
  rw [i.locked] at hle
  cases et : s.tokens.get? n with
  | none => have := (g.unreg n et).2; omega
  | some t =>
    have hc := g.cover n t et
    have hact : 0 ≤ active s n := by
      unfold active
      cases es : s.synd.get? n with
      | none => exact Int.le_refl _
      | some y => have := g.amt n y es; dsimp only; omega
    have hpay : e.accepts = true ∧ at0 s.tokBal (c, n) ≤ at0 s.held t.key := ⟨ha, by omega⟩
    refine ⟨t, payTokens s e t c n, rfl, ?_, ?_, ?_⟩
    · show claim cfg s e c n = _
      unfold claim
      rw [et]
      dsimp only
      rw [if_neg (by omega), (payTokens_same s e t c n).1]
      cases es : s.synd.get? n with
      | none => rfl
      | some y =>
        have := ho y es
        dsimp only
        rw [if_neg (by omega)]
    · unfold payTokens
      rw [if_pos hpay]
      show at0 (s.tokBal.put (c, n) 0) (c, n) = 0
      unfold at0
      rw [Tab.getD_put, if_pos rfl]
    · unfold payTokens
      rw [if_pos hpay]
      show at0 (add s.held t.key _) t.key = _
      rw [at0_add, if_pos rfl]
      omega

/-! ### C108: coins -/

/-- In every history the coins held and those paid as refunds are the deposits of the open auctions: nothing is kept for refunds. -/
theorem C108_coins (cfg : Cfg) (l : List (Env × Op)) : (run cfg init l).coins + (run cfg init l).withdrawn = (run cfg init l).synd.sum (fun _ y => y.total) :=
  (run_inv cfg l init inv_init).coins

/-- Once a refund was paid, the deposits of the open auctions are not all there. -/
theorem C108_refunds_take_deposits (cfg : Cfg) (l : List (Env × Op)) (h : (run cfg init l).withdrawn ≠ 0) :
    (run cfg init l).coins < (run cfg init l).synd.sum (fun _ y => y.total) := by
  have i := run_inv cfg l init inv_init
  have := i.coins
  have := i.pos
  unfold open_ at this
  have := C108_coins cfg l
  omega

/-- With no auction open, no refund is paid to anyone. -/
theorem C108_no_refund_without_auction (cfg : Cfg) (l : List (Env × Op)) (h : (run cfg init l).synd = []) (e : Env) (c : Bytes) :
    step cfg (run cfg init l) e (.withdrawal c) = none ∨ step cfg (run cfg init l) e (.withdrawal c) = some (run cfg init l) := by
  have i := run_inv cfg l init inv_init
  generalize run cfg init l = s at i h ⊢
  have hc := i.coins
  have hp := i.pos
  have : open_ s = 0 := by unfold open_; rw [h]; rfl
  show withdrawal s e c = none ∨ withdrawal s e c = some s
  unfold withdrawal
  by_cases q : at0 s.refund c ≤ 0
  · rw [if_pos q]; exact Or.inl rfl
  · rw [if_neg q, if_neg (fun z => q (by omega))]; exact Or.inr rfl

/-- A refund is paid in full and once, or nothing is changed. -/
theorem C108_withdrawal_once (cfg : Cfg) (s s' : S) (e : Env) (c : Bytes) (h : step cfg s e (.withdrawal c) = some s') :
    0 < at0 s.refund c ∧ (s' = s ∨ (at0 s'.refund c = 0 ∧ (∀ u, u ≠ c → at0 s'.refund u = at0 s.refund u) ∧ s'.coins = s.coins - at0 s.refund c ∧ 0 ≤ s'.coins)) := by
  have h : withdrawal s e c = some s' := h
  unfold withdrawal at h
  by_cases q : at0 s.refund c ≤ 0
  · rw [if_pos q] at h; cases h
  rw [if_neg q] at h
  refine ⟨by omega, ?_⟩
  by_cases w : e.accepts = true ∧ at0 s.refund c ≤ s.coins
  · rw [if_pos w] at h
    cases h
    right
    have p : ∀ u, at0 (s.refund.put c 0) u = if u = c then 0 else at0 s.refund u := fun u => by unfold at0; rw [Tab.getD_put]
    refine ⟨?_, ?_, rfl, ?_⟩
    · show at0 (s.refund.put c 0) c = 0
      rw [p, if_pos rfl]
    · intro u hu
      show at0 (s.refund.put c 0) u = _
      rw [p, if_neg hu]
    · show 0 ≤ s.coins - at0 s.refund c
      omega
  · rw [if_neg w] at h; cases h; exact Or.inl rfl

/-- As long as no refund was paid, the deposits of each open auction are there. -/
theorem C108_deposits_there_partial (cfg : Cfg) (l : List (Env × Op)) (h : (run cfg init l).withdrawn = 0) (n : Bytes) (y : Synd)
    (hy : (run cfg init l).synd.get? n = some y) : y.total ≤ (run cfg init l).coins := by
  have i := run_inv cfg l init inv_init
  generalize run cfg init l = s at i h hy ⊢
  have hc := i.coins
  have nn : ∀ p ∈ s.synd, 0 ≤ (fun (_ : Bytes) (y : Synd) => y.total) p.1 p.2 := fun p hp => i.totals p.1 p.2 (Tab.get?_of_mem _ i.keys p.1 p.2 hp)
  have := Tab.le_sum (fun (_ : Bytes) (y : Synd) => y.total) _ nn _ (Tab.get?_mem _ _ _ hy)
  have : y.total ≤ open_ s := this
  omega

/-! ### C109: shares -/

/-- A deposit buys tokens at the discounted price or below: if the deposits do not buy all tokens, for all of the deposit; otherwise the
tokens are divided by deposits, and the refund is what the tokens did not cost. -/
theorem C109_price (T unit p total amt : Int) (x : Int × Int) (hT : 0 < T) (hu : 0 < unit) (hp : 0 ≤ p) (ha : 0 ≤ amt) (ht : amt ≤ total)
    (h : share T unit p total amt = some x) :
    0 ≤ x.1 ∧ 0 ≤ x.2 ∧ x.2 ≤ amt ∧
      (total < (T * p).tdiv unit → x.2 = 0 ∧ x.1 * p ≤ amt * unit ∧ amt * unit < (x.1 + 1) * p) ∧
      ((T * p).tdiv unit ≤ total → x.1 * total ≤ amt * T ∧ amt * T < (x.1 + 1) * total ∧ amt = (x.1 * p).tdiv unit + x.2) := by
  have fl : ∀ a b : Int, 0 ≤ a → 0 < b → 0 ≤ a.tdiv b ∧ a.tdiv b * b ≤ a ∧ a < (a.tdiv b + 1) * b := by
    intro a b h0 hb
    rw [Int.tdiv_eq_ediv_of_nonneg h0]
    exact ⟨Int.ediv_nonneg h0 (by omega), Int.ediv_mul_le _ (by omega), Int.lt_ediv_add_one_mul_self _ hb⟩
  rcases share_cases T unit p total amt x h with ⟨c1, c2, e⟩ | ⟨c1, c2, e⟩
  · have h0 : 0 ≤ amt * unit := Int.mul_nonneg ha (by omega)
    obtain ⟨f1, f2, f3⟩ := fl (amt * unit) p h0 (by omega)
    rw [e]
    exact ⟨f1, Int.le_refl _, ha, fun _ => ⟨rfl, f2, f3⟩, fun c => absurd c1 (by omega)⟩
  · have ht0 : 0 < total := by omega
    have h0 : 0 ≤ amt * T := Int.mul_nonneg ha (by omega)
    obtain ⟨f1, f2, f3⟩ := fl (amt * T) total h0 ht0
    rw [e]
    dsimp only
    generalize (amt * T).tdiv total = k at f1 f2 f3 ⊢
    have g0 : 0 ≤ k * p := Int.mul_nonneg f1 hp
    obtain ⟨g1, g2, g3⟩ := fl (k * p) unit g0 hu
    -- the cost is at most the deposit
    have w := worth' T unit p total (by omega) hu hp c1
    have cost : (k * p).tdiv unit ≤ amt := by
      have a1 : k * total * p ≤ amt * T * p := Int.mul_le_mul_of_nonneg_right f2 hp
      have a2 : amt * (T * p) ≤ amt * ((total + 1) * unit - 1) := Int.mul_le_mul_of_nonneg_left (by omega) ha
      rw [← Int.mul_assoc] at a2
      have a3 : amt * ((total + 1) * unit - 1) = amt * unit * total + amt * unit - amt := by
        rw [Int.mul_sub, Int.mul_one, Int.add_mul, Int.one_mul, Int.mul_add, Int.mul_comm total unit, ← Int.mul_assoc]
      have a4 : amt * unit ≤ total * unit := Int.mul_le_mul_of_nonneg_right ht (by omega)
      have a5 : k * total * p = k * p * total := by rw [Int.mul_assoc, Int.mul_comm total p, ← Int.mul_assoc]
      have a6 : 0 < total * unit := Int.mul_pos ht0 hu
      have a7 : (amt + 1) * unit * total = amt * unit * total + total * unit := by
        rw [Int.add_mul, Int.one_mul, Int.add_mul, Int.mul_comm unit total]
      have a8 : k * p * total < (amt + 1) * unit * total := by
        by_cases z : amt = 0
        · rw [z] at a1 a3 a7 ⊢
          simp only [Int.zero_mul] at a1 a3 a7
          omega
        · omega
      have a9 : k * p < (amt + 1) * unit := Int.lt_of_mul_lt_mul_right a8 (by omega)
      have b1 : (k * p).tdiv unit * unit < (amt + 1) * unit := by omega
      have b2 := Int.lt_of_mul_lt_mul_right b1 (by omega)
      omega
    exact ⟨f1, by omega, by omega, fun c => absurd c1 (by omega), fun _ => ⟨f2, f3, by omega⟩⟩

/-- When an auction ends in a history with no empty deposits, each depositor is credited once with the share of all that was deposited, and
nobody else with anything; all together get at most what was on sale. -/
theorem C109_ended_partial (D : Bytes → Bytes × Int) (hD : ∀ n m, D n = D m → n = m) (cfg : Cfg) (l : List (Env × Op)) (hl : ∀ o ∈ l, good D o) (e : Env) (n : Bytes) (t : Token) (y : Synd)
    (hy : (run cfg init l).synd.get? n = some y) (s0 s' : S) (h0 : s0.depAmt = (run cfg init l).depAmt ∧ s0.depList = (run cfg init l).depList)
    (hp : ∀ p, e.price = some p → 0 ≤ p) (h : endAuction cfg s0 e t n y = some s') :
    ∃ p, e.price = some p ∧ at0 s'.locked n ≤ at0 s0.locked n + y.tokenAmount ∧
      ∀ u, 0 ≤ at0 s0.depAmt (y.id, u) ∧ at0 s0.depAmt (y.id, u) ≤ y.total ∧
        if 0 < at0 s0.depAmt (y.id, u) then
          ∃ x, share y.tokenAmount (unitOf cfg t) (discounted p) y.total (at0 s0.depAmt (y.id, u)) = some x ∧ at0 s'.tokBal (u, n) = at0 s0.tokBal (u, n) + x.1 ∧ at0 s'.refund u = at0 s0.refund u + x.2
        else at0 s'.tokBal (u, n) = at0 s0.tokBal (u, n) ∧ at0 s'.refund u = at0 s0.refund u := by
  have g := run_good' D hD cfg l hl
  generalize run cfg init l = s at g hy h0
  obtain ⟨_, _, p, hpr, d, hd, e1, _, e3, e4, _⟩ := endAuction_ok cfg s0 s' e t n y h
  have gl := g.deps.list y.id
  have gt := g.deps.total n y hy
  rw [← h0.1, ← h0.2] at gl gt
  have am : ∀ u ∈ s0.depList.getD y.id [], 0 ≤ at0 s0.depAmt (y.id, u) := fun u _ => (gl.2 u).1
  have p0 := discounted_nonneg p (hp p hpr)
  have T0 := g.amt n y hy
  refine ⟨p, hpr, ?_, ?_⟩
  · have f1 : s'.locked = add s0.locked n d := by rw [e1]
    rw [f1, at0_add, if_pos rfl, hd]
    have := tokens_le y.tokenAmount (unitOf cfg t) (discounted p) y.total _ _ T0 (unit_pos cfg t) p0 gt am
    omega
  · intro u
    have hu := gl.2 u
    have t0 : 0 ≤ y.total := by rw [← gt]; exact asum_nonneg _ _ am
    have le : at0 s0.depAmt (y.id, u) ≤ y.total := by
      by_cases q : 0 < at0 s0.depAmt (y.id, u)
      · rw [← gt]
        exact le_asum (fun u => at0 s0.depAmt (y.id, u)) _ am u (hu.2.mpr q)
      · omega
    refine ⟨hu.1, le, ?_⟩
    have b3 := e3 u n
    have b4 := e4 u
    rw [if_pos rfl, asum_one _ _ gl.1 u] at b3
    rw [asum_one _ _ gl.1 u] at b4
    by_cases q : 0 < at0 s0.depAmt (y.id, u)
    · have m := hu.2.mpr q
      rw [if_pos q]
      rw [if_pos m] at b3 b4
      cases es : share y.tokenAmount (unitOf cfg t) (discounted p) y.total (at0 s0.depAmt (y.id, u)) with
      | none =>
        exfalso
        unfold share at es
        by_cases c : (y.tokenAmount * discounted p).tdiv (unitOf cfg t) > y.total
        · rw [if_pos c] at es
          by_cases z : discounted p = 0
          · rw [z, Int.mul_zero, Int.zero_tdiv] at c; omega
          · rw [if_neg z] at es; cases es
        · rw [if_neg c, if_neg (by omega)] at es; cases es
      | some x =>
        have pr := C109_price _ _ _ _ _ x T0 (unit_pos cfg t) p0 hu.1 le es
        refine ⟨x, rfl, ?_, ?_⟩
        · rw [b3]; unfold tokensFor; rw [es]
        · rw [b4]
          unfold coinsLeft
          rw [es]
          dsimp only
          by_cases z : 0 < x.2
          · rw [if_pos z]
          · rw [if_neg z]; omega
    · have m : u ∉ s0.depList.getD y.id [] := fun z => q (hu.2.mp z)
      rw [if_neg q]
      rw [if_neg m] at b3 b4
      omega

/-! ### C110: auctions end -/

/-- An auction that is over, with no other tokens there and nothing to claim, is ended by no call until tokens come in. -/
theorem C110_stuck_without_tokens (cfg : Cfg) (s s' : S) (e : Env) (o : Op) (n : Bytes) (t : Token) (y : Synd) (ht : s.tokens.get? n = some t) (hy : s.synd.get? n = some y)
    (hx : y.endTime ≤ e.now) (ha : at0 s.held t.key ≤ at0 s.locked n + y.tokenAmount) (hb : ∀ u, at0 s.tokBal (u, n) ≤ 0) (h : step cfg s e o = some s') :
    s'.synd.get? n = some y := by
  have eh : ∀ (s0 : S) t n' y', s0.synd.get? n = some y → endAuction cfg s0 e t n' y' = some s' → s'.synd.get? n = some y := by
    intro s0 t n' y' h0 he
    obtain ⟨_, _, p, _, d, _, e1, _⟩ := endAuction_ok cfg s0 s' e t n' y' he
    have : s'.synd = s0.synd := by rw [e1]
    rw [this]
    exact h0
  cases o with
  | register c m t' =>
    have eq : register cfg s c m t' = some s' := h
    unfold register at eq
    split at eq
    · cases eq; exact hy
    · cases eq
  | setDuration c d =>
    have eq : setDuration cfg s c d = some s' := h
    unfold setDuration at eq
    split at eq
    · cases eq; exact hy
    · cases eq
  | fees k v => cases h; exact hy
  | coins v =>
    have eq : (if 0 < v ∧ e.cps = true then some { s with funded := s.funded + v } else none) = some s' := h
    by_cases q : 0 < v ∧ e.cps = true
    · rw [if_pos q] at eq; cases eq; exact hy
    · rw [if_neg q] at eq; cases eq
  | withdrawal c =>
    have eq : withdrawal s e c = some s' := h
    unfold withdrawal at eq
    by_cases q : at0 s.refund c ≤ 0
    · rw [if_pos q] at eq; cases eq
    rw [if_neg q] at eq
    by_cases w : e.accepts = true ∧ at0 s.refund c ≤ s.coins
    · rw [if_pos w] at eq; cases eq; exact hy
    · rw [if_neg w] at eq; cases eq; exact hy
  | deposit c m v =>
    have eq : deposit cfg s e c m v = some s' := h
    unfold deposit at eq
    cases et : s.tokens.get? m with
    | none => rw [et] at eq; cases eq
    | some t' =>
      rw [et] at eq
      dsimp only at eq
      by_cases c0 : at0 s.held t'.key = 0
      · rw [if_pos c0] at eq; cases eq
      rw [if_neg c0] at eq
      have other : m ≠ n → ∀ z, (s.synd.put m z).get? n = some y := by
        intro q z
        rw [Tab.get?_put_other _ _ _ _ (Ne.symm q)]
        exact hy
      cases es : s.synd.get? m with
      | none =>
        have q : m ≠ n := fun q => by rw [q, hy] at es; cases es
        rw [es] at eq
        dsimp only at eq
        by_cases c1 : at0 s.held t'.key - at0 s.locked m ≤ 0
        · rw [if_pos c1] at eq; cases eq
        rw [if_neg c1] at eq
        cases eq
        exact other q _
      | some z =>
        rw [es] at eq
        dsimp only at eq
        by_cases q : m = n
        · rw [q, hy] at es
          cases es
          rw [q, ht] at et
          cases et
          rw [if_pos hx, q, if_pos (by omega)] at eq
          cases eq
        · by_cases c1 : z.endTime ≤ e.now
          · rw [if_pos c1] at eq
            by_cases c2 : at0 s.held t'.key - at0 s.locked m - z.tokenAmount ≤ 0
            · rw [if_pos c2] at eq; cases eq
            rw [if_neg c2] at eq
            exact eh (start { s with coins := s.coins + v } m (at0 s.held t'.key - at0 s.locked m - z.tokenAmount) c v e.now) t' m z (other q _) eq
          · rw [if_neg c1] at eq; cases eq; exact other q _
  | claim c m =>
    have eq : claim cfg s e c m = some s' := h
    unfold claim at eq
    cases et : s.tokens.get? m with
    | none => rw [et] at eq; cases eq
    | some t' =>
      rw [et] at eq
      dsimp only at eq
      by_cases c0 : at0 s.tokBal (c, m) ≤ 0
      · rw [if_pos c0] at eq; cases eq
      rw [if_neg c0] at eq
      have q : m ≠ n := fun q => c0 (by rw [q]; exact hb c)
      have p1 := (payTokens_same s e t' c m).1
      generalize payTokens s e t' c m = s1 at eq p1
      cases es : s1.synd.get? m with
      | none => rw [es] at eq; cases eq; rw [p1]; exact hy
      | some z =>
        rw [es] at eq
        dsimp only at eq
        by_cases c1 : z.endTime ≤ e.now
        · rw [if_pos c1] at eq
          refine eh { s1 with synd := s1.synd.del m } t' m z ?_ eq
          show (s1.synd.del m).get? n = some y
          rw [Tab.get?_del, if_neg (Ne.symm q), p1]
          exact hy
        · rw [if_neg c1] at eq; cases eq; rw [p1]; exact hy

theorem distLoop_some (name : Bytes) (y : Synd) (unit p : Int) (hp : p ≠ 0) (ht : y.total ≠ 0) (l : List Bytes) (s : S) (acc : Int) : ∃ r, distLoop name y unit p s acc l = some r := by
  induction l generalizing s acc with
  | nil => exact ⟨_, rfl⟩
  | cons u l ih =>
    unfold distLoop
    have : ∃ x, share y.tokenAmount unit p y.total (at0 s.depAmt (y.id, u)) = some x := by
      unfold share
      by_cases c : (y.tokenAmount * p).tdiv unit > y.total
      · rw [if_pos c, if_neg hp]; exact ⟨_, rfl⟩
      · rw [if_neg c, if_neg ht]; exact ⟨_, rfl⟩
    obtain ⟨x, hx⟩ := this
    rw [hx]
    exact ih _ _

/-- A deposit ends the auction that is over and opens the next, if there are tokens for it, the deposits are there and not all empty, the
fund takes them and there is a price. -/
theorem C110_ends_partial (cfg : Cfg) (s : S) (e : Env) (c n : Bytes) (v : Nat) (t : Token) (y : Synd) (p : Int) (ht : s.tokens.get? n = some t) (hy : s.synd.get? n = some y)
    (hx : y.endTime ≤ e.now) (ha : at0 s.locked n + y.tokenAmount < at0 s.held t.key) (h0 : 0 ≤ at0 s.locked n ∧ 0 ≤ y.tokenAmount) (hc : y.total ≤ s.coins + v) (ht0 : y.total ≠ 0)
    (hcps : e.cps = true) (hp : e.price = some p) (hp0 : discounted p ≠ 0) :
    ∃ s', step cfg s e (.deposit c n v) = some s' ∧
      s'.synd.get? n = some ⟨s.count + 1, at0 s.held t.key - at0 s.locked n - y.tokenAmount, v, e.now, wrap64 (e.now + s.duration)⟩ ∧
      s'.coins = s.coins + v - y.total ∧ s'.funded = s.funded + y.total := by
  have hs : ∃ s', endAuction cfg (start { s with coins := s.coins + v } n (at0 s.held t.key - at0 s.locked n - y.tokenAmount) c v e.now) e t n y = some s' := by
    unfold endAuction
    have c1 : ¬at0 (start { s with coins := s.coins + v } n (at0 s.held t.key - at0 s.locked n - y.tokenAmount) c v e.now).held t.key < y.tokenAmount := by
      show ¬at0 s.held t.key < y.tokenAmount
      omega
    rw [if_neg c1, if_neg ht0]
    have c2 : e.cps = true ∧ y.total ≤ (start { s with coins := s.coins + v } n (at0 s.held t.key - at0 s.locked n - y.tokenAmount) c v e.now).coins := ⟨hcps, hc⟩
    rw [if_pos c2]
    unfold distribute
    rw [hp]
    dsimp only
    obtain ⟨r, hr⟩ := distLoop_some n y (unitOf cfg t) (discounted p) hp0 ht0 _ _ 0
    rw [hr]
    exact ⟨_, rfl⟩
  obtain ⟨s', hs'⟩ := hs
  obtain ⟨_, _, _, _, d, _, e1, _⟩ := endAuction_ok cfg _ s' e t n y hs'
  refine ⟨s', ?_, ?_, by rw [e1]; rfl, by rw [e1]; rfl⟩
  · show deposit cfg s e c n v = some s'
    unfold deposit
    rw [ht]
    dsimp only
    rw [if_neg (by omega), hy]
    dsimp only
    rw [if_pos hx, if_neg (by omega)]
    exact hs'
  · have : s'.synd = s.synd.put n ⟨s.count + 1, at0 s.held t.key - at0 s.locked n - y.tokenAmount, v, e.now, wrap64 (e.now + s.duration)⟩ := by rw [e1]; rfl
    rw [this, Tab.get?_put_same]

/-- An auction that has empty deposits alone cannot be ended at a price at which the tokens are worth less than the smallest coin. -/
theorem C110_empty_auction_stuck (cfg : Cfg) (s : S) (e : Env) (t : Token) (n : Bytes) (y : Synd) (u : Bytes) (l : List Bytes) (h0 : y.total = 0)
    (hl : s.depList.getD y.id [] = u :: l) (hp : ∀ p, e.price = some p → (y.tokenAmount * discounted p).tdiv (unitOf cfg t) ≤ 0) : endAuction cfg s e t n y = none := by
  unfold endAuction
  by_cases c : at0 s.held t.key < y.tokenAmount
  · rw [if_pos c]
  rw [if_neg c, if_pos h0]
  unfold distribute
  cases ep : e.price with
  | none => rfl
  | some p =>
    dsimp only
    rw [hl]
    unfold distLoop share
    have := hp p ep
    rw [if_neg (by omega), if_pos h0]
    rfl

/-! ### C111: deposits count in one auction -/

/-- An accepted deposit counts in the auction that is open, before its end; after it, in a new one, and the old one stays as it was. -/
theorem C111_deposit (cfg : Cfg) (s s' : S) (e : Env) (c n : Bytes) (v : Nat) (h : step cfg s e (.deposit c n v) = some s') :
    ∃ y', s'.synd.get? n = some y' ∧ at0 s'.depAmt (y'.id, c) = at0 s.depAmt (y'.id, c) + v ∧
      (∀ id u, (id, u) ≠ (y'.id, c) → at0 s'.depAmt (id, u) = at0 s.depAmt (id, u)) ∧
      ((∃ y, s.synd.get? n = some y ∧ e.now < y.endTime ∧ y' = { y with total := y.total + v }) ∨
        ((∀ y, s.synd.get? n = some y → y.endTime ≤ e.now) ∧ y'.id = s.count + 1 ∧ y'.total = v ∧ y'.startTime = e.now ∧ y'.endTime = wrap64 (e.now + s.duration) ∧ 0 < y'.tokenAmount)) := by
  have eq : deposit cfg s e c n v = some s' := h
  have rc : ∀ (s0 : S) id, s0.depAmt = s.depAmt → at0 (record s0 id c v).depAmt (id, c) = at0 s.depAmt (id, c) + v ∧
      ∀ j u, (j, u) ≠ (id, c) → at0 (record s0 id c v).depAmt (j, u) = at0 s.depAmt (j, u) := by
    intro s0 id h0
    have e0 : (record s0 id c v).depAmt = add s0.depAmt (id, c) v := rfl
    rw [e0, h0]
    refine ⟨by rw [at0_add, if_pos rfl], fun j u hj => by rw [at0_add, if_neg hj]; omega⟩
  unfold deposit at eq
  cases et : s.tokens.get? n with
  | none => rw [et] at eq; cases eq
  | some t =>
    rw [et] at eq
    dsimp only at eq
    by_cases c0 : at0 s.held t.key = 0
    · rw [if_pos c0] at eq; cases eq
    rw [if_neg c0] at eq
    cases es : s.synd.get? n with
    | none =>
      rw [es] at eq
      dsimp only at eq
      by_cases c1 : at0 s.held t.key - at0 s.locked n ≤ 0
      · rw [if_pos c1] at eq; cases eq
      rw [if_neg c1] at eq
      cases eq
      obtain ⟨r1, r2⟩ := rc { ({ s with coins := s.coins + v } : S) with count := s.count + 1, synd := s.synd.put n ⟨s.count + 1, at0 s.held t.key - at0 s.locked n, v, e.now, wrap64 (e.now + s.duration)⟩ } (s.count + 1) rfl
      exact ⟨⟨s.count + 1, at0 s.held t.key - at0 s.locked n, v, e.now, wrap64 (e.now + s.duration)⟩, Tab.get?_put_same _ _ _, r1, r2,
        Or.inr ⟨fun y hy => (by cases hy), rfl, rfl, rfl, rfl, show 0 < at0 s.held t.key - at0 s.locked n by omega⟩⟩
    | some y =>
      rw [es] at eq
      dsimp only at eq
      by_cases c1 : y.endTime ≤ e.now
      · rw [if_pos c1] at eq
        by_cases c2 : at0 s.held t.key - at0 s.locked n - y.tokenAmount ≤ 0
        · rw [if_pos c2] at eq; cases eq
        rw [if_neg c2] at eq
        obtain ⟨_, _, _, _, d, _, e1, _⟩ := endAuction_ok cfg _ s' e t n y eq
        obtain ⟨r1, r2⟩ := rc { ({ s with coins := s.coins + v } : S) with count := s.count + 1, synd := s.synd.put n ⟨s.count + 1, at0 s.held t.key - at0 s.locked n - y.tokenAmount, v, e.now, wrap64 (e.now + s.duration)⟩ } (s.count + 1) rfl
        have hs : s'.synd = s.synd.put n ⟨s.count + 1, at0 s.held t.key - at0 s.locked n - y.tokenAmount, v, e.now, wrap64 (e.now + s.duration)⟩ := by rw [e1]; rfl
        have hd : s'.depAmt = (record { ({ s with coins := s.coins + v } : S) with count := s.count + 1, synd := s.synd.put n ⟨s.count + 1, at0 s.held t.key - at0 s.locked n - y.tokenAmount, v, e.now, wrap64 (e.now + s.duration)⟩ } (s.count + 1) c v).depAmt := by rw [e1]; rfl
        refine ⟨⟨s.count + 1, at0 s.held t.key - at0 s.locked n - y.tokenAmount, v, e.now, wrap64 (e.now + s.duration)⟩, ?_, ?_, ?_, ?_⟩
        · rw [hs, Tab.get?_put_same]
        · rw [hd]; exact r1
        · rw [hd]; exact r2
        · exact Or.inr ⟨fun z hz => (by cases hz; exact c1), rfl, rfl, rfl, rfl, show 0 < at0 s.held t.key - at0 s.locked n - y.tokenAmount by omega⟩
      · rw [if_neg c1] at eq
        cases eq
        obtain ⟨r1, r2⟩ := rc { ({ s with coins := s.coins + v } : S) with synd := s.synd.put n { y with total := y.total + v } } y.id rfl
        exact ⟨{ y with total := y.total + v }, Tab.get?_put_same _ _ _, r1, r2, Or.inl ⟨y, rfl, by omega, rfl⟩⟩

/-- The end is the set time after the start, if it is a `long`. -/
theorem C111_end_partial (now d : Int) (h0 : 0 ≤ now) (hd : 0 ≤ d) (h : now + d < 9223372036854775808) : wrap64 (now + d) = now + d := by
  unfold wrap64
  omega

/-! ### Examples -/

/-- Owner [1]; addresses that begin with 9 are contracts; tokens have no decimals. -/
def exCfg : Cfg := ⟨[1], fun a => a.head? = some 9, fun _ => 0⟩

/-- Name "a" = [97] is the token [9, 1], "b" = [98] the token [9, 2]. -/
def exD (n : Bytes) : Bytes × Int := (9 :: n, 0)

def exEnv (now : Int) : Env := ⟨now, some 10, true, true⟩

/-- 1000 tokens at 9 coins each, for deposits of 6000 and 12000: 333 and 666 tokens; refunds of 3003 and 6006. -/
def exOps : List (Env × Op) :=
  [(exEnv 0, .register [1] [97] ⟨[9, 97], 0, none⟩), (exEnv 0, .register [1] [98] ⟨[9, 98], 0, none⟩), (exEnv 0, .setDuration [1] 100),
   (exEnv 0, .fees ([9, 97], 0) 1000), (exEnv 0, .fees ([9, 98], 0) 1000), (exEnv 1, .deposit [50] [97] 6000), (exEnv 2, .deposit [51] [97] 12000),
   (exEnv 3, .fees ([9, 97], 0) 500), (exEnv 200, .deposit [52] [97] 10000)]

def exRun (l : List (Env × Op)) : S := run exCfg init l

example : ∀ n m, exD n = exD m → n = m := by
  intro n m h
  simpa [exD] using h
example : ∀ o ∈ exOps, good exD o := by
  simp [exOps, good, exEnv, exD, Token.key]

example : at0 (exRun exOps).tokBal ([50], [97]) = 333 ∧ at0 (exRun exOps).tokBal ([51], [97]) = 666 ∧ at0 (exRun exOps).refund [50] = 3003 ∧ at0 (exRun exOps).refund [51] = 6006 ∧
    (exRun exOps).coins = 10000 ∧ (exRun exOps).funded = 18000 ∧ at0 (exRun exOps).locked [97] = 999 := by
  decide +kernel

/-- C107 is false with empty deposits: [50] deposits nothing twice and then 100, is listed three times and is promised three shares. -/
theorem C107_empty_deposits_oversell :
    let s := exRun (exOps.take 5 ++ [(exEnv 1, .deposit [50] [97] 0), (exEnv 1, .deposit [50] [97] 0), (exEnv 1, .deposit [50] [97] 9000), (exEnv 3, .fees ([9, 97], 0) 500), (exEnv 200, .deposit [52] [97] 1)])
    at0 s.tokBal ([50], [97]) = 3000 ∧ at0 s.held ([9, 97], 0) = 1500 := by
  decide +kernel

/-- And with two names for one token: each name sells all of it. -/
theorem C107_two_names_oversell :
    let s := exRun (exOps.take 5 ++ [(exEnv 0, .register [1] [99] ⟨[9, 97], 0, none⟩), (exEnv 1, .deposit [50] [97] 1), (exEnv 1, .deposit [51] [99] 1)])
    (s.synd.get? [97]).map (·.tokenAmount) = some 1000 ∧ (s.synd.get? [99]).map (·.tokenAmount) = some 1000 ∧ at0 s.held ([9, 97], 0) = 1000 := by
  decide +kernel

/-- C108 is false: the refund of [51] is paid from the deposit of [52], whose auction then cannot be ended by a claim; the refund of [50]
is not paid when that is all there is. -/
theorem C108_refund_from_deposit :
    let s := exRun (exOps ++ [(exEnv 201, .withdrawal [51]), (exEnv 202, .withdrawal [50])])
    s.withdrawn = 9009 ∧ s.coins = 991 ∧ (s.synd.get? [97]).map (·.total) = some 10000 ∧ step exCfg s (exEnv 400) (.claim [50] [97]) = none := by
  decide +kernel

/-- C110 is false: the first auction is over, no tokens come, and no depositor can claim anything. -/
theorem C110_over_not_ended :
    let s := exRun (exOps.take 7)
    at0 s.held ([9, 97], 0) = at0 s.locked [97] + 1000 ∧ s.tokBal = [] ∧ step exCfg s (exEnv 500) (.claim [50] [97]) = none ∧ step exCfg s (exEnv 500) (.deposit [50] [97] 1) = none := by
  decide +kernel

/-- An auction with an empty deposit of a worthless token blocks all later deposits and the claims of earlier buyers. -/
theorem C110_empty_auction_blocks :
    let s := exRun (exOps.take 8 ++ [(exEnv 200, .deposit [52] [97] 0), (exEnv 201, .fees ([9, 97], 0) 500)])
    let e : Env := ⟨400, some 0, true, true⟩
    at0 s.tokBal ([50], [97]) = 333 ∧ step exCfg s e (.claim [50] [97]) = none ∧ step exCfg s e (.deposit [53] [97] 5000) = none := by
  decide +kernel

/-- C111 is false for durations that are too long, or negative: the auction is over when it begins. -/
theorem C111_over_at_once :
    (let s := exRun (exOps.take 5 ++ [(exEnv 0, .setDuration [1] 9223372036854775807), (exEnv 1, .deposit [50] [97] 1)])
     (s.synd.get? [97]).map (·.endTime) = some (-9223372036854775808)) ∧
    (let s := exRun (exOps.take 5 ++ [(exEnv 0, .setDuration [1] (-5)), (exEnv 1, .deposit [50] [97] 1)])
     (s.synd.get? [97]).map (·.endTime) = some (-4)) := by
  decide +kernel

/-- C111: exactly when the length of auctions is set: by the owner, to a `long` that is not 0 (also to a negative one). -/
theorem C111_set_duration (cfg : Cfg) (s s' : S) (caller : Bytes) (d : Int) : setDuration cfg s caller d = some s' ↔
    caller = cfg.owner ∧ d ≠ 0 ∧ -2 ^ 63 ≤ d ∧ d < 2 ^ 63 ∧ s' = { s with duration := d } := by
  unfold setDuration
  by_cases h : caller = cfg.owner ∧ d ≠ 0 ∧ -9223372036854775808 ≤ d ∧ d < 9223372036854775808
  · rw [if_pos h]
    exact ⟨fun e => ⟨h.1, h.2.1, h.2.2.1, h.2.2.2, (Option.some.inj e).symm⟩, fun e => by rw [e.2.2.2.2]⟩
  · rw [if_neg h]
    exact ⟨fun e => (by cases e), fun e => absurd ⟨e.1, e.2.1, e.2.2.1, e.2.2.2.1⟩ h⟩

end Verif.FeeAgg
