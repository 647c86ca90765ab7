import Verif.TokenBsh
import Verif.NcsProps
/-!
Properties of the token service (`Verif.TokenBsh`): C102 to C106.
-/
namespace Verif.TokenBsh
open Verif
open Verif.Ncs (at0 add at0_add mem_put nodup_put)

/-! ### Quantities -/

/-- All that users have of a token. -/
def bsum (s : S) (n : Bytes) : Int := s.bals.sum fun k b => if k.2 = n then b.usable + b.locked + b.refundable else 0

/-- What the contract owes of a token: to users, as fees, and to other networks. -/
def book (s : S) (n : Bytes) : Int := bsum s n + at0 s.fees n + at0 s.settled n - at0 s.paid n

/-- The sum of a quantity over a list of names. -/
def nsum (f : Bytes → Int) : List Bytes → Int
  | [] => 0
  | n :: l => f n + nsum f l

/-- What a list of assets takes of a token, with fees. -/
def tsum (n : Bytes) : List Asset → Int
  | [] => 0
  | a :: l => (if a.name = n then a.value + a.fee else 0) + tsum n l

/-- The values alone; the fees alone. -/
def vsum (n : Bytes) : List Asset → Int
  | [] => 0
  | a :: l => (if a.name = n then a.value else 0) + vsum n l
def fsum (n : Bytes) : List Asset → Int
  | [] => 0
  | a :: l => (if a.name = n then a.fee else 0) + fsum n l

theorem tsum_eq (n : Bytes) (l : List Asset) : tsum n l = vsum n l + fsum n l := by
  induction l with
  | nil => rfl
  | cons a l ih =>
    dsimp only [tsum, vsum, fsum]
    rw [ih]
    by_cases h : a.name = n
    · rw [if_pos h, if_pos h, if_pos h]; omega
    · rw [if_neg h, if_neg h, if_neg h]; omega

/-- What the pending transfers of a user take of a token. -/
def psum (cfg : Cfg) (s : S) (u n : Bytes) : Int := s.pending.sum fun _ ta => if ta.frm = cfg.text u then tsum n ta.assets else 0

/-- An amount for one name. -/
def one (n : Bytes) (v : Int) : Bytes → Int := fun m => if m = n then v else 0

theorem nsum_add (f g : Bytes → Int) (l : List Bytes) : nsum (fun n => f n + g n) l = nsum f l + nsum g l := by
  induction l with
  | nil => rfl
  | cons a l ih => dsimp only [nsum]; rw [ih]; omega

theorem nsum_congr (f g : Bytes → Int) (l : List Bytes) (h : ∀ n ∈ l, f n = g n) : nsum f l = nsum g l := by
  induction l with
  | nil => rfl
  | cons a l ih => dsimp only [nsum]; rw [h a List.mem_cons_self, ih fun n hn => h n (List.mem_cons_of_mem _ hn)]

theorem nsum_zero (f : Bytes → Int) (l : List Bytes) (h : ∀ n ∈ l, f n = 0) : nsum f l = 0 := by
  induction l with
  | nil => rfl
  | cons a l ih => dsimp only [nsum]; rw [h a List.mem_cons_self, ih fun n hn => h n (List.mem_cons_of_mem _ hn)]; rfl

theorem nsum_append (f : Bytes → Int) (l m : List Bytes) : nsum f (l ++ m) = nsum f l + nsum f m := by
  induction l with
  | nil => simp [nsum]
  | cons a l ih => rw [List.cons_append]; dsimp only [nsum]; rw [ih]; omega

/-- The sum over the names of a contract. -/
def at_ (addrOf : Tab Bytes Bytes) (t : Bytes) (f : Bytes → Int) (l : List Bytes) : Int := nsum (fun n => if addrOf.get? n = some t then f n else 0) l

theorem at_add (a : Tab Bytes Bytes) (t : Bytes) (f g : Bytes → Int) (l : List Bytes) : at_ a t (fun n => f n + g n) l = at_ a t f l + at_ a t g l := by
  unfold at_
  rw [← nsum_add]
  apply nsum_congr
  intro n _
  by_cases h : a.get? n = some t
  · rw [if_pos h, if_pos h, if_pos h]
  · rw [if_neg h, if_neg h, if_neg h]; rfl

theorem at_one (a : Tab Bytes Bytes) (t t' n : Bytes) (v : Int) (l : List Bytes) (hn : l.Nodup) (hm : n ∈ l) (ha : a.get? n = some t') :
    at_ a t (one n v) l = if t = t' then v else 0 := by
  unfold at_
  induction l with
  | nil => cases hm
  | cons m l ih =>
    rw [List.nodup_cons] at hn
    dsimp only [nsum]
    by_cases e : m = n
    · subst e
      have z : nsum (fun k => if a.get? k = some t then one m v k else 0) l = 0 := by
        apply nsum_zero
        intro k hk
        have : k ≠ m := fun e => hn.1 (e ▸ hk)
        unfold one
        rw [if_neg this]
        by_cases h : a.get? k = some t
        · rw [if_pos h]
        · rw [if_neg h]
      rw [z, ha]
      unfold one
      rw [if_pos rfl]
      by_cases h : t = t'
      · rw [if_pos (by rw [h]), if_pos h]; omega
      · rw [if_neg (fun x => h (Option.some.inj x).symm), if_neg h]; rfl
    · have : one n v m = 0 := by unfold one; rw [if_neg e]
      rw [this]
      rcases List.mem_cons.mp hm with h | h
      · exact absurd h.symm e
      · rw [ih hn.2 h]
        by_cases q : a.get? m = some t
        · rw [if_pos q]; omega
        · rw [if_neg q]; omega

/-! ### Balances -/

theorem balance_set (s : S) (u n u' n' : Bytes) (a b c : Int) :
    balance (setBalance s u n a b c) u' n' =
      if u' = u ∧ n' = n then ⟨(balance s u n).usable + a, (balance s u n).locked + b, (balance s u n).refundable + c⟩ else balance s u' n' := by
  unfold setBalance
  unfold balance
  dsimp only
  rw [Tab.getD_put]
  by_cases h : u' = u ∧ n' = n
  · rw [if_pos h, if_pos (by rw [h.1, h.2])]
  · rw [if_neg h, if_neg (fun x => h ⟨congrArg Prod.fst x, congrArg Prod.snd x⟩)]

theorem bsum_set (s : S) (u n m : Bytes) (a b c : Int) : bsum (setBalance s u n a b c) m = bsum s m + one n (a + b + c) m := by
  unfold bsum setBalance one balance
  dsimp only
  rw [Tab.sum_put_getD _ s.bals (u, n) _ ⟨0, 0, 0⟩ (by simp)]
  by_cases h : n = m
  · simp only [if_pos h, if_pos h.symm]; omega
  · simp only [if_neg h, if_neg (Ne.symm h)]; omega

/-! ### The ledger -/

/-- Two states with the same tokens; the book grew by `d`. -/
structure Moves (s s' : S) (d : Bytes → Int) : Prop where
  addrOf : s'.addrOf = s.addrOf
  names : s'.names = s.names
  tokens : s'.tokens = s.tokens
  book : ∀ n, book s' n = book s n + d n

theorem Moves.trans {s s' s'' : S} {d e : Bytes → Int} (h : Moves s s' d) (k : Moves s' s'' e) : Moves s s'' (fun n => d n + e n) :=
  ⟨k.addrOf.trans h.addrOf, k.names.trans h.names, k.tokens.trans h.tokens, fun n => by rw [k.book, h.book]; omega⟩

structure Inv (cfg : Cfg) (s : S) : Prop where
  nodup : s.names.Nodup
  reg : ∀ n, n ∈ s.names ↔ (s.addrOf.get? n).isSome = true
  tok : ∀ t k, s.tokens.get? t = some k → s.addrOf.get? k.name = some t
  held : ∀ t, at0 s.tok (t, cfg.self) = at_ s.addrOf t (book s) s.names
  unreg : ∀ n, n ∉ s.names → book s n = 0
  pend : ∀ p ∈ s.pending, ∃ u a, p.2.frm = cfg.text u ∧ p.2.assets = [a] ∧ a.name ∈ s.names
  pfee : ∀ p ∈ s.pendingFees, ∃ u, p.2.frm = cfg.text u
  pkeys : (s.pending.map (·.1)).Nodup
  pmax : ∀ p ∈ s.pending, p.1 ≤ s.serialNo

theorem held_moves (cfg : Cfg) (s s' : S) (d : Bytes → Int) (h : Inv cfg s) (m : Moves s s' d)
    (ht : ∀ t, at0 s'.tok (t, cfg.self) = at0 s.tok (t, cfg.self) + at_ s.addrOf t d s.names) (t : Bytes) :
    at0 s'.tok (t, cfg.self) = at_ s'.addrOf t (book s') s'.names := by
  rw [ht, h.held, m.addrOf, m.names]
  have e : book s' = fun n => book s n + d n := funext m.book
  rw [e, at_add]

theorem unreg_moves (cfg : Cfg) (s s' : S) (d : Bytes → Int) (h : Inv cfg s) (m : Moves s s' d) (hd : ∀ n, n ∉ s.names → d n = 0) (n : Bytes)
    (hn : n ∉ s'.names) : book s' n = 0 := by
  rw [m.names] at hn
  rw [m.book, h.unreg n hn, hd n hn]; rfl

/-- A change that moves nothing in or out. -/
theorem Inv.moves {cfg : Cfg} {s s' : S} (h : Inv cfg s) (d : Bytes → Int) (m : Moves s s' d) (hd : ∀ n, n ∉ s.names → d n = 0)
    (ht : ∀ t, at0 s'.tok (t, cfg.self) = at0 s.tok (t, cfg.self) + at_ s.addrOf t d s.names)
    (hp : ∀ p ∈ s'.pending, p ∈ s.pending ∨ ∃ u a, p.2.frm = cfg.text u ∧ p.2.assets = [a] ∧ a.name ∈ s.names)
    (hf : ∀ p ∈ s'.pendingFees, p ∈ s.pendingFees ∨ ∃ u, p.2.frm = cfg.text u)
    (hk : (s'.pending.map (·.1)).Nodup) (hm : ∀ p ∈ s'.pending, p.1 ≤ s'.serialNo) : Inv cfg s' where
  nodup := by rw [m.names]; exact h.nodup
  reg := by rw [m.names, m.addrOf]; exact h.reg
  tok := by rw [m.tokens, m.addrOf]; exact h.tok
  held := held_moves cfg s s' d h m ht
  unreg := unreg_moves cfg s s' d h m hd
  pend := by
    intro p hp'
    rw [m.names]
    rcases hp p hp' with q | q
    · exact h.pend p q
    · exact q
  pfee := by
    intro p hp'
    rcases hf p hp' with q | q
    · exact h.pfee p q
    · exact q
  pkeys := hk
  pmax := hm

theorem at_none (a : Tab Bytes Bytes) (t : Bytes) (l : List Bytes) : at_ a t (fun _ => 0) l = 0 := by
  unfold at_
  apply nsum_zero
  intro n _
  by_cases h : a.get? n = some t
  · rw [if_pos h]
  · rw [if_neg h]

theorem inv_init (cfg : Cfg) (tok : Tab (Bytes × Bytes) Int) (h : ∀ t, at0 tok (t, cfg.self) = 0) : Inv cfg (init cfg tok) where
  nodup := List.nodup_nil
  reg := by intro n; simp [init, Tab.get?]
  tok := by intro t k h; simp [init, Tab.get?] at h
  held := by intro t; rw [show (init cfg tok).tok = tok from rfl, h t]; rfl
  unreg := by intro n _; rfl
  pend := by intro p hp; cases hp
  pfee := by intro p hp; cases hp
  pkeys := List.nodup_nil
  pmax := by intro p hp; cases hp

theorem moves_set (s : S) (u n : Bytes) (a b c : Int) : Moves s (setBalance s u n a b c) (one n (a + b + c)) :=
  ⟨rfl, rfl, rfl, fun m => by unfold book; rw [bsum_set]; show _ + at0 s.fees m + at0 s.settled m - at0 s.paid m = _; omega⟩

theorem one_zero (n m : Bytes) : one n 0 m = 0 := by
  unfold one
  by_cases h : m = n
  · rw [if_pos h]
  · rw [if_neg h]

/-- Tokens sent by a contract's `transfer`: what the service holds, and what it owes. -/
theorem irc2_ok (cfg : Cfg) (s s' : S) (t frm to : Bytes) (v : Int) (h : Inv cfg s) (e : irc2 cfg s t frm to v = some s') :
    ∃ d, Moves s s' d ∧ (∀ n, n ∉ s.names → d n = 0) ∧ 0 ≤ v ∧
      (∀ x, at_ s.addrOf x d s.names = if x = t ∧ to = cfg.self then v else 0) ∧
      (∀ x, at0 s'.tok (x, cfg.self) = at0 s.tok (x, cfg.self) + (if x = t ∧ to = cfg.self then v else 0) - if x = t ∧ frm = cfg.self then v else 0) ∧
      s'.serialNo = s.serialNo ∧ s'.pending = s.pending ∧ s'.pendingFees = s.pendingFees ∧ s'.fees = s.fees ∧
      s'.owners = s.owners ∧ s'.count = s.count ∧
      (∀ u n, (balance s u n).usable ≤ (balance s' u n).usable ∧ (balance s' u n).locked = (balance s u n).locked ∧
        (balance s' u n).refundable = (balance s u n).refundable) := by
  unfold irc2 at e
  by_cases q : 0 ≤ v ∧ v ≤ at0 s.tok (t, frm)
  · rw [if_pos q] at e
    dsimp only at e
    have tk : ∀ x, at0 (add (add s.tok (t, frm) (-v)) (t, to) v) (x, cfg.self) =
        at0 s.tok (x, cfg.self) + (if x = t ∧ to = cfg.self then v else 0) - if x = t ∧ frm = cfg.self then v else 0 := by
      intro x
      rw [at0_add, at0_add]
      have e1 : ((x, cfg.self) = (t, to)) = (x = t ∧ to = cfg.self) := by rw [Prod.mk.injEq]; exact propext (and_congr_right fun _ => eq_comm)
      have e2 : ((x, cfg.self) = (t, frm)) = (x = t ∧ frm = cfg.self) := by rw [Prod.mk.injEq]; exact propext (and_congr_right fun _ => eq_comm)
      simp only [e1, e2]
      by_cases a : x = t ∧ to = cfg.self <;> by_cases b : x = t ∧ frm = cfg.self
      · rw [if_pos a, if_pos b, if_pos b]; omega
      · rw [if_pos a, if_neg b, if_neg b]; omega
      · rw [if_neg a, if_pos b, if_pos b]; omega
      · rw [if_neg a, if_neg b, if_neg b]; omega
    by_cases q1 : to = cfg.self
    · rw [if_pos q1] at e
      unfold tokenFallback at e
      by_cases q2 : v = 0
      · rw [if_pos q2] at e; cases e
      · rw [if_neg q2] at e
        dsimp only at e
        cases k : s.tokens.get? t with
        | none => rw [k] at e; cases e
        | some k' =>
          rw [k] at e
          dsimp only at e
          by_cases q3 : k'.name = []
          · rw [if_pos q3] at e; cases e
          · rw [if_neg q3] at e
            have hk := h.tok t k' k
            have hn : k'.name ∈ s.names := (h.reg _).mpr (by rw [hk]; rfl)
            cases e
            refine ⟨one k'.name (v + 0 + 0), ⟨rfl, rfl, rfl, (moves_set { s with tok := add (add s.tok (t, frm) (-v)) (t, to) v } frm k'.name v 0 0).book⟩, ?_, q.1, ?_, tk, rfl, rfl, rfl, rfl, rfl, rfl, ?_⟩
            · intro n hn'
              unfold one
              rw [if_neg (fun (x : n = k'.name) => hn' (by rw [x]; exact hn))]
            · intro x
              rw [at_one _ _ _ _ _ _ h.nodup hn hk]
              by_cases y : x = t
              · rw [if_pos y, if_pos ⟨y, q1⟩]; omega
              · rw [if_neg y, if_neg (fun z => y z.1)]
            · intro u n
              rw [balance_set]
              by_cases y : u = frm ∧ n = k'.name
              · rw [if_pos y, y.1, y.2]
                refine ⟨?_, ?_, ?_⟩
                · show (balance s frm k'.name).usable ≤ (balance s frm k'.name).usable + v
                  have := q.1
                  omega
                · show (balance s frm k'.name).locked + 0 = _
                  omega
                · show (balance s frm k'.name).refundable + 0 = _
                  omega
              · rw [if_neg y]; exact ⟨Int.le_refl _, rfl, rfl⟩
    · rw [if_neg q1] at e
      by_cases q2 : cfg.accepts to = true
      · rw [if_pos q2] at e
        cases e
        refine ⟨fun _ => 0, ⟨rfl, rfl, rfl, fun n => by rw [Int.add_zero]; rfl⟩, fun _ _ => rfl, q.1, ?_, tk, rfl, rfl, rfl, rfl, rfl, rfl, fun u n => ⟨Int.le_refl _, rfl, rfl⟩⟩
        intro x
        rw [at_none, if_neg (fun z => q1 z.2)]
      · rw [if_neg q2] at e; cases e
  · rw [if_neg q] at e; cases e

/-- What a loop over pending assets does. -/
theorem settle_ok (code : Int) (u : Bytes) (l : List Asset) (s : S) :
    Moves s (settle code u s l) (fun _ => 0) ∧ (settle code u s l).serialNo = s.serialNo ∧ (settle code u s l).pending = s.pending ∧
      (settle code u s l).pendingFees = s.pendingFees ∧ (settle code u s l).tok = s.tok ∧ (settle code u s l).paid = s.paid ∧
      (settle code u s l).owners = s.owners ∧ (settle code u s l).count = s.count ∧
      (∀ n, at0 (settle code u s l).fees n = at0 s.fees n + if code = 0 then fsum n l else 0) ∧
      (∀ n, at0 (settle code u s l).settled n = at0 s.settled n + if code = 0 then vsum n l else 0) ∧
      (∀ u' n, (balance (settle code u s l) u' n).usable = (balance s u' n).usable + if u' = u ∧ code ≠ 0 then tsum n l else 0) ∧
      (∀ u' n, (balance (settle code u s l) u' n).locked = (balance s u' n).locked - if u' = u then tsum n l else 0) ∧
      (∀ u' n, (balance (settle code u s l) u' n).refundable = (balance s u' n).refundable) := by
  induction l generalizing s with
  | nil =>
    refine ⟨⟨rfl, rfl, rfl, fun n => by rw [Int.add_zero]; rfl⟩, rfl, rfl, rfl, rfl, rfl, rfl, rfl, ?_, ?_, ?_, ?_, fun u' n => rfl⟩
    · intro n; show at0 s.fees n = _; by_cases c : code = 0
      · rw [if_pos c]; dsimp only [fsum]; omega
      · rw [if_neg c]; omega
    · intro n; show at0 s.settled n = _; by_cases c : code = 0
      · rw [if_pos c]; dsimp only [vsum]; omega
      · rw [if_neg c]; omega
    · intro u' n; show (balance s u' n).usable = _; by_cases c : u' = u ∧ code ≠ 0
      · rw [if_pos c]; dsimp only [tsum]; omega
      · rw [if_neg c]; omega
    · intro u' n; show (balance s u' n).locked = _; by_cases c : u' = u
      · rw [if_pos c]; dsimp only [tsum]; omega
      · rw [if_neg c]; omega
  | cons a l ih =>
    by_cases c : code = 0
    · have e : settle code u s (a :: l) = settle code u { setBalance s u a.name 0 (-(a.value + a.fee)) 0 with fees := add s.fees a.name a.fee, settled := add s.settled a.name a.value } l := by
        show (if code = 0 then _ else _) = _
        rw [if_pos c]
        rfl
      rw [e]
      obtain ⟨i1, i2, i3, i4, i5, i6, i7, i8, i9, i10, i11, i12, i13⟩ := ih { setBalance s u a.name 0 (-(a.value + a.fee)) 0 with fees := add s.fees a.name a.fee, settled := add s.settled a.name a.value }
      refine ⟨⟨i1.addrOf, i1.names, i1.tokens, ?_⟩, i2, i3, i4, i5, i6, i7, i8, ?_, ?_, ?_, ?_, ?_⟩
      · intro n
        rw [i1.book]
        have b := bsum_set s u a.name n 0 (-(a.value + a.fee)) 0
        show bsum (setBalance s u a.name 0 (-(a.value + a.fee)) 0) n + at0 (add s.fees a.name a.fee) n + at0 (add s.settled a.name a.value) n - at0 s.paid n + 0 = book s n + 0
        rw [b, at0_add, at0_add]
        unfold book one
        by_cases q : n = a.name
        · rw [if_pos q, if_pos q, if_pos q]; omega
        · rw [if_neg q, if_neg q, if_neg q]; omega
      · intro n
        rw [i9, if_pos c, if_pos c]
        show at0 (add s.fees a.name a.fee) n + _ = _
        rw [at0_add]
        dsimp only [fsum]
        by_cases q : n = a.name
        · rw [if_pos q, if_pos q.symm]; omega
        · rw [if_neg q, if_neg (Ne.symm q)]; omega
      · intro n
        rw [i10, if_pos c, if_pos c]
        show at0 (add s.settled a.name a.value) n + _ = _
        rw [at0_add]
        dsimp only [vsum]
        by_cases q : n = a.name
        · rw [if_pos q, if_pos q.symm]; omega
        · rw [if_neg q, if_neg (Ne.symm q)]; omega
      · intro u' n
        rw [i11, if_neg (fun x => x.2 c), if_neg (fun x => x.2 c)]
        show (balance (setBalance s u a.name 0 (-(a.value + a.fee)) 0) u' n).usable + 0 = _
        rw [balance_set]
        by_cases q : u' = u ∧ n = a.name
        · rw [if_pos q, q.1, q.2]; dsimp only; omega
        · rw [if_neg q]
      · intro u' n
        rw [i12]
        show (balance (setBalance s u a.name 0 (-(a.value + a.fee)) 0) u' n).locked - _ = _
        rw [balance_set]
        dsimp only [tsum]
        by_cases q : u' = u
        · rw [if_pos q, if_pos q]
          by_cases r : n = a.name
          · rw [if_pos ⟨q, r⟩, if_pos r.symm, q, r]; dsimp only; omega
          · rw [if_neg (fun x => r x.2), if_neg (Ne.symm r)]; omega
        · rw [if_neg q, if_neg q, if_neg (fun x => q x.1)]
      · intro u' n
        rw [i13]
        show (balance (setBalance s u a.name 0 (-(a.value + a.fee)) 0) u' n).refundable = _
        rw [balance_set]
        by_cases q : u' = u ∧ n = a.name
        · rw [if_pos q, q.1, q.2]; dsimp only; omega
        · rw [if_neg q]
    · have e : settle code u s (a :: l) = settle code u (setBalance s u a.name (a.value + a.fee) (-(a.value + a.fee)) 0) l := by
        show (if code = 0 then _ else _) = _
        rw [if_neg c]
      rw [e]
      obtain ⟨i1, i2, i3, i4, i5, i6, i7, i8, i9, i10, i11, i12, i13⟩ := ih (setBalance s u a.name (a.value + a.fee) (-(a.value + a.fee)) 0)
      refine ⟨⟨i1.addrOf, i1.names, i1.tokens, ?_⟩, i2, i3, i4, i5, i6, i7, i8, ?_, ?_, ?_, ?_, ?_⟩
      · intro n
        rw [i1.book, (moves_set s u a.name (a.value + a.fee) (-(a.value + a.fee)) 0).book]
        unfold one
        by_cases q : n = a.name
        · rw [if_pos q]; omega
        · rw [if_neg q]; omega
      · intro n; rw [i9, if_neg c, if_neg c]; rfl
      · intro n; rw [i10, if_neg c, if_neg c]; rfl
      · intro u' n
        rw [i11, balance_set]
        dsimp only [tsum]
        by_cases q : u' = u
        · have z : (u' = u ∧ code ≠ 0) := ⟨q, c⟩
          simp only [if_pos z]
          by_cases r : n = a.name
          · rw [if_pos ⟨q, r⟩, if_pos r.symm, q, r]; dsimp only; omega
          · rw [if_neg (fun x => r x.2), if_neg (Ne.symm r)]; omega
        · rw [if_neg (fun x => q x.1), if_neg (fun x => q x.1), if_neg (fun x => q x.1)]
      · intro u' n
        rw [i12, balance_set]
        dsimp only [tsum]
        by_cases q : u' = u
        · rw [if_pos q, if_pos q]
          by_cases r : n = a.name
          · rw [if_pos ⟨q, r⟩, if_pos r.symm, q, r]; dsimp only; omega
          · rw [if_neg (fun x => r x.2), if_neg (Ne.symm r)]; omega
        · rw [if_neg q, if_neg q, if_neg (fun x => q x.1)]
      · intro u' n
        rw [i13, balance_set]
        by_cases q : u' = u ∧ n = a.name
        · rw [if_pos q, q.1, q.2]; dsimp only; omega
        · rw [if_neg q]

theorem recredit_ok (l : List Asset) (s : S) :
    Moves s (recredit s l) (fun _ => 0) ∧ (recredit s l).serialNo = s.serialNo ∧ (recredit s l).pending = s.pending ∧
      (recredit s l).pendingFees = s.pendingFees ∧ (recredit s l).tok = s.tok ∧ (recredit s l).bals = s.bals ∧
      (recredit s l).owners = s.owners ∧ (recredit s l).count = s.count ∧
      (∀ n, at0 (recredit s l).fees n = at0 s.fees n + vsum n l) := by
  induction l generalizing s with
  | nil => exact ⟨⟨rfl, rfl, rfl, fun n => by rw [Int.add_zero]; rfl⟩, rfl, rfl, rfl, rfl, rfl, rfl, rfl, fun n => by show at0 s.fees n = _ + 0; omega⟩
  | cons a l ih =>
    obtain ⟨i1, i2, i3, i4, i5, i6, i7, i8, i9⟩ := ih { s with fees := add s.fees a.name a.value, settled := add s.settled a.name (-a.value) }
    refine ⟨⟨i1.addrOf, i1.names, i1.tokens, ?_⟩, i2, i3, i4, i5, i6, i7, i8, ?_⟩
    · intro n
      show book (recredit { s with fees := add s.fees a.name a.value, settled := add s.settled a.name (-a.value) } l) n = _
      rw [i1.book]
      show bsum s n + at0 (add s.fees a.name a.value) n + at0 (add s.settled a.name (-a.value)) n - at0 s.paid n + 0 = book s n + 0
      rw [at0_add, at0_add]
      unfold book
      by_cases q : n = a.name
      · rw [if_pos q, if_pos q]; omega
      · rw [if_neg q, if_neg q]; omega
    · intro n
      show at0 (recredit { s with fees := add s.fees a.name a.value, settled := add s.settled a.name (-a.value) } l).fees n = _
      rw [i9]
      show at0 (add s.fees a.name a.value) n + _ = _
      rw [at0_add]
      dsimp only [vsum]
      by_cases q : n = a.name
      · rw [if_pos q, if_pos q.symm]; omega
      · rw [if_neg q, if_neg (Ne.symm q)]; omega

theorem moves_id (s s' : S) (h1 : s'.addrOf = s.addrOf) (h2 : s'.names = s.names) (h3 : s'.tokens = s.tokens) (h4 : s'.bals = s.bals)
    (h5 : s'.fees = s.fees) (h6 : s'.settled = s.settled) (h7 : s'.paid = s.paid) : Moves s s' (fun _ => 0) :=
  ⟨h1, h2, h3, fun n => by unfold book bsum; rw [h4, h5, h6, h7]; omega⟩

/-- The assets that a fee gathering sends: each token of the list with its fees, if there are any. -/
def due (fees : Tab Bytes Int) (l : List Bytes) : List Asset := (l.filter fun n => at0 fees n ≠ 0).map fun n => ⟨n, at0 fees n, 0⟩

theorem due_congr (f g : Tab Bytes Int) (l : List Bytes) (h : ∀ n ∈ l, at0 f n = at0 g n) : due f l = due g l := by
  induction l with
  | nil => rfl
  | cons a l ih =>
    have ha := h a List.mem_cons_self
    have ht := ih fun n hn => h n (List.mem_cons_of_mem _ hn)
    unfold due at ht ⊢
    by_cases c : at0 f a = 0
    · rw [List.filter_cons_of_neg (by simpa using c), List.filter_cons_of_neg (by rw [← ha]; simpa using c)]
      exact ht
    · rw [List.filter_cons_of_pos (by simpa using c), List.filter_cons_of_pos (by rw [← ha]; simpa using c)]
      rw [List.map_cons, List.map_cons, ht, ha]

theorem at0_put {K : Type} [DecidableEq K] (t : Tab K Int) (k j : K) (v : Int) : at0 (t.put k v) j = if j = k then v else at0 t j := by
  unfold at0
  rw [Tab.getD_put]

theorem gather_ok (cfg : Cfg) (caller fa : Bytes) (l : List Bytes) (hl : l.Nodup) (s : S) (acc : List Asset) :
    Moves s (gather cfg caller fa s acc l).1 (fun _ => 0) ∧ (gather cfg caller fa s acc l).1.pending = s.pending ∧
      (gather cfg caller fa s acc l).1.tok = s.tok ∧ (gather cfg caller fa s acc l).1.bals = s.bals ∧
      (gather cfg caller fa s acc l).1.owners = s.owners ∧ (gather cfg caller fa s acc l).1.count = s.count ∧
      s.serialNo ≤ (gather cfg caller fa s acc l).1.serialNo ∧
      (∀ p ∈ (gather cfg caller fa s acc l).1.pendingFees, p ∈ s.pendingFees ∨ (p.2.frm = cfg.text caller ∧ p.2.to = fa ∧ s.serialNo < p.1 ∧
        ∃ m, p.2.assets = acc ++ due s.fees m ∧ m <+: l)) ∧
      (∀ n, at0 (gather cfg caller fa s acc l).1.fees n = if n ∈ l then 0 else at0 s.fees n) ∧
      (gather cfg caller fa s acc l).2 = acc ++ due s.fees l ∧
      (due s.fees l ≠ [] → s.serialNo < (gather cfg caller fa s acc l).1.serialNo ∧
        (gather cfg caller fa s acc l).1.pendingFees.get? (gather cfg caller fa s acc l).1.serialNo = some ⟨cfg.text caller, fa, acc ++ due s.fees l⟩) ∧
      (∀ sn, sn ≤ s.serialNo → (gather cfg caller fa s acc l).1.pendingFees.get? sn = s.pendingFees.get? sn) := by
  induction l generalizing s acc with
  | nil =>
    refine ⟨moves_id s s rfl rfl rfl rfl rfl rfl rfl, rfl, rfl, rfl, rfl, rfl, Int.le_refl _, fun p hp => Or.inl hp, ?_, ?_, ?_, fun sn _ => rfl⟩
    · intro n; rw [if_neg List.not_mem_nil]; rfl
    · show acc = acc ++ []; rw [List.append_nil]
    · intro h; exact absurd rfl h
  | cons n l ih =>
    rw [List.nodup_cons] at hl
    by_cases c : at0 s.fees n = 0
    · have e : gather cfg caller fa s acc (n :: l) = gather cfg caller fa s acc l := by
        show (if at0 s.fees n = 0 then _ else _) = _
        rw [if_pos c]
      have d : due s.fees (n :: l) = due s.fees l := by
        unfold due
        rw [List.filter_cons_of_neg (by simpa using c)]
      rw [e, d]
      obtain ⟨i1, i2, i3, i4, i5, i6, i7, i8, i9, i10, i11, i12⟩ := ih hl.2 s acc
      refine ⟨i1, i2, i3, i4, i5, i6, i7, ?_, ?_, i10, i11, i12⟩
      · intro p hp
        rcases i8 p hp with q | ⟨q1, q2, q3, m, q4, q5⟩
        · exact Or.inl q
        · refine Or.inr ⟨q1, q2, q3, n :: m, ?_, ?_⟩
          · rw [q4]
            unfold due
            rw [List.filter_cons_of_neg (by simpa using c)]
          · exact List.cons_prefix_cons.mpr ⟨rfl, q5⟩
      · intro m
        rw [i9]
        by_cases h : m ∈ l
        · rw [if_pos h, if_pos (List.mem_cons_of_mem _ h)]
        · rw [if_neg h]
          by_cases h' : m = n
          · rw [if_pos (by rw [h']; exact List.mem_cons_self), h', c]
          · rw [if_neg (fun x => (List.mem_cons.mp x).elim h' h)]
    · obtain ⟨s1, hs1⟩ : ∃ s1 : S, s1 = { s with serialNo := s.serialNo + 1, pendingFees := s.pendingFees.put (s.serialNo + 1) ⟨cfg.text caller, fa, acc ++ [⟨n, at0 s.fees n, 0⟩]⟩, fees := s.fees.put n 0, settled := add s.settled n (at0 s.fees n) } := ⟨_, rfl⟩
      have e : gather cfg caller fa s acc (n :: l) = gather cfg caller fa s1 (acc ++ [⟨n, at0 s.fees n, 0⟩]) l := by
        show (if at0 s.fees n = 0 then _ else _) = _
        rw [if_neg c, hs1]
      have f1 : ∀ m, at0 s1.fees m = if m = n then 0 else at0 s.fees m := by
        intro m
        rw [hs1]
        exact at0_put _ _ _ _
      have d : ∀ m, n ∉ m → due s.fees (n :: m) = ⟨n, at0 s.fees n, 0⟩ :: due s1.fees m := by
        intro m hm
        have := due_congr s.fees s1.fees m (fun k hk => by
          have : k ≠ n := fun x => hm (x ▸ hk)
          rw [f1, if_neg this])
        rw [← this]
        unfold due
        rw [List.filter_cons_of_pos (by simpa using c), List.map_cons]
      rw [e]
      obtain ⟨i1, i2, i3, i4, i5, i6, i7, i8, i9, i10, i11, i12⟩ := ih hl.2 s1 (acc ++ [⟨n, at0 s.fees n, 0⟩])
      have m1 : Moves s s1 (fun _ => 0) := by
        refine ⟨by rw [hs1], by rw [hs1], by rw [hs1], ?_⟩
        intro m
        have a1 := f1 m
        unfold book
        rw [a1, hs1]
        show bsum s m + _ + at0 (add s.settled n (at0 s.fees n)) m - at0 s.paid m = _
        rw [at0_add]
        by_cases h : m = n
        · rw [if_pos h, if_pos h, h]; omega
        · rw [if_neg h, if_neg h]; omega
      have hsn : s1.serialNo = s.serialNo + 1 := by rw [hs1]
      have hpf : s1.pendingFees = s.pendingFees.put (s.serialNo + 1) ⟨cfg.text caller, fa, acc ++ [⟨n, at0 s.fees n, 0⟩]⟩ := by rw [hs1]
      refine ⟨⟨i1.addrOf.trans m1.addrOf, i1.names.trans m1.names, i1.tokens.trans m1.tokens, fun k => by rw [i1.book, m1.book]; omega⟩,
        i2.trans (by rw [hs1]), i3.trans (by rw [hs1]), i4.trans (by rw [hs1]), i5.trans (by rw [hs1]), i6.trans (by rw [hs1]), by omega, ?_, ?_, ?_, ?_, ?_⟩
      · intro p hp
        rcases i8 p hp with q | ⟨q1, q2, q3, m, q4, q5⟩
        · rw [hpf] at q
          rcases mem_put _ _ _ _ q with w | w
          · right
            rw [w]
            refine ⟨rfl, rfl, by dsimp only; omega, [n], ?_, ?_⟩
            · rw [d [] List.not_mem_nil]; rfl
            · exact List.cons_prefix_cons.mpr ⟨rfl, List.nil_prefix⟩
          · exact Or.inl w
        · refine Or.inr ⟨q1, q2, by omega, n :: m, ?_, List.cons_prefix_cons.mpr ⟨rfl, q5⟩⟩
          rw [q4, d m (fun x => hl.1 (q5.subset x)), List.append_assoc]
          rfl
      · intro m
        rw [i9]
        by_cases h : m ∈ l
        · rw [if_pos h, if_pos (List.mem_cons_of_mem _ h)]
        · rw [if_neg h, f1]
          by_cases h' : m = n
          · rw [if_pos h', if_pos (by rw [h']; exact List.mem_cons_self)]
          · rw [if_neg h', if_neg (fun x => (List.mem_cons.mp x).elim h' h)]
      · rw [i10, d l hl.1, List.append_assoc]; rfl
      · intro _
        refine ⟨by omega, ?_⟩
        by_cases h : due s1.fees l = []
        · have k : ∀ (l : List Bytes) (s : S) (acc : List Asset), due s.fees l = [] → (gather cfg caller fa s acc l).1 = s := by
            intro l
            induction l with
            | nil => intro s acc _; rfl
            | cons a l ih =>
              intro s acc hd
              have : at0 s.fees a = 0 := by
                by_cases w : at0 s.fees a = 0
                · exact w
                · unfold due at hd
                  rw [List.filter_cons_of_pos (by simpa using w)] at hd
                  cases hd
              show (if at0 s.fees a = 0 then _ else _ : S × List Asset).1 = _
              rw [if_pos this]
              apply ih
              unfold due at hd ⊢
              rw [List.filter_cons_of_neg (by simpa using this)] at hd
              exact hd
          rw [k _ _ _ h, hsn, hpf, Tab.get?_put_same, d l hl.1, h]
        · rw [(i11 h).2, d l hl.1, List.append_assoc]; rfl
      · intro sn hsn'
        rw [i12 sn (by omega), hpf, Tab.get?_put_other]
        omega

theorem mem_del_sub {K V : Type} [DecidableEq K] (t : Tab K V) (k : K) : ∀ p ∈ t.del k, p ∈ t := fun p hp => ((Tab.mem_del t k p).mp hp).1

theorem nodup_del {K V : Type} [DecidableEq K] (t : Tab K V) (k : K) (h : (t.map (·.1)).Nodup) : ((t.del k).map (·.1)).Nodup := by
  rw [Tab.keys_del]
  exact h.filter _

/-- What a transfer does. -/
theorem transfer_ok (cfg : Cfg) (s s' : S) (c n : Bytes) (v : Int) (to : Bytes) (out : List Out) (e : transfer cfg s c n v to = some (s', out)) :
    ∃ t k x, s.addrOf.get? n = some t ∧ s.tokens.get? t = some k ∧ cfg.btp to = some x ∧ v ≠ 0 ∧ v ≤ (balance s c n).usable ∧
      s' = { setBalance s c n (-v) v 0 with serialNo := s.serialNo + 1, pending := s.pending.put (s.serialNo + 1) ⟨cfg.text c, x.2, [⟨n, v - feeOf v k.feeNum, feeOf v k.feeNum⟩]⟩ } ∧
      out = [⟨x.1, cfg.svc, s.serialNo + 1, .request ⟨cfg.text c, x.2, [⟨n, v - feeOf v k.feeNum, feeOf v k.feeNum⟩]⟩⟩] := by
  unfold transfer at e
  cases ha : s.addrOf.get? n with
  | none => rw [ha] at e; cases e
  | some t =>
    rw [ha] at e
    dsimp only at e
    by_cases q1 : v = 0
    · rw [if_pos q1] at e; cases e
    · rw [if_neg q1] at e
      by_cases q2 : (balance s c n).usable < v
      · rw [if_pos q2] at e; cases e
      · rw [if_neg q2] at e
        cases hb : cfg.btp to with
        | none => rw [hb] at e; cases e
        | some x =>
          rw [hb] at e
          dsimp only [Option.bind_some] at e
          cases hk : s.tokens.get? t with
          | none => rw [hk] at e; cases e
          | some k =>
            rw [hk] at e
            dsimp only [Option.bind_some] at e
            unfold send at e
            dsimp only at e
            by_cases q3 : cfg.sends x.1 = true
            · rw [if_pos q3] at e
              cases e
              exact ⟨t, k, x, rfl, hk, rfl, q1, by omega, rfl, rfl⟩
            · rw [if_neg q3] at e; cases e

/-- A clean call: not one of `setBalance`. -/
def clean : Op → Prop
  | .setBalance _ _ _ _ _ _ => False
  | _ => True

theorem handleRequest_ok (cfg : Cfg) (s s' : S) (frm svc : Bytes) (sn : Int) (ta : TA) (out : List Out) (h : handleRequest cfg s frm svc sn ta = some (s', out)) :
    ∃ to a l t s1, cfg.parse ta.to = some to ∧ ta.assets = a :: l ∧ s.addrOf.get? a.name = some t ∧ irc2 cfg s t cfg.self to a.value = some s1 ∧
      s' = { s1 with paid := add s1.paid a.name a.value } ∧ out = [⟨frm, svc, sn, .response 0⟩] := by
  unfold handleRequest at h
  cases hp : cfg.parse ta.to with
  | none => rw [hp] at h; cases h
  | some to =>
    rw [hp] at h
    cases hl : ta.assets with
    | nil => rw [hl] at h; cases h
    | cons a l =>
      rw [hl] at h
      dsimp only at h
      cases ht : s.addrOf.get? a.name with
      | none => rw [ht] at h; cases h
      | some t =>
        rw [ht] at h
        dsimp only at h
        cases hi : irc2 cfg s t cfg.self to a.value with
        | none => rw [hi] at h; cases h
        | some s1 =>
          rw [hi] at h
          dsimp only [Option.bind_some] at h
          by_cases q : cfg.sends frm = true
          · rw [if_pos q] at h
            cases h
            exact ⟨to, a, l, t, s1, rfl, rfl, ht, hi, rfl, rfl⟩
          · rw [if_neg q] at h; cases h

theorem handleRequest_inv (cfg : Cfg) (s s' : S) (frm svc : Bytes) (sn : Int) (ta : TA) (out : List Out) (h : Inv cfg s)
    (e : handleRequest cfg s frm svc sn ta = some (s', out)) : Inv cfg s' := by
  obtain ⟨to, a, l, t, s1, _, _, ht, hi, e1, _⟩ := handleRequest_ok cfg s s' frm svc sn ta out e
  obtain ⟨d, m, hd, hv, hda, hk, k1, k2, k3, k4, k5, k6, _⟩ := irc2_ok cfg s s1 t cfg.self to a.value h hi
  have hn : a.name ∈ s.names := (h.reg _).mpr (by rw [ht]; rfl)
  have mp : Moves s s' (fun n => d n + one a.name (-a.value) n) := by
    rw [e1]
    refine ⟨m.addrOf, m.names, m.tokens, ?_⟩
    intro n
    have b := m.book n
    unfold book at b ⊢
    show bsum s1 n + at0 s1.fees n + at0 s1.settled n - at0 (add s1.paid a.name a.value) n = _
    rw [at0_add]
    unfold one
    by_cases q : n = a.name
    · rw [if_pos q, if_pos q]; omega
    · rw [if_neg q, if_neg q]; omega
  refine h.moves _ mp ?_ ?_ ?_ ?_ ?_ ?_
  · intro n hn'
    rw [hd n hn']
    unfold one
    rw [if_neg (fun (x : n = a.name) => hn' (by rw [x]; exact hn))]
    rfl
  · intro x
    rw [at_add, hda, at_one _ _ _ _ _ _ h.nodup hn ht, e1]
    show at0 s1.tok (x, cfg.self) = _
    rw [hk]
    by_cases q : x = t
    · rw [if_pos (show x = t ∧ cfg.self = cfg.self from ⟨q, rfl⟩), if_pos q]; omega
    · rw [if_neg (show ¬(x = t ∧ cfg.self = cfg.self) from fun z => q z.1), if_neg q]; omega
  · intro p hp; rw [e1] at hp; exact Or.inl (by rw [← k2]; exact hp)
  · intro p hp; rw [e1] at hp; exact Or.inl (by rw [← k3]; exact hp)
  · rw [e1]; show (s1.pending.map (·.1)).Nodup; rw [k2]; exact h.pkeys
  · rw [e1]; show ∀ p ∈ s1.pending, p.1 ≤ s1.serialNo; rw [k2, k1]; exact h.pmax

theorem handleResponse_inv (cfg : Cfg) (s s' : S) (sn code : Int) (h : Inv cfg s) (e : handleResponse cfg s sn code = some s') : Inv cfg s' := by
  unfold handleResponse at e
  cases hf : s.pendingFees.get? sn with
  | some ta =>
    rw [hf] at e
    dsimp only at e
    cases hp : cfg.parse ta.frm with
    | none => rw [hp] at e; cases e
    | some u =>
      rw [hp] at e
      cases e
      obtain ⟨r1, r2, r3, r4, r5, r6, r7, r8, r9⟩ := recredit_ok ta.assets s
      by_cases c : code = 1
      · simp only [if_pos c]
        refine h.moves (fun _ => 0) ⟨r1.addrOf, r1.names, r1.tokens, r1.book⟩ (fun _ _ => rfl) ?_ ?_ ?_ ?_ ?_
        · intro t; rw [at_none]; show at0 (recredit s ta.assets).tok _ = _; rw [r5]; omega
        · intro p hp; exact Or.inl (by rw [← r3]; exact hp)
        · intro p hp; exact Or.inl (by rw [← r4]; exact mem_del_sub _ _ p hp)
        · show ((recredit s ta.assets).pending.map (·.1)).Nodup; rw [r3]; exact h.pkeys
        · show ∀ p ∈ (recredit s ta.assets).pending, p.1 ≤ (recredit s ta.assets).serialNo; rw [r3, r2]; exact h.pmax
      · simp only [if_neg c]
        refine h.moves (fun _ => 0) (moves_id s _ rfl rfl rfl rfl rfl rfl rfl) (fun _ _ => rfl) ?_ ?_ ?_ ?_ ?_
        · intro t; rw [at_none]; show at0 s.tok _ = _; omega
        · intro p hp; exact Or.inl hp
        · intro p hp; exact Or.inl (mem_del_sub _ _ p hp)
        · exact h.pkeys
        · exact h.pmax
  | none =>
    rw [hf] at e
    dsimp only at e
    cases ht : s.pending.get? sn with
    | none => rw [ht] at e; cases e
    | some ta =>
      rw [ht] at e
      dsimp only at e
      cases hp : cfg.parse ta.frm with
      | none => rw [hp] at e; cases e
      | some u =>
        rw [hp] at e
        cases e
        obtain ⟨r1, r2, r3, r4, r5, _⟩ := settle_ok code u ta.assets s
        refine h.moves (fun _ => 0) ⟨r1.addrOf, r1.names, r1.tokens, r1.book⟩ (fun _ _ => rfl) ?_ ?_ ?_ ?_ ?_
        · intro t; rw [at_none]; show at0 (settle code u s ta.assets).tok _ = _; rw [r5]; omega
        · intro p hp; exact Or.inl (mem_del_sub _ _ p hp)
        · intro p hp; exact Or.inl (by rw [← r4]; exact hp)
        · exact nodup_del _ _ h.pkeys
        · intro p hp
          show p.1 ≤ (settle code u s ta.assets).serialNo
          rw [r2]
          exact h.pmax p (mem_del_sub _ _ p hp)

theorem handleError_ok (cfg : Cfg) (s s' : S) (c svc : Bytes) (sn : Int) (e : handleError cfg s c svc sn = some s') :
    ∃ ta u to a l, c = cfg.bmc ∧ svc = cfg.svc ∧ s.pending.get? sn = some ta ∧ cfg.parse ta.frm = some u ∧ cfg.parse ta.to = some to ∧ ta.assets = a :: l ∧
      s' = { setBalance s u a.name a.value (-a.value) 0 with pending := s.pending.del sn } := by
  unfold handleError at e
  by_cases q : c = cfg.bmc ∧ svc = cfg.svc
  · rw [if_pos q] at e
    cases ht : s.pending.get? sn with
    | none => rw [ht] at e; cases e
    | some ta =>
      rw [ht] at e
      dsimp only at e
      cases h1 : cfg.parse ta.frm with
      | none => rw [h1] at e; cases e
      | some u =>
        rw [h1] at e
        cases h2 : cfg.parse ta.to with
        | none => rw [h2] at e; cases e
        | some to =>
          rw [h2] at e
          cases h3 : ta.assets with
          | nil => rw [h3] at e; cases e
          | cons a l =>
            rw [h3] at e
            cases e
            exact ⟨ta, u, to, a, l, q.1, q.2, rfl, h1, h2, h3, rfl⟩
  · rw [if_neg q] at e; cases e

theorem feeGathering_ok (cfg : Cfg) (s s' : S) (c fa svc : Bytes) (out : List Out) (e : feeGathering cfg s c fa svc = some (s', out)) :
    c = cfg.bmc ∧ ∃ x, cfg.btp fa = some x ∧ s' = (gather cfg c fa s [] s.names).1 ∧
      (((gather cfg c fa s [] s.names).2 = [] ∧ out = []) ∨
        ((gather cfg c fa s [] s.names).2 ≠ [] ∧ out = [⟨x.1, svc, s'.serialNo, .request ⟨cfg.text c, x.2, (gather cfg c fa s [] s.names).2⟩⟩])) := by
  unfold feeGathering at e
  by_cases q : c = cfg.bmc
  · rw [if_pos q] at e
    refine ⟨q, ?_⟩
    cases hb : cfg.btp fa with
    | none => rw [hb] at e; cases e
    | some x =>
      rw [hb] at e
      dsimp only [Option.bind_some] at e
      by_cases q1 : (gather cfg c fa s [] s.names).2 = []
      · rw [if_pos q1] at e
        cases e
        exact ⟨x, rfl, rfl, Or.inl ⟨q1, rfl⟩⟩
      · rw [if_neg q1] at e
        by_cases q2 : cfg.sends x.1 = true
        · rw [if_pos q2] at e
          cases e
          exact ⟨x, rfl, rfl, Or.inr ⟨q1, rfl⟩⟩
        · rw [if_neg q2] at e; cases e
  · rw [if_neg q] at e; cases e

theorem silent_some {o : Option S} {s : S} {out : List Out} (h : silent o = some (s, out)) : o = some s ∧ out = [] := by
  cases o with
  | none => cases h
  | some x => cases h; exact ⟨rfl, rfl⟩

theorem step_inv (cfg : Cfg) (s s' : S) (h : Inv cfg s) (o : Op) (out : List Out) (hc : clean o) (e : step cfg s o = some (s', out)) : Inv cfg s' := by
  cases o with
  | addOwner c a =>
    obtain ⟨e, _⟩ := silent_some e
    unfold addOwner at e
    by_cases q : isOwner cfg s c = true
    · rw [if_pos q] at e
      cases e
      exact h.moves (fun _ => 0) (moves_id s _ rfl rfl rfl rfl rfl rfl rfl) (fun _ _ => rfl) (fun t => by rw [at_none, Int.add_zero]) (fun p hp => Or.inl hp) (fun p hp => Or.inl hp) h.pkeys h.pmax
    · rw [if_neg q] at e; cases e
  | removeOwner c a =>
    obtain ⟨e, _⟩ := silent_some e
    unfold removeOwner at e
    by_cases q : isOwner cfg s c = true ∧ 1 < s.count
    · rw [if_pos q] at e
      cases e
      exact h.moves (fun _ => 0) (moves_id s _ rfl rfl rfl rfl rfl rfl rfl) (fun _ _ => rfl) (fun t => by rw [at_none, Int.add_zero]) (fun p hp => Or.inl hp) (fun p hp => Or.inl hp) h.pkeys h.pmax
    · rw [if_neg q] at e; cases e
  | register c n f a =>
    obtain ⟨e, _⟩ := silent_some e
    unfold register at e
    by_cases q : isOwner cfg s c = true ∧ s.addrOf.get? n = none
    · rw [if_pos q] at e
      cases e
      have hn : n ∉ s.names := fun x => by have := (h.reg n).mp x; rw [q.2] at this; cases this
      have ga : ∀ m, (s.addrOf.put n a).get? m = if m = n then some a else s.addrOf.get? m := fun m => Tab.get?_put _ _ _ _
      refine ⟨?_, ?_, ?_, ?_, ?_, ?_, h.pfee, h.pkeys, h.pmax⟩
      · show (s.names ++ [n]).Nodup
        rw [List.nodup_append]
        refine ⟨h.nodup, by simp, ?_⟩
        intro x hx y hy
        rw [List.mem_singleton] at hy
        rw [hy]
        exact fun z => hn (z ▸ hx)
      · intro m
        show m ∈ s.names ++ [n] ↔ ((s.addrOf.put n a).get? m).isSome = true
        rw [ga, List.mem_append, List.mem_singleton]
        by_cases w : m = n
        · rw [if_pos w]; simp [w]
        · rw [if_neg w, ← h.reg m]; simp [w]
      · intro t k hk
        show (s.addrOf.put n a).get? k.name = some t
        have hk : (s.tokens.put a ⟨n, f⟩).get? t = some k := hk
        rw [Tab.get?_put] at hk
        by_cases w : t = a
        · rw [if_pos w] at hk
          cases hk
          rw [ga, if_pos rfl, w]
        · rw [if_neg w] at hk
          have := h.tok t k hk
          rw [ga, if_neg]
          · exact this
          · intro z; rw [z, q.2] at this; cases this
      · intro t
        show at0 s.tok (t, cfg.self) = at_ (s.addrOf.put n a) t (book s) (s.names ++ [n])
        rw [h.held]
        unfold at_
        rw [nsum_append]
        have z : nsum (fun m => if (s.addrOf.put n a).get? m = some t then book s m else 0) [n] = 0 := by
          dsimp only [nsum]
          rw [h.unreg n hn]
          by_cases w : (s.addrOf.put n a).get? n = some t
          · rw [if_pos w]; rfl
          · rw [if_neg w]; rfl
        rw [z, Int.add_zero]
        apply nsum_congr
        intro m hm
        rw [ga, if_neg (fun (x : m = n) => hn (x ▸ hm))]
      · intro m hm
        have hm : m ∉ s.names ++ [n] := hm
        exact h.unreg m (fun x => hm (List.mem_append_left _ x))
      · intro p hp
        obtain ⟨u, b, b1, b2, b3⟩ := h.pend p hp
        exact ⟨u, b, b1, b2, List.mem_append_left _ b3⟩
    · rw [if_neg q] at e; cases e
  | tokenSend t frm to v =>
    have e : (if frm = cfg.self then none else silent (irc2 cfg s t frm to v)) = some (s', out) := e
    by_cases q : frm = cfg.self
    · rw [if_pos q] at e; cases e
    · rw [if_neg q] at e
      obtain ⟨e, _⟩ := silent_some e
      obtain ⟨d, m, hd, hv, hda, hk, k1, k2, k3, _⟩ := irc2_ok cfg s s' t frm to v h e
      refine h.moves d m hd ?_ ?_ ?_ ?_ ?_
      · intro x
        rw [hk, hda, if_neg (show ¬(x = t ∧ frm = cfg.self) from fun z => q z.2)]
        omega
      · intro p hp; exact Or.inl (by rw [← k2]; exact hp)
      · intro p hp; exact Or.inl (by rw [← k3]; exact hp)
      · rw [k2]; exact h.pkeys
      · rw [k2, k1]; exact h.pmax
  | transfer c n v to =>
    obtain ⟨t, k, x, ha, hk, _, _, _, e1, _⟩ := transfer_ok cfg s s' c n v to out e
    have hn : n ∈ s.names := (h.reg _).mpr (by rw [ha]; rfl)
    have m := moves_set s c n (-v) v 0
    have hnew : s.pending.get? (s.serialNo + 1) = none := by
      rw [Tab.get?_none]
      intro z
      obtain ⟨p, p1, p2⟩ := List.mem_map.mp z
      have := h.pmax p p1
      omega
    rw [e1]
    refine h.moves (fun _ => 0) ⟨rfl, rfl, rfl, ?_⟩ (fun _ _ => rfl) ?_ ?_ ?_ ?_ ?_
    · intro y
      have b := m.book y
      unfold one at b
      show book (setBalance s c n (-v) v 0) y = _
      rw [b]
      by_cases w : y = n
      · rw [if_pos w]; omega
      · rw [if_neg w]
    · intro y; rw [at_none, Int.add_zero]; rfl
    · intro p hp
      rcases mem_put _ _ _ _ hp with w | w
      · exact Or.inr ⟨c, _, by rw [w], by rw [w], hn⟩
      · exact Or.inl w
    · intro p hp; exact Or.inl hp
    · exact nodup_put _ _ _ h.pkeys
    · intro p hp
      show p.1 ≤ s.serialNo + 1
      rcases mem_put _ _ _ _ hp with w | w
      · rw [w]; exact Int.le_refl _
      · have := h.pmax p w; omega
  | setBalance c u n a b d => exact hc.elim
  | message c frm svc sn m =>
    have e : handleMessage cfg s c frm svc sn m = some (s', out) := e
    unfold handleMessage at e
    by_cases q : c = cfg.bmc ∧ svc = cfg.svc
    · rw [if_pos q] at e
      cases m with
      | request ta => exact handleRequest_inv cfg s s' frm svc sn ta out h e
      | response code =>
        dsimp only at e
        cases e2 : handleResponse cfg s sn code with
        | none => rw [e2] at e; cases e
        | some s1 => rw [e2] at e; cases e; exact handleResponse_inv cfg s _ sn code h e2
      | unknown => cases e; exact h
      | other =>
        dsimp only at e
        by_cases w : cfg.sends frm = true
        · rw [if_pos w] at e; cases e; exact h
        · rw [if_neg w] at e; cases e
      | bad => cases e
    · rw [if_neg q] at e; cases e
  | error c svc sn =>
    obtain ⟨e, _⟩ := silent_some e
    obtain ⟨ta, u, to, a, l, _, _, ht, _, _, _, e1⟩ := handleError_ok cfg s s' c svc sn e
    have m := moves_set s u a.name a.value (-a.value) 0
    rw [e1]
    refine h.moves (fun _ => 0) ⟨rfl, rfl, rfl, ?_⟩ (fun _ _ => rfl) ?_ ?_ ?_ ?_ ?_
    · intro y
      have b := m.book y
      unfold one at b
      show book (setBalance s u a.name a.value (-a.value) 0) y = _
      rw [b]
      by_cases w : y = a.name
      · rw [if_pos w]; omega
      · rw [if_neg w]
    · intro y; rw [at_none, Int.add_zero]; rfl
    · intro p hp; exact Or.inl (mem_del_sub _ _ p hp)
    · intro p hp; exact Or.inl hp
    · exact nodup_del _ _ h.pkeys
    · intro p hp; exact h.pmax p (mem_del_sub _ _ p hp)
  | gather c fa svc =>
    obtain ⟨_, x, _, e1, _⟩ := feeGathering_ok cfg s s' c fa svc out e
    obtain ⟨i1, i2, i3, i4, _, _, i7, i8, _⟩ := gather_ok cfg c fa s.names h.nodup s []
    rw [e1]
    refine h.moves (fun _ => 0) i1 (fun _ _ => rfl) ?_ ?_ ?_ ?_ ?_
    · intro y; rw [at_none, Int.add_zero, i3]
    · intro p hp; exact Or.inl (by rw [← i2]; exact hp)
    · intro p hp
      rcases i8 p hp with w | w
      · exact Or.inl w
      · exact Or.inr ⟨c, w.1⟩
    · rw [i2]; exact h.pkeys
    · rw [i2]; intro p hp; exact Int.le_trans (h.pmax p hp) i7

theorem run_inv (cfg : Cfg) (l : List Op) (hl : ∀ o ∈ l, clean o) (s : S) (h : Inv cfg s) : Inv cfg (run cfg s l) := by
  induction l generalizing s with
  | nil => exact h
  | cons o l ih =>
    unfold run
    cases e : step cfg s o with
    | none => exact ih (fun o ho => hl o (List.mem_cons_of_mem _ ho)) s h
    | some x => exact ih (fun o ho => hl o (List.mem_cons_of_mem _ ho)) x.1 (step_inv cfg s x.1 h o x.2 (hl o List.mem_cons_self) (by rw [e]))

/-! ### Amounts -/

/-- A proper call: not one of `setBalance`, a positive amount, a fee of at most the whole. -/
def proper : Op → Prop
  | .setBalance _ _ _ _ _ _ => False
  | .transfer _ _ v _ => 0 < v
  | .register _ _ f _ => 0 ≤ f ∧ f ≤ 10000
  | _ => True

/-- Not an error from the message center. -/
def noError : Op → Prop
  | .error _ _ _ => False
  | _ => True

theorem proper_clean (o : Op) (h : proper o) : clean o := by
  cases o <;> first | trivial | exact h

structure Fine (D : Prop) (cfg : Cfg) (s : S) : Prop where
  usable : ∀ u n, 0 ≤ (balance s u n).usable
  refund : ∀ u n, (balance s u n).refundable = 0
  amounts : ∀ p ∈ s.pending, ∀ a ∈ p.2.assets, 0 < a.value + a.fee ∧ 0 ≤ a.fee ∧ 0 ≤ a.value
  locked : ∀ u n, psum cfg s u n ≤ (balance s u n).locked
  exact : D → ∀ u n, (balance s u n).locked = psum cfg s u n
  ratio : ∀ t k, s.tokens.get? t = some k → 0 ≤ k.feeNum ∧ k.feeNum ≤ 10000
  fees : ∀ n, 0 ≤ at0 s.fees n
  pfees : ∀ p ∈ s.pendingFees, ∀ a ∈ p.2.assets, 0 ≤ a.value

theorem fine_init (D : Prop) (cfg : Cfg) (tok : Tab (Bytes × Bytes) Int) : Fine D cfg (init cfg tok) where
  usable := fun _ _ => Int.le_refl _
  refund := fun _ _ => rfl
  amounts := by intro p hp; cases hp
  locked := fun _ _ => Int.le_refl _
  exact := fun _ _ _ => rfl
  ratio := by intro t k h; simp [init, Tab.get?] at h
  fees := fun _ => Int.le_refl _
  pfees := by intro p hp; cases hp

theorem vsum_nonneg (n : Bytes) (l : List Asset) (h : ∀ a ∈ l, 0 ≤ a.value) : 0 ≤ vsum n l := by
  induction l with
  | nil => exact Int.le_refl _
  | cons a l ih =>
    have h1 := h a List.mem_cons_self
    have h2 := ih fun x hx => h x (List.mem_cons_of_mem _ hx)
    dsimp only [vsum]
    by_cases q : a.name = n
    · rw [if_pos q]; omega
    · rw [if_neg q]; omega

theorem fsum_nonneg (n : Bytes) (l : List Asset) (h : ∀ a ∈ l, 0 ≤ a.fee) : 0 ≤ fsum n l := by
  induction l with
  | nil => exact Int.le_refl _
  | cons a l ih =>
    have h1 := h a List.mem_cons_self
    have h2 := ih fun x hx => h x (List.mem_cons_of_mem _ hx)
    dsimp only [fsum]
    by_cases q : a.name = n
    · rw [if_pos q]; omega
    · rw [if_neg q]; omega

theorem psum_nonneg (cfg : Cfg) (s : S) (u n : Bytes) (h : ∀ p ∈ s.pending, ∀ a ∈ p.2.assets, 0 < a.value + a.fee ∧ 0 ≤ a.fee ∧ 0 ≤ a.value) : 0 ≤ psum cfg s u n := by
  unfold psum
  apply Tab.sum_nonneg
  intro p hp
  show 0 ≤ if p.2.frm = cfg.text u then tsum n p.2.assets else 0
  by_cases q : p.2.frm = cfg.text u
  · rw [if_pos q, tsum_eq]
    have h1 := vsum_nonneg n p.2.assets fun a ha => (h p hp a ha).2.2
    have h2 := fsum_nonneg n p.2.assets fun a ha => (h p hp a ha).2.1
    omega
  · rw [if_neg q]; exact Int.le_refl _

/-- A state with the same pending transfers and balances that did not fall. -/
theorem Fine.same {D : Prop} {cfg : Cfg} {s s' : S} (h : Fine D cfg s) (h1 : s'.pending = s.pending)
    (h2 : ∀ u n, (balance s u n).usable ≤ (balance s' u n).usable ∧ (balance s' u n).locked = (balance s u n).locked ∧
      (balance s' u n).refundable = (balance s u n).refundable)
    (h3 : ∀ t k, s'.tokens.get? t = some k → 0 ≤ k.feeNum ∧ k.feeNum ≤ 10000)
    (h4 : ∀ n, 0 ≤ at0 s'.fees n) (h5 : ∀ p ∈ s'.pendingFees, ∀ a ∈ p.2.assets, 0 ≤ a.value) : Fine D cfg s' where
  usable := fun u n => Int.le_trans (h.usable u n) (h2 u n).1
  refund := fun u n => (h2 u n).2.2.trans (h.refund u n)
  amounts := by rw [h1]; exact h.amounts
  locked := by intro u n; rw [(h2 u n).2.1]; unfold psum; rw [h1]; exact h.locked u n
  exact := by intro d u n; rw [(h2 u n).2.1]; unfold psum; rw [h1]; exact h.exact d u n
  ratio := h3
  fees := h4
  pfees := h5

theorem feeOf_range (v f : Int) (hv : 0 < v) (h0 : 0 ≤ f) (h1 : f ≤ 10000) : 0 ≤ feeOf v f ∧ feeOf v f ≤ v := by
  unfold feeOf
  have hvf : 0 ≤ v * f := Int.mul_nonneg (by omega) h0
  have hle : v * f ≤ v * 10000 := Int.mul_le_mul_of_nonneg_left h1 (by omega)
  rw [Int.tdiv_eq_ediv_of_nonneg hvf]
  omega

theorem text_inj (cfg : Cfg) (ht : ∀ u, cfg.parse (cfg.text u) = some u) (u v : Bytes) (h : cfg.text u = cfg.text v) : u = v := by
  have := ht u
  rw [h, ht v] at this
  exact (Option.some.inj this).symm

theorem step_fine (D : Prop) (cfg : Cfg) (ht : ∀ u, cfg.parse (cfg.text u) = some u) (s s' : S) (hi : Inv cfg s) (h : Fine D cfg s) (o : Op) (out : List Out) (hp : proper o)
    (hd : D → noError o) (e : step cfg s o = some (s', out)) : Fine D cfg s' := by
  cases o with
  | addOwner c a =>
    obtain ⟨e, _⟩ := silent_some e
    unfold addOwner at e
    by_cases q : isOwner cfg s c = true
    · rw [if_pos q] at e
      cases e
      exact h.same rfl (fun u n => ⟨Int.le_refl _, rfl, rfl⟩) h.ratio h.fees h.pfees
    · rw [if_neg q] at e; cases e
  | removeOwner c a =>
    obtain ⟨e, _⟩ := silent_some e
    unfold removeOwner at e
    by_cases q : isOwner cfg s c = true ∧ 1 < s.count
    · rw [if_pos q] at e
      cases e
      exact h.same rfl (fun u n => ⟨Int.le_refl _, rfl, rfl⟩) h.ratio h.fees h.pfees
    · rw [if_neg q] at e; cases e
  | register c n f a =>
    obtain ⟨e, _⟩ := silent_some e
    unfold register at e
    by_cases q : isOwner cfg s c = true ∧ s.addrOf.get? n = none
    · rw [if_pos q] at e
      cases e
      refine h.same rfl (fun u n => ⟨Int.le_refl _, rfl, rfl⟩) ?_ h.fees h.pfees
      intro t k hk
      have hk : (s.tokens.put a ⟨n, f⟩).get? t = some k := hk
      rw [Tab.get?_put] at hk
      by_cases w : t = a
      · rw [if_pos w] at hk; cases hk; exact hp
      · rw [if_neg w] at hk; exact h.ratio t k hk
    · rw [if_neg q] at e; cases e
  | tokenSend t frm to v =>
    have e : (if frm = cfg.self then none else silent (irc2 cfg s t frm to v)) = some (s', out) := e
    by_cases q : frm = cfg.self
    · rw [if_pos q] at e; cases e
    · rw [if_neg q] at e
      obtain ⟨e, _⟩ := silent_some e
      obtain ⟨d, m, _, _, _, _, k1, k2, k3, k4, _, _, k7⟩ := irc2_ok cfg s s' t frm to v hi e
      refine h.same k2 k7 ?_ ?_ ?_
      · rw [m.tokens]; exact h.ratio
      · rw [k4]; exact h.fees
      · rw [k3]; exact h.pfees
  | transfer c n v to =>
    have hp : 0 < v := hp
    obtain ⟨t, k, x, ha, hk, _, _, hle, e1, _⟩ := transfer_ok cfg s s' c n v to out e
    have hr := feeOf_range v k.feeNum hp (h.ratio t k hk).1 (h.ratio t k hk).2
    have hnew : s.pending.get? (s.serialNo + 1) = none := by
      rw [Tab.get?_none]
      intro z
      obtain ⟨p, p1, p2⟩ := List.mem_map.mp z
      have := hi.pmax p p1
      omega
    have hb : ∀ u m, balance s' u m = if u = c ∧ m = n then ⟨(balance s c n).usable + -v, (balance s c n).locked + v, (balance s c n).refundable + 0⟩ else balance s u m := by
      intro u m
      rw [e1]
      exact balance_set s c n u m (-v) v 0
    have hps : ∀ u m, psum cfg s' u m = psum cfg s u m + if u = c ∧ m = n then v else 0 := by
      intro u m
      rw [e1]
      show (Tab.put s.pending (s.serialNo + 1) _).sum _ = _
      rw [Tab.sum_put_new _ _ _ _ hnew]
      show psum cfg s u m + _ = _
      by_cases w : u = c
      · rw [if_pos (by rw [w])]
        dsimp only [tsum]
        by_cases y : m = n
        · rw [if_pos y.symm, if_pos ⟨w, y⟩]; omega
        · rw [if_neg (Ne.symm y), if_neg (fun z => y z.2)]; omega
      · rw [if_neg (fun z => w (text_inj cfg ht _ _ z).symm), if_neg (fun z => w z.1)]
    refine ⟨?_, ?_, ?_, ?_, ?_, ?_, ?_, ?_⟩
    · intro u m
      rw [hb]
      by_cases w : u = c ∧ m = n
      · rw [if_pos w]; dsimp only; omega
      · rw [if_neg w]; exact h.usable u m
    · intro u m
      rw [hb]
      by_cases w : u = c ∧ m = n
      · rw [if_pos w]; dsimp only; rw [h.refund]; rfl
      · rw [if_neg w]; exact h.refund u m
    · rw [e1]
      intro p hp' a ha'
      rcases mem_put _ _ _ _ hp' with w | w
      · rw [w] at ha'
        dsimp only at ha'
        rw [List.mem_singleton] at ha'
        rw [ha']
        dsimp only
        omega
      · exact h.amounts p w a ha'
    · intro u m
      have := h.locked u m
      rw [hb, hps]
      by_cases w : u = c ∧ m = n
      · rw [if_pos w, if_pos w]; rw [w.1, w.2] at this ⊢; dsimp only; omega
      · rw [if_neg w, if_neg w]; omega
    · intro d u m
      have := h.exact d u m
      rw [hb, hps]
      by_cases w : u = c ∧ m = n
      · rw [if_pos w, if_pos w]; rw [w.1, w.2] at this ⊢; dsimp only; omega
      · rw [if_neg w, if_neg w]; omega
    · rw [e1]; exact h.ratio
    · rw [e1]; exact h.fees
    · rw [e1]; exact h.pfees
  | setBalance c u n a b d => exact hp.elim
  | message c frm svc sn m =>
    have e : handleMessage cfg s c frm svc sn m = some (s', out) := e
    unfold handleMessage at e
    by_cases q : c = cfg.bmc ∧ svc = cfg.svc
    · rw [if_pos q] at e
      cases m with
      | request ta =>
        obtain ⟨to, a, l, t, s1, _, _, _, hirc, e1, _⟩ := handleRequest_ok cfg s s' frm svc sn ta out e
        obtain ⟨d, m, _, _, _, _, k1, k2, k3, k4, _, _, k7⟩ := irc2_ok cfg s s1 t cfg.self to a.value hi hirc
        rw [e1]
        refine h.same k2 k7 ?_ ?_ ?_
        · show ∀ t k, s1.tokens.get? t = some k → _
          rw [m.tokens]; exact h.ratio
        · show ∀ n, 0 ≤ at0 s1.fees n
          rw [k4]; exact h.fees
        · show ∀ p ∈ s1.pendingFees, _
          rw [k3]; exact h.pfees
      | response code =>
        dsimp only at e
        cases e2 : handleResponse cfg s sn code with
        | none => rw [e2] at e; cases e
        | some s1 =>
          rw [e2] at e
          cases e
          unfold handleResponse at e2
          cases hf : s.pendingFees.get? sn with
          | some ta =>
            rw [hf] at e2
            dsimp only at e2
            cases hp1 : cfg.parse ta.frm with
            | none => rw [hp1] at e2; cases e2
            | some u =>
              rw [hp1] at e2
              cases e2
              obtain ⟨r1, r2, r3, r4, r5, r6, r7, r8, r9⟩ := recredit_ok ta.assets s
              by_cases c1 : code = 1
              · simp only [if_pos c1]
                refine h.same r3 ?_ ?_ ?_ ?_
                · intro u' n
                  have : balance { recredit s ta.assets with pendingFees := (recredit s ta.assets).pendingFees.del sn } u' n = balance s u' n := by
                    unfold balance
                    show (recredit s ta.assets).bals.getD _ _ = _
                    rw [r6]
                  rw [this]
                  exact ⟨Int.le_refl _, rfl, rfl⟩
                · show ∀ t k, (recredit s ta.assets).tokens.get? t = some k → _
                  rw [r1.tokens]; exact h.ratio
                · intro n
                  show 0 ≤ at0 (recredit s ta.assets).fees n
                  rw [r9]
                  have h1 := h.fees n
                  have h2 := vsum_nonneg n ta.assets (h.pfees (sn, ta) (Tab.get?_mem _ _ _ hf))
                  omega
                · intro p hp2
                  exact h.pfees p (by rw [← r4]; exact mem_del_sub _ _ p hp2)
              · simp only [if_neg c1]
                exact h.same rfl (fun u n => ⟨Int.le_refl _, rfl, rfl⟩) h.ratio h.fees (fun p hp2 => h.pfees p (mem_del_sub _ _ p hp2))
          | none =>
            rw [hf] at e2
            dsimp only at e2
            cases htx : s.pending.get? sn with
            | none => rw [htx] at e2; cases e2
            | some ta =>
              rw [htx] at e2
              dsimp only at e2
              cases hp1 : cfg.parse ta.frm with
              | none => rw [hp1] at e2; cases e2
              | some u =>
                rw [hp1] at e2
                cases e2
                have hmem := Tab.get?_mem _ _ _ htx
                obtain ⟨u0, _, b1, _⟩ := hi.pend _ hmem
                have hu : ta.frm = cfg.text u := by
                  have b1 : ta.frm = cfg.text u0 := b1
                  rw [b1, ht] at hp1
                  rw [b1, Option.some.inj hp1]
                have am := h.amounts _ hmem
                have hv : ∀ n, 0 ≤ vsum n ta.assets := fun n => vsum_nonneg n ta.assets fun a ha => (am a ha).2.2
                have hfs : ∀ n, 0 ≤ fsum n ta.assets := fun n => fsum_nonneg n ta.assets fun a ha => (am a ha).2.1
                obtain ⟨r1, r2, r3, r4, r5, r6, r7, r8, r9, r10, r11, r12, r13⟩ := settle_ok code u ta.assets s
                have hps : ∀ u' n, psum cfg { settle code u s ta.assets with pending := s.pending.del sn } u' n = psum cfg s u' n - if u' = u then tsum n ta.assets else 0 := by
                  intro u' n
                  show (s.pending.del sn).sum _ = _
                  rw [Tab.sum_del _ _ hi.pkeys sn ta htx]
                  show psum cfg s u' n - _ = _
                  by_cases w : u' = u
                  · rw [if_pos w, if_pos (by rw [w]; exact hu)]
                  · rw [if_neg w, if_neg (fun z => w (text_inj cfg ht _ _ (z.symm.trans hu)))]
                refine ⟨?_, ?_, ?_, ?_, ?_, ?_, ?_, ?_⟩
                · intro u' n
                  show 0 ≤ (balance (settle code u s ta.assets) u' n).usable
                  rw [r11]
                  have h0 := h.usable u' n
                  by_cases w : u' = u ∧ code ≠ 0
                  · rw [if_pos w, tsum_eq]; have := hv n; have := hfs n; omega
                  · rw [if_neg w]; omega
                · intro u' n
                  show (balance (settle code u s ta.assets) u' n).refundable = 0
                  rw [r13]; exact h.refund u' n
                · intro p hp2
                  exact h.amounts p (mem_del_sub _ _ p hp2)
                · intro u' n
                  rw [hps]
                  show _ ≤ (balance (settle code u s ta.assets) u' n).locked
                  rw [r12]
                  have := h.locked u' n
                  omega
                · intro d u' n
                  rw [hps]
                  show (balance (settle code u s ta.assets) u' n).locked = _
                  rw [r12, h.exact d u' n]
                · show ∀ t k, (settle code u s ta.assets).tokens.get? t = some k → _
                  rw [r1.tokens]; exact h.ratio
                · intro n
                  show 0 ≤ at0 (settle code u s ta.assets).fees n
                  rw [r9]
                  have h0 := h.fees n
                  by_cases w : code = 0
                  · rw [if_pos w]; have := hfs n; omega
                  · rw [if_neg w]; omega
                · intro p hp2
                  exact h.pfees p (by rw [← r4]; exact hp2)
      | unknown => cases e; exact h
      | other =>
        dsimp only at e
        by_cases w : cfg.sends frm = true
        · rw [if_pos w] at e; cases e; exact h
        · rw [if_neg w] at e; cases e
      | bad => cases e
    · rw [if_neg q] at e; cases e
  | error c svc sn =>
    obtain ⟨e, _⟩ := silent_some e
    obtain ⟨ta, u, to, a, l, _, _, htx, hp1, _, hl, e1⟩ := handleError_ok cfg s s' c svc sn e
    have hmem := Tab.get?_mem _ _ _ htx
    obtain ⟨u0, a0, b1, b2, _⟩ := hi.pend _ hmem
    have hu : ta.frm = cfg.text u := by
      have b1 : ta.frm = cfg.text u0 := b1
      rw [b1, ht] at hp1
      rw [b1, Option.some.inj hp1]
    have hone : ta.assets = [a] := by
      have b2 : ta.assets = [a0] := b2
      rw [hl] at b2
      cases b2
      exact hl
    have am := h.amounts _ hmem a (by show a ∈ ta.assets; rw [hone]; exact List.mem_singleton_self a)
    have hb : ∀ u' m, balance s' u' m = if u' = u ∧ m = a.name then ⟨(balance s u a.name).usable + a.value, (balance s u a.name).locked + -a.value, (balance s u a.name).refundable + 0⟩ else balance s u' m := by
      intro u' m
      rw [e1]
      exact balance_set s u a.name u' m a.value (-a.value) 0
    have hps : ∀ u' n, psum cfg s' u' n = psum cfg s u' n - if u' = u ∧ n = a.name then a.value + a.fee else 0 := by
      intro u' n
      rw [e1]
      show (s.pending.del sn).sum _ = _
      rw [Tab.sum_del _ _ hi.pkeys sn ta htx]
      show psum cfg s u' n - _ = _
      by_cases w : u' = u
      · rw [if_pos (by rw [w]; exact hu), hone]
        dsimp only [tsum]
        by_cases y : n = a.name
        · rw [if_pos y.symm, if_pos ⟨w, y⟩]; omega
        · rw [if_neg (Ne.symm y), if_neg (fun z => y z.2)]; omega
      · rw [if_neg (fun z => w (text_inj cfg ht _ _ (z.symm.trans hu))), if_neg (fun z => w z.1)]
    refine ⟨?_, ?_, ?_, ?_, ?_, ?_, ?_, ?_⟩
    · intro u' m
      rw [hb]
      by_cases w : u' = u ∧ m = a.name
      · rw [if_pos w]; dsimp only; have := h.usable u a.name; omega
      · rw [if_neg w]; exact h.usable u' m
    · intro u' m
      rw [hb]
      by_cases w : u' = u ∧ m = a.name
      · rw [if_pos w]; dsimp only; rw [h.refund]; rfl
      · rw [if_neg w]; exact h.refund u' m
    · rw [e1]
      intro p hp2
      exact h.amounts p (mem_del_sub _ _ p hp2)
    · intro u' m
      have := h.locked u' m
      rw [hb, hps]
      by_cases w : u' = u ∧ m = a.name
      · rw [if_pos w, if_pos w]; rw [w.1, w.2] at this ⊢; dsimp only; omega
      · rw [if_neg w, if_neg w]; omega
    · intro d; exact (hd d).elim
    · rw [e1]; exact h.ratio
    · rw [e1]; exact h.fees
    · rw [e1]; exact h.pfees
  | gather c fa svc =>
    obtain ⟨_, x, _, e1, _⟩ := feeGathering_ok cfg s s' c fa svc out e
    obtain ⟨i1, i2, i3, i4, _, _, i7, i8, i9, _⟩ := gather_ok cfg c fa s.names hi.nodup s []
    rw [e1]
    refine h.same i2 ?_ ?_ ?_ ?_
    · intro u n
      have : balance (gather cfg c fa s [] s.names).1 u n = balance s u n := by unfold balance; rw [i4]
      rw [this]
      exact ⟨Int.le_refl _, rfl, rfl⟩
    · rw [i1.tokens]; exact h.ratio
    · intro n
      rw [i9]
      by_cases w : n ∈ s.names
      · rw [if_pos w]; exact Int.le_refl _
      · rw [if_neg w]; exact h.fees n
    · intro p hp2
      rcases i8 p hp2 with w | ⟨_, _, _, m, w, _⟩
      · exact h.pfees p w
      · intro a ha
        rw [w, List.nil_append] at ha
        unfold due at ha
        obtain ⟨y, _, y2⟩ := List.mem_map.mp ha
        rw [← y2]
        exact h.fees y

theorem run_fine (D : Prop) (cfg : Cfg) (ht : ∀ u, cfg.parse (cfg.text u) = some u) (l : List Op) (hl : ∀ o ∈ l, proper o) (hd : D → ∀ o ∈ l, noError o) (s : S)
    (hi : Inv cfg s) (h : Fine D cfg s) : Fine D cfg (run cfg s l) := by
  induction l generalizing s with
  | nil => exact h
  | cons o l ih =>
    have tl : ∀ o ∈ l, proper o := fun o ho => hl o (List.mem_cons_of_mem _ ho)
    have td : D → ∀ o ∈ l, noError o := fun d o ho => hd d o (List.mem_cons_of_mem _ ho)
    unfold run
    cases e : step cfg s o with
    | none => exact ih tl td s hi h
    | some x =>
      have e' : step cfg s o = some (x.1, x.2) := by rw [e]
      exact ih tl td x.1 (step_inv cfg s x.1 hi o x.2 (proper_clean o (hl o List.mem_cons_self)) e')
        (step_fine D cfg ht s x.1 hi h o x.2 (hl o List.mem_cons_self) (fun d => hd d o List.mem_cons_self) e')

/-! ### Serial numbers -/

structure Keys (s : S) : Prop where
  pmax : ∀ sn, s.serialNo < sn → s.pending.get? sn = none
  fmax : ∀ sn, s.serialNo < sn → s.pendingFees.get? sn = none
  disj : ∀ sn ta, s.pending.get? sn = some ta → s.pendingFees.get? sn = none

theorem Keys.less {s s' : S} (h : Keys s) (h1 : s.serialNo ≤ s'.serialNo) (h2 : ∀ sn, s'.pending.get? sn = s.pending.get? sn ∨ s'.pending.get? sn = none)
    (h3 : ∀ sn, s'.pendingFees.get? sn = s.pendingFees.get? sn ∨ s'.pendingFees.get? sn = none) : Keys s' where
  pmax := by
    intro sn hsn
    rcases h2 sn with q | q
    · rw [q]; exact h.pmax sn (by omega)
    · exact q
  fmax := by
    intro sn hsn
    rcases h3 sn with q | q
    · rw [q]; exact h.fmax sn (by omega)
    · exact q
  disj := by
    intro sn ta hta
    rcases h3 sn with q | q
    · rw [q]
      rcases h2 sn with w | w
      · exact h.disj sn ta (by rw [← w]; exact hta)
      · rw [w] at hta; cases hta
    · exact q

theorem keys_init (cfg : Cfg) (tok : Tab (Bytes × Bytes) Int) : Keys (init cfg tok) := ⟨fun _ _ => rfl, fun _ _ => rfl, fun _ _ h => by cases h⟩

theorem get?_del_or {K V : Type} [DecidableEq K] (t : Tab K V) (k j : K) : (t.del k).get? j = t.get? j ∨ (t.del k).get? j = none := by
  rw [Tab.get?_del]
  by_cases h : j = k
  · rw [if_pos h]; exact Or.inr rfl
  · rw [if_neg h]; exact Or.inl rfl

theorem step_keys (cfg : Cfg) (s s' : S) (hi : Inv cfg s) (h : Keys s) (o : Op) (out : List Out) (e : step cfg s o = some (s', out)) : Keys s' := by
  have nochange : s'.serialNo = s.serialNo → s'.pending = s.pending → s'.pendingFees = s.pendingFees → Keys s' := by
    intro h1 h2 h3
    exact h.less (by omega) (fun sn => Or.inl (by rw [h2])) (fun sn => Or.inl (by rw [h3]))
  cases o with
  | addOwner c a =>
    obtain ⟨e, _⟩ := silent_some e
    unfold addOwner at e
    by_cases q : isOwner cfg s c = true
    · rw [if_pos q] at e; cases e; exact nochange rfl rfl rfl
    · rw [if_neg q] at e; cases e
  | removeOwner c a =>
    obtain ⟨e, _⟩ := silent_some e
    unfold removeOwner at e
    by_cases q : isOwner cfg s c = true ∧ 1 < s.count
    · rw [if_pos q] at e; cases e; exact nochange rfl rfl rfl
    · rw [if_neg q] at e; cases e
  | register c n f a =>
    obtain ⟨e, _⟩ := silent_some e
    unfold register at e
    by_cases q : isOwner cfg s c = true ∧ s.addrOf.get? n = none
    · rw [if_pos q] at e; cases e; exact nochange rfl rfl rfl
    · rw [if_neg q] at e; cases e
  | tokenSend t frm to v =>
    have e : (if frm = cfg.self then none else silent (irc2 cfg s t frm to v)) = some (s', out) := e
    by_cases q : frm = cfg.self
    · rw [if_pos q] at e; cases e
    · rw [if_neg q] at e
      obtain ⟨e, _⟩ := silent_some e
      obtain ⟨_, _, _, _, _, _, k1, k2, k3, _⟩ := irc2_ok cfg s s' t frm to v hi e
      exact nochange k1 k2 k3
  | transfer c n v to =>
    obtain ⟨t, k, x, _, _, _, _, _, e1, _⟩ := transfer_ok cfg s s' c n v to out e
    have hsn : s'.serialNo = s.serialNo + 1 := by rw [e1]
    have hpf : s'.pendingFees = s.pendingFees := by rw [e1]; rfl
    have hp : ∀ sn, sn ≠ s.serialNo + 1 → s'.pending.get? sn = s.pending.get? sn := by
      intro sn hne
      rw [e1]
      exact Tab.get?_put_other _ _ _ _ hne
    refine ⟨?_, ?_, ?_⟩
    · intro sn h1; rw [hp sn (by omega)]; exact h.pmax sn (by omega)
    · intro sn h1; rw [hpf]; exact h.fmax sn (by omega)
    · intro sn ta h1
      rw [hpf]
      by_cases w : sn = s.serialNo + 1
      · exact h.fmax sn (by omega)
      · exact h.disj sn ta (by rw [← hp sn w]; exact h1)
  | setBalance c u n a b d => obtain ⟨e, _⟩ := silent_some e; cases e; exact nochange rfl rfl rfl
  | message c frm svc sn m =>
    have e : handleMessage cfg s c frm svc sn m = some (s', out) := e
    unfold handleMessage at e
    by_cases q : c = cfg.bmc ∧ svc = cfg.svc
    · rw [if_pos q] at e
      cases m with
      | request ta =>
        obtain ⟨to, a, l, t, s1, _, _, _, hirc, e1, _⟩ := handleRequest_ok cfg s s' frm svc sn ta out e
        obtain ⟨_, _, _, _, _, _, k1, k2, k3, _⟩ := irc2_ok cfg s s1 t cfg.self to a.value hi hirc
        exact nochange (by rw [e1]; exact k1) (by rw [e1]; exact k2) (by rw [e1]; exact k3)
      | response code =>
        dsimp only at e
        cases e2 : handleResponse cfg s sn code with
        | none => rw [e2] at e; cases e
        | some s1 =>
          rw [e2] at e
          cases e
          unfold handleResponse at e2
          cases hf : s.pendingFees.get? sn with
          | some ta =>
            rw [hf] at e2
            dsimp only at e2
            cases hp1 : cfg.parse ta.frm with
            | none => rw [hp1] at e2; cases e2
            | some u =>
              rw [hp1] at e2
              cases e2
              obtain ⟨r1, r2, r3, r4, _⟩ := recredit_ok ta.assets s
              by_cases c1 : code = 1
              · simp only [if_pos c1]
                refine h.less (by show s.serialNo ≤ (recredit s ta.assets).serialNo; omega) (fun k => Or.inl ?_) ?_
                · show (recredit s ta.assets).pending.get? k = _; rw [r3]
                · intro k; show ((recredit s ta.assets).pendingFees.del sn).get? k = _ ∨ ((recredit s ta.assets).pendingFees.del sn).get? k = none; rw [r4]; exact get?_del_or _ _ _
              · simp only [if_neg c1]
                exact h.less (Int.le_refl _) (fun k => Or.inl rfl) (fun k => get?_del_or _ _ _)
          | none =>
            rw [hf] at e2
            dsimp only at e2
            cases htx : s.pending.get? sn with
            | none => rw [htx] at e2; cases e2
            | some ta =>
              rw [htx] at e2
              dsimp only at e2
              cases hp1 : cfg.parse ta.frm with
              | none => rw [hp1] at e2; cases e2
              | some u =>
                rw [hp1] at e2
                cases e2
                obtain ⟨r1, r2, r3, r4, _⟩ := settle_ok code u ta.assets s
                refine h.less (by show s.serialNo ≤ (settle code u s ta.assets).serialNo; omega) (fun k => get?_del_or _ _ _) (fun k => Or.inl ?_)
                show (settle code u s ta.assets).pendingFees.get? k = _
                rw [r4]
      | unknown => cases e; exact h
      | other =>
        dsimp only at e
        by_cases w : cfg.sends frm = true
        · rw [if_pos w] at e; cases e; exact h
        · rw [if_neg w] at e; cases e
      | bad => cases e
    · rw [if_neg q] at e; cases e
  | error c svc sn =>
    obtain ⟨e, _⟩ := silent_some e
    obtain ⟨ta, u, to, a, l, _, _, _, _, _, _, e1⟩ := handleError_ok cfg s s' c svc sn e
    rw [e1]
    exact h.less (Int.le_refl _) (fun k => get?_del_or _ _ _) (fun k => Or.inl rfl)
  | gather c fa svc =>
    obtain ⟨_, x, _, e1, _⟩ := feeGathering_ok cfg s s' c fa svc out e
    obtain ⟨i1, i2, i3, i4, _, _, i7, i8, _, _, _, i12⟩ := gather_ok cfg c fa s.names hi.nodup s []
    rw [e1]
    have big : ∀ (l : List Bytes) (s : S) (acc : List Asset), (∀ sn, s.serialNo < sn → s.pendingFees.get? sn = none) →
        ∀ sn, (gather cfg c fa s acc l).1.serialNo < sn → (gather cfg c fa s acc l).1.pendingFees.get? sn = none := by
      intro l
      induction l with
      | nil => intro s acc h; exact h
      | cons n l ih =>
        intro s acc h
        by_cases q : at0 s.fees n = 0
        · have : gather cfg c fa s acc (n :: l) = gather cfg c fa s acc l := by
            show (if at0 s.fees n = 0 then _ else _) = _
            rw [if_pos q]
          rw [this]; exact ih s acc h
        · have : gather cfg c fa s acc (n :: l) = gather cfg c fa { s with serialNo := s.serialNo + 1, pendingFees := s.pendingFees.put (s.serialNo + 1) ⟨cfg.text c, fa, acc ++ [⟨n, at0 s.fees n, 0⟩]⟩, fees := s.fees.put n 0, settled := add s.settled n (at0 s.fees n) } (acc ++ [⟨n, at0 s.fees n, 0⟩]) l := by
            show (if at0 s.fees n = 0 then _ else _) = _
            rw [if_neg q]
          rw [this]
          apply ih
          intro sn hsn
          have hsn : s.serialNo + 1 < sn := hsn
          show (s.pendingFees.put _ _).get? sn = none
          rw [Tab.get?_put_other _ _ _ _ (by omega)]
          exact h sn (by omega)
    refine ⟨?_, big _ _ _ h.fmax, ?_⟩
    · intro sn hsn
      rw [i2]
      exact h.pmax sn (by omega)
    · intro sn ta hta
      rw [i2] at hta
      have : sn ≤ s.serialNo := by
        by_cases w : sn ≤ s.serialNo
        · exact w
        · rw [h.pmax sn (by omega)] at hta; cases hta
      rw [i12 sn this]
      exact h.disj sn ta hta

theorem run_keys (cfg : Cfg) (l : List Op) (hl : ∀ o ∈ l, clean o) (s : S) (hi : Inv cfg s) (h : Keys s) : Keys (run cfg s l) := by
  induction l generalizing s with
  | nil => exact h
  | cons o l ih =>
    unfold run
    have tl : ∀ o ∈ l, clean o := fun o ho => hl o (List.mem_cons_of_mem _ ho)
    cases e : step cfg s o with
    | none => exact ih tl s hi h
    | some x =>
      have e' : step cfg s o = some (x.1, x.2) := by rw [e]
      exact ih tl x.1 (step_inv cfg s x.1 hi o x.2 (hl o List.mem_cons_self) e') (step_keys cfg s x.1 hi h o x.2 e')

/-! ### C102: the ledger -/

/-- A new contract: it holds no tokens yet; addresses are read as they are written. -/
structure Fresh (cfg : Cfg) (tok : Tab (Bytes × Bytes) Int) : Prop where
  empty : ∀ t, at0 tok (t, cfg.self) = 0
  text : ∀ u, cfg.parse (cfg.text u) = some u

/-- If `setBalance` is not called from outside: the tokens of a contract that the service holds are, over its names, what users have, what
was taken as fees, and what was promised to other networks less what was paid for them. -/
theorem C102_held_partial (cfg : Cfg) (tok : Tab (Bytes × Bytes) Int) (hf : Fresh cfg tok) (l : List Op) (hl : ∀ o ∈ l, clean o) (t : Bytes) :
    at0 (run cfg (init cfg tok) l).tok (t, cfg.self) =
      nsum (fun n => if (run cfg (init cfg tok) l).addrOf.get? n = some t then
        bsum (run cfg (init cfg tok) l) n + at0 (run cfg (init cfg tok) l).fees n + at0 (run cfg (init cfg tok) l).settled n - at0 (run cfg (init cfg tok) l).paid n else 0)
        (run cfg (init cfg tok) l).names :=
  (run_inv cfg l hl _ (inv_init cfg tok hf.empty)).held t

/-- If in addition amounts are positive and fees at most the whole: nobody has less than nothing, and what the pending transfers of a user
take is locked. -/
theorem C102_amounts_partial (cfg : Cfg) (tok : Tab (Bytes × Bytes) Int) (hf : Fresh cfg tok) (l : List Op) (hl : ∀ o ∈ l, proper o) (u n : Bytes) :
    0 ≤ (balance (run cfg (init cfg tok) l) u n).usable ∧ 0 ≤ psum cfg (run cfg (init cfg tok) l) u n ∧
      psum cfg (run cfg (init cfg tok) l) u n ≤ (balance (run cfg (init cfg tok) l) u n).locked ∧ 0 ≤ at0 (run cfg (init cfg tok) l).fees n := by
  have h := run_fine False cfg hf.text l hl (fun x => x.elim) _ (inv_init cfg tok hf.empty) (fine_init False cfg tok)
  exact ⟨h.usable u n, psum_nonneg cfg _ u n h.amounts, h.locked u n, h.fees n⟩

/-- And if no errors come from the message center, what is locked is what the pending transfers take. -/
theorem C102_locked_partial (cfg : Cfg) (tok : Tab (Bytes × Bytes) Int) (hf : Fresh cfg tok) (l : List Op) (hl : ∀ o ∈ l, proper o) (he : ∀ o ∈ l, noError o) (u n : Bytes) :
    (balance (run cfg (init cfg tok) l) u n).locked = psum cfg (run cfg (init cfg tok) l) u n :=
  (run_fine True cfg hf.text l hl (fun _ => he) _ (inv_init cfg tok hf.empty) (fine_init True cfg tok)).exact trivial u n

/-- Anyone may set any balance. -/
theorem C102_anyone_sets_balance (cfg : Cfg) (s : S) (c u n : Bytes) (v : Int) :
    ∃ s', step cfg s (.setBalance c u n v 0 0) = some (s', []) ∧ (balance s' u n).usable = (balance s u n).usable + v := by
  refine ⟨setBalance s u n v 0 0, rfl, ?_⟩
  rw [balance_set, if_pos ⟨rfl, rfl⟩]

/-- A transfer of a negative amount is accepted from anyone: what is usable grows. -/
theorem C102_negative_accepted (cfg : Cfg) (s : S) (c n t : Bytes) (k : Token) (v : Int) (to : Bytes) (x : Bytes × Bytes) (h1 : s.addrOf.get? n = some t)
    (h2 : s.tokens.get? t = some k) (h3 : cfg.btp to = some x) (h4 : cfg.sends x.1 = true) (hv : v < 0) (h0 : 0 ≤ (balance s c n).usable) :
    ∃ s' out, step cfg s (.transfer c n v to) = some (s', out) ∧ (balance s' c n).usable = (balance s c n).usable - v := by
  refine ⟨{ setBalance s c n (-v) v 0 with serialNo := s.serialNo + 1, pending := s.pending.put (s.serialNo + 1) ⟨cfg.text c, x.2, [⟨n, v - feeOf v k.feeNum, feeOf v k.feeNum⟩]⟩ },
    [⟨x.1, cfg.svc, s.serialNo + 1, .request ⟨cfg.text c, x.2, [⟨n, v - feeOf v k.feeNum, feeOf v k.feeNum⟩]⟩⟩], ?_, ?_⟩
  · show transfer cfg s c n v to = _
    unfold transfer send
    rw [h1]
    dsimp only
    rw [if_neg (by omega), if_neg (by omega), h3]
    dsimp only [Option.bind_some]
    rw [h2]
    dsimp only [Option.bind_some]
    rw [if_pos h4]
    rfl
  · show (balance (setBalance s c n (-v) v 0) c n).usable = _
    rw [balance_set, if_pos ⟨rfl, rfl⟩]
    dsimp only
    omega

/-! ### C103: delivered or refunded -/

/-- Every answer to a pending transfer closes it: on success amount and fee are no longer locked and the fee is booked, otherwise both
become usable again. -/
theorem C103_answer (cfg : Cfg) (tok : Tab (Bytes × Bytes) Int) (hf : Fresh cfg tok) (l : List Op) (hl : ∀ o ∈ l, clean o) (frm : Bytes) (sn code : Int) (ta : TA)
    (h : (run cfg (init cfg tok) l).pending.get? sn = some ta) :
    ∃ u s', ta.frm = cfg.text u ∧ step cfg (run cfg (init cfg tok) l) (.message cfg.bmc frm cfg.svc sn (.response code)) = some (s', []) ∧
      s'.pending.get? sn = none ∧
      (∀ n, (balance s' u n).locked = (balance (run cfg (init cfg tok) l) u n).locked - tsum n ta.assets) ∧
      (∀ n, (balance s' u n).usable = (balance (run cfg (init cfg tok) l) u n).usable + if code = 0 then 0 else tsum n ta.assets) ∧
      (∀ n, at0 s'.fees n = at0 (run cfg (init cfg tok) l).fees n + if code = 0 then fsum n ta.assets else 0) := by
  have hi := run_inv cfg l hl _ (inv_init cfg tok hf.empty)
  have hk := run_keys cfg l hl _ (inv_init cfg tok hf.empty) (keys_init cfg tok)
  generalize run cfg (init cfg tok) l = s at hi hk h ⊢
  obtain ⟨u, _, b1, _⟩ := hi.pend _ (Tab.get?_mem _ _ _ h)
  have b1 : ta.frm = cfg.text u := b1
  obtain ⟨r1, r2, r3, r4, r5, r6, r7, r8, r9, r10, r11, r12, r13⟩ := settle_ok code u ta.assets s
  refine ⟨u, { settle code u s ta.assets with pending := s.pending.del sn }, b1, ?_, ?_, ?_, ?_, ?_⟩
  · show handleMessage cfg s cfg.bmc frm cfg.svc sn (.response code) = _
    unfold handleMessage handleResponse
    rw [if_pos ⟨rfl, rfl⟩]
    dsimp only
    rw [hk.disj sn ta h]
    dsimp only
    rw [h]
    dsimp only
    rw [b1, hf.text]
    rfl
  · show (s.pending.del sn).get? sn = none
    rw [Tab.get?_del, if_pos rfl]
  · intro n
    show (balance (settle code u s ta.assets) u n).locked = _
    rw [r12, if_pos rfl]
  · intro n
    show (balance (settle code u s ta.assets) u n).usable = _
    rw [r11]
    by_cases q : code = 0
    · rw [if_neg (fun x => x.2 q), if_pos q]
    · rw [if_pos ⟨rfl, q⟩, if_neg q]
  · exact r9

/-- An error for a transfer whose receiver is not an address of this chain is refused: nothing is given back. -/
theorem C103_error_refused (cfg : Cfg) (s : S) (c svc : Bytes) (sn : Int) (ta : TA) (h : s.pending.get? sn = some ta) (hp : cfg.parse ta.to = none) :
    step cfg s (.error c svc sn) = none := by
  show silent (handleError cfg s c svc sn) = none
  cases e : handleError cfg s c svc sn with
  | none => rfl
  | some s' =>
    obtain ⟨ta', _, _, _, _, _, _, h1, _, h2, _⟩ := handleError_ok cfg s s' c svc sn e
    rw [h] at h1
    cases h1
    rw [hp] at h2
    cases h2

/-- If the receiver is one, the error gives the amount back, and the fee stays locked. -/
theorem C103_error_partial (cfg : Cfg) (tok : Tab (Bytes × Bytes) Int) (hf : Fresh cfg tok) (l : List Op) (hl : ∀ o ∈ l, clean o) (sn : Int) (ta : TA) (to : Bytes)
    (h : (run cfg (init cfg tok) l).pending.get? sn = some ta) (hp : cfg.parse ta.to = some to) :
    ∃ u s', ta.frm = cfg.text u ∧ step cfg (run cfg (init cfg tok) l) (.error cfg.bmc cfg.svc sn) = some (s', []) ∧ s'.pending.get? sn = none ∧
      (∀ n, (balance s' u n).usable = (balance (run cfg (init cfg tok) l) u n).usable + vsum n ta.assets) ∧
      (∀ n, (balance s' u n).locked = (balance (run cfg (init cfg tok) l) u n).locked - tsum n ta.assets + fsum n ta.assets) := by
  have hi := run_inv cfg l hl _ (inv_init cfg tok hf.empty)
  generalize run cfg (init cfg tok) l = s at hi h ⊢
  obtain ⟨u, a, b1, b2, _⟩ := hi.pend _ (Tab.get?_mem _ _ _ h)
  have b1 : ta.frm = cfg.text u := b1
  have b2 : ta.assets = [a] := b2
  refine ⟨u, { setBalance s u a.name a.value (-a.value) 0 with pending := s.pending.del sn }, b1, ?_, ?_, ?_, ?_⟩
  · show silent (handleError cfg s cfg.bmc cfg.svc sn) = _
    unfold handleError
    rw [if_pos ⟨rfl, rfl⟩, h]
    dsimp only
    rw [b1, hf.text, hp, b2]
    rfl
  · show (s.pending.del sn).get? sn = none
    rw [Tab.get?_del, if_pos rfl]
  · intro n
    show (balance (setBalance s u a.name a.value (-a.value) 0) u n).usable = _
    rw [balance_set, b2]
    dsimp only [vsum]
    by_cases q : n = a.name
    · rw [if_pos ⟨rfl, q⟩, if_pos q.symm, q]; dsimp only; omega
    · rw [if_neg (fun x => q x.2), if_neg (Ne.symm q)]; omega
  · intro n
    show (balance (setBalance s u a.name a.value (-a.value) 0) u n).locked = _
    rw [balance_set, b2]
    dsimp only [tsum, fsum]
    by_cases q : n = a.name
    · rw [if_pos ⟨rfl, q⟩, if_pos q.symm, if_pos q.symm, q]; dsimp only; omega
    · rw [if_neg (fun x => q x.2), if_neg (Ne.symm q), if_neg (Ne.symm q)]; omega

/-- The network that an answer comes from is not looked at. -/
theorem C103_any_network (cfg : Cfg) (s : S) (c frm frm' svc : Bytes) (sn code : Int) :
    step cfg s (.message c frm svc sn (.response code)) = step cfg s (.message c frm' svc sn (.response code)) := rfl

/-! ### C104: fees -/

theorem vsum_due (f : Tab Bytes Int) (l : List Bytes) (hl : l.Nodup) (n : Bytes) : vsum n (due f l) = if n ∈ l then at0 f n else 0 := by
  induction l with
  | nil => rw [if_neg List.not_mem_nil]; rfl
  | cons a l ih =>
    rw [List.nodup_cons] at hl
    have ih := ih hl.2
    unfold due at ih ⊢
    by_cases c : at0 f a = 0
    · rw [List.filter_cons_of_neg (by simpa using c), ih]
      by_cases q : n = a
      · rw [if_neg (by rw [q]; exact hl.1), if_pos (by rw [q]; exact List.mem_cons_self), q, c]
      · by_cases w : n ∈ l
        · rw [if_pos w, if_pos (List.mem_cons_of_mem _ w)]
        · rw [if_neg w, if_neg (fun x => (List.mem_cons.mp x).elim q w)]
    · rw [List.filter_cons_of_pos (by simpa using c), List.map_cons]
      dsimp only [vsum]
      rw [ih]
      by_cases q : n = a
      · rw [if_pos q.symm, if_neg (by rw [q]; exact hl.1), if_pos (by rw [q]; exact List.mem_cons_self), q]; omega
      · rw [if_neg (Ne.symm q)]
        by_cases w : n ∈ l
        · rw [if_pos w, if_pos (List.mem_cons_of_mem _ w)]; omega
        · rw [if_neg w, if_neg (fun x => (List.mem_cons.mp x).elim q w)]; rfl

/-- A fee gathering sends all fees there are in one request, under the number that they are kept with, and resets them; a failure answered
to that number restores them. -/
theorem C104_gather (cfg : Cfg) (tok : Tab (Bytes × Bytes) Int) (hf : Fresh cfg tok) (l : List Op) (hl : ∀ o ∈ l, clean o) (c fa svc : Bytes) (s' : S) (out : List Out)
    (h : step cfg (run cfg (init cfg tok) l) (.gather c fa svc) = some (s', out)) (hne : out ≠ []) :
    c = cfg.bmc ∧ ∃ x due, cfg.btp fa = some x ∧ out = [⟨x.1, svc, s'.serialNo, .request ⟨cfg.text c, x.2, due⟩⟩] ∧
      s'.pendingFees.get? s'.serialNo = some ⟨cfg.text c, fa, due⟩ ∧
      (∀ n, n ∈ (run cfg (init cfg tok) l).names → vsum n due = at0 (run cfg (init cfg tok) l).fees n ∧ at0 s'.fees n = 0) ∧
      (∀ frm, ∃ s'', step cfg s' (.message cfg.bmc frm cfg.svc s'.serialNo (.response 1)) = some (s'', []) ∧
        s''.pendingFees.get? s'.serialNo = none ∧ ∀ n, at0 s''.fees n = at0 (run cfg (init cfg tok) l).fees n) := by
  have hi := run_inv cfg l hl _ (inv_init cfg tok hf.empty)
  generalize run cfg (init cfg tok) l = s at hi h ⊢
  obtain ⟨e0, x, hx, e1, e2⟩ := feeGathering_ok cfg s s' c fa svc out h
  obtain ⟨i1, i2, i3, i4, _, _, i7, i8, i9, i10, i11, _⟩ := gather_ok cfg c fa s.names hi.nodup s []
  rw [List.nil_append] at i10 i11
  rcases e2 with ⟨_, e2⟩ | ⟨e3, e2⟩
  · exact absurd e2 hne
  rw [i10] at e2 e3
  have k := (i11 e3).2
  rw [← e1] at k i9
  refine ⟨e0, x, due s.fees s.names, hx, e2, k, ?_, ?_⟩
  · intro n hn
    rw [vsum_due _ _ hi.nodup, if_pos hn, i9, if_pos hn]
    exact ⟨rfl, rfl⟩
  · intro frm
    obtain ⟨r1, r2, r3, r4, r5, r6, r7, r8, r9⟩ := recredit_ok (due s.fees s.names) s'
    refine ⟨{ recredit s' (due s.fees s.names) with pendingFees := (recredit s' (due s.fees s.names)).pendingFees.del s'.serialNo }, ?_, ?_, ?_⟩
    · show handleMessage cfg s' cfg.bmc frm cfg.svc s'.serialNo (.response 1) = _
      unfold handleMessage handleResponse
      rw [if_pos ⟨rfl, rfl⟩]
      dsimp only
      rw [k]
      dsimp only
      rw [hf.text]
      rfl
    · show ((recredit s' (due s.fees s.names)).pendingFees.del s'.serialNo).get? _ = none
      rw [Tab.get?_del, if_pos rfl]
    · intro n
      show at0 (recredit s' (due s.fees s.names)).fees n = _
      rw [r9, i9, vsum_due _ _ hi.nodup]
      by_cases q : n ∈ s.names
      · rw [if_pos q, if_pos q]; omega
      · rw [if_neg q, if_neg q]; omega

/-- An error for a fee request is always refused: the fees are not restored. -/
theorem C104_error_refused (cfg : Cfg) (tok : Tab (Bytes × Bytes) Int) (hf : Fresh cfg tok) (l : List Op) (hl : ∀ o ∈ l, clean o) (c svc : Bytes) (sn : Int) (ta : TA)
    (h : (run cfg (init cfg tok) l).pendingFees.get? sn = some ta) : step cfg (run cfg (init cfg tok) l) (.error c svc sn) = none := by
  have hk := run_keys cfg l hl _ (inv_init cfg tok hf.empty) (keys_init cfg tok)
  generalize run cfg (init cfg tok) l = s at hk h ⊢
  show silent (handleError cfg s c svc sn) = none
  cases e : handleError cfg s c svc sn with
  | none => rfl
  | some s' =>
    obtain ⟨ta', _, _, _, _, _, _, h1, _⟩ := handleError_ok cfg s s' c svc sn e
    rw [hk.disj sn ta' h1] at h
    cases h

/-- A request pays its first asset; the others are not looked at. -/
theorem C104_first_asset_alone (cfg : Cfg) (s : S) (c frm svc : Bytes) (sn : Int) (f t : Bytes) (a : Asset) (l m : List Asset) :
    step cfg s (.message c frm svc sn (.request ⟨f, t, a :: l⟩)) = step cfg s (.message c frm svc sn (.request ⟨f, t, a :: m⟩)) := by
  show handleMessage cfg s c frm svc sn (.request ⟨f, t, a :: l⟩) = handleMessage cfg s c frm svc sn (.request ⟨f, t, a :: m⟩)
  unfold handleMessage handleRequest
  dsimp only
  cases cfg.parse t <;> rfl

/-! ### C105: withdrawal -/

/-- No call but a request from another network takes tokens out of the contract: what was deposited cannot be withdrawn. -/
theorem C105_only_requests_pay (cfg : Cfg) (tok : Tab (Bytes × Bytes) Int) (hf : Fresh cfg tok) (l : List Op) (hl : ∀ o ∈ l, clean o) (o : Op) (s' : S) (out : List Out)
    (h : step cfg (run cfg (init cfg tok) l) o = some (s', out)) (hr : ∀ frm svc sn ta, o ≠ .message cfg.bmc frm svc sn (.request ta)) (t : Bytes) :
    at0 (run cfg (init cfg tok) l).tok (t, cfg.self) ≤ at0 s'.tok (t, cfg.self) := by
  have hi := run_inv cfg l hl _ (inv_init cfg tok hf.empty)
  generalize run cfg (init cfg tok) l = s at hi h ⊢
  have same : s'.tok = s.tok → at0 s.tok (t, cfg.self) ≤ at0 s'.tok (t, cfg.self) := fun e => by rw [e]; exact Int.le_refl _
  cases o with
  | addOwner c a =>
    obtain ⟨e, _⟩ := silent_some h
    unfold addOwner at e
    by_cases q : isOwner cfg s c = true
    · rw [if_pos q] at e; cases e; exact same rfl
    · rw [if_neg q] at e; cases e
  | removeOwner c a =>
    obtain ⟨e, _⟩ := silent_some h
    unfold removeOwner at e
    by_cases q : isOwner cfg s c = true ∧ 1 < s.count
    · rw [if_pos q] at e; cases e; exact same rfl
    · rw [if_neg q] at e; cases e
  | register c n f a =>
    obtain ⟨e, _⟩ := silent_some h
    unfold register at e
    by_cases q : isOwner cfg s c = true ∧ s.addrOf.get? n = none
    · rw [if_pos q] at e; cases e; exact same rfl
    · rw [if_neg q] at e; cases e
  | tokenSend t' frm to v =>
    have e : (if frm = cfg.self then none else silent (irc2 cfg s t' frm to v)) = some (s', out) := h
    by_cases q : frm = cfg.self
    · rw [if_pos q] at e; cases e
    · rw [if_neg q] at e
      obtain ⟨e, _⟩ := silent_some e
      obtain ⟨_, _, _, hv, _, hk, _⟩ := irc2_ok cfg s s' t' frm to v hi e
      rw [hk, if_neg (show ¬(t = t' ∧ frm = cfg.self) from fun z => q z.2)]
      by_cases w : t = t' ∧ to = cfg.self
      · rw [if_pos w]; omega
      · rw [if_neg w]; omega
  | transfer c n v to =>
    obtain ⟨t, k, x, _, _, _, _, _, e1, _⟩ := transfer_ok cfg s s' c n v to out h
    exact same (by rw [e1]; rfl)
  | setBalance c u n a b d => obtain ⟨e, _⟩ := silent_some h; cases e; exact same rfl
  | message c frm svc sn m =>
    have e : handleMessage cfg s c frm svc sn m = some (s', out) := h
    unfold handleMessage at e
    by_cases q : c = cfg.bmc ∧ svc = cfg.svc
    · rw [if_pos q] at e
      cases m with
      | request ta => exact absurd (by rw [q.1]) (hr frm svc sn ta)
      | response code =>
        dsimp only at e
        cases e2 : handleResponse cfg s sn code with
        | none => rw [e2] at e; cases e
        | some s1 =>
          rw [e2] at e
          cases e
          unfold handleResponse at e2
          cases hf : s.pendingFees.get? sn with
          | some ta =>
            rw [hf] at e2
            dsimp only at e2
            cases hp1 : cfg.parse ta.frm with
            | none => rw [hp1] at e2; cases e2
            | some u =>
              rw [hp1] at e2
              cases e2
              obtain ⟨_, _, _, _, r5, _⟩ := recredit_ok ta.assets s
              by_cases c1 : code = 1
              · simp only [if_pos c1]
                exact Int.le_of_eq (by rw [r5])
              · simp only [if_neg c1]
                exact Int.le_refl _
          | none =>
            rw [hf] at e2
            dsimp only at e2
            cases htx : s.pending.get? sn with
            | none => rw [htx] at e2; cases e2
            | some ta =>
              rw [htx] at e2
              dsimp only at e2
              cases hp1 : cfg.parse ta.frm with
              | none => rw [hp1] at e2; cases e2
              | some u =>
                rw [hp1] at e2
                cases e2
                obtain ⟨_, _, _, _, r5, _⟩ := settle_ok code u ta.assets s
                exact same r5
      | unknown => cases e; exact same rfl
      | other =>
        dsimp only at e
        by_cases w : cfg.sends frm = true
        · rw [if_pos w] at e; cases e; exact same rfl
        · rw [if_neg w] at e; cases e
      | bad => cases e
    · rw [if_neg q] at e; cases e
  | error c svc sn =>
    obtain ⟨e, _⟩ := silent_some h
    obtain ⟨ta, u, to, a, l, _, _, _, _, _, _, e1⟩ := handleError_ok cfg s s' c svc sn e
    exact same (by rw [e1]; rfl)
  | gather c fa svc =>
    obtain ⟨_, x, _, e1, _⟩ := feeGathering_ok cfg s s' c fa svc out h
    obtain ⟨_, _, i3, _⟩ := gather_ok cfg c fa s.names hi.nodup s []
    exact same (by rw [e1]; exact i3)

/-! ### C106: owners -/

/-- The deployer is an owner for ever. -/
theorem C106_deployer (cfg : Cfg) (s : S) : isOwner cfg s cfg.deployer = true := by
  unfold isOwner
  simp

/-- Others than owners add and remove no owners and register no tokens. -/
theorem C106_strangers (cfg : Cfg) (s : S) (c : Bytes) (h : isOwner cfg s c = false) :
    (∀ a, step cfg s (.addOwner c a) = none) ∧ (∀ a, step cfg s (.removeOwner c a) = none) ∧ (∀ n f a, step cfg s (.register c n f a) = none) := by
  refine ⟨fun a => ?_, fun a => ?_, fun n f a => ?_⟩
  · show silent (addOwner cfg s c a) = none
    unfold addOwner
    rw [if_neg (by rw [h]; exact Bool.false_ne_true)]
    rfl
  · show silent (removeOwner cfg s c a) = none
    unfold removeOwner
    rw [if_neg (fun x => by rw [h] at x; exact Bool.false_ne_true x.1)]
    rfl
  · show silent (register cfg s c n f a) = none
    unfold register
    rw [if_neg (fun x => by rw [h] at x; exact Bool.false_ne_true x.1)]
    rfl

/-- Who is added is an owner; who is removed is none, unless it is the deployer; all others stay what they were. -/
theorem C106_change (cfg : Cfg) (s s' : S) (c a b : Bytes) (out : List Out) :
    (step cfg s (.addOwner c a) = some (s', out) → isOwner cfg s' b = (decide (b = a) || isOwner cfg s b)) ∧
      (step cfg s (.removeOwner c a) = some (s', out) → isOwner cfg s' b = if b = a then decide (cfg.deployer = a) else isOwner cfg s b) := by
  constructor
  · intro h
    obtain ⟨e, _⟩ := silent_some h
    unfold addOwner at e
    by_cases q : isOwner cfg s c = true
    · rw [if_pos q] at e
      cases e
      unfold isOwner
      dsimp only
      rw [Tab.getD_put]
      by_cases w : b = a
      · rw [if_pos w]; simp [w]
      · rw [if_neg w]; simp [w]
    · rw [if_neg q] at e; cases e
  · intro h
    obtain ⟨e, _⟩ := silent_some h
    unfold removeOwner at e
    by_cases q : isOwner cfg s c = true ∧ 1 < s.count
    · rw [if_pos q] at e
      cases e
      unfold isOwner
      dsimp only
      rw [Tab.getD_put]
      by_cases w : b = a
      · rw [if_pos w, if_pos w]; simp [w]
      · rw [if_neg w, if_neg w]
    · rw [if_neg q] at e; cases e

/-! ### Examples -/

/-- Message center [1], contract [2], deployer [3]; tokens [10] and [11]; texts of addresses begin with 7, others with 8 are foreign;
BTP addresses are the network [5] and the account. -/
def exCfg : Cfg :=
  ⟨[1], [2], [3], [9], fun t => match t with | 7 :: l => some l | _ => none, fun a => 7 :: a, fun t => some ([5], t), fun _ => true, fun _ => true⟩

/-- [40] and [41] hold tokens [10], and [40] tokens [11]. -/
def exTok : Tab (Bytes × Bytes) Int := [(([10], [40]), 5000), (([10], [41]), 100), (([11], [40]), 5000)]

example : Fresh exCfg exTok := by
  refine ⟨?_, fun _ => rfl⟩
  intro t
  unfold at0 Tab.getD
  simp [exTok, exCfg, Tab.get?]

/-- Tokens "a" = [97] and "b" = [98] with fees of 1%; [40] deposits and sends 1000 of each, and both are answered. -/
def exOps : List Op :=
  [.register [3] [97] 100 [10], .register [3] [98] 100 [11], .tokenSend [10] [40] [2] 2000, .tokenSend [11] [40] [2] 2000,
   .transfer [40] [97] 1000 [8, 50], .transfer [40] [98] 1000 [7, 50],
   .message [1] [5] [9] 1 (.response 0), .message [1] [5] [9] 2 (.response 0)]

def exRun (l : List Op) : S := run exCfg (init exCfg exTok) l

example : ∀ o ∈ exOps, proper o := by simp [exOps, proper]
example : (balance (exRun exOps) [40] [97], at0 (exRun exOps).fees [97], at0 (exRun exOps).tok ([10], [2])) = (⟨1000, 0, 0⟩, 10, 2000) := by decide +kernel

/-- C102 is false: [66], who holds nothing, sets a balance, sends it, and takes out what [40] deposited. -/
theorem C102_stranger_takes_all :
    let s := exRun (exOps.take 4 ++ [.setBalance [66] [66] [97] 2000 0 0, .transfer [66] [97] 2000 [8, 50], .message [1] [5] [9] 1 (.response 0),
      .message [1] [5] [9] 7 (.request ⟨[50], [7, 66], [⟨[97], 1980, 0⟩]⟩)])
    at0 s.tok ([10], [66]) = 1980 ∧ at0 s.tok ([10], [2]) = 20 ∧ (balance s [40] [97]).usable = 2000 := by
  decide +kernel

/-- The same with a transfer of a negative amount; the error for it is refused. -/
theorem C102_negative_takes_all :
    let s := exRun (exOps.take 4 ++ [.transfer [66] [97] (-2000) [8, 50], .error [1] [9] 1, .transfer [66] [97] 2000 [8, 50], .message [1] [5] [9] 2 (.response 0),
      .message [1] [5] [9] 7 (.request ⟨[50], [7, 66], [⟨[97], 1980, 0⟩]⟩)])
    at0 s.tok ([10], [66]) = 1980 ∧ at0 s.tok ([10], [2]) = 20 ∧ (balance s [40] [97]).usable = 2000 := by
  decide +kernel

/-- C103 is false: the error for a transfer to a foreign address is refused, and the tokens stay locked; for an address of this form the
fee stays locked with no transfer pending. -/
theorem C103_error_keeps_locked :
    (let s := exRun (exOps.take 5)
     step exCfg s (.error [1] [9] 1) = none ∧ (balance s [40] [97]) = ⟨1000, 1000, 0⟩) ∧
    (let s := exRun (exOps.take 4 ++ [.transfer [40] [98] 1000 [7, 50], .error [1] [9] 1])
     balance s [40] [98] = ⟨1990, 10, 0⟩ ∧ s.pending = []) := by
  decide +kernel

/-- C104 is false: an error for the fees is refused and they are gone; and a failure answered to the number of the first of two tokens
books its fees a second time. -/
theorem C104_fees_lost_or_doubled :
    (let s := exRun (exOps ++ [.gather [1] [60] [9]])
     at0 s.fees [97] = 0 ∧ step exCfg s (.error [1] [9] 4) = none) ∧
    (let s := exRun (exOps ++ [.gather [1] [60] [9], .message [1] [5] [9] 4 (.response 1), .message [1] [5] [9] 3 (.response 1)])
     at0 s.fees [97] = 20 ∧ at0 s.fees [98] = 10) := by
  decide +kernel

/-- C106 is false for the number of owners: after removing a stranger two owners count as one, and none can be removed. -/
theorem C106_count_wrong :
    let s := exRun [.addOwner [3] [70], .removeOwner [3] [77]]
    isOwner exCfg s [3] = true ∧ isOwner exCfg s [70] = true ∧ s.count = 1 ∧ step exCfg s (.removeOwner [3] [70]) = none := by
  decide +kernel

end Verif.TokenBsh
