import Verif.NcsProps
/-!
Two chains, each with a native coin service (`Verif.Ncs`), linked by BTP: what is on the way, delivery in any order, errors sent back.

BTPMessageCenter.java:540-580, 586-637: a message that the service refuses is answered by an error with the same serial number, if that is
positive; an error that the service refuses is dropped. That messages arrive once, unchanged, and only if sent, are the properties of the
message centers (C41, C42). Fees of the message centers are zero (the service sends none along, see `Cfg.sends`).
-/
namespace Verif.Ncs
open Verif

/-- What is on the way: a message of the service, or an error for a serial number. -/
inductive Pkt where
  | msg (sn : Int) (m : Msg)
  | err (sn : Int)
deriving DecidableEq

structure Sys where
  a : S
  b : S
  ab : List Pkt
  ba : List Pkt
deriving DecidableEq

def packets (out : List Out) : List Pkt := out.map fun o => .msg o.sn o.msg

/-- BTPMessageCenter.java:558-580, 586-637, 809-838: a packet arrives from the network `src`: the new state and what is sent back. -/
def deliver (cfg : Cfg) (s : S) (src : Bytes) : Pkt → S × List Pkt
  | .msg sn m =>
    match handleMessage cfg s cfg.bmc src sn m with
    | some x => (x.1, packets x.2)
    | none => (s, if 0 < sn then [.err sn] else [])
  | .err sn =>
    match handleError cfg s cfg.bmc sn with
    | some s' => (s', [])
    | none => (s, [])

/-- A call that is not made by the message center. -/
def userOp (cfg : Cfg) : Op → Bool
  | .message c _ _ _ => c ≠ cfg.bmc
  | .error c _ => c ≠ cfg.bmc
  | _ => true

def user (cfg : Cfg) (s : S) (o : Op) : S × List Pkt :=
  if userOp cfg o = true then
    match step cfg s o with
    | some x => (x.1, packets x.2)
    | none => (s, [])
  else (s, [])

/-- One event: a call on a chain, the arrival of one of the packets on the way to a chain, or the failure of a request on the way
(BTPMessageCenter.java:558-580: no route on a chain between, or no service registered under the name at the end). -/
inductive Ev where
  | userA (o : Op)
  | userB (o : Op)
  | toA (i : Nat)
  | toB (i : Nat)
  | failA (i : Nat)
  | failB (i : Nat)
deriving DecidableEq

/-- The two services and the names of their networks. -/
structure Net where
  A : Cfg
  B : Cfg
  netA : Bytes
  netB : Bytes

/-- BTPMessageCenter.java:568-581, 809-838 `sendError`: for a message with a positive number that cannot be handed over an error with
that number goes back to the network it came from. Here for requests; for the other packets see `Verif.NcsFail`. -/
def refused : Pkt → Option Pkt
  | .msg sn (.request _ _ _) => if 0 < sn then some (.err sn) else none
  | _ => none

def Sys.next (n : Net) (y : Sys) : Ev → Sys
  | .userA o => let r := user n.A y.a o; { y with a := r.1, ab := y.ab ++ r.2 }
  | .userB o => let r := user n.B y.b o; { y with b := r.1, ba := y.ba ++ r.2 }
  | .toA i =>
    match y.ba[i]? with
    | none => y
    | some p => let r := deliver n.A y.a n.netB p; { y with a := r.1, ab := y.ab ++ r.2, ba := y.ba.eraseIdx i }
  | .toB i =>
    match y.ab[i]? with
    | none => y
    | some p => let r := deliver n.B y.b n.netA p; { y with b := r.1, ba := y.ba ++ r.2, ab := y.ab.eraseIdx i }
  | .failA i =>
    match y.ba[i]?.bind refused with
    | none => y
    | some q => { y with ab := y.ab ++ [q], ba := y.ba.eraseIdx i }
  | .failB i =>
    match y.ab[i]?.bind refused with
    | none => y
    | some q => { y with ba := y.ba ++ [q], ab := y.ab.eraseIdx i }

def Sys.run (n : Net) : Sys → List Ev → Sys
  | y, [] => y
  | y, e :: l => run n (y.next n e) l

def Sys.init (icxA icxB : Tab Bytes Int) : Sys := ⟨Ncs.init icxA, Ncs.init icxB, [], []⟩

/-! ### What is on the way -/

def reqSn : Pkt → Option Int
  | .msg sn (.request _ _ _) => some sn
  | _ => none

def ansSn : Pkt → Option Int
  | .msg sn (.response _) => some sn
  | .err sn => some sn
  | _ => none

/-- The amounts of the transaction with a serial number. -/
def amountOf (txs : Tab Int Tx) (c : Bytes) (sn : Int) : Int :=
  match txs.get? sn with
  | some t => asum c t.assets
  | none => 0

/-- The share of a packet: what a success on the way stands for. -/
def okOf (txs : Tab Int Tx) (c : Bytes) : Pkt → Int
  | .msg sn (.response code) => if code = 0 then amountOf txs c sn else 0
  | _ => 0

def okSum (txs : Tab Int Tx) (c : Bytes) : List Pkt → Int
  | [] => 0
  | p :: l => okOf txs c p + okSum txs c l

/-- The packets that two services exchange. -/
def fine : Pkt → Prop
  | .msg sn (.request _ _ _) => 0 < sn
  | .msg sn (.response _) => 0 < sn
  | .msg _ _ => False
  | .err sn => 0 < sn

/-- One direction: `x` sends requests to `y`; `out` is on the way from `x` to `y` and `inn` from `y` to `x`. `D` stands for: no request
names a coin twice. -/
structure Half (D : Prop) (ny : Bytes) (x y : S) (out inn : List Pkt) : Prop where
  nodup : (out.filterMap reqSn ++ inn.filterMap ansSn).Nodup
  pend : ∀ sn, sn ∈ out.filterMap reqSn ++ inn.filterMap ansSn ↔ (x.txs.get? sn).isSome = true
  same : ∀ sn f t l, Pkt.msg sn (.request f t l) ∈ out → ∃ tx, x.txs.get? sn = some tx ∧ l = tx.assets.map fun d => ⟨d.coin, some d.amount⟩
  fine : ∀ p ∈ out, fine p
  paid : ∀ c, at0 y.paid c ≤ at0 x.settled c + okSum x.txs c inn
  exact : ∀ c, D ∨ c ≠ ny → at0 y.paid c = at0 x.settled c + okSum x.txs c inn
  distinct : D → ∀ p ∈ x.txs, (p.2.assets.map (·.coin)).Nodup

theorem okSum_append (t : Tab Int Tx) (c : Bytes) (l m : List Pkt) : okSum t c (l ++ m) = okSum t c l + okSum t c m := by
  induction l with
  | nil => simp [okSum]
  | cons p l ih => rw [List.cons_append]; dsimp only [okSum]; rw [ih]; omega

theorem okSum_congr (t u : Tab Int Tx) (c : Bytes) (l : List Pkt) (h : ∀ sn ∈ l.filterMap ansSn, u.get? sn = t.get? sn) : okSum u c l = okSum t c l := by
  induction l with
  | nil => rfl
  | cons p l ih =>
    dsimp only [okSum]
    rw [List.filterMap_cons] at h
    have hr : okSum u c l = okSum t c l := ih (fun sn hs => h sn (by
      cases e : ansSn p with
      | none => exact hs
      | some x => exact List.mem_cons_of_mem _ hs))
    rw [hr]
    cases p with
    | err sn => rfl
    | msg sn m =>
      cases m with
      | response code =>
        have := h sn (by simp [ansSn])
        dsimp only [okOf]
        unfold amountOf
        rw [this]
      | request _ _ _ => rfl
      | unknown => rfl
      | other => rfl
      | bad => rfl

/-! ### Sending a request -/

theorem half_send_src (D : Prop) (ny : Bytes) (x y : S) (out inn : List Pkt) (h : Half D ny x y out inn) (x' : S) (sn : Int) (hsn : 0 < sn) (tx : Tx) (f t : Bytes)
    (hnew : x.txs.get? sn = none) (ht : x'.txs = x.txs.put sn tx) (hse : x'.settled = x.settled) (hdis : D → (tx.assets.map (·.coin)).Nodup) :
    Half D ny x' y (out ++ [.msg sn (.request f t (tx.assets.map fun d => ⟨d.coin, some d.amount⟩))]) inn := by
  have hnot : sn ∉ out.filterMap reqSn ++ inn.filterMap ansSn := by
    intro hm
    have := (h.pend sn).mp hm
    rw [hnew] at this
    cases this
  have hl : (out ++ [Pkt.msg sn (.request f t (tx.assets.map fun d => ⟨d.coin, some d.amount⟩))]).filterMap reqSn = out.filterMap reqSn ++ [sn] := by
    rw [List.filterMap_append]; rfl
  have hp : (out.filterMap reqSn ++ [sn] ++ inn.filterMap ansSn).Perm (sn :: (out.filterMap reqSn ++ inn.filterMap ansSn)) := by
    rw [List.append_assoc]; exact List.perm_middle
  have hok : ∀ c, okSum x'.txs c inn = okSum x.txs c inn := by
    intro c
    refine okSum_congr _ _ _ _ ?_
    intro s hs
    rw [ht, Tab.get?_put, if_neg]
    intro e
    exact hnot (List.mem_append_right _ (e ▸ hs))
  refine ⟨?_, ?_, ?_, ?_, ?_, ?_, ?_⟩
  · rw [hl, hp.nodup_iff]
    exact List.nodup_cons.mpr ⟨hnot, h.nodup⟩
  · intro s
    rw [hl, hp.mem_iff, List.mem_cons, h.pend, ht, Tab.get?_put]
    by_cases e : s = sn
    · rw [if_pos e]; simp [e]
    · rw [if_neg e]; simp [e]
  · intro s f' t' l' hm
    rw [ht, Tab.get?_put]
    rcases List.mem_append.mp hm with w | w
    · obtain ⟨tx', e1, e2⟩ := h.same s f' t' l' w
      rw [if_neg (fun e => by rw [e, hnew] at e1; cases e1)]
      exact ⟨tx', e1, e2⟩
    · rw [List.mem_singleton] at w
      cases w
      rw [if_pos rfl]
      exact ⟨tx, rfl, rfl⟩
  · intro p hp
    rcases List.mem_append.mp hp with w | w
    · exact h.fine p w
    · rw [List.mem_singleton] at w
      rw [w]; exact hsn
  · intro c; rw [hse, hok]; exact h.paid c
  · intro c hc; rw [hse, hok]; exact h.exact c hc
  · intro d p hp
    rw [ht] at hp
    rcases mem_put _ _ _ _ hp with w | w
    · rw [w]; exact hdis d
    · exact h.distinct d p w

/-- For the destination, more requests on the way from it change nothing. -/
theorem half_more_inn (D : Prop) (ny : Bytes) (x y : S) (out inn : List Pkt) (h : Half D ny x y out inn) (y' : S) (hp : y'.paid = y.paid) (p : Pkt)
    (hpn : ansSn p = none) : Half D ny x y' out (inn ++ [p]) := by
  have e1 : (inn ++ [p]).filterMap ansSn = inn.filterMap ansSn := by
    rw [List.filterMap_append, List.filterMap_cons, hpn]; simp
  have e2 : ∀ c, okSum x.txs c (inn ++ [p]) = okSum x.txs c inn := by
    intro c
    rw [okSum_append]
    have : okOf x.txs c p = 0 := by
      cases p with
      | err sn => rfl
      | msg sn m =>
        cases m with
        | response code => cases hpn
        | request _ _ _ => rfl
        | unknown => rfl
        | other => rfl
        | bad => rfl
    dsimp only [okSum]
    rw [this]; omega
  exact ⟨by rw [e1]; exact h.nodup, by rw [e1]; exact h.pend, h.same, h.fine, by intro c; rw [hp, e2]; exact h.paid c,
    by intro c hc; rw [hp, e2]; exact h.exact c hc, h.distinct⟩

/-- Nothing of the direction is touched. -/
theorem half_frame (D : Prop) (ny : Bytes) (x y : S) (out inn : List Pkt) (h : Half D ny x y out inn) (x' y' : S) (e1 : x'.txs = x.txs) (e2 : x'.settled = x.settled)
    (e3 : y'.paid = y.paid) : Half D ny x' y' out inn :=
  ⟨h.nodup, by rw [e1]; exact h.pend, by rw [e1]; exact h.same, h.fine, by rw [e1, e2, e3]; exact h.paid, by rw [e1, e2, e3]; exact h.exact, by rw [e1]; exact h.distinct⟩

/-! ### A request arrives -/

/-- The source of other requests: a request leaves the packets to it, an answer of it joins those from it. -/
theorem half_answer_src (D : Prop) (ny : Bytes) (x y : S) (out l1 l2 : List Pkt) (p q : Pkt) (h : Half D ny x y out (l1 ++ p :: l2)) (x' : S) (e1 : x'.txs = x.txs)
    (e2 : x'.settled = x.settled) (hp : ansSn p = none) (hq : reqSn q = none) (hf : Ncs.fine q) (hr : ∀ sn f t l, q ≠ .msg sn (.request f t l)) :
    Half D ny x' y (out ++ [q]) (l1 ++ l2) := by
  have f1 : (l1 ++ p :: l2).filterMap ansSn = (l1 ++ l2).filterMap ansSn := by
    rw [List.filterMap_append, List.filterMap_append, List.filterMap_cons, hp]
  have f2 : (out ++ [q]).filterMap reqSn = out.filterMap reqSn := by
    rw [List.filterMap_append, List.filterMap_cons, hq]; simp
  have hz : ∀ c, okOf x.txs c p = 0 := by
    intro c
    cases p with
    | err sn => rfl
    | msg sn m =>
      cases m with
      | response code => cases hp
      | request _ _ _ => rfl
      | unknown => rfl
      | other => rfl
      | bad => rfl
  have f3 : ∀ c, okSum x.txs c (l1 ++ p :: l2) = okSum x.txs c (l1 ++ l2) := by
    intro c
    rw [okSum_append, okSum_append]
    dsimp only [okSum]
    rw [hz]; omega
  refine ⟨by rw [f2, ← f1]; exact h.nodup, by rw [f2, ← f1, e1]; exact h.pend, ?_, ?_, ?_, ?_, by rw [e1]; exact h.distinct⟩
  · intro sn f t l hm
    rw [e1]
    rcases List.mem_append.mp hm with w | w
    · exact h.same sn f t l w
    · rw [List.mem_singleton] at w
      exact absurd w.symm (hr sn f t l)
  · intro p' hp'
    rcases List.mem_append.mp hp' with w | w
    · exact h.fine p' w
    · rw [List.mem_singleton.mp w]; exact hf
  · intro c; rw [e1, e2, ← f3]; exact h.paid c
  · intro c hc; rw [e1, e2, ← f3]; exact h.exact c hc

/-- The requests that are answered: `y` took the request `sn` of `x` and answers by `q`. -/
theorem half_answer_dst (D : Prop) (ny : Bytes) (x y : S) (l1 l2 inn : List Pkt) (sn : Int) (f t : Bytes) (l : List Asset) (q : Pkt)
    (h : Half D ny x y (l1 ++ .msg sn (.request f t l) :: l2) inn) (y' : S) (hq : ansSn q = some sn)
    (hp : ∀ c, at0 y'.paid c ≤ at0 y.paid c + okOf x.txs c q) (he : ∀ c, D ∨ c ≠ ny → at0 y'.paid c = at0 y.paid c + okOf x.txs c q) :
    Half D ny x y' (l1 ++ l2) (inn ++ [q]) := by
  have f1 : (l1 ++ Pkt.msg sn (.request f t l) :: l2).filterMap reqSn = l1.filterMap reqSn ++ sn :: l2.filterMap reqSn := by
    rw [List.filterMap_append, List.filterMap_cons]; rfl
  have f2 : (inn ++ [q]).filterMap ansSn = inn.filterMap ansSn ++ [sn] := by
    rw [List.filterMap_append, List.filterMap_cons, hq]; simp
  have hperm : ((l1 ++ l2).filterMap reqSn ++ (inn.filterMap ansSn ++ [sn])).Perm
      ((l1.filterMap reqSn ++ sn :: l2.filterMap reqSn) ++ inn.filterMap ansSn) := by
    rw [List.filterMap_append]
    have a : ((l1.filterMap reqSn ++ l2.filterMap reqSn) ++ (inn.filterMap ansSn ++ [sn])).Perm
        (sn :: ((l1.filterMap reqSn ++ l2.filterMap reqSn) ++ inn.filterMap ansSn)) := by
      rw [← List.append_assoc]; exact List.perm_append_singleton _ _
    have b : ((l1.filterMap reqSn ++ sn :: l2.filterMap reqSn) ++ inn.filterMap ansSn).Perm
        (sn :: ((l1.filterMap reqSn ++ l2.filterMap reqSn) ++ inn.filterMap ansSn)) := by
      rw [List.append_assoc, List.append_assoc, List.cons_append]; exact List.perm_middle
    exact a.trans b.symm
  have hok : ∀ c, okSum x.txs c (inn ++ [q]) = okSum x.txs c inn + okOf x.txs c q := by
    intro c; rw [okSum_append]; dsimp only [okSum]; omega
  refine ⟨?_, ?_, ?_, ?_, ?_, ?_, h.distinct⟩
  · rw [f2, hperm.nodup_iff, ← f1]; exact h.nodup
  · intro s; rw [f2, hperm.mem_iff, ← f1]; exact h.pend s
  · intro s f' t' l' hm
    refine h.same s f' t' l' ?_
    rcases List.mem_append.mp hm with w | w
    · exact List.mem_append_left _ w
    · exact List.mem_append_right _ (List.mem_cons_of_mem _ w)
  · intro p hp
    refine h.fine p ?_
    rcases List.mem_append.mp hp with w | w
    · exact List.mem_append_left _ w
    · exact List.mem_append_right _ (List.mem_cons_of_mem _ w)
  · intro c
    rw [hok]
    have a := h.paid c
    have b := hp c
    omega
  · intro c hc
    rw [hok]
    have a := h.exact c hc
    have b := he c hc
    omega

/-! ### An answer arrives -/

theorem half_settle_src (D : Prop) (ny : Bytes) (x y : S) (out l1 l2 : List Pkt) (p : Pkt) (sn : Int) (h : Half D ny x y out (l1 ++ p :: l2)) (hp : ansSn p = some sn)
    (x' : S) (ht : x'.txs = x.txs.del sn) (hs : ∀ c, at0 x'.settled c = at0 x.settled c + okOf x.txs c p) : Half D ny x' y out (l1 ++ l2) := by
  have f1 : (l1 ++ p :: l2).filterMap ansSn = l1.filterMap ansSn ++ sn :: l2.filterMap ansSn := by
    rw [List.filterMap_append, List.filterMap_cons, hp]
  have hperm : (out.filterMap reqSn ++ (l1 ++ p :: l2).filterMap ansSn).Perm (sn :: (out.filterMap reqSn ++ (l1 ++ l2).filterMap ansSn)) := by
    rw [f1, List.filterMap_append, ← List.append_assoc, ← List.append_assoc]; exact List.perm_middle
  have hnd := h.nodup
  rw [hperm.nodup_iff, List.nodup_cons] at hnd
  have hok : ∀ c, okSum x'.txs c (l1 ++ l2) = okSum x.txs c (l1 ++ l2) := by
    intro c
    refine okSum_congr _ _ _ _ ?_
    intro s hm
    rw [ht, Tab.get?_del, if_neg]
    intro e
    exact hnd.1 (List.mem_append_right _ (e ▸ hm))
  have hok2 : ∀ c, okSum x.txs c (l1 ++ p :: l2) = okOf x.txs c p + okSum x.txs c (l1 ++ l2) := by
    intro c
    rw [okSum_append, okSum_append]
    dsimp only [okSum]; omega
  refine ⟨hnd.2, ?_, ?_, h.fine, ?_, ?_, fun d p hp => h.distinct d p ((Tab.mem_del _ _ _).mp (ht ▸ hp)).1⟩
  · intro s
    have a := h.pend s
    rw [hperm.mem_iff, List.mem_cons] at a
    rw [ht, Tab.get?_del]
    by_cases e : s = sn
    · rw [if_pos e]
      constructor
      · intro hm; exact absurd (e ▸ hm) hnd.1
      · intro hm; cases hm
    · rw [if_neg e, ← a]
      constructor
      · exact Or.inr
      · exact fun x => x.resolve_left e
  · intro s f t l hm
    obtain ⟨tx, e1, e2⟩ := h.same s f t l hm
    refine ⟨tx, ?_, e2⟩
    rw [ht, Tab.get?_del, if_neg, e1]
    intro e
    have : s ∈ out.filterMap reqSn := List.mem_filterMap.mpr ⟨_, hm, rfl⟩
    exact hnd.1 (List.mem_append_left _ (e ▸ this))
  · intro c
    have a := h.paid c
    rw [hok2] at a
    rw [hok, hs]; omega
  · intro c hc
    have a := h.exact c hc
    rw [hok2] at a
    rw [hok, hs]; omega

/-- For the other direction an answer that arrived is one packet less. -/
theorem half_settle_dst (D : Prop) (ny : Bytes) (x y : S) (l1 l2 inn : List Pkt) (p : Pkt) (h : Half D ny x y (l1 ++ p :: l2) inn) (hp : reqSn p = none) (y' : S)
    (e : y'.paid = y.paid) : Half D ny x y' (l1 ++ l2) inn := by
  have f1 : (l1 ++ p :: l2).filterMap reqSn = (l1 ++ l2).filterMap reqSn := by
    rw [List.filterMap_append, List.filterMap_append, List.filterMap_cons, hp]
  have sub : ∀ p', p' ∈ l1 ++ l2 → p' ∈ l1 ++ p :: l2 := by
    intro p' h'
    rcases List.mem_append.mp h' with w | w
    · exact List.mem_append_left _ w
    · exact List.mem_append_right _ (List.mem_cons_of_mem _ w)
  exact ⟨by rw [← f1]; exact h.nodup, by rw [← f1]; exact h.pend, fun s f t l hm => h.same s f t l (sub _ hm), fun p' h' => h.fine p' (sub _ h'),
    by rw [e]; exact h.paid, by rw [e]; exact h.exact, h.distinct⟩

/-! ### Calls by users -/

/-- A call that names no coin twice. -/
def distinctOp : Op → Prop
  | .transferBatch _ l _ _ _ => (l.map (·.1)).Nodup
  | _ => True

theorem user_step (cfg : Cfg) (s s' : S) (h : Inv cfg s) (o : Op) (out : List Out) (hu : userOp cfg o = true) (hs : step cfg s o = some (s', out)) :
    s'.settled = s.settled ∧ s'.paid = s.paid ∧
      ((s'.txs = s.txs ∧ out = []) ∨
        ∃ tx net f t, s'.txs = s.txs.put (s.sn + 1) tx ∧ out = [⟨net, s.sn + 1, .request f t (tx.assets.map fun d => ⟨d.coin, some d.amount⟩)⟩] ∧
          (distinctOp o → (tx.assets.map (·.coin)).Nodup)) := by
  have hr : 0 ≤ s.feeRatio := Int.le_trans (by omega) h.ratio.1
  have send : ∀ (s1 : S) (c n a : Bytes) (l : List (Bytes × Int)), s1.settled = s.settled → s1.paid = s.paid → s1.txs = s.txs → s1.sn = s.sn →
      s1.feeRatio = s.feeRatio → (∀ p ∈ l, 0 ≤ p.2) → (distinctOp o → (l.map (·.1)).Nodup) → sendRequest cfg s1 c n a l = some (s', out) →
      s'.settled = s.settled ∧ s'.paid = s.paid ∧
        ((s'.txs = s.txs ∧ out = []) ∨
          ∃ tx net f t, s'.txs = s.txs.put (s.sn + 1) tx ∧ out = [⟨net, s.sn + 1, .request f t (tx.assets.map fun d => ⟨d.coin, some d.amount⟩)⟩] ∧
          (distinctOp o → (tx.assets.map (·.coin)).Nodup)) := by
    intro s1 c n a l x1 x2 x3 x4 x5 x6 x8 x7
    obtain ⟨b, ds, e1, e2, _, _, _, _, e3⟩ := sendRequest_ok cfg s1 s' c n a l out (by rw [x5]; exact hr) x6 x7
    refine ⟨by rw [e1]; exact x1, by rw [e1]; exact x2, Or.inr ⟨⟨c, n, a, ds⟩, n, c, a, by rw [e1, ← x3, ← x4], by rw [e2, ← x4], fun q => by rw [e3]; exact x8 q⟩⟩
  cases o with
  | transferNative c v n a =>
    have hs : transferNative cfg s c v n a = some (s', out) := hs
    unfold transferNative at hs
    by_cases q : 0 < v
    · rw [if_pos q] at hs
      cases e : receive cfg s c v with
      | none => rw [e] at hs; cases hs
      | some s1 =>
        rw [e] at hs
        obtain ⟨_, r2, r3, _⟩ := receive_ok cfg s s1 c v e h.icx
        exact send s1 c n a _ (by rw [r3]) (by rw [r3]) (by rw [r3]) (by rw [r3]) (by rw [r3])
          (by intro p hp; rw [List.mem_singleton.mp hp]; exact r2) (fun _ => by simp) hs
    · rw [if_neg q] at hs; cases hs
  | transfer c coin v n a =>
    unfold step at hs
    dsimp only at hs
    by_cases q : c = cfg.self
    · rw [if_pos q] at hs; cases hs
    · rw [if_neg q] at hs
      unfold transfer at hs
      by_cases q1 : 0 < v ∧ cfg.name ≠ coin ∧ coin ∈ s.coins
      · rw [if_pos q1] at hs
        cases e : s.irc.transferFrom cfg c cfg.self (cfg.id coin) v with
        | none => rw [e] at hs; cases hs
        | some i =>
          rw [e] at hs
          exact send { s with irc := i } c n a _ rfl rfl rfl rfl rfl
            (by intro p hp; rw [List.mem_singleton.mp hp]; show 0 ≤ v; omega) (fun _ => by simp) hs
      · rw [if_neg q1] at hs; cases hs
  | transferBatch c l v n a =>
    have hs : transferBatch cfg s c l v n a = some (s', out) := hs
    unfold transferBatch at hs
    cases e : receive cfg s c v with
    | none => rw [e] at hs; cases hs
    | some s1 =>
      rw [e] at hs
      dsimp only [Option.bind_some] at hs
      obtain ⟨r1, r2, r3, _⟩ := receive_ok cfg s s1 c v e h.icx
      by_cases q : ∀ p ∈ l, cfg.name ≠ p.1 ∧ p.1 ∈ s1.coins
      · rw [if_pos q] at hs
        cases e2 : s1.irc.transferFromBatch cfg c cfg.self (l.map fun p => (cfg.id p.1, p.2)) with
        | none => rw [e2] at hs; cases hs
        | some i =>
          rw [e2] at hs
          obtain ⟨t1, _⟩ := transferFromBatch_ok cfg c cfg.self r1 _ s1.irc i e2 (by rw [r3]; exact h.irc)
          have t1' : ∀ p ∈ l, 0 ≤ p.2 := fun p hp => t1 (cfg.id p.1, p.2) (List.mem_map.mpr ⟨p, hp, rfl⟩)
          refine send { s1 with irc := i } c n a _ (by rw [r3]) (by rw [r3]) (by rw [r3]) (by rw [r3]) (by rw [r3]) ?_ ?_ hs
          · intro p hp
            by_cases w : 0 < v
            · rw [if_pos w] at hp
              rcases List.mem_append.mp hp with z | z
              · exact t1' p z
              · rw [List.mem_singleton.mp z]; exact r2
            · rw [if_neg w] at hp; exact t1' p hp
          · intro hd
            have hd : (l.map (·.1)).Nodup := hd
            by_cases w : 0 < v
            · rw [if_pos w, List.map_append, List.nodup_append]
              refine ⟨hd, by simp, ?_⟩
              intro a ha b hb
              obtain ⟨p, hp, e'⟩ := List.mem_map.mp ha
              have hb : b = cfg.name := by simpa using hb
              rw [← e', hb]
              exact Ne.symm (q p hp).1
            · rw [if_neg w]; exact hd
      · rw [if_neg q] at hs; cases hs
  | reclaim c coin v =>
    unfold step at hs
    dsimp only at hs
    by_cases q : c = cfg.self
    · rw [if_pos q] at hs; cases hs
    · rw [if_neg q] at hs
      cases e : reclaim cfg s c coin v with
      | none => rw [e] at hs; cases hs
      | some s1 =>
        rw [e] at hs
        cases hs
        unfold reclaim at e
        by_cases q1 : 0 < v ∧ v ≤ (balance s coin c).refundable
        · rw [if_pos q1] at e
          dsimp only at e
          by_cases q2 : cfg.name = coin
          · rw [if_pos q2] at e
            obtain ⟨_, p2, _⟩ := pay_ok cfg _ _ c v e h.icx
            rw [p2]
            exact ⟨rfl, rfl, Or.inl ⟨rfl, rfl⟩⟩
          · rw [if_neg q2] at e
            cases e2 : (setBalance s coin c { balance s coin c with refundable := (balance s coin c).refundable - v }).irc.transferFrom cfg cfg.self c (cfg.id coin) v with
            | none => rw [e2] at e; cases e
            | some i => rw [e2] at e; cases e; exact ⟨rfl, rfl, Or.inl ⟨rfl, rfl⟩⟩
        · rw [if_neg q1] at e; cases e
  | message c n sn m =>
    have hs : handleMessage cfg s c n sn m = some (s', out) := hs
    unfold handleMessage at hs
    have : c ≠ cfg.bmc := by simpa [userOp] using hu
    rw [if_neg this] at hs; cases hs
  | error c sn =>
    have hs : (handleError cfg s c sn).map (fun s => (s, [])) = some (s', out) := hs
    unfold handleError at hs
    have : c ≠ cfg.bmc := by simpa [userOp] using hu
    rw [if_neg this] at hs; cases hs
  | register a coin =>
    have hs : (register cfg s a coin).map (fun s => (s, [])) = some (s', out) := hs
    unfold register at hs
    by_cases q : a = true ∧ cfg.name ≠ coin ∧ coin ∉ s.coins
    · rw [if_pos q] at hs; cases hs; exact ⟨rfl, rfl, Or.inl ⟨rfl, rfl⟩⟩
    · rw [if_neg q] at hs; cases hs
  | setFeeRatio a v =>
    have hs : (setFeeRatio s a v).map (fun s => (s, [])) = some (s', out) := hs
    unfold setFeeRatio at hs
    by_cases q : a = true ∧ 1 ≤ v ∧ v < 10000
    · rw [if_pos q] at hs; cases hs; exact ⟨rfl, rfl, Or.inl ⟨rfl, rfl⟩⟩
    · rw [if_neg q] at hs; cases hs
  | coinSend f t v =>
    unfold step at hs
    dsimp only at hs
    by_cases q : f ≠ cfg.self ∧ t ≠ cfg.self ∧ 0 ≤ v ∧ v ≤ at0 s.icx f
    · rw [if_pos q] at hs; cases hs; exact ⟨rfl, rfl, Or.inl ⟨rfl, rfl⟩⟩
    · rw [if_neg q] at hs; cases hs
  | tokenSend f t id v =>
    unfold step at hs
    dsimp only at hs
    by_cases q : f ≠ cfg.self ∧ 0 ≤ v ∧ v ≤ at0 s.irc.bals (id, f)
    · rw [if_pos q] at hs; cases hs; exact ⟨rfl, rfl, Or.inl ⟨rfl, rfl⟩⟩
    · rw [if_neg q] at hs; cases hs

/-- One chain and the packets of both directions. -/
structure Side (D : Prop) (cfg : Cfg) (nx ny : Bytes) (x y : S) (out inn : List Pkt) : Prop where
  inv : Inv cfg x
  mine : Half D ny x y out inn
  theirs : Half D nx y x inn out

theorem side_user (D : Prop) (cfg : Cfg) (hid : ∀ a b, cfg.id a = cfg.id b → a = b) (nx ny : Bytes) (x y : S) (out inn : List Pkt)
    (h : Side D cfg nx ny x y out inn) (o : Op) (ho : D → distinctOp o) : Side D cfg nx ny (user cfg x o).1 y (out ++ (user cfg x o).2) inn := by
  unfold user
  by_cases hu : userOp cfg o = true
  · rw [if_pos hu]
    cases e : step cfg x o with
    | none => dsimp only; rw [List.append_nil]; exact h
    | some r =>
      obtain ⟨x', outs⟩ := r
      dsimp only
      have hi := step_inv cfg hid x x' h.inv o outs e
      obtain ⟨a1, a2, a3⟩ := user_step cfg x x' h.inv o outs hu e
      rcases a3 with ⟨b1, b2⟩ | ⟨tx, net, f, t, b1, b2, b3⟩
      · rw [b2]
        show Side D cfg nx ny x' y (out ++ []) inn
        rw [List.append_nil]
        exact ⟨hi, half_frame D ny x y out inn h.mine x' y b1 a1 rfl, half_frame D nx y x inn out h.theirs y x' rfl rfl a2⟩
      · rw [b2]
        have hsn := h.inv.sn
        exact ⟨hi, half_send_src D ny x y out inn h.mine x' (x.sn + 1) (by omega) tx f t (txs_new h.inv) b1 a1 (fun d => b3 (ho d)),
          half_more_inn D nx y x inn out h.theirs x' a2 _ rfl⟩
  · rw [if_neg hu]
    dsimp only
    rw [List.append_nil]
    exact h

/-! ### Packets that arrive -/

theorem sortAssets_sum (cfg : Cfg) (coins : List Bytes) (hn : cfg.name ∉ coins) (ds : List Detail) (hd : ∀ d ∈ ds, 1 ≤ d.amount ∧ 0 ≤ d.fee)
    (x : List (Bytes × Int) × Option Int) (h : sortAssets cfg coins (ds.map fun d => ⟨d.coin, some d.amount⟩) = some x) :
    (∀ c, c ≠ cfg.name → vsum c x.1 = asum c ds) ∧ vsum cfg.name x.1 = 0 ∧ x.2.getD 0 ≤ asum cfg.name ds ∧
      ((ds.map (·.coin)).Nodup → x.2.getD 0 = asum cfg.name ds) := by
  induction ds generalizing x with
  | nil => cases h; exact ⟨fun _ _ => rfl, rfl, Int.le_refl 0, fun _ => rfl⟩
  | cons d ds ih =>
    have hd' : ∀ d ∈ ds, 1 ≤ d.amount ∧ 0 ≤ d.fee := fun e he => hd e (List.mem_cons_of_mem _ he)
    have h1 := hd d List.mem_cons_self
    rw [List.map_cons] at h
    unfold sortAssets at h
    dsimp only at h
    rw [if_neg (by omega)] at h
    cases e : sortAssets cfg coins (ds.map fun d => ⟨d.coin, some d.amount⟩) with
    | none => rw [e] at h; cases h
    | some y =>
      rw [e] at h
      dsimp only [Option.bind_some] at h
      obtain ⟨a1, a2, a3, a4⟩ := ih hd' y e
      by_cases c1 : d.coin ∈ coins
      · rw [if_pos c1] at h
        cases h
        have hne : d.coin ≠ cfg.name := fun q => hn (q ▸ c1)
        refine ⟨?_, ?_, ?_, ?_⟩
        · intro c hc
          dsimp only [vsum, asum]
          rw [a1 c hc]
        · dsimp only [vsum]
          rw [if_neg hne, a2]; rfl
        · dsimp only [asum]
          rw [if_neg hne]; omega
        · intro hq
          dsimp only [asum]
          rw [List.map_cons, List.nodup_cons] at hq
          rw [if_neg hne, a4 hq.2]; omega
      · rw [if_neg c1] at h
        by_cases c2 : cfg.name = d.coin
        · rw [if_pos c2] at h
          cases h
          refine ⟨?_, a2, ?_, ?_⟩
          · intro c hc
            dsimp only [asum]
            rw [if_neg (fun q => hc (by rw [c2, q])), a1 c hc]; omega
          · dsimp only [asum]
            rw [if_pos c2.symm]
            have b := asum_nonneg cfg.name ds hd'
            cases e2 : y.2 with
            | none => dsimp only [Option.getD]; omega
            | some w => rw [e2] at a3; dsimp only [Option.getD] at a3 ⊢; omega
          · intro hq
            rw [List.map_cons, List.nodup_cons] at hq
            have hz : asum cfg.name ds = 0 := by
              have : ∀ l : List Detail, cfg.name ∉ l.map (·.coin) → asum cfg.name l = 0 := by
                intro l
                induction l with
                | nil => intro _; rfl
                | cons e l ih =>
                  intro hl
                  rw [List.map_cons, List.mem_cons, not_or] at hl
                  dsimp only [asum]
                  rw [if_neg (Ne.symm hl.1), ih hl.2]; rfl
              exact this ds (by rw [c2]; exact hq.1)
            dsimp only [asum]
            rw [if_pos c2.symm, hz]
            cases e2 : y.2 with
            | none => dsimp only [Option.getD]; omega
            | some w =>
              have p1 := (sortAssets_ok cfg coins _ y e).2 w e2
              have p2 := a4 hq.2
              rw [e2, hz] at p2
              dsimp only [Option.getD] at p2
              omega
        · rw [if_neg c2] at h; cases h

theorem side_deliver (D : Prop) (cfg : Cfg) (hid : ∀ a b, cfg.id a = cfg.id b → a = b) (hm : cfg.minter = true) (ny : Bytes) (x y : S) (out l1 l2 : List Pkt)
    (p : Pkt) (src : Bytes) (hy : ∀ t ∈ y.txs, ∀ d ∈ t.2.assets, 1 ≤ d.amount ∧ 0 ≤ d.fee)
    (h : Side D cfg cfg.name ny x y out (l1 ++ p :: l2)) :
    Side D cfg cfg.name ny (deliver cfg x src p).1 y (out ++ (deliver cfg x src p).2) (l1 ++ l2) := by
  have hpm : p ∈ l1 ++ p :: l2 := List.mem_append_right _ List.mem_cons_self
  have hf := h.theirs.fine p hpm
  -- an answer that is carried out
  have answer : ∀ (sn code : Int), ansSn p = some sn → reqSn p = none →
      (∀ c tx, x.txs.get? sn = some tx → okOf x.txs c p = if code = 0 then asum c tx.assets else 0) →
      ∃ x', handleResponse cfg x sn code = some x' ∧ Side D cfg cfg.name ny x' y out (l1 ++ l2) := by
    intro sn code hp1 hp2 hp3
    have hsome : (x.txs.get? sn).isSome = true := by
      rw [← h.mine.pend sn]
      exact List.mem_append_right _ (List.mem_filterMap.mpr ⟨p, hpm, hp1⟩)
    obtain ⟨tx, htx⟩ := Option.isSome_iff_exists.mp hsome
    obtain ⟨x', e1, e2, e3, e4, _⟩ := handleResponse_ok cfg hid x h.inv sn code tx htx (fun _ => Or.inl hm)
    refine ⟨x', e1, e2, ?_, ?_⟩
    · refine half_settle_src D ny x y out l1 l2 p sn h.mine hp1 x' (by rw [e3]) ?_
      intro c
      rw [e4, hp3 c tx htx]
    · exact half_settle_dst D cfg.name y x l1 l2 out p h.theirs hp2 x' (by rw [e3])
  cases p with
  | err sn =>
    obtain ⟨x', e1, e2⟩ := answer sn 1 rfl rfl (fun c tx _ => by rw [if_neg (by omega)]; rfl)
    have e : deliver cfg x src (.err sn) = (x', []) := by
      unfold deliver handleError
      dsimp only
      rw [if_pos rfl, e1]
    rw [e]
    show Side D cfg cfg.name ny x' y (out ++ []) (l1 ++ l2)
    rw [List.append_nil]
    exact e2
  | msg sn m =>
    cases m with
    | response code =>
      obtain ⟨x', e1, e2⟩ := answer sn code rfl rfl (fun c tx ht => by
        dsimp only [okOf]
        unfold amountOf
        rw [ht])
      have e : deliver cfg x src (.msg sn (.response code)) = (x', []) := by
        unfold deliver handleMessage
        dsimp only
        rw [if_pos rfl, e1]
        rfl
      rw [e]
      show Side D cfg cfg.name ny x' y (out ++ []) (l1 ++ l2)
      rw [List.append_nil]
      exact e2
    | request f t l =>
      have hsn : 0 < sn := hf
      obtain ⟨tx, ht1, ht2⟩ := h.theirs.same sn f t l hpm
      have hdet := hy (sn, tx) (Tab.get?_mem _ _ _ ht1)
      have e0 : deliver cfg x src (.msg sn (.request f t l)) =
          match handleRequest cfg x t l src sn with
          | some r => (r.1, packets r.2)
          | none => (x, [.err sn]) := by
        unfold deliver handleMessage
        dsimp only
        rw [if_pos rfl]
        cases handleRequest cfg x t l src sn with
        | none => dsimp only; rw [if_pos hsn]
        | some r => rfl
      rw [e0]
      cases e : handleRequest cfg x t l src sn with
      | none =>
        dsimp only
        exact ⟨h.inv, half_answer_src D ny x y out l1 l2 _ (.err sn) h.mine x rfl rfl rfl rfl hsn (fun _ _ _ _ q => by cases q),
          half_answer_dst D cfg.name y x l1 l2 out sn f t l (.err sn) h.theirs x rfl (fun c => by dsimp only [okOf]; omega)
            (fun c _ => by dsimp only [okOf]; omega)⟩
      | some r =>
        obtain ⟨x', outs⟩ := r
        dsimp only
        have hi := handleRequest_inv cfg hid x x' h.inv t l src sn outs e
        obtain ⟨z, z1, z2, z3, z4, z5, z6, z7, z8, z9⟩ := handleRequest_ok cfg x x' t l src sn outs h.inv.icx h.inv.irc e
        rw [ht2] at z1
        obtain ⟨w1, w2, w3, w4⟩ := sortAssets_sum cfg x.coins h.inv.name tx.assets hdet z z1
        have ok : ∀ c, okOf y.txs c (.msg sn (.response 0)) = asum c tx.assets := by
          intro c
          dsimp only [okOf]
          rw [if_pos rfl]
          unfold amountOf
          rw [ht1]
        rw [z3]
        refine ⟨hi, half_answer_src D ny x y out l1 l2 _ (.msg sn (.response 0)) h.mine x' (by rw [z2]) (by rw [z2]) rfl rfl hsn
          (fun _ _ _ _ q => by cases q), half_answer_dst D cfg.name y x l1 l2 out sn f t l (.msg sn (.response 0)) h.theirs x' rfl ?_ ?_⟩
        · intro c
          rw [z7, ok]
          by_cases q : c = cfg.name
          · rw [if_pos q, q, w2]; omega
          · rw [if_neg q, w1 c q]; omega
        · intro c q
          rw [z7, ok]
          by_cases q' : c = cfg.name
          · have hD : D := q.resolve_right (fun x => x q')
            rw [if_pos q', q', w2, w4 (h.theirs.distinct hD (sn, tx) (Tab.get?_mem _ _ _ ht1))]; omega
          · rw [if_neg q', w1 c q']; omega
    | unknown => exact absurd hf (by simp [fine])
    | other => exact absurd hf (by simp [fine])
    | bad => exact absurd hf (by simp [fine])

/-! ### Histories -/

/-- What is assumed of the deployment: different native coins, different numbers for different tokens, both services own their token
contracts, and each message center knows the other network alone. -/
structure Net.Ok (n : Net) : Prop where
  names : n.A.name ≠ n.B.name
  idA : ∀ a b, n.A.id a = n.A.id b → a = b
  idB : ∀ a b, n.B.id a = n.B.id b → a = b
  minterA : n.A.minter = true
  minterB : n.B.minter = true
  sendsA : ∀ m, n.A.sends m = true ↔ m = n.netB
  sendsB : ∀ m, n.B.sends m = true ↔ m = n.netA

structure SysInv (D : Prop) (n : Net) (y : Sys) : Prop where
  invA : Inv n.A y.a
  invB : Inv n.B y.b
  ab : Half D n.B.name y.a y.b y.ab y.ba
  ba : Half D n.A.name y.b y.a y.ba y.ab

theorem half_init (D : Prop) (ny : Bytes) (x y : Tab Bytes Int) : Half D ny (init x) (init y) [] [] :=
  ⟨List.nodup_nil, by simp [init, Tab.get?], by simp, by simp, fun _ => Int.le_refl 0, fun _ _ => rfl, by simp [init]⟩

theorem sysInv_init (D : Prop) (n : Net) (x y : Tab Bytes Int) (hx : at0 x n.A.self = 0) (hy : at0 y n.B.self = 0) (nx : ∀ p ∈ x, 0 ≤ p.2) (ny : ∀ p ∈ y, 0 ≤ p.2) :
    SysInv D n (Sys.init x y) :=
  ⟨inv_init n.A x hx nx, inv_init n.B y hy ny, half_init _ _ _ _, half_init _ _ _ _⟩

theorem split_at {α : Type} (l : List α) (i : Nat) (p : α) (h : l[i]? = some p) : l = l.take i ++ p :: l.drop (i + 1) ∧ l.eraseIdx i = l.take i ++ l.drop (i + 1) := by
  refine ⟨?_, List.eraseIdx_eq_take_drop_succ l i⟩
  obtain ⟨hi, e⟩ := List.getElem?_eq_some_iff.mp h
  rw [← e, ← List.drop_eq_getElem_cons hi, List.take_append_drop]

def distinctEv : Ev → Prop
  | .userA o => distinctOp o
  | .userB o => distinctOp o
  | _ => True

theorem refused_some {p q : Pkt} (h : refused p = some q) : ∃ sn f t l, 0 < sn ∧ p = .msg sn (.request f t l) ∧ q = .err sn := by
  cases p with
  | err sn => cases h
  | msg sn m =>
    cases m with
    | request f t l =>
      dsimp only [refused] at h
      by_cases c : 0 < sn
      · rw [if_pos c] at h
        injection h with h
        exact ⟨sn, f, t, l, c, rfl, h.symm⟩
      · rw [if_neg c] at h; cases h
    | response _ => cases h
    | unknown => cases h
    | other => cases h
    | bad => cases h

theorem fail_half (D : Prop) (nx ny : Bytes) (x y : S) (out inn : List Pkt) (i : Nat) (q : Pkt) (e : out[i]?.bind refused = some q)
    (h : Half D ny x y out inn) (g : Half D nx y x inn out) :
    Half D ny x y (out.eraseIdx i) (inn ++ [q]) ∧ Half D nx y x (inn ++ [q]) (out.eraseIdx i) := by
  obtain ⟨p, e1, e2⟩ := Option.bind_eq_some_iff.mp e
  obtain ⟨sn, f, t, l, hsn, ep, eq⟩ := refused_some e2
  subst ep; subst eq
  obtain ⟨s1, s2⟩ := split_at out i _ e1
  rw [s2]
  rw [s1] at h g
  exact ⟨half_answer_dst D ny x y _ _ inn sn f t l (.err sn) h y rfl (fun c => by dsimp only [okOf]; omega) (fun c _ => by dsimp only [okOf]; omega),
    half_answer_src D nx y x inn _ _ _ (.err sn) g y rfl rfl rfl rfl hsn (fun _ _ _ _ q => by cases q)⟩

theorem next_inv (D : Prop) (n : Net) (ok : n.Ok) (y : Sys) (h : SysInv D n y) (e : Ev) (he : D → distinctEv e) : SysInv D n (y.next n e) := by
  cases e with
  | userA o =>
    have := side_user D n.A ok.idA n.A.name n.B.name y.a y.b y.ab y.ba ⟨h.invA, h.ab, h.ba⟩ o he
    exact ⟨this.inv, h.invB, this.mine, this.theirs⟩
  | userB o =>
    have := side_user D n.B ok.idB n.B.name n.A.name y.b y.a y.ba y.ab ⟨h.invB, h.ba, h.ab⟩ o he
    exact ⟨h.invA, this.inv, this.theirs, this.mine⟩
  | toA i =>
    unfold Sys.next
    dsimp only
    cases e : y.ba[i]? with
    | none => exact h
    | some p =>
      dsimp only
      obtain ⟨e1, e2⟩ := split_at y.ba i p e
      have := side_deliver D n.A ok.idA ok.minterA n.B.name y.a y.b y.ab (y.ba.take i) (y.ba.drop (i + 1)) p n.netB
        (fun t ht => h.invB.details t ht) ⟨h.invA, by rw [← e1]; exact h.ab, by rw [← e1]; exact h.ba⟩
      rw [e2]
      exact ⟨this.inv, h.invB, this.mine, this.theirs⟩
  | toB i =>
    unfold Sys.next
    dsimp only
    cases e : y.ab[i]? with
    | none => exact h
    | some p =>
      dsimp only
      obtain ⟨e1, e2⟩ := split_at y.ab i p e
      have := side_deliver D n.B ok.idB ok.minterB n.A.name y.b y.a y.ba (y.ab.take i) (y.ab.drop (i + 1)) p n.netA
        (fun t ht => h.invA.details t ht) ⟨h.invB, by rw [← e1]; exact h.ba, by rw [← e1]; exact h.ab⟩
      rw [e2]
      exact ⟨h.invA, this.inv, this.theirs, this.mine⟩
  | failA i =>
    unfold Sys.next
    dsimp only
    cases e : y.ba[i]?.bind refused with
    | none => exact h
    | some q =>
      obtain ⟨g1, g2⟩ := fail_half D _ _ _ _ _ _ _ _ e h.ba h.ab
      exact ⟨h.invA, h.invB, g2, g1⟩
  | failB i =>
    unfold Sys.next
    dsimp only
    cases e : y.ab[i]?.bind refused with
    | none => exact h
    | some q =>
      obtain ⟨g1, g2⟩ := fail_half D _ _ _ _ _ _ _ _ e h.ab h.ba
      exact ⟨h.invA, h.invB, g1, g2⟩

theorem sysRun_inv (D : Prop) (n : Net) (ok : n.Ok) (l : List Ev) (hl : D → ∀ e ∈ l, distinctEv e) (y : Sys) (h : SysInv D n y) : SysInv D n (y.run n l) := by
  induction l generalizing y with
  | nil => exact h
  | cons e l ih =>
    exact ih (fun d e he => hl d e (List.mem_cons_of_mem _ he)) _ (next_inv D n ok y h e (fun d => hl d e List.mem_cons_self))

def Sys.swap (y : Sys) : Sys := ⟨y.b, y.a, y.ba, y.ab⟩
def Net.swap (n : Net) : Net := ⟨n.B, n.A, n.netB, n.netA⟩

theorem SysInv.swap {D : Prop} {n : Net} {y : Sys} (h : SysInv D n y) : SysInv D n.swap y.swap := ⟨h.invB, h.invA, h.ba, h.ab⟩
theorem Net.Ok.swap {n : Net} (h : n.Ok) : n.swap.Ok := ⟨Ne.symm h.names, h.idB, h.idA, h.minterB, h.minterA, h.sendsB, h.sendsA⟩

/-! ### Counting what is on the way -/

def amounts (txs : Tab Int Tx) (c : Bytes) : List Int → Int
  | [] => 0
  | sn :: l => amountOf txs c sn + amounts txs c l

theorem amounts_append (t : Tab Int Tx) (c : Bytes) (l m : List Int) : amounts t c (l ++ m) = amounts t c l + amounts t c m := by
  induction l with
  | nil => simp [amounts]
  | cons p l ih => rw [List.cons_append]; dsimp only [amounts]; rw [ih]; omega

theorem amounts_le (c : Bytes) (l : List Int) (hl : l.Nodup) (txs : Tab Int Tx) (hk : (txs.map (·.1)).Nodup)
    (hd : ∀ p ∈ txs, ∀ d ∈ p.2.assets, 1 ≤ d.amount ∧ 0 ≤ d.fee) : amounts txs c l ≤ txs.sum fun _ t => asum c t.assets := by
  induction l generalizing txs with
  | nil => exact Tab.sum_nonneg _ _ (fun p hp => asum_nonneg c _ (hd p hp))
  | cons sn l ih =>
    obtain ⟨h1, h2⟩ := List.nodup_cons.mp hl
    dsimp only [amounts]
    have hcongr : ∀ l : List Int, sn ∉ l → amounts (txs.del sn) c l = amounts txs c l := by
      intro l
      induction l with
      | nil => intro _; rfl
      | cons s l ih =>
        intro hs
        rw [List.mem_cons, not_or] at hs
        dsimp only [amounts]
        rw [ih hs.2]
        unfold amountOf
        rw [Tab.get?_del, if_neg (Ne.symm hs.1)]
    have hi := ih h2 (txs.del sn) (by rw [Tab.keys_del]; exact hk.filter _) (fun p hp => hd p ((Tab.mem_del _ _ _).mp hp).1)
    rw [hcongr l h1] at hi
    unfold amountOf
    cases e : txs.get? sn with
    | none =>
      dsimp only
      have e2 : txs.del sn = txs := by
        unfold Tab.del
        rw [List.filter_eq_self]
        intro p hp
        have := (Tab.get?_none txs sn).mp e
        simp only [decide_eq_true_eq]
        intro q
        exact this (List.mem_map.mpr ⟨p, hp, q⟩)
      rw [e2] at hi
      omega
    | some t =>
      dsimp only
      rw [Tab.sum_del _ _ hk sn t e] at hi
      omega

theorem amountOf_nonneg (txs : Tab Int Tx) (hd : ∀ p ∈ txs, ∀ d ∈ p.2.assets, 1 ≤ d.amount ∧ 0 ≤ d.fee) (c : Bytes) (sn : Int) : 0 ≤ amountOf txs c sn := by
  unfold amountOf
  cases e : txs.get? sn with
  | none => exact Int.le_refl 0
  | some t => exact asum_nonneg c _ (hd (sn, t) (Tab.get?_mem _ _ _ e))

theorem amounts_nonneg (txs : Tab Int Tx) (hd : ∀ p ∈ txs, ∀ d ∈ p.2.assets, 1 ≤ d.amount ∧ 0 ≤ d.fee) (c : Bytes) (l : List Int) : 0 ≤ amounts txs c l := by
  induction l with
  | nil => exact Int.le_refl 0
  | cons sn l ih => have := amountOf_nonneg txs hd c sn; dsimp only [amounts]; omega

theorem okSum_le (txs : Tab Int Tx) (hd : ∀ p ∈ txs, ∀ d ∈ p.2.assets, 1 ≤ d.amount ∧ 0 ≤ d.fee) (c : Bytes) (l : List Pkt) :
    0 ≤ okSum txs c l ∧ okSum txs c l ≤ amounts txs c (l.filterMap ansSn) := by
  induction l with
  | nil => exact ⟨Int.le_refl 0, Int.le_refl 0⟩
  | cons p l ih =>
    rw [List.filterMap_cons]
    dsimp only [okSum]
    cases p with
    | err sn =>
      have := amountOf_nonneg txs hd c sn
      dsimp only [ansSn, okOf, amounts]
      omega
    | msg sn m =>
      cases m with
      | response code =>
        have := amountOf_nonneg txs hd c sn
        dsimp only [ansSn, okOf, amounts]
        split <;> omega
      | request _ _ _ => dsimp only [ansSn, okOf]; omega
      | unknown => dsimp only [ansSn, okOf]; omega
      | other => dsimp only [ansSn, okOf]; omega
      | bad => dsimp only [ansSn, okOf]; omega

/-- The amounts that requests on the way ask for. -/
def asked (c : Bytes) : List Pkt → Int
  | [] => 0
  | .msg _ (.request _ _ l) :: ps => (l.map fun a => if a.coin = c then a.amount.getD 0 else 0).sum + asked c ps
  | _ :: ps => asked c ps

theorem asum_assets (c : Bytes) (l : List Detail) :
    ((l.map fun d => (⟨d.coin, some d.amount⟩ : Asset)).map fun a => if a.coin = c then a.amount.getD 0 else 0).sum = asum c l := by
  induction l with
  | nil => rfl
  | cons d l ih =>
    rw [List.map_cons, List.map_cons, List.sum_cons, ih]
    rfl

theorem asked_eq (c : Bytes) (x : S) (ps : List Pkt)
    (h : ∀ sn f t l, Pkt.msg sn (.request f t l) ∈ ps → ∃ tx, x.txs.get? sn = some tx ∧ l = tx.assets.map fun d => ⟨d.coin, some d.amount⟩) :
    asked c ps = amounts x.txs c (ps.filterMap reqSn) := by
  induction ps with
  | nil => rfl
  | cons p ps ih =>
    have hi := ih (fun sn f t l hm => h sn f t l (List.mem_cons_of_mem _ hm))
    rw [List.filterMap_cons]
    cases p with
    | err sn => exact hi
    | msg sn m =>
      cases m with
      | request f t l =>
        obtain ⟨tx, e1, e2⟩ := h sn f t l List.mem_cons_self
        dsimp only [asked, reqSn, amounts]
        rw [hi, e2, asum_assets]
        unfold amountOf
        rw [e1]
      | response code => exact hi
      | unknown => exact hi
      | other => exact hi
      | bad => exact hi

/-- All that the pending transactions of a chain hold of a coin: what is on the way as requests and as successes is part of it. -/
theorem flight_le (cfg : Cfg) (D : Prop) (ny : Bytes) (x y : S) (out inn : List Pkt) (hi : Inv cfg x) (h : Half D ny x y out inn) (c : Bytes) :
    0 ≤ asked c out ∧ 0 ≤ okSum x.txs c inn ∧ asked c out + okSum x.txs c inn ≤ lsum x c := by
  have hd := fun p hp => hi.details p hp
  have a1 := amounts_le c _ h.nodup x.txs hi.keys hd
  rw [amounts_append] at a1
  have a2 := okSum_le x.txs hd c inn
  have a3 := asked_eq c x out h.same
  have a4 := amounts_nonneg x.txs hd c (out.filterMap reqSn)
  have a5 : (x.txs.sum fun _ t => asum c t.assets) ≤ x.txs.sum fun _ t => dsum c t.assets :=
    Tab.sum_le _ _ _ (fun p hp => asum_le c _ (hd p hp))
  rw [← hi.lsum] at a5
  omega

/-- The coins of chain A against all claims: what A owes at home, what is still locked for requests that are not done, and the tokens on B. -/
theorem backed (D : Prop) (n : Net) (ok : n.Ok) (y : Sys) (h : SysInv D n y) :
    (lsum y.a n.A.name - okSum y.a.txs n.A.name y.ba) + rsum y.a n.A.name + at0 y.a.fees n.A.name +
      (at0 y.b.irc.supplies (n.B.id n.A.name) - okSum y.b.txs n.A.name y.ab) ≤ at0 y.a.icx n.A.self ∧
    asked n.A.name y.ba ≤ at0 y.b.irc.supplies (n.B.id n.A.name) - okSum y.b.txs n.A.name y.ab ∧
    0 ≤ lsum y.a n.A.name - okSum y.a.txs n.A.name y.ba := by
  have c1 := h.invA.coins
  have c2 := h.ba.paid n.A.name
  have c3 := h.ab.exact n.A.name (Or.inr ok.names)
  have c4 := h.invB.minted n.A.name ok.names
  have c5 := flight_le n.B D n.A.name y.b y.a y.ba y.ab h.invB h.ba n.A.name
  have c6 := flight_le n.A D n.B.name y.a y.b y.ab y.ba h.invA h.ab n.A.name
  have c7 := h.invB.tokens n.A.name ok.names
  have c8 := h.invB.irc.supply (n.B.id n.A.name)
  have c9 : at0 y.b.irc.bals (n.B.id n.A.name, n.B.self) ≤ tsum y.b.irc (n.B.id n.A.name) :=
    le_sumIf (fun j : Int × Bytes => j.1 = n.B.id n.A.name) y.b.irc.bals h.invB.irc.nonneg (n.B.id n.A.name, n.B.self) rfl
  have c10 := h.invB.rsum n.A.name
  have c11 := h.invB.fees n.A.name
  refine ⟨?_, ?_, ?_⟩ <;> omega

end Verif.Ncs
