import Verif.XCallNetSteps
import Verif.XCallOpen
/-!
The invariant of XCallNet: the call services of the network are a system of XCallSys, joined by message centers that deliver every message at
most once or give an error back, not both.
-/
namespace Verif.XNet
open Verif Verif.SolBmc Verif.SolNet

/-! ### Facts about the call service -/

theorem sn_le {C : XCall.Cfg} {x x' : XCall.St} (h : XCall.Inv2 C x) (h' : XCall.Inv2 C x') (he : ∃ y, x'.log = x.log ++ y) : x.sn ≤ x'.sn := by
  obtain ⟨y, he⟩ := he
  have h1 := congrArg List.length h.inv.sents
  have h2 := congrArg List.length h'.inv.sents
  rw [he, List.filterMap_append, List.length_append] at h2
  simp only [XCall.upTo, List.length_map, List.length_range] at h1 h2
  omega

/-- Calls of anyone but the message center. -/
theorem reach_users {N : BtpAddress.Str → XCall.Cfg} {b : BtpAddress.Str → Nat} {n : BtpAddress.Str} (hn : '/' ∉ n) : ∀ (ops : XCall.Ops) (svc : BtpAddress.Str → XCall.St)
    (done : List (BtpAddress.Str × Nat × Bool)), XCall.Reach N b ⟨svc, done⟩ → XCall.ByAll (· ≠ (N n).bmc) (fun _ => True) ops →
    (∀ m, m ≠ n → (svc m).sn < 2 ^ 255) → (XCall.run (N n) ops (svc n)).sn < 2 ^ 255 →
    XCall.Reach N b ⟨XCall.upd svc n (XCall.run (N n) ops (svc n)), done⟩
  | .nil, svc, done, h, _, _, _ => by
    rw [XCall.run]
    have : XCall.upd svc n (svc n) = svc := by
      funext m; unfold XCall.upd; split
      · rename_i e; rw [e]
      · rfl
    rw [this]; exact h
  | .cons op t, svc, done, h, hb, hs, hl => by
    rw [XCall.ByAll] at hb
    rw [XCall.run] at hl ⊢
    cases hk : XCall.step (N n) op (svc n) with
    | none =>
      rw [hk] at hl
      exact reach_users hn t svc done h hb.2 hs hl
    | some s1 =>
      rw [hk] at hl
      dsimp only at hl ⊢
      have hi := (XCall.reach_inv h).node n
      have hi1 := XCall.step_inv2 (N n) op _ s1 hi hk
      obtain ⟨y, hy, -⟩ := XCall.run_ext (N n) t s1
      have hle := sn_le hi1 (XCall.run_inv2 (N n) t s1 hi1) ⟨y, hy⟩
      have h1 : XCall.Reach N b ⟨XCall.upd svc n s1, done⟩ := by
        refine .step h (.user n op s1 hn hb.1 hk) (fun m => ?_)
        by_cases e : m = n
        · subst e; dsimp only; rw [XCall.upd_self]; omega
        · dsimp only; rw [XCall.upd_other _ _ _ _ e]; exact hs m e
      have h2 := reach_users hn t (XCall.upd svc n s1) done h1 hb.2 (fun m e => by rw [XCall.upd_other _ _ _ _ e]; exact hs m e)
        (by rw [XCall.upd_self]; exact hl)
      rw [XCall.upd_self] at h2
      have : XCall.upd (XCall.upd svc n s1) n (XCall.run (N n) t s1) = XCall.upd svc n (XCall.run (N n) t s1) := by
        funext m; unfold XCall.upd; split <;> rfl
      rw [this] at h2
      exact h2

/-- What a call service sends: requests, or answers. -/
theorem out_kind {N : BtpAddress.Str → XCall.Cfg} {S : XCall.Sys} (h : XCall.SInv N S) (hs : XCall.Small S) {a net : BtpAddress.Str} {i : Nat} {sn : Int}
    {m : XCall.Msg} {v : Nat} (hi : (S.svc a).log[i]? = some (.out net sn m v)) :
    (∃ (q : XCall.Req) (k : Nat) (rb : Option Bytes), m = .req q ∧ 0 ≤ sn ∧ ((0 < sn → q.rb = true ∧ sn = q.sn) ∧ (q.rb = true → sn = q.sn)) ∧ q.sn = k ∧ 1 ≤ k ∧ k ≤ (S.svc a).sn ∧
      XCall.Ev.sent k q.src net q.dst q.data rb ∈ (S.svc a).log ∧ (q.rb = true ↔ XCall.present (N a).lang rb = true)) ∨
    (∃ s c, m = .res s c ∧ 0 < s ∧ sn = -s) := by
  cases m with
  | unknown =>
    obtain ⟨_, _, _, hj⟩ := (h.node a).good.mem (List.mem_of_getElem? hi)
    exact hj.elim
  | req q =>
    left
    obtain ⟨k, rb, e1, e2, e3, e4, e5, e6⟩ := XCall.out_sent (h.node a) hi
    have hk := hs a
    have hpos : XCall.posSn (N a).lang k = k := by
      unfold XCall.posSn
      split
      · rfl
      · unfold XCall.toInt256
        rw [if_pos (by omega)]
    rw [hpos] at e6
    refine ⟨q, k, rb, rfl, ?_, ⟨fun hp => ?_, fun hrb => by rw [e6, if_pos hrb, e1]⟩, e1, e2, e3, e4, e5⟩
    · rw [e6]; split <;> omega
    · rw [e6] at hp
      split at hp
      · rename_i hrb
        refine ⟨hrb, ?_⟩
        rw [e6, if_pos hrb, e1]
      · omega
  | res s c =>
    right
    obtain ⟨id, q, hr, hqs, _, _, hneg⟩ := XCall.res_origin h hi
    obtain ⟨j, n1, v1, _, g⟩ := h.recv a id net q hr
    obtain ⟨k, rb, e1, e2, e3, _⟩ := XCall.out_sent (h.node net) g
    have := hs net
    have h1 : 0 < s := by omega
    exact ⟨s, c, rfl, h1, negSn_small h1 (by omega) hneg⟩

/-- A message taken by the call service: nothing is sent, and no request waiting is lost. -/
theorem handle_ok {nd : Node} {m : Msg} {x x' : XCall.St} (hi : XCall.Inv2 nd.x x) (h : XCall.step nd.x (handle nd m) x = some x') :
    (∃ y, x'.log = x.log ++ y ∧ ∀ net sn xm v, XCall.Ev.out net sn xm v ∉ y) ∧ (∀ id r, x.proxy id = some r → x'.proxy id = some r) := by
  have hresp : ∀ sn code, XCall.handleResponse nd.x x sn code = some x' →
      (∃ y, x'.log = x.log ++ y ∧ ∀ net sn xm v, XCall.Ev.out net sn xm v ∉ y) ∧ (∀ id r, x.proxy id = some r → x'.proxy id = some r) := by
    intro sn code hk
    rcases XCall.response_ok hk with ⟨_, rfl⟩ | ⟨c, _, rfl⟩
    · exact ⟨⟨[], by simp, by simp⟩, fun _ _ h => h⟩
    · exact ⟨⟨_, rfl, by simp⟩, fun _ _ h => h⟩
  unfold handle at h
  split at h
  · rw [XCall.step] at h
    obtain ⟨_, _, ⟨r, hm, _, hq⟩ | ⟨sn', code, hm, _, hq⟩⟩ := XCall.message_ok h
    · have e := XCall.handleRequest_ok hq
      refine ⟨⟨_, by rw [e], by simp⟩, fun id r' hp => ?_⟩
      rw [e]
      dsimp only
      rw [if_neg]
      · exact hp
      · rintro rfl
        obtain ⟨⟨k, net, q, hid, hrec, -⟩, -⟩ := hi.inv.proxy _ _ hp
        have hk : k ∈ x.log.filterMap XCall.recvId := List.mem_filterMap.2 ⟨_, hrec, rfl⟩
        rw [hi.inv.recv] at hk
        have := (XCall.mem_upTo.1 hk).2
        have : x.reqId + 1 = k := Int.ofNat.inj hid
        omega
    · exact hresp _ _ hq
  · rw [XCall.step] at h
    exact hresp _ _ (XCall.error_ok h).2.2

theorem jmv_inv2 {nd : Node} {a b : Abs} {x x' : XCall.St} {i : List Msg} {e : List Event} (hi : XCall.Inv2 nd.x x) (h : JMv nd a x i e b x') :
    XCall.Inv2 nd.x x' ∧ ∃ y, x'.log = x.log ++ y := by
  cases h with
  | plain => exact ⟨hi, [], (List.append_nil _).symm⟩
  | use _ new _ _ ops h1 h2 h3 h4 => exact ⟨by rw [← h3]; exact XCall.run_inv2 _ ops _ hi, h1.ext⟩
  | take m _ _ h1 h2 h3 =>
    obtain ⟨⟨y, hy, -⟩, -⟩ := handle_ok hi h3
    exact ⟨XCall.step_inv2 _ _ _ _ hi h3, y, hy⟩
  | reject => exact ⟨hi, [], (List.append_nil _).symm⟩

theorem jmvs_inv2 {nd : Node} {a b : Abs} {x x' : XCall.St} {i : List Msg} {e : List Event} (h : JMvs nd a x i e b x') : XCall.Inv2 nd.x x →
    XCall.Inv2 nd.x x' ∧ ∃ y, x'.log = x.log ++ y := by
  induction h with
  | nil => intro hi; exact ⟨hi, [], (List.append_nil _).symm⟩
  | cons hm _ ih =>
    intro hi
    obtain ⟨h1, y, hy⟩ := jmv_inv2 hi hm
    obtain ⟨h2, z, hz⟩ := ih h1
    exact ⟨h2, y ++ z, by rw [hz, hy, List.append_assoc]⟩

/-! ### The invariant -/

section
variable (nd : String → Node) (nets : List String) (bal : String → Nat)

def N : BtpAddress.Str → XCall.Cfg := fun s => (nd (String.ofList s)).x

/-- The call services as a system of XCallSys. -/
def XS (x : String → XCall.St) (done : List (BtpAddress.Str × Nat × Bool)) : XCall.Sys := ⟨fun s => x (String.ofList s), done⟩

theorem XS_upd (x : String → XCall.St) (done done' : List (BtpAddress.Str × Nat × Bool)) (n : String) (x' : XCall.St) :
    XS (upd x n x') done' = ⟨XCall.upd (XS x done).svc n.toList x', done'⟩ := by
  unfold XS
  congr 1
  funext s
  unfold upd XCall.upd
  by_cases e : s = n.toList
  · rw [if_pos e, if_pos (by rw [e, String.ofList_toList])]
  · rw [if_neg e, if_neg (fun h => e (by rw [← h, String.toList_ofList]))]

/-- A message under way belongs to a message the call service sent, which has not been delivered or given back. -/
def Entry (G : String → List (Nat × Msg)) (done : List (BtpAddress.Str × Nat × Bool)) (m : Msg) : Prop :=
  (0 ≤ m.sn ∧ ∃ i m0, (i, m0) ∈ G m.src ∧ SameMsg m0 m ∧ ∀ k, (m.src.toList, i, k) ∉ done) ∨
  (m.sn < 0 ∧ ∃ i m0, (i, m0) ∈ G m.dst ∧ m0.nsn = -m.nsn ∧ m0.sn = -m.sn ∧ ∀ k, (m.dst.toList, i, k) ∉ done)

/-- `G` gives the messages of the message centers for the ones the call services sent, by place in their logs. -/
structure K (L : String → List Event) (P : List Msg) (x : String → XCall.St) (G : String → List (Nat × Msg))
    (done : List (BtpAddress.Str × Nat × Bool)) : Prop where
  reach : XCall.Reach (N nd) (fun s => bal (String.ofList s)) (XS x done)
  func : ∀ n, ∀ p ∈ G n, ∀ q ∈ G n, p.1 = q.1 → p.2 = q.2
  gmatch : ∀ n, ∀ p ∈ G n, n ∈ nets ∧ p.2 ∈ msgsOf (L n) ∧ ∃ net sn xm v, (x n).log[p.1]? = some (.out net sn xm v) ∧ Match (nd n) p.2 net sn xm ∧
    (sn < 0 → ∃ m0, orig L p.2.dst (-p.2.nsn) = some m0 ∧ m0.svc = X ∧ m0.sn = -sn)
  gall : ∀ n ∈ nets, ∀ (i : Nat) net sn xm v, (x n).log[i]? = some (.out net sn xm v) → ∃ m, (i, m) ∈ G n
  dn : ∀ s i k, (s, i, k) ∈ done → i < (x (String.ofList s)).log.length
  pool : ∀ m ∈ P, m.svc = X → Entry G done m
  log : ∀ n ∈ nets, ∀ m ∈ msgsOf (L n), m.svc = X → m.src = n → 0 < m.nsn → ∃ p ∈ G n, SameMsg p.2 m

/-- No service sent 2^255 calls, and what the services sent can be read. -/
structure Ok (x : String → XCall.St) : Prop where
  small : ∀ n, (x n).sn < 2 ^ 255
  legible : ∀ (n n' : String) (net : BtpAddress.Str) (sn : Int) (m : XCall.Msg) (v : Nat), XCall.Ev.out net sn m v ∈ (x n).log → (nd n').dec ((nd n).enc m) = m
end

section
variable {nd : String → Node} {nets : List String} {bal : String → Nat} {A : String → Abs} {L : String → List Event} {T : String → List Msg} {P : List Msg}
  {x : String → XCall.St} {G : String → List (Nat × Msg)} {done : List (BtpAddress.Str × Nat × Bool)}

theorem toList_inj' {a b : String} (h : a.toList = b.toList) : a = b := by
  rw [← String.ofList_toList (s := a), h, String.ofList_toList]

theorem Entry.same {m m' : Msg} (h : SameMsg m m') (g : Entry G done m) : Entry G done m' := by
  unfold Entry at g ⊢
  rw [h.sn, h.src, h.dst, h.nsn]
  rcases g with ⟨h1, i, m0, h2, h3, h4⟩ | g
  · exact .inl ⟨h1, i, m0, h2, h3.trans h, h4⟩
  · exact .inr g

theorem Entry.back {m m' : Msg} (hs : 0 < m.sn) (h1 : m'.dst = m.src) (h2 : m'.sn = -m.sn) (h3 : m'.nsn = -m.nsn) (g : Entry G done m) : Entry G done m' := by
  rcases g with ⟨_, i, m0, g2, g3, g4⟩ | ⟨g, _⟩
  · refine .inr ⟨by omega, i, m0, by rw [h1]; exact g2, by rw [h3, ← g3.nsn]; omega, by rw [h2, ← g3.sn]; omega, by rw [h1]; exact g4⟩
  · omega

/-- The token of a message. -/
def tk (m : Msg) : String × Int := if 0 < m.nsn then (m.src, m.nsn) else (m.dst, -m.nsn)

theorem tk_tok {m : Msg} : isTok (tk m).1 (tk m).2 m = true := by
  unfold tk
  split
  · exact isTok_iff.2 (.inl ⟨rfl, rfl⟩)
  · exact isTok_iff.2 (.inr ⟨rfl, by dsimp only; omega⟩)

theorem tk_same {m m' : Msg} (h : SameMsg m m') : tk m' = tk m := by unfold tk; rw [h.nsn, h.src, h.dst]

theorem Auth.tk_mem {m : Msg} (h : Auth nets L m) : (tk m).1 ∈ nets ∧ 0 < (tk m).2 := by
  have := h.zero
  unfold tk
  split
  · rename_i hp; exact ⟨(h.req hp).1, hp⟩
  · exact ⟨(h.ans (by omega)).1, by dsimp only; omega⟩

/-- Two messages under way have different tokens. -/
theorem Inv.two (g : SolNet.Inv nets A L P T) {m m' : Msg} {rest : List Msg} (hp : P = m :: rest) (hm : m' ∈ rest) (h : tk m = tk m') : False := by
  subst hp
  have ha := Auth.tk_mem (g.pool m (List.mem_cons_self))
  have h1 := g.tok (tk m).1 ha.1 (tk m).2 ha.2
  have h2 : 1 ≤ rest.countP (isTok (tk m).1 (tk m).2) := List.countP_pos_iff.2 ⟨m', hm, by rw [h]; exact tk_tok⟩
  unfold weight used at h1
  rw [List.countP_cons, if_pos tk_tok] at h1
  split at h1 <;> omega

theorem K.perm {P' : List Msg} (h : P.Perm P') (g : K nd nets bal L P x G done) : K nd nets bal L P' x G done :=
  ⟨g.reach, g.func, g.gmatch, g.gall, g.dn, fun m hm => g.pool m (h.mem_iff.2 hm), g.log⟩

/-- The entry of a message, with the place in the log of the owner. -/
theorem K.entry (hname : ∀ n ∈ nets, (nd n).bmc.net = n) (g : K nd nets bal L P x G done) (hv : SolNet.Inv nets A L P T) {m : Msg} (hm : m ∈ P) (hx : m.svc = X) :
    ∃ a i m0, (i, m0) ∈ G a ∧ (∀ k, (a.toList, i, k) ∉ done) ∧ tk m = tk m0 ∧ ((0 ≤ m.sn ∧ a = m.src ∧ SameMsg m0 m) ∨ (m.sn < 0 ∧ a = m.dst ∧ m0.nsn = -m.nsn ∧ m0.sn = -m.sn)) := by
  rcases g.pool m hm hx with ⟨h1, i, m0, h2, h3, h4⟩ | ⟨h1, i, m0, h2, h3, h4, h5⟩
  · exact ⟨m.src, i, m0, h2, h4, tk_same h3, .inl ⟨h1, rfl, h3⟩⟩
  · refine ⟨m.dst, i, m0, h2, h5, ?_, .inr ⟨h1, rfl, h3, h4⟩⟩
    have hneg := (hv.pool m hm).neg h1
    obtain ⟨hn, -, net, sn, xm, v, -, hma, -⟩ := g.gmatch _ _ h2
    have hs : m0.src = m.dst := hma.src.trans (hname _ hn)
    unfold tk
    rw [if_neg (by omega), if_pos (by omega), hs, h3]

theorem K.done_lt (g : K nd nets bal L P x G done) {n : String} {i : Nat} (hi : (x n).log.length ≤ i) (k : Bool) : (n.toList, i, k) ∉ done := by
  intro h
  have := g.dn _ _ _ h
  rw [String.ofList_toList] at this
  omega

theorem upd_id {V : Type} (F : String → V) (n : String) : upd F n (F n) = F := by
  funext z; unfold upd; split
  · rename_i e; rw [e]
  · rfl

theorem upd_nil {V : Type} (F : String → List V) (n : String) : upd F n (F n ++ []) = F := by
  rw [List.append_nil]; exact upd_id F n

/-- Events added to the log of a message center. -/
theorem K.gmatch_ext {L' : String → List Event} (hx : SolNet.Ext L L') (g : K nd nets bal L P x G done) : ∀ n, ∀ p ∈ G n, n ∈ nets ∧ p.2 ∈ msgsOf (L' n) ∧
    ∃ net sn xm v, (x n).log[p.1]? = some (.out net sn xm v) ∧ Match (nd n) p.2 net sn xm ∧
    (sn < 0 → ∃ m0, orig L' p.2.dst (-p.2.nsn) = some m0 ∧ m0.svc = X ∧ m0.sn = -sn) := by
  intro n p hp
  obtain ⟨h1, h2, net, sn, xm, v, h3, h4, h5⟩ := g.gmatch n p hp
  refine ⟨h1, hx.msg h2, net, sn, xm, v, h3, h4, fun hs => ?_⟩
  obtain ⟨m0, h6, h7⟩ := h5 hs
  exact ⟨m0, hx.orig h6, h7⟩

/-- Messages emitted that are for the call service belong to messages taken. -/
theorem K.quiet {n : String} {e : List Event} {i rest : List Msg} (hn : n ∈ nets) (g : K nd nets bal L (i ++ rest) x G done)
    (he : ∀ m ∈ msgsOf e, m.svc = X → Entry G done m ∧ (m.src = n → 0 < m.nsn → ∃ p ∈ G n, SameMsg p.2 m)) :
    K nd nets bal (upd L n (L n ++ e)) (rest ++ msgsOf e) x G done := by
  refine ⟨g.reach, g.func, g.gmatch_ext (SolNet.Ext.upd L n e), g.gall, g.dn, fun m hm hx => ?_, fun n' hn' m hm hx hs hp => ?_⟩
  · rcases List.mem_append.1 hm with hm | hm
    · exact g.pool m (List.mem_append_right _ hm) hx
    · exact (he m hm hx).1
  · by_cases e1 : n' = n
    · subst e1
      rw [upd_same', msgsOf_append] at hm
      rcases List.mem_append.1 hm with hm | hm
      · exact g.log n' hn' m hm hx hs hp
      · exact (he m hm hx).2 hs hp
    · rw [upd_other' _ _ _ _ e1] at hm
      exact g.log n' hn' m hm hx hs hp

theorem K.move (hname : ∀ n ∈ nets, (nd n).bmc.net = n) (hsl : ∀ n ∈ nets, '/' ∉ n.toList) {n : String} (hn : n ∈ nets) {i rest : List Msg} {e : List Event}
    {b : Abs} {x' : XCall.St} (hv : SolNet.Inv nets A L (i ++ rest) T) (g : K nd nets bal L (i ++ rest) x G done) (h : JMv (nd n) (A n) (x n) i e b x')
    (hok : Ok nd (upd x n x')) : ∃ G' done', K nd nets bal (upd L n (L n ++ e)) (rest ++ msgsOf e) (upd x n x') G' done' := by
  have hi2 : XCall.Inv2 (nd n).x (x n) := by
    have := (XCall.reach_inv g.reach).node n.toList
    unfold N XS at this
    dsimp only at this
    rwa [String.ofList_toList] at this
  generalize ha : A n = a at h
  generalize hxn : x n = x0 at h
  cases h with
  | plain _ _ _ h1 h2 h3 =>
    subst hxn
    rw [upd_id]
    refine ⟨G, done, g.quiet hn fun m hm hx => ?_⟩
    have hpool : ∀ m ∈ i, Auth nets L m := fun m hm => hv.pool m (List.mem_append_left _ hm)
    cases h1 with
    | fresh => exact absurd hx (h2 rfl m hm)
    | answer => exact absurd hx (h2 rfl m hm)
    | store => exact nomatch hm
    | receive => exact nomatch hm
    | pass next seq m1 m2 h4 h5 =>
      obtain rfl : m = m2 := List.mem_singleton.1 hm
      have he := g.pool m1 (List.mem_append_left _ (List.mem_singleton.2 rfl)) (by rw [← h5.svc]; exact hx)
      have hau := hpool m1 (List.mem_singleton.2 rfl)
      refine ⟨he.same h5, fun hs hp => ?_⟩
      rcases he with ⟨_, k, m0, h6, h7, _⟩ | ⟨h6, _⟩
      · rw [← h5.src, hs] at h6
        exact ⟨_, h6, h7.trans h5⟩
      · have := hau.neg h6
        have := h5.nsn
        omega
    | back next seq m1 m2 h4 h5 h6 h7 h8 h9 =>
      obtain rfl : m = m2 := List.mem_singleton.1 hm
      have he := g.pool m1 (List.mem_append_left _ (List.mem_singleton.2 rfl)) (by rw [← h7]; exact hx)
      have := (hpool m1 (List.mem_singleton.2 rfl)).pos h4
      exact ⟨he.back h4 h6 h8 h9, fun _ hp => by omega⟩
    | giveUp => exact nomatch hm
    | note => exact nomatch hm
    | fall => exact nomatch hm
    | forget => exact nomatch hm
  | use _ new _ _ ops h1 h2 h3 h4 =>
    obtain ⟨y, hy⟩ := h1.ext
    have hlen : (x n).log.length ≤ x'.log.length := by rw [hxn, hy, List.length_append]; omega
    have hgrow : ∀ (z : String) (i : Nat) (ev : XCall.Ev), (x z).log[i]? = some ev → (upd x n x' z).log[i]? = some ev := by
      intro z i ev hi
      by_cases e1 : z = n
      · subst e1
        rw [upd_same', hy]
        rw [hxn] at hi
        rw [List.getElem?_append_left (List.getElem?_eq_some_iff.mp hi).1]; exact hi
      · rw [upd_other' _ _ _ _ e1]; exact hi
    have hx := SolNet.Ext.upd L n e
    refine ⟨upd G n (G n ++ new), done, ?_, fun z p hp q hq hpq => ?_, fun z p hp => ?_, fun z hz k net sn xm v hk => ?_, fun s k d hd => ?_, fun m hm hx' => ?_,
      fun z hz m hm hx' hs hp => ?_⟩
    · rw [XS_upd x done done n x', ← h3, ← hxn]
      have := reach_users (hsl n hn) ops (XS x done).svc done g.reach (by unfold N; rw [String.ofList_toList]; exact h2) (fun m hm => by
          have := hok.small (String.ofList m)
          rwa [upd_other' _ _ _ _ (fun e1 => hm (by rw [← e1, String.toList_ofList]))] at this) (by
          have := hok.small n
          rw [upd_same', ← h3, ← hxn] at this
          unfold N XS
          dsimp only
          rw [String.ofList_toList]; exact this)
      unfold N XS at this
      dsimp only at this
      rw [String.ofList_toList] at this
      exact this
    · by_cases e1 : z = n
      · subst e1
        rw [upd_same'] at hp hq
        have hlt : ∀ p ∈ G z, p.1 < x0.log.length := fun p hp => by
          obtain ⟨_, _, net, sn, xm, v, h5, _⟩ := g.gmatch z p hp
          rw [hxn] at h5
          exact (List.getElem?_eq_some_iff.mp h5).1
        rcases List.mem_append.1 hp with hp | hp <;> rcases List.mem_append.1 hq with hq | hq
        · exact g.func z p hp q hq hpq
        · have := hlt p hp; have := (h1.sent q hq).1; omega
        · have := hlt q hq; have := (h1.sent p hp).1; omega
        · exact h1.uniq p hp q hq hpq
      · rw [upd_other' _ _ _ _ e1] at hp hq
        exact g.func z p hp q hq hpq
    · have hold : p ∈ G z → z ∈ nets ∧ p.2 ∈ msgsOf (upd L n (L n ++ e) z) ∧ ∃ net sn xm v, (upd x n x' z).log[p.1]? = some (.out net sn xm v) ∧
          Match (nd z) p.2 net sn xm ∧ (sn < 0 → ∃ m0, orig (upd L n (L n ++ e)) p.2.dst (-p.2.nsn) = some m0 ∧ m0.svc = X ∧ m0.sn = -sn) := by
        intro hp
        obtain ⟨h5, h6, net, sn, xm, v, h7, h8⟩ := g.gmatch_ext hx z p hp
        exact ⟨h5, h6, net, sn, xm, v, hgrow _ _ _ h7, h8⟩
      by_cases e1 : z = n
      · subst e1
        rw [upd_same'] at hp
        rcases List.mem_append.1 hp with hp | hp
        · exact hold hp
        · obtain ⟨h5, h6, net, sn, xm, v, h7, h8⟩ := h1.sent p hp
          refine ⟨hn, by rw [upd_same', msgsOf_append]; exact List.mem_append_right _ h6, net, sn, xm, v, by rw [upd_same']; exact h7, h8, fun hs => ?_⟩
          have h9 := h1.due p hp net sn xm v h7 hs
          have h10 := (h8.answer hs).2
          rw [← ha] at h9
          rcases hv.kept z hn (String.ofList net) X (-sn) with h11 | ⟨-, -, m0, h11, h12, h13, -⟩
          · omega
          · refine ⟨m0, hx.orig ?_, h12, h13⟩
            rw [h8.dst, h9, Int.neg_neg]
            exact h11
      · rw [upd_other' _ _ _ _ e1] at hp
        exact hold hp
    · by_cases e1 : z = n
      · subst e1
        rw [upd_same'] at hk ⊢
        by_cases hlt : k < x0.log.length
        · rw [hy, List.getElem?_append_left hlt, ← hxn] at hk
          obtain ⟨m, hm⟩ := g.gall z hz k net sn xm v hk
          exact ⟨m, List.mem_append_left _ hm⟩
        · obtain ⟨m, hm⟩ := h1.outs k net sn xm v (by omega) hk
          exact ⟨m, List.mem_append_right _ hm⟩
      · rw [upd_other' _ _ _ _ e1] at hk ⊢
        exact g.gall z hz k net sn xm v hk
    · have := g.dn s k d hd
      by_cases e1 : String.ofList s = n
      · rw [e1] at this ⊢
        rw [upd_same']; omega
      · rw [upd_other' _ _ _ _ e1]; exact this
    · have hsub : ∀ z p, p ∈ G z → p ∈ upd G n (G n ++ new) z := by
        intro z p hp
        by_cases e1 : z = n
        · subst e1; rw [upd_same']; exact List.mem_append_left _ hp
        · rw [upd_other' _ _ _ _ e1]; exact hp
      rcases List.mem_append.1 hm with hm | hm
      · rcases g.pool m hm hx' with ⟨h5, k, m0, h6, h7⟩ | ⟨h5, k, m0, h6, h7⟩
        · exact .inl ⟨h5, k, m0, hsub _ _ h6, h7⟩
        · exact .inr ⟨h5, k, m0, hsub _ _ h6, h7⟩
      · obtain ⟨p, hp, rfl⟩ := h1.all m hm hx'
        obtain ⟨h5, h6, net, sn, xm, v, h7, h8⟩ := h1.sent p hp
        have hs : p.2.src = n := h8.src.trans (hname n hn)
        refine .inl ⟨?_, p.1, p.2, ?_, .refl _, fun k => ?_⟩
        · by_cases hs : sn < 0
          · rw [(h8.answer hs).1]; exact Int.le_refl _
          · rw [(h8.fresh (by omega)).1]; omega
        · rw [hs, upd_same']; exact List.mem_append_right _ hp
        · rw [hs]; exact g.done_lt (by rw [hxn]; exact h5) k
    · by_cases e1 : z = n
      · subst e1
        rw [upd_same'] at hm ⊢
        rw [msgsOf_append] at hm
        rcases List.mem_append.1 hm with hm | hm
        · obtain ⟨p, hp', h5⟩ := g.log z hz m hm hx' hs hp
          exact ⟨p, List.mem_append_left _ hp', h5⟩
        · obtain ⟨p, hp', rfl⟩ := h1.all m hm hx'
          exact ⟨p, List.mem_append_right _ hp', .refl _⟩
      · rw [upd_other' _ _ _ _ e1] at hm ⊢
        exact g.log z hz m hm hx' hs hp
  | take m _ _ h1 h2 h3 =>
    subst hxn
    obtain ⟨⟨y, hy, hno⟩, -⟩ := handle_ok hi2 h3
    obtain ⟨a0, k, m0, hG, hd, htk, hcase⟩ := g.entry hname hv (List.mem_append_left _ (List.mem_singleton.2 rfl)) h2
    obtain ⟨ha0, hlog, net, sn, xm, v, ho, hma, -⟩ := g.gmatch a0 _ hG
    have hdst : m.dst = n := by
      rw [← hname n hn]
      cases h1 with
      | store _ _ h _ => exact h
      | receive _ h _ => exact h
    have hlen : (x n).log.length ≤ x'.log.length := by rw [hy, List.length_append]; omega
    have hgrow : ∀ (z : String) (i : Nat) (ev : XCall.Ev), (x z).log[i]? = some ev → (upd x n x' z).log[i]? = some ev := by
      intro z i ev hi
      by_cases e1 : z = n
      · subst e1
        rw [upd_same', hy]
        rw [List.getElem?_append_left (List.getElem?_eq_some_iff.mp hi).1]; exact hi
      · rw [upd_other' _ _ _ _ e1]; exact hi
    have hsmall : ∀ d, XCall.Small (XS (upd x n x') d) := fun d s => hok.small (String.ofList s)
    have hleg : (nd n).dec ((nd a0).enc xm) = xm := hok.legible a0 n net sn xm v (List.mem_of_getElem? (hgrow _ _ _ ho))
    have hreach : ∃ c, XCall.Reach (N nd) (fun s => bal (String.ofList s)) (XS (upd x n x') (done ++ [(a0.toList, k, c)])) := by
      have ho' : ((XS x done).svc a0.toList).log[k]? = some (.out net sn xm v) := by
        unfold XS; dsimp only; rw [String.ofList_toList]; exact ho
      rcases hcase with ⟨hs, rfl, hsame⟩ | ⟨hs, rfl, hk1, hk2⟩
      · refine ⟨true, .step g.reach ?_ (hsmall _)⟩
        rw [XS_upd x done]
        have hnet : net = n.toList := by
          rw [← hdst, hsame.dst, hma.dst, String.toList_ofList]
        subst hnet
        refine .deliver m.src.toList k n.toList sn xm v x' (hsl n hn) ho' hd ?_
        unfold handle at h3
        rw [if_pos hs, hsame.body, hma.body, hleg] at h3
        unfold N XS
        dsimp only
        rw [String.ofList_toList]
        rw [XCall.step] at h3 ⊢
        exact h3
      · refine ⟨false, .step g.reach ?_ (hsmall _)⟩
        rw [XS_upd x done, hdst]
        rw [hdst] at ho'
        have hsn : sn = -m.sn := by
          by_cases h5 : sn < 0
          · have := (hma.answer h5).1; dsimp only at this; omega
          · have := (hma.fresh (by omega)).1; dsimp only at this; omega
        refine .bounce n.toList k net sn xm v ((((nd n).bmc.decResp m.body).getD 0 : Nat) : Int) x' ho' (by rw [← hdst]; exact hd) (by omega) ?_
        unfold handle at h3
        rw [if_neg (by omega)] at h3
        unfold N XS
        dsimp only
        rw [String.ofList_toList, hsn]
        rw [XCall.step] at h3 ⊢
        exact h3
    obtain ⟨c, hreach⟩ := hreach
    have hL : upd L n (L n ++ []) = L := upd_nil L n
    rw [hL]
    refine ⟨G, done ++ [(a0.toList, k, c)], hreach, g.func, fun z p hp => ?_, fun z hz i net sn xm v hi => ?_, fun s i d hd' => ?_, fun m' hm' hx' => ?_, g.log⟩
    · obtain ⟨h5, h6, net, sn, xm, v, h7, h8⟩ := g.gmatch z p hp
      exact ⟨h5, h6, net, sn, xm, v, hgrow _ _ _ h7, h8⟩
    · by_cases e1 : z = n
      · subst e1
        rw [upd_same', hy] at hi
        by_cases hlt : i < (x z).log.length
        · rw [List.getElem?_append_left hlt] at hi
          exact g.gall z hz i net sn xm v hi
        · rw [List.getElem?_append_right (by omega)] at hi
          exact absurd (List.mem_of_getElem? hi) (hno net sn xm v)
      · rw [upd_other' _ _ _ _ e1] at hi
        exact g.gall z hz i net sn xm v hi
    · have hle : ∀ z, (x z).log.length ≤ (upd x n x' z).log.length := by
        intro z
        by_cases e1 : z = n
        · subst e1; rw [upd_same']; exact hlen
        · rw [upd_other' _ _ _ _ e1]; exact Nat.le_refl _
      rcases List.mem_append.1 hd' with hd' | hd'
      · exact Nat.lt_of_lt_of_le (g.dn s i d hd') (hle _)
      · rw [List.mem_singleton] at hd'
        simp only [Prod.mk.injEq] at hd'
        obtain ⟨rfl, rfl, rfl⟩ := hd'
        rw [String.ofList_toList]
        exact Nat.lt_of_lt_of_le (List.getElem?_eq_some_iff.mp ho).1 (hle _)
    · have hm0 : m' ∈ rest := by
        rcases List.mem_append.1 hm' with h | h
        · exact h
        · exact nomatch h
      have hne : ∀ (a1 : String) (i : Nat) (m1 : Msg), (i, m1) ∈ G a1 → tk m' = tk m1 → ∀ d, (a1.toList, i, d) ∉ [(a0.toList, k, c)] := by
        intro a1 i m1 hG1 ht d hmem
        rw [List.mem_singleton] at hmem
        simp only [Prod.mk.injEq] at hmem
        obtain ⟨e1, rfl, -⟩ := hmem
        have e1 := toList_inj' e1
        subst e1
        have := g.func _ _ hG _ hG1 rfl
        dsimp only at this
        subst this
        exact Inv.two hv rfl hm0 (htk.trans ht.symm)
      obtain ⟨a1, i, m1, hG1, hd1, ht1, hc1⟩ := g.entry hname hv (List.mem_append_right _ hm0) hx'
      have hd2 : ∀ d, (a1.toList, i, d) ∉ done ++ [(a0.toList, k, c)] := fun d h => (List.mem_append.1 h).elim (hd1 d) (hne a1 i m1 hG1 ht1 d)
      rcases hc1 with ⟨h5, rfl, h6⟩ | ⟨h5, rfl, h6, h7⟩
      · exact .inl ⟨h5, i, m1, hG1, h6, hd2⟩
      · exact .inr ⟨h5, i, m1, hG1, h6, h7, hd2⟩
  | reject m b _ _ h1 h2 h3 h4 h5 =>
    subst hxn
    rw [upd_id]
    refine ⟨G, done, g.quiet hn fun m' hm' hx' => ?_⟩
    rcases h4 with ⟨hs, next, seq, m2, rfl, h6, h7, h8, h9, h10⟩ | ⟨prev, seq, m2, code, rfl, _⟩
    · rw [msgsOf_one, List.mem_singleton] at hm'
      subst hm'
      have hau := hv.pool m (List.mem_append_left _ (List.mem_singleton.2 rfl))
      have := hau.pos hs
      exact ⟨(g.pool m (List.mem_append_left _ (List.mem_singleton.2 rfl)) h2).back hs h7 h9 h10, fun _ _ => by omega⟩
    · exact nomatch hm'

theorem reach_small {N : BtpAddress.Str → XCall.Cfg} {b : BtpAddress.Str → Nat} {S : XCall.Sys} (h : XCall.Reach N b S) : XCall.Small S := by
  cases h with
  | init => intro n; exact Nat.two_pow_pos _
  | step _ _ h => exact h

theorem K.node (g : K nd nets bal L P x G done) (n : String) : XCall.Inv2 (nd n).x (x n) := by
  have := (XCall.reach_inv g.reach).node n.toList
  unfold N XS at this
  dsimp only at this
  rwa [String.ofList_toList] at this

/-- What a service sent, in its log. -/
theorem K.kind (g : K nd nets bal L P x G done) {a : String} {net : BtpAddress.Str} {i : Nat} {sn : Int}
    {m : XCall.Msg} {v : Nat} (hi : (x a).log[i]? = some (.out net sn m v)) :
    (∃ (q : XCall.Req) (k : Nat) (rb : Option Bytes), m = .req q ∧ 0 ≤ sn ∧ ((0 < sn → q.rb = true ∧ sn = q.sn) ∧ (q.rb = true → sn = q.sn)) ∧ q.sn = k ∧ 1 ≤ k ∧ k ≤ (x a).sn ∧
      XCall.Ev.sent k q.src net q.dst q.data rb ∈ (x a).log ∧ (q.rb = true ↔ XCall.present (nd a).x.lang rb = true)) ∨
    (∃ s c, m = .res s c ∧ 0 < s ∧ sn = -s) := by
  have := out_kind (XCall.reach_inv g.reach) (reach_small g.reach) (a := a.toList) (net := net) (i := i) (sn := sn) (m := m) (v := v)
    (by unfold XS; dsimp only; rw [String.ofList_toList]; exact hi)
  unfold N XS at this
  dsimp only at this
  rwa [String.ofList_toList] at this

/-- A two-way call of the service is open or answered. -/
theorem K.asked (g : K nd nets bal L P x G done) {n : String} (hn : n ∈ nets) {k : Int} {m : Msg}
    (h : orig L n k = some m) (hk : 0 < k) (hx : m.svc = X) (hs : 0 < m.sn) :
    (∃ q, (x n).reqs m.sn = some q) ∨ ∃ code, XCall.Ev.response m.sn code ∈ (x n).log := by
  obtain ⟨h1, h2, h3⟩ := orig_mem h
  obtain ⟨p, hp, hsame⟩ := g.log n hn m h1 hx h2 (by omega)
  obtain ⟨-, -, net, sn, xm, v, ho, hma, -⟩ := g.gmatch n p hp
  have h4 : ¬ sn < 0 := fun h => by have := (hma.answer h).2; have := hsame.nsn; omega
  have h5 := (hma.fresh (by omega)).1
  have h6 := hsame.sn
  rcases g.kind ho with ⟨q, k', rb, -, -, h7, h8, h9, h10, h11, h12⟩ | ⟨s, c, -, h7, h8⟩
  · obtain ⟨h13, h14⟩ := h7.1 (by omega)
    have ho' := XCall.sys_open g.reach n.toList
    unfold N XS at ho'
    dsimp only at ho'
    rw [String.ofList_toList] at ho'
    have e : m.sn = (k' : Int) := by omega
    rw [e]
    exact ho'.kept k' _ _ _ _ rb h11 (h12.1 h13)
  · omega

/-- An answer the message center owes for the call service belongs to a request that waits to be executed. -/
def Wait (nets : List String) (A : String → Abs) (x : String → XCall.St) : Prop :=
  ∀ n ∈ nets, ∀ y sn, owed (A n) (y, X, sn) ≠ 0 → ∃ id r a, (x n).proxy id = some r ∧ r.rb = true ∧ r.sn = sn ∧ sn < 2 ^ 255 ∧
    r.src = BtpAddress.solCompose y.toList a

theorem Wait.move (hname : ∀ n ∈ nets, (nd n).bmc.net = n) (hsl : ∀ n ∈ nets, '/' ∉ n.toList) {n : String} (hn : n ∈ nets) {i rest : List Msg} {e : List Event}
    {b : Abs} {x' : XCall.St} (hv : SolNet.Inv nets A L (i ++ rest) T) (g : K nd nets bal L (i ++ rest) x G done) (h : JMv (nd n) (A n) (x n) i e b x')
    (hok : Ok nd (upd x n x')) (w : Wait nets A x) : Wait nets (upd A n b) (upd x n x') := by
  intro n' hn' y sn ho
  by_cases e1 : n' = n
  case neg =>
    rw [upd_other' _ _ _ _ e1] at ho ⊢
    exact w n' hn' y sn ho
  subst e1
  rw [upd_same'] at ho ⊢
  have hi2 := g.node n'
  generalize ha : A n' = a at h
  generalize hxn : x n' = x0 at h
  cases h with
  | plain _ _ _ h1 h2 h3 =>
    subst hxn ha
    apply w n' hn' y sn
    cases h1 with
    | fresh => exact ho
    | answer next seq m k h1 h2 h3 h4 =>
      rw [owed_set] at ho
      split at ho
      · exact absurd rfl ho
      · exact ho
    | store m f h4 h5 =>
      rw [owed_set] at ho
      split at ho
      · rename_i hk
        have := (Prod.mk.inj (Prod.mk.inj hk).2).1
        exact absurd this (h3 rfl m (List.mem_singleton.2 rfl))
      · exact ho
    | receive => exact ho
    | pass => exact ho
    | back => exact ho
    | giveUp => exact ho
    | note => exact ho
    | fall => exact ho
    | forget =>
      rw [owed_set] at ho
      split at ho
      · exact absurd rfl ho
      · exact ho
  | use _ new _ _ ops h1 h2 h3 h4 =>
    have ho' : owed (A n') (y, X, sn) ≠ 0 := fun h => ho (h4.zero _ (by rw [← ha]; exact h))
    obtain ⟨id, r, a, h5, h6, h7, h8, h9⟩ := w n' hn' y sn ho'
    rcases hv.kept n' hn' y X sn with h10 | ⟨-, hy, m0, -, -, hs0, hpos, -⟩
    · exact absurd h10 ho'
    · rw [hxn] at h5
      rcases h4.wait id r y.toList a h5 h6 (by omega) (by omega) (hsl y hy) h9 with h11 | h11
      · exact ⟨id, r, a, h11, h6, h7, h8, h9⟩
      · rw [String.ofList_toList, h7] at h11
        exact absurd h11 ho
  | take m _ _ h1 h2 h3 =>
    subst hxn ha
    obtain ⟨⟨z, hz, hno⟩, hpx⟩ := handle_ok hi2 h3
    have hold : owed (A n') (y, X, sn) ≠ 0 → ∃ id r a, x'.proxy id = some r ∧ r.rb = true ∧ r.sn = sn ∧ sn < 2 ^ 255 ∧ r.src = BtpAddress.solCompose y.toList a := by
      intro h
      obtain ⟨id, r, a, h5, h6⟩ := w n' hn' y sn h
      exact ⟨id, r, a, hpx _ _ h5, h6⟩
    cases h1 with
    | receive => exact hold ho
    | store _ f h4 h5 =>
      rw [owed_set] at ho
      split at ho
      case isFalse => exact hold ho
      rename_i hk
      obtain ⟨hk1, hk2⟩ := Prod.mk.inj hk
      have hk3 := (Prod.mk.inj hk2).2
      obtain ⟨a0, k, m0, hG, hd, htk, hcase⟩ := g.entry hname hv (List.mem_append_left _ (List.mem_singleton.2 rfl)) h2
      obtain ⟨ha0, hlog, net, sn', xm, v, ho', hma, -⟩ := g.gmatch a0 _ hG
      rcases hcase with ⟨-, rfl, hsame⟩ | ⟨h, -⟩
      · have hgrow : (upd x n' x' m.src).log[k]? = some (.out net sn' xm v) := by
          by_cases e1 : m.src = n'
          · rw [e1] at ho' ⊢
            rw [upd_same', hz, List.getElem?_append_left (List.getElem?_eq_some_iff.mp ho').1]; exact ho'
          · rw [upd_other' _ _ _ _ e1]; exact ho'
        have hleg := hok.legible m.src n' net sn' xm v (List.mem_of_getElem? hgrow)
        have hsn : sn' = m.sn := by
          have h0 := hsame.sn
          by_cases h6 : sn' < 0
          · have := (hma.answer h6).1; dsimp only at this; omega
          · have := (hma.fresh (by omega)).1; dsimp only at this; omega
        rcases g.kind ho' with ⟨q, k', rb, rfl, -, h7, h8, h9, h10, -⟩ | ⟨s, c, -, h7, h8⟩
        · obtain ⟨h11, h12⟩ := h7.1 (by omega)
          unfold handle at h3
          rw [if_pos (by omega), hsame.body, hma.body, hleg, XCall.step] at h3
          obtain ⟨_, _, ⟨r, hm, _, hq⟩ | ⟨_, _, hm, _, hq⟩⟩ := XCall.message_ok h3
          · obtain rfl := XCall.Msg.req.inj hm
            have e := XCall.handleRequest_ok hq
            refine ⟨(((x n').reqId + 1 : Nat) : Int), { q with src := BtpAddress.solCompose m.src.toList q.src }, q.src, by rw [e]; dsimp only; rw [if_pos rfl],
              h11, by dsimp only; omega, ?_, by dsimp only; rw [hk1]⟩
            have h13 := hok.small m.src
            have h14 : (x m.src).sn ≤ (upd x n' x' m.src).sn := by
              by_cases e1 : m.src = n'
              · rw [e1, upd_same', e]; exact Nat.le_refl _
              · rw [upd_other' _ _ _ _ e1]; exact Nat.le_refl _
            omega
          · exact nomatch hm
        · omega
      · omega
  | reject m b' _ _ h1 h2 h3 h4 h5 =>
    subst hxn ha
    apply w n' hn' y sn
    have ho1 : owed b' (y, X, sn) ≠ 0 := fun h => ho (mv_zero h3 _ h)
    cases h1 with
    | receive => exact ho1
    | store _ f h6 h7 =>
      rw [owed_set] at ho1
      split at ho1
      · rename_i hk
        have := h5 h7
        rw [hk] at this
        exact absurd this ho
      · exact ho1

/-- An answer there is recorded by the call service, or given up. -/
def There (nets : List String) (L : String → List Event) (T : String → List Msg) (x : String → XCall.St) : Prop :=
  ∀ n ∈ nets, ∀ m ∈ T n, m.dst = n → m.svc = X → m.nsn < 0 → ∃ m0, orig L n (-m.nsn) = some m0 ∧
    ((∃ code, XCall.Ev.response m0.sn code ∈ (x n).log) ∨ ∃ p q m' code, Event.dropped p q m' code ∈ L n ∧ m'.nsn = m.nsn)

theorem There.move (hname : ∀ n ∈ nets, (nd n).bmc.net = n) {n : String} (hn : n ∈ nets) {i rest : List Msg} {e : List Event}
    {b : Abs} {x' : XCall.St} (hv : SolNet.Inv nets A L (i ++ rest) T) (g : K nd nets bal L (i ++ rest) x G done) (h : JMv (nd n) (A n) (x n) i e b x')
    (hok : Ok nd (upd x n x')) (w : There nets L T x) : There nets (upd L n (L n ++ e)) (upd T n (T n ++ i)) (upd x n x') := by
  have hx := SolNet.Ext.upd L n e
  have hi2 := g.node n
  obtain ⟨-, y, hy⟩ := jmv_inv2 hi2 h
  have hold : ∀ n' ∈ nets, ∀ m ∈ T n', m.dst = n' → m.svc = X → m.nsn < 0 → ∃ m0, orig (upd L n (L n ++ e)) n' (-m.nsn) = some m0 ∧
      ((∃ code, XCall.Ev.response m0.sn code ∈ (upd x n x' n').log) ∨
        ∃ p q m' code, Event.dropped p q m' code ∈ upd L n (L n ++ e) n' ∧ m'.nsn = m.nsn) := by
    intro n' hn' m hm h1 h2 h3
    obtain ⟨m0, h4, ⟨c, h5⟩ | ⟨p, q, m', c, h5, h6⟩⟩ := w n' hn' m hm h1 h2 h3
    · refine ⟨m0, hx.orig h4, .inl ⟨c, ?_⟩⟩
      by_cases e1 : n' = n
      · subst e1; rw [upd_same', hy]; exact List.mem_append_left _ h5
      · rw [upd_other' _ _ _ _ e1]; exact h5
    · exact ⟨m0, hx.orig h4, .inr ⟨p, q, m', c, hx.mem h5, h6⟩⟩
  intro n' hn' m hm h1 h2 h3
  by_cases e1 : n' = n
  case neg =>
    rw [upd_other' _ _ _ _ e1] at hm
    exact hold n' hn' m hm h1 h2 h3
  subst e1
  rw [upd_same'] at hm
  rcases List.mem_append.1 hm with hm | hm
  · exact hold n' hn' m hm h1 h2 h3
  have hau := hv.pool m (List.mem_append_left _ hm)
  obtain ⟨-, m1, ho1, hsv, hsn, hans⟩ := hau.ans h3
  rw [h1] at ho1
  refine ⟨m1, hx.orig ho1, ?_⟩
  rw [upd_same', upd_same']
  have hself : ∀ (z : XCall.St), z = x n' → z.reqs m1.sn = none → ∃ code, XCall.Ev.response m1.sn code ∈ z.log := by
    rintro z rfl hz
    rcases g.asked hn ho1 (by omega) (by rw [hsv, h2]) hsn with ⟨q, hq⟩ | h
    · rw [hz] at hq; exact nomatch hq
    · exact h
  generalize ha : A n' = a at h
  generalize hxn : x n' = x0 at h
  cases h with
  | plain _ _ _ h4 h5 h6 =>
    cases h4 with
    | fresh => exact nomatch hm
    | answer => exact nomatch hm
    | note => exact nomatch hm
    | forget => exact nomatch hm
    | fall prev seq m2 m3 code h7 h8 =>
      obtain rfl := List.mem_singleton.1 hm
      have := hau.pos h8
      omega
    | store => exact absurd h2 (h6 rfl m hm)
    | receive => exact absurd h2 (h6 rfl m hm)
    | pass next seq m2 m3 h7 h8 =>
      obtain rfl := List.mem_singleton.1 hm
      rw [hname n' hn] at h7
      exact absurd h1 h7
    | back next seq m2 m3 h7 h8 =>
      obtain rfl := List.mem_singleton.1 hm
      have := hau.pos h7
      omega
    | giveUp prev seq m2 m3 code h7 h8 =>
      obtain rfl := List.mem_singleton.1 hm
      exact .inr ⟨prev, seq, m3, code, List.mem_append_right _ (List.mem_singleton.2 rfl), h8⟩
  | use => exact nomatch hm
  | take m2 _ _ h4 h5 h6 =>
    subst hxn
    obtain rfl := List.mem_singleton.1 hm
    left
    have hresp : ∀ code, XCall.handleResponse (nd n').x (x n') m1.sn code = some x' → ∃ code, XCall.Ev.response m1.sn code ∈ x'.log := by
      intro code hk
      rcases XCall.response_ok hk with ⟨h7, rfl⟩ | ⟨c, _, rfl⟩
      · exact hself _ rfl h7
      · exact ⟨code, List.mem_append_right _ (List.mem_singleton.2 rfl)⟩
    obtain ⟨a0, k, m0, hG, hd, htk, hcase⟩ := g.entry hname hv (List.mem_append_left _ (List.mem_singleton.2 rfl)) h2
    obtain ⟨ha0, hlog, net, sn', xm, v, ho', hma, hdue⟩ := g.gmatch a0 _ hG
    rcases hcase with ⟨hs, rfl, hsame⟩ | ⟨hs, rfl, hk1, hk2⟩
    · have hgrow : (upd x n' x' m.src).log[k]? = some (.out net sn' xm v) := by
        by_cases e1 : m.src = n'
        · rw [e1] at ho' ⊢
          rw [upd_same', hy, List.getElem?_append_left (List.getElem?_eq_some_iff.mp ho').1]; exact ho'
        · rw [upd_other' _ _ _ _ e1]; exact ho'
      have hleg := hok.legible m.src n' net sn' xm v (List.mem_of_getElem? hgrow)
      have hneg : sn' < 0 := by
        by_cases h6 : sn' < 0
        · exact h6
        · have := (hma.fresh (by omega)).2
          have := hsame.nsn
          dsimp only at *
          omega
      obtain ⟨m2, ho2, -, hs2⟩ := hdue hneg
      dsimp only at ho2
      rw [← hsame.dst, ← hsame.nsn, h1, ho1] at ho2
      obtain rfl := Option.some.inj ho2
      rcases g.kind ho' with ⟨q, k', rb, rfl, h7, -⟩ | ⟨s, c, rfl, h7, h8⟩
      · omega
      · unfold handle at h6
        rw [if_pos hs, hsame.body, hma.body, hleg, XCall.step] at h6
        obtain ⟨_, _, ⟨r, hm, _, hq⟩ | ⟨_, _, hm, _, hq⟩⟩ := XCall.message_ok h6
        · exact nomatch hm
        · obtain ⟨rfl, rfl⟩ := XCall.Msg.res.inj hm
          have e : s = m1.sn := by omega
          rw [e] at hq
          exact hresp _ hq
    · unfold handle at h6
      rw [if_neg (by omega), XCall.step] at h6
      have hq := (XCall.error_ok h6).2.2
      have e : -m.sn = m1.sn := by
        rcases hans with h | ⟨h, -⟩ <;> omega
      rw [e] at hq
      exact hresp _ hq
  | reject m2 b' _ _ h4 h5 h6 h7 h8 =>
    obtain rfl := List.mem_singleton.1 hm
    rcases h7 with ⟨hs, -⟩ | ⟨prev, seq, m', code, rfl, hn'⟩
    · have := hau.pos hs
      omega
    · exact .inr ⟨prev, seq, m', code, List.mem_append_right _ (List.mem_singleton.2 rfl), hn'⟩

/-- All of it. -/
structure All (nd : String → Node) (nets : List String) (bal : String → Nat) (A : String → Abs) (L : String → List Event) (P : List Msg)
    (T : String → List Msg) (x : String → XCall.St) : Prop where
  inv : SolNet.Inv nets A L P T
  k : ∃ G done, K nd nets bal L P x G done
  wait : Wait nets A x
  there : There nets L T x

theorem All.moves (hnd : nets.Nodup) (hname : ∀ n ∈ nets, (nd n).bmc.net = n) (hsl : ∀ n ∈ nets, '/' ∉ n.toList) {n : String} (hn : n ∈ nets)
    {a b : Abs} {x0 x' : XCall.St} {i : List Msg} {e : List Event} (h : JMvs (nd n) a x0 i e b x') :
    ∀ {A : String → Abs} {L : String → List Event} {T : String → List Msg} {x : String → XCall.St} {rest : List Msg}, a = A n → x0 = x n →
      Ok nd (upd x n x') → All nd nets bal A L (i ++ rest) T x →
      All nd nets bal (upd A n b) (upd L n (L n ++ e)) (rest ++ msgsOf e) (upd T n (T n ++ i)) (upd x n x') := by
  induction h with
  | nil a x0 =>
    intro A L T x rest ha hx _ g
    subst ha hx
    rw [upd_id, upd_id, upd_nil, upd_nil]
    have hr : rest ++ msgsOf [] = rest := List.append_nil _
    rw [hr]
    exact g
  | @cons a b d x0 y0 z0 i j e f hm ht ih =>
    intro A L T x rest ha hx hok g
    subst ha hx
    have g' : All nd nets bal A L (i ++ (j ++ rest)) T x := by rw [← List.append_assoc]; exact g
    obtain ⟨G, done, hk⟩ := g'.k
    obtain ⟨hi1, y1, hy1⟩ := jmv_inv2 (hk.node n) hm
    obtain ⟨hi2, y2, hy2⟩ := jmvs_inv2 ht hi1
    have hok1 : Ok nd (upd x n y0) := by
      constructor
      · intro z
        by_cases e1 : z = n
        · subst e1
          have := hok.small z
          rw [upd_same'] at this ⊢
          have := sn_le hi1 hi2 ⟨y2, hy2⟩
          omega
        · have := hok.small z
          rw [upd_other' _ _ _ _ e1] at this ⊢
          exact this
      · intro z z' net sn m v hmem
        refine hok.legible z z' net sn m v ?_
        by_cases e1 : z = n
        · subst e1
          rw [upd_same'] at hmem ⊢
          rw [hy2]; exact List.mem_append_left _ hmem
        · rw [upd_other' _ _ _ _ e1] at hmem ⊢
          exact hmem
    have hmv : Mvs n (A n) i e b := by have := hm.mvs; rwa [hname n hn] at this
    have g1 : All nd nets bal (upd A n b) (upd L n (L n ++ e)) ((j ++ rest) ++ msgsOf e) (upd T n (T n ++ i)) (upd x n y0) :=
      ⟨(SolNet.Inv.moves hnd hn hmv rfl g'.inv).1, hk.move hname hsl hn g'.inv hm hok1, g'.wait.move hname hsl hn g'.inv hk hm hok1,
        g'.there.move hname hn g'.inv hk hm hok1⟩
    rw [List.append_assoc] at g1
    have huu : ∀ {V : Type} (F : String → V) (u v : V), upd (upd F n u) n v = upd F n v := by
      intro V F u v; funext x; unfold upd; split <;> rfl
    have g2 := ih (A := upd A n b) (L := upd L n (L n ++ e)) (T := upd T n (T n ++ i)) (x := upd x n y0) (rest := rest ++ msgsOf e)
      (by rw [upd_same']) (by rw [upd_same']) (by rw [huu]; exact hok) g1
    rw [huu, huu, huu, huu, upd_same', upd_same'] at g2
    rw [← List.append_assoc, ← List.append_assoc, msgsOf_append, ← List.append_assoc]
    exact g2

/-- A call that wants an answer is always somewhere. -/
theorem All.accounted (hname : ∀ n ∈ nets, (nd n).bmc.net = n) (hall : All nd nets bal A L P T x) {n : String} (hn : n ∈ nets) {k : Nat} {caller : BtpAddress.Str}
    {b : String} {acct : BtpAddress.Str} {data : Bytes} {rb : Option Bytes} (hs : XCall.Ev.sent k caller b.toList acct data rb ∈ (x n).log)
    (hp : XCall.present (nd n).x.lang rb = true) :
    ∃ m0 ∈ msgsOf (L n), m0.src = n ∧ m0.dst = b ∧ m0.svc = X ∧ m0.sn = k ∧ 0 < m0.nsn ∧
      ((∃ m ∈ P, m.src = n ∧ m.nsn = m0.nsn) ∨
       (b ∈ nets ∧ owed (A b) (n, X, k) = m0.nsn ∧
          ∃ id r a, (x b).proxy id = some r ∧ r.rb = true ∧ r.sn = k ∧ r.src = BtpAddress.solCompose n.toList a) ∨
       (∃ m ∈ P, m.dst = n ∧ m.nsn = -m0.nsn) ∨
       (∃ code, XCall.Ev.response k code ∈ (x n).log) ∨
       (∃ a ∈ nets, ∃ p q m' code, Event.dropped p q m' code ∈ L a ∧ m'.nsn = -m0.nsn) ∨
       (∃ a ∈ nets, (A a).ic = true ∧ ∃ p q m' code, Event.dropped p q m' code ∈ L a ∧ m'.src = n ∧ m'.nsn = m0.nsn)) := by
  obtain ⟨G, done, hk⟩ := hall.k
  have hi2 := hk.node n
  obtain ⟨l1, l2, hl, l', n', v', b', hl1, hb⟩ := hi2.good.mem hs
  have hj : (x n).log[l'.length]? = some (.out b.toList n' (.req ⟨caller, acct, k, b', data⟩) v') := by
    rw [hl, hl1]
    simp
  obtain ⟨m0, hG⟩ := hk.gall n hn _ _ _ _ _ hj
  obtain ⟨-, hm0, net, sn, xm, v, ho, hma, -⟩ := hk.gmatch n _ hG
  rw [hj] at ho
  simp only [Option.some.injEq, XCall.Ev.out.injEq] at ho
  obtain ⟨rfl, rfl, rfl, rfl⟩ := ho
  rcases hk.kind hj with ⟨q, k', rb', hq, hge, hrb, h8, h9, h10, -⟩ | ⟨s, c, hq, -⟩
  case inr => exact nomatch hq
  obtain rfl := XCall.Msg.req.inj hq
  have hsn : n' = (k : Int) := hrb.2 (hb.2 hp)
  have h8' : (k : Int) = k' := h8
  have hfr := hma.fresh hge
  dsimp only at hfr hm0
  have hsrc : m0.src = n := hma.src.trans (hname n hn)
  have hdst : m0.dst = b := hma.dst.trans (String.ofList_toList)
  have hsvc : m0.svc = X := hma.svc
  have hm0sn : m0.sn = (k : Int) := by omega
  refine ⟨m0, hm0, hsrc, hdst, hsvc, hm0sn, hfr.2, ?_⟩
  rcases hall.inv.acc n hn m0 hm0 hsrc (by omega) with ⟨m, h1, h2, h3⟩ | ⟨h1, h2⟩ | ⟨m, h1, h2, h3⟩ | ⟨m, h1, h2, h3⟩ | ⟨m1, h1, h2, h3, h4, h5, h6⟩ |
      ⟨a, p, q, m', code, h1, h2, h3⟩ | ⟨a, p, q, m', code, h1, h2, h3, h4, h5⟩
  · exact .inl ⟨m, h1, h2, h3⟩
  · rw [hdst] at h1 h2
    rw [hsvc, hm0sn] at h2
    obtain ⟨id, r, a, h3, h4, h5, -, h6⟩ := hall.wait b h1 n k (by rw [h2]; omega)
    exact .inr (.inl ⟨h1, h2, id, r, a, h3, h4, h5, h6⟩)
  · exact .inr (.inr (.inl ⟨m, h1, h2, h3⟩))
  · obtain ⟨-, m1, h4, h5, -⟩ := (hall.inv.got n hn m h1).ans (by omega)
    obtain ⟨-, m2, h6, h7⟩ := (hall.inv.log n hn m0 hm0).req hfr.2
    have hnum : -m.nsn = m0.nsn := by omega
    rw [h2, hnum] at h4
    rw [hsrc] at h6
    rw [h4] at h6
    obtain rfl := Option.some.inj h6
    obtain ⟨m2, h8, h9⟩ := hall.there n hn m h1 h2 (by rw [← h5, ← h7.svc, hsvc]) (by omega)
    rw [hnum, h4] at h8
    obtain rfl := Option.some.inj h8
    have h10 := h7.sn
    rcases h9 with ⟨code, h9⟩ | ⟨p, q, m', code, h9, h11⟩
    · rw [← h10, hm0sn] at h9
      exact .inr (.inr (.inr (.inl ⟨code, h9⟩)))
    · exact .inr (.inr (.inr (.inr (.inl ⟨n, hn, p, q, m', code, h9, by omega⟩))))
  · exfalso
    have h7 := (hall.inv.log n hn m1 h1).pos (by omega)
    obtain ⟨p, hp', hsame⟩ := hk.log n hn m1 h1 (h5.trans hsvc) h2 h7
    obtain ⟨-, -, net, sn, xm, v, ho, hma', -⟩ := hk.gmatch n p hp'
    have hnn : ¬ sn < 0 := fun h => by have := (hma'.answer h).2; have := hsame.nsn; omega
    have hsn' := (hma'.fresh (by omega)).1
    have := hsame.sn
    rcases hk.kind ho with ⟨q, k2, rb2, rfl, -, hrb2, -⟩ | ⟨s, c, -, h8, h9⟩
    · have hq2 := (hrb2.1 (by omega)).2
      have e := XCall.idx_unique XCall.outSn (k : Int) (x n).log p.1 l'.length _ _ (XCall.outs_nodup hi2) ho hj
        (by simp only [XCall.outSn, Option.some.injEq]; omega) (by simp only [XCall.outSn])
      have := hk.func n p hp' _ hG e
      dsimp only at this
      have h11 := hsame.nsn
      rw [this] at h11
      exact h3 h11
    · omega
  · exact .inr (.inr (.inr (.inr (.inl ⟨a, h1, p, q, m', code, h2, h3⟩))))
  · exact .inr (.inr (.inr (.inr (.inr ⟨a, h1, h2, p, q, m', code, h3, h4, h5⟩))))

/-- An answer owed to a call has its request waiting, which anyone can have executed, and no other request waiting has the same answer. -/
theorem All.waiting (hsl : ∀ n ∈ nets, '/' ∉ n.toList) (hall : All nd nets bal A L P T x) {n : String} (hn : n ∈ nets) {y : String} {sn : Int}
    (how : owed (A n) (y, X, sn) ≠ 0) (hy : y ≠ "")
    (hcaller : ∀ k caller net acct data rb, XCall.Ev.sent k caller net acct data rb ∈ (x y).log → caller ≠ []) :
    ∃ id r a, (x n).proxy id = some r ∧ r.rb = true ∧ r.sn = sn ∧ 0 < sn ∧ sn < 2 ^ 255 ∧ XCall.parse (nd n).x.lang r.src = some (y.toList, a) ∧
      0 < owed (A n) (y, X, sn) ∧
      ∀ id' r' net' a', (x n).proxy id' = some r' → r'.rb = true → XCall.parse (nd n).x.lang r'.src = some (net', a') →
        XCall.negSn (nd n).x.lang r'.sn = some (-sn) → net' = y.toList → id' = id := by
  obtain ⟨G, done, hk⟩ := hall.k
  have hi2 := hk.node n
  have hinv := XCall.reach_inv hk.reach
  obtain ⟨id, r, a, h1, h2, h3, h4, h5⟩ := hall.wait n hn y sn how
  rcases hall.inv.kept n hn y X sn with h6 | ⟨hpos, hyn, m0, -, -, hs0, hsp, -⟩
  · exact absurd h6 how
  have hsly := hsl y hyn
  -- where requests waiting come from
  have hfrom : ∀ id' r', (x n).proxy id' = some r' → ∃ (k : Nat) (net : BtpAddress.Str) (q : XCall.Req), id' = k ∧
      XCall.Ev.received k net q ∈ (x n).log ∧ r' = { q with src := BtpAddress.solCompose net q.src } ∧ '/' ∉ net ∧
      ∃ (k' : Nat) (rb : Option Bytes), q.sn = k' ∧ 1 ≤ k' ∧ k' < 2 ^ 255 ∧ XCall.Ev.sent k' q.src n.toList q.dst q.data rb ∈ (x (String.ofList net)).log := by
    intro id' r' hp'
    obtain ⟨⟨k, net, q, rfl, hrec, rfl⟩, -⟩ := hi2.inv.proxy _ _ hp'
    obtain ⟨i, n1, v1, -, ho⟩ := hinv.recv n.toList k net q (by unfold XS; dsimp only; rw [String.ofList_toList]; exact hrec)
    have hns : '/' ∉ net := by
      intro hm
      rw [hinv.slash net hm] at ho
      simp at ho
    obtain ⟨k', rb, e1, e2, e3, e4, -⟩ := XCall.out_sent (hinv.node net) ho
    have := reach_small hk.reach net
    exact ⟨k, net, q, rfl, hrec, rfl, hns, k', rb, e1, e2, by omega, e4⟩
  obtain ⟨k, net, q, rfl, hrec, hr', hns, k', rb, e1, e2, e3, e4⟩ := hfrom id r h1
  have hcomp : ∀ net' a', '/' ∉ net' → BtpAddress.solCompose net' a' = BtpAddress.solCompose y.toList a → net' = y.toList ∧ a' = a := by
    intro net' a' hn' he'
    have h7 := BtpAddress.jParse_compose net' a' hn'
    rw [he', BtpAddress.jParse_compose y.toList a hsly] at h7
    simp only [BtpAddress.JAddr.mk.injEq] at h7
    exact ⟨h7.2.1.symm, h7.2.2.symm⟩
  rw [hr'] at h5
  obtain ⟨rfl, rfl⟩ := hcomp net q.src hns h5
  rw [String.ofList_toList] at e4
  have hane : q.src ≠ [] := hcaller _ _ _ _ _ _ e4
  have hyne : y.toList ≠ [] := fun e => hy (toList_inj' (by rw [e]; rfl))
  have hparse : XCall.parse (nd n).x.lang r.src = some (y.toList, q.src) := by
    have hsp : BtpAddress.solParse r.src = some (y.toList, q.src) := (BtpAddress.C26_sol_parse_iff _ _ _).mpr ⟨by rw [hr'], hyne, hsly, hane⟩
    unfold XCall.parse
    split
    · rw [(BtpAddress.C26_java_sol_agree _ _ _).mp hsp]; rfl
    · exact hsp
  have hrq : r.sn = q.sn := by rw [hr']
  refine ⟨(k : Int), r, q.src, h1, h2, h3, by omega, by omega, hparse, hpos, ?_⟩
  intro id' r2 net2 a2 hp2 hrb2 hpar2 hneg2 hy2
  subst hy2
  obtain ⟨k2, net3, q3, rfl, hrec3, rfl, hns3, k3, rb3, f1, f2, f3, f4⟩ := hfrom id' r2 hp2
  obtain ⟨rfl, rfl⟩ := XCall.parse_compose hns3 hpar2
  have hsn2 := negSn_small (by dsimp only; omega) (by dsimp only; omega) hneg2
  dsimp only at hsn2
  have hqsn : q3.sn = q.sn := by omega
  have := hinv.uniq n.toList k2 y.toList q3 n.toList k q (by unfold XS; dsimp only; rw [String.ofList_toList]; exact hrec3)
    (by unfold XS; dsimp only; rw [String.ofList_toList]; exact hrec) hqsn
  rw [this.2.1]

theorem jreach_all (hnd : nets.Nodup) (hname : ∀ n ∈ nets, (nd n).bmc.net = n) (hsl : ∀ n ∈ nets, '/' ∉ n.toList) {S : Net} {T : String → List Msg}
    (h : JReach nd nets bal S T) : All nd nets bal (fun a => abs (S.sys.st a)) (fun a => (S.sys.st a).log) S.sys.pool T S.x := by
  induction h with
  | init =>
    refine ⟨treach_inv (cfg := fun n => (nd n).bmc) hnd hname .init, ⟨fun _ => [], [], ?_⟩, fun n hn y sn h => absurd rfl h, fun n hn m hm => nomatch hm⟩
    exact ⟨.init, fun n p hp => (nomatch hp), fun n p hp => (nomatch hp), fun n hn i net sn xm v h => (nomatch h), fun s i k h => (nomatch h), fun m hm => (nomatch hm), fun n hn m hm => (nomatch hm)⟩
  | @step S S' T n D _ hs hsane ih =>
    obtain ⟨hn, s', x', evs, rest, hp, rfl, hl, hm⟩ := hs.moves (fun n hn => ih.inv.start n hn)
    have ih' : All nd nets bal (fun a => abs (S.sys.st a)) (fun a => (S.sys.st a).log) (D ++ rest) T S.x := by
      obtain ⟨G, done, hk⟩ := ih.k
      exact ⟨ih.inv.perm hp, ⟨G, done, hk.perm hp⟩, ih.wait, ih.there⟩
    have := All.moves hnd hname hsl hn hm (A := fun a => abs (S.sys.st a)) (L := fun a => (S.sys.st a).log) (T := T) (x := S.x) (rest := rest) rfl rfl
      ⟨hsane.small, hsane.legible⟩ ih'
    have e1 : (fun a => abs (upd S.sys.st n s' a)) = upd (fun a => abs (S.sys.st a)) n (abs s') := by
      funext x; unfold upd; split <;> rfl
    have e2 : (fun a => (upd S.sys.st n s' a).log) = upd (fun a => (S.sys.st a).log) n ((S.sys.st n).log ++ evs) := by
      funext x; unfold upd; split
      · exact hl
      · rfl
    dsimp only
    rw [e1, e2]
    exact this
end

end Verif.XNet
