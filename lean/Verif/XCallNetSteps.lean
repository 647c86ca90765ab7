import Verif.XCallNetMoves
/-!
Relay calls of XCallNet as sequences of moves of both contracts (`JMvs`), and the message centers of XCallNet as a network of SolNet (`TReach`).
-/
namespace Verif.XNet
open Verif Verif.SolBmc Verif.SolNet

/-! ### Moves of both contracts -/

/-- The answer of a message center that could not hand a message over: an error goes back, or the message is given up. -/
def Bounce (net : String) (m : Msg) (e : List Event) : Prop :=
  (0 < m.sn ∧ ∃ next seq m', e = [.message next seq m'] ∧ m'.src = net ∧ m'.dst = m.src ∧ m'.svc = m.svc ∧ m'.sn = -m.sn ∧ m'.nsn = -m.nsn) ∨
  ∃ prev seq m' code, e = [.dropped prev seq m' code] ∧ m'.nsn = m.nsn

/-- One move of a message center and its call service. -/
inductive JMv (nd : Node) : Abs → XCall.St → List Msg → List Event → Abs → XCall.St → Prop where
  /-- the call service has no part in it -/
  | plain (a : Abs) (x : XCall.St) (i : List Msg) (e : List Event) (b : Abs) : Mv nd.bmc.net a i e b → (i = [] → ∀ m ∈ msgsOf e, m.svc ≠ X) →
      (e = [] → ∀ m ∈ i, m.svc ≠ X) → JMv nd a x i e b x
  /-- calls of others -/
  | use (a : Abs) (x : XCall.St) (evs : List Event) (new : List (Nat × Msg)) (b : Abs) (x' : XCall.St) (ops : XCall.Ops) : Bond nd a x evs new b x' →
      XCall.ByAll (· ≠ nd.x.bmc) (fun _ => True) ops → XCall.run nd.x ops x = x' → Keep a x b x' → JMv nd a x [] evs b x'
  /-- the call service takes a message -/
  | take (a : Abs) (x : XCall.St) (m : Msg) (b : Abs) (x' : XCall.St) : Mv nd.bmc.net a [m] [] b → m.svc = X →
      XCall.step nd.x (handle nd m) x = some x' → JMv nd a x [m] [] b x'
  /-- it does not -/
  | reject (a : Abs) (x : XCall.St) (m : Msg) (b : Abs) (e : List Event) (d : Abs) : Mv nd.bmc.net a [m] [] b → m.svc = X → Mv nd.bmc.net b [] e d →
      Bounce nd.bmc.net m e → (0 < m.sn → owed d (m.src, m.svc, m.sn) = 0) → JMv nd a x [m] e d x

inductive JMvs (nd : Node) : Abs → XCall.St → List Msg → List Event → Abs → XCall.St → Prop where
  | nil (a : Abs) (x : XCall.St) : JMvs nd a x [] [] a x
  | cons {a b d : Abs} {x y z : XCall.St} {i j : List Msg} {e f : List Event} : JMv nd a x i e b y → JMvs nd b y j f d z → JMvs nd a x (i ++ j) (e ++ f) d z

theorem JMv.mvs {nd : Node} {a b : Abs} {x y : XCall.St} {i : List Msg} {e : List Event} (h : JMv nd a x i e b y) : Mvs nd.bmc.net a i e b := by
  cases h with
  | plain _ _ _ h => exact .one h
  | use _ new _ _ ops h => exact h.mvs
  | take m _ _ h => exact .one h
  | reject m b _ _ h1 _ h2 =>
    have := (Mvs.one h1).trans (.one h2)
    simpa using this

theorem JMvs.mvs {nd : Node} {a b : Abs} {x y : XCall.St} {i : List Msg} {e : List Event} (h : JMvs nd a x i e b y) : Mvs nd.bmc.net a i e b := by
  induction h with
  | nil => exact .nil _
  | cons h _ ih => exact h.mvs.trans ih

theorem JMvs.one {nd : Node} {a b : Abs} {x y : XCall.St} {i : List Msg} {e : List Event} (h : JMv nd a x i e b y) : JMvs nd a x i e b y := by
  have := JMvs.cons h (.nil b y)
  simpa using this

theorem JMvs.trans {nd : Node} {a b d : Abs} {x y z : XCall.St} {i j : List Msg} {e f : List Event} (h1 : JMvs nd a x i e b y)
    (h2 : JMvs nd b y j f d z) : JMvs nd a x (i ++ j) (e ++ f) d z := by
  induction h1 with
  | nil => exact h2
  | cons h _ ih =>
    rw [List.append_assoc, List.append_assoc]
    exact .cons h (ih h2)

/-- Moves that emit nothing in the name of the call service. -/
theorem plain_mvs {nd : Node} {x : XCall.St} {net : String} (hnet : net = nd.bmc.net) {a b : Abs} {i : List Msg} {e : List Event} (h : Mvs net a i e b) :
    i = [] → (∀ m ∈ msgsOf e, m.svc ≠ X) → JMvs nd a x [] e b x := by
  subst hnet
  induction h with
  | nil => intro _ _; exact .nil _ _
  | @cons a b d i j e f hm _ ih =>
    intro hi he
    obtain ⟨rfl, rfl⟩ := List.append_eq_nil_iff.1 hi
    rw [msgsOf_append] at he
    exact .cons (.plain a x [] e b hm (fun _ m h => he m (List.mem_append_left _ h)) (fun _ m h => nomatch h))
      (ih rfl (fun m h => he m (List.mem_append_right _ h)))

/-- A stretch of a call that takes the messages `i`. -/
def JGo (nd : Node) (j : J) (i : List Msg) (j' : J) : Prop :=
  0 ≤ j.b.nsn → ∃ evs, j'.b.log = j.b.log ++ evs ∧ JMvs nd (abs j.b) j.x i evs (abs j'.b) j'.x

theorem JGo.trans {nd : Node} {a b d : J} {i k : List Msg} (h1 : JGo nd a i b) (h2 : JGo nd b k d) : JGo nd a (i ++ k) d := by
  intro h0
  obtain ⟨e, h1, h3⟩ := h1 h0
  have := mvs_mono h3.mvs
  obtain ⟨f, h2, h4⟩ := h2 (Int.le_trans h0 this)
  exact ⟨e ++ f, by rw [h2, h1, List.append_assoc], h3.trans h4⟩

theorem JGo.still {nd : Node} {b b' : St} {x : XCall.St} (h : Still b b') : JGo nd ⟨b, x⟩ [] ⟨b', x⟩ := fun _ =>
  ⟨[], by rw [h.2.2, List.append_nil], by dsimp only; rw [h.abs]; exact .nil _ _⟩

theorem jrun_go (nd : Node) (os : JOps) (j : J) (hf : FineAll nd os) : JGo nd j [] (jrun nd os j) := by
  intro h0
  obtain ⟨evs, new, acts, h⟩ := jrun_coup nd os j hf h0
  obtain ⟨ops, h1, h2⟩ := jrun_ops nd os j hf
  exact ⟨evs, h.log, .one (.use _ _ evs new _ _ ops h.bond h1 h2 (jrun_keeps nd os j hf).keep)⟩

theorem jexec_go (nd : Node) (o : JOp) (j j' : J) (hf : Fine nd o) (h : jexec nd o j = some j') : JGo nd j [] j' := by
  intro h0
  obtain ⟨evs, new, acts, h1⟩ := jexec_coup nd o j j' hf h h0
  obtain ⟨ops, h2, h3⟩ := jexec_ops nd o j j' hf h
  exact ⟨evs, h1.log, .one (.use _ _ evs new _ _ ops h1.bond h2 h3 (jexec_keeps nd o j j' hf h).keep)⟩

/-! ### One message of a relay call -/

/-- What the message center does with a message not for it. -/
theorem item_pass (c : Cfg) (env : Env) (ok : Bool) (call : St → St) (caller : Nat) (prev : String) (seq : Nat)
    (s s' : St) (m0 : Msg) (h : item c env ok call caller prev seq s m0 = some s') (hd0 : m0.dst ≠ c.net) :
    ∃ e, e ≠ [] ∧ s'.log = s.log ++ e ∧ Mv c.net (abs s) [m0] e (abs s') := by
  unfold item at h
  dsimp only at h
  have hs : Still s { addIn s m0.fee.network m0.fee.values.sum with
      disp := upd (addIn s m0.fee.network m0.fee.values.sum).disp prev ((addIn s m0.fee.network m0.fee.values.sum).disp prev ++ [some m0]) } := ⟨rfl, rfl, rfl⟩
  generalize ({ addIn s m0.fee.network m0.fee.values.sum with
      disp := upd (addIn s m0.fee.network m0.fee.values.sum).disp prev ((addIn s m0.fee.network m0.fee.values.sum).disp prev ++ [some m0]) } : St) = s0 at h hs
  rw [← hs.2.2, ← hs.abs]
  clear hs
  obtain ⟨hm, -, hno⟩ := handleFee_go c s0 caller m0
  generalize handleFee c s0 caller m0 = q at h hm hno
  obtain ⟨s1, m⟩ := q
  dsimp only at h hm hno
  rw [if_neg (by rw [hm.dst]; exact hd0)] at h
  have h1 := hno (fun e => hd0 e.1)
  split at h
  · rename_i next hn
    simp only [Option.some.injEq] at h
    subst h
    exact ⟨[.message next (s1.tx next + 1) m], List.cons_ne_nil _ _, by show s1.log ++ _ = _; rw [h1.2.2],
      by rw [show abs (sendMsg s1 next m) = abs s0 from h1.abs]; exact .pass (abs s0) next _ m0 m hd0 hm⟩
  · simp only [Option.some.injEq] at h
    subst h
    by_cases hp : 0 < m0.sn
    · obtain ⟨s4, f4, h4, h5⟩ := sendError_pos c env s1 prev seq m 2 (by rw [hm.sn]; exact hp)
      rw [h5]
      refine ⟨[.message prev (s4.tx prev + 1) _], List.cons_ne_nil _ _, by show s4.log ++ _ = _; rw [h4.2.2, h1.2.2], ?_⟩
      rw [show abs (sendMsg s4 prev _) = abs s0 from (h1.trans h4).abs]
      exact .back (abs s0) prev _ m0 _ hp rfl hm.src hm.svc (by dsimp only; rw [hm.sn]) (by dsimp only; rw [hm.nsn])
    · obtain ⟨m', h2, h3, h4, h5⟩ := sendError_neg c env s1 prev seq m 2 (by rw [hm.sn]; exact hp)
      have : abs (sendError c env s1 prev seq m 2) = abs s0 := by unfold abs; rw [h3, h4, h1.1, h1.2.1]
      exact ⟨_, List.cons_ne_nil _ _, by rw [h5, h1.2.2], by rw [this]; exact .giveUp _ _ _ _ _ _ (by omega) (by rw [h2, hm.nsn])⟩

/-- What it does with a message for it: it takes it, and hands it over, or an error goes back. -/
theorem item_here (nd : Node) (env : Env) (ok : Bool) (call : St → St) (caller : Nat) (prev : String) (seq : Nat)
    (s s' : St) (m0 : Msg) (h : item nd.bmc env ok call caller prev seq s m0 = some s') (hd0 : m0.dst = nd.bmc.net) :
    (before nd caller prev s m0).log = s.log ∧ Mv nd.bmc.net (abs s) [m0] [] (abs (before nd caller prev s m0)) ∧
    ∃ m, SameMsg m0 m ∧ (((handleMessage nd.bmc env ok call (before nd caller prev s m0) m).1 = 0 ∧
        s' = (handleMessage nd.bmc env ok call (before nd caller prev s m0) m).2) ∨
      ((handleMessage nd.bmc env ok call (before nd caller prev s m0) m).1 ≠ 0 ∧
        ∃ e, s'.log = (before nd caller prev s m0).log ++ e ∧ Mv nd.bmc.net (abs (before nd caller prev s m0)) [] e (abs s') ∧
          Bounce nd.bmc.net m0 e ∧ (0 < m0.sn → owed (abs s') (m0.src, m0.svc, m0.sn) = 0))) := by
  unfold before
  unfold item at h
  dsimp only at h ⊢
  have hs : Still s { addIn s m0.fee.network m0.fee.values.sum with
      disp := upd (addIn s m0.fee.network m0.fee.values.sum).disp prev ((addIn s m0.fee.network m0.fee.values.sum).disp prev ++ [some m0]) } := ⟨rfl, rfl, rfl⟩
  generalize ({ addIn s m0.fee.network m0.fee.values.sum with
      disp := upd (addIn s m0.fee.network m0.fee.values.sum).disp prev ((addIn s m0.fee.network m0.fee.values.sum).disp prev ++ [some m0]) } : St) = s0 at h hs ⊢
  rw [← hs.2.2, ← hs.abs]
  clear hs
  obtain ⟨hm, hst, hno⟩ := handleFee_go nd.bmc s0 caller m0
  generalize handleFee nd.bmc s0 caller m0 = q at h hm hst hno ⊢
  obtain ⟨s1, m⟩ := q
  dsimp only at h hm hst hno ⊢
  rw [if_pos (by rw [hm.dst]; exact hd0)] at h
  have hsame : (handleMessage nd.bmc env ok call s1 m).1 ≠ 0 → (handleMessage nd.bmc env ok call s1 m).2 = s1 := by
    unfold handleMessage
    dsimp only
    repeat' split
    all_goals
      intro hne
      first | rfl | exact absurd rfl hne
  by_cases hp : 0 < m0.sn
  · obtain ⟨f, h1, h2, h3⟩ := hst hd0 hp
    have ha : abs s1 = ⟨(abs s0).resp.set (m0.src, m0.svc, m0.sn) ⟨m0.nsn, f⟩, (abs s0).nsn, (abs s0).ic⟩ := by unfold abs; rw [h1, h2]
    refine ⟨h3, by rw [ha]; exact .store (abs s0) m0 f hd0 hp, m, hm, ?_⟩
    split at h
    · rename_i he
      simp only [Option.some.injEq] at h
      exact .inl ⟨he, h.symm⟩
    · rename_i hne
      have e2 := hsame hne
      rw [e2] at h
      right
      refine ⟨hne, ?_⟩
      rw [if_pos (by rw [hm.sn]; exact hp)] at h
      split at h
      · cases h
      rename_i s3 r hr
      simp only [Option.some.injEq] at h
      generalize (handleMessage nd.bmc env ok call s1 m).1 = ecode at *
      subst h
      simp only [removeResponse] at hr
      split at hr
      · rename_i hpos
        simp only [Option.some.injEq, Prod.mk.injEq] at hr
        obtain ⟨rfl, rfl⟩ := hr
        rw [hm.src, hm.svc, hm.sn, h1, FM.get_set, if_pos rfl] at hpos
        dsimp only at hpos
        obtain ⟨s4, f4, h4, h5⟩ := sendError_pos nd.bmc env { s1 with resp := s1.resp.set (m.src, m.svc, m.sn) Resp.empty } prev seq m ecode (by rw [hm.sn]; exact hp)
        rw [h5]
        have hw : owed (abs s1) (m.src, m.svc, m.sn) = m0.nsn := by
          unfold owed abs
          rw [hm.src, hm.svc, hm.sn]
          dsimp only
          rw [h1, FM.get_set, if_pos rfl]
        have ha4 : abs (sendMsg s4 prev ⟨nd.bmc.net, m.src, m.svc, -m.sn, nd.bmc.encResp ecode, -m.nsn, f4⟩) =
            ⟨(abs s1).resp.set (m.src, m.svc, m.sn) Resp.empty, (abs s1).nsn, (abs s1).ic⟩ := h4.abs
        refine ⟨[.message prev (s4.tx prev + 1) ⟨nd.bmc.net, m.src, m.svc, -m.sn, nd.bmc.encResp ecode, -m.nsn, f4⟩], ?_, ?_, .inl ⟨hp, prev, _, _, rfl, rfl, hm.src, hm.svc, ?_, ?_⟩, fun _ => ?_⟩
        · show s4.log ++ _ = _; rw [h4.2.2]
        · rw [ha4]
          refine .answer (abs s1) prev _ ⟨nd.bmc.net, m.src, m.svc, -m.sn, nd.bmc.encResp ecode, -m.nsn, f4⟩ m.sn ?_ rfl ?_ (.inr rfl)
          · dsimp only; rw [hw]; exact hpos
          · dsimp only; rw [hw, hm.nsn]
        · dsimp only; rw [hm.sn]
        · dsimp only; rw [hm.nsn]
        · rw [ha4, owed_set, if_pos (by rw [hm.src, hm.svc, hm.sn])]; rfl
      · cases hr
  · have h1 := hno (fun e => hp e.2)
    refine ⟨h1.2.2, by rw [h1.abs]; exact .receive (abs s0) m0 hd0 (by omega), m, hm, ?_⟩
    split at h
    · rename_i he
      simp only [Option.some.injEq] at h
      exact .inl ⟨he, h.symm⟩
    · rename_i hne
      have e2 := hsame hne
      rw [e2] at h
      right
      refine ⟨hne, ?_⟩
      rw [if_neg (by rw [hm.sn]; exact hp)] at h
      simp only [Option.some.injEq] at h
      generalize (handleMessage nd.bmc env ok call s1 m).1 = ecode at *
      subst h
      obtain ⟨m', h2, h3, h4, h5⟩ := sendError_neg nd.bmc env s1 prev seq m ecode (by rw [hm.sn]; exact hp)
      have : abs (sendError nd.bmc env s1 prev seq m ecode) = abs s1 := by unfold abs; rw [h3, h4]
      exact ⟨_, h5, by rw [this]; exact .note _ _ _ _ _, .inr ⟨_, _, _, _, rfl, by rw [h2, hm.nsn]⟩, fun h => absurd h hp⟩

/-- The message center's own service sends nothing in the name of the call service. -/
theorem own_plain (nd : Node) (env : Env) (ok : Bool) (call : St → St) (s : St) (x : XCall.St) (m : Msg) (hb : m.svc = "bmc")
    (h0 : (handleMessage nd.bmc env ok call s m).1 = 0) : JGo nd ⟨s, x⟩ [] ⟨(handleMessage nd.bmc env ok call s m).2, x⟩ := by
  have hm : ∀ (s1 s2 : St), Still s s1 → (∃ evs, s2.log = s1.log ++ evs ∧ (∀ m ∈ msgsOf evs, m.svc ≠ X) ∧ Mvs nd.bmc.net (abs s1) [] evs (abs s2)) →
      JGo nd ⟨s, x⟩ [] ⟨s2, x⟩ := by
    intro s1 s2 h1 ⟨evs, h2, h3, h4⟩ _
    rw [h1.abs, ] at h4
    exact ⟨evs, by dsimp only; rw [h2, h1.2.2], plain_mvs rfl h4 rfl h3⟩
  unfold handleMessage at h0 ⊢
  rw [if_pos hb] at h0 ⊢
  dsimp only at h0 ⊢
  have hnn : m.sn ≥ 0 → 0 ≤ (if m.sn ≥ 0 ∧ m.nsn < 0 then -m.nsn else m.nsn) := by
    intro h
    by_cases h2 : m.nsn < 0
    · rw [if_pos ⟨h, h2⟩]; omega
    · rw [if_neg (fun e => h2 e.2)]; omega
  generalize (if m.sn ≥ 0 ∧ m.nsn < 0 then -m.nsn else m.nsn) = sn at h0 hnn ⊢
  split at h0
  · rename_i h1
    rw [if_pos h1]
    split at h0
    · rename_i s2 h2
      dsimp only
      unfold ownService at h2
      split at h2
      · cases h2
      · split at h2
        · cases h2
        rename_i amount _ _ _ a _
        have h3 := addReward_still (addIn { s with credited := s.credited + amount } nd.bmc.net amount) nd.bmc.net a amount
        have h4 : Still s (addIn { s with credited := s.credited + amount } nd.bmc.net amount) := ⟨rfl, rfl, rfl⟩
        have h5 := h4.trans h3
        generalize addReward (addIn { s with credited := s.credited + amount } nd.bmc.net amount) nd.bmc.net a amount = s1 at h2 h5
        obtain ⟨evs, h6, h7⟩ := sendMessage_go nd.bmc env _ _ _ _ _ _ _ _ h2 (fun _ => by have := hnn h1; omega)
        obtain ⟨-, next, seq, m', h8, -, -, h9, -⟩ := sendMessage_msg nd.bmc env _ _ _ _ _ _ _ _ h2
        refine hm s1 s2 h5 ⟨evs, h6, fun m'' hm'' => ?_, h7⟩
        have : evs = [.message next seq m'] := append_inj_right (h6.symm.trans h8)
        rw [this, msgsOf_one, List.mem_singleton] at hm''
        subst hm''
        rw [h9]
        decide
      · exact .still (handleResponse_still _ _ _ _ h2)
      · split at h2
        · simp only [Option.some.injEq] at h2
          subst h2; exact .still (.refl s)
        · cases h2
      · cases h2
    · exact absurd (show (1 : Nat) = 0 from h0) (by decide)
  · rename_i h1
    rw [if_neg h1]
    split at h0
    · exact absurd (show (1 : Nat) = 0 from h0) (by decide)
    · rename_i code h2
      split at h0
      · rename_i s2 h3
        exact .still (handleResponse_still _ _ _ _ h3)
      · exact absurd (show (1 : Nat) = 0 from h0) (by decide)

/-- The service is called. -/
theorem handle_reached (nd : Node) (env : Env) (ok : Bool) (call : St → St) (s : St) (m0 m : Msg) (hm : SameMsg m0 m) (hr : reached nd env m0 = true) :
    (handleMessage nd.bmc env ok call s m).1 = (if ok = true then 0 else 4) ∧ (ok = true → (handleMessage nd.bmc env ok call s m).2 = call s) := by
  unfold reached at hr
  simp only [Bool.and_eq_true, decide_eq_true_eq, Bool.or_eq_true, Option.isSome_iff_exists] at hr
  obtain ⟨⟨⟨-, h1⟩, sv, h2⟩, h3⟩ := hr
  rw [← hm.svc] at h1 h2
  rw [← hm.sn, ← hm.body] at h3
  unfold handleMessage
  rw [if_neg h1, h2]
  dsimp only
  by_cases h4 : m.sn ≥ 0
  · rw [if_pos h4]
    cases ok
    · exact ⟨rfl, fun e => nomatch e⟩
    · exact ⟨rfl, fun _ => rfl⟩
  · rw [if_neg h4]
    rcases h3 with h3 | ⟨code, h3⟩
    · exact absurd h3 h4
    · rw [h3]
      cases ok
      · exact ⟨rfl, fun e => nomatch e⟩
      · exact ⟨rfl, fun _ => rfl⟩

theorem handle_missed (nd : Node) (env : Env) (ok : Bool) (call : St → St) (s : St) (m0 m : Msg) (hm : SameMsg m0 m) (hd : m0.dst = nd.bmc.net)
    (hb : m0.svc ≠ "bmc") (hr : reached nd env m0 ≠ true) : (handleMessage nd.bmc env ok call s m).1 ≠ 0 := by
  unfold handleMessage
  rw [if_neg (by rw [hm.svc]; exact hb)]
  split
  · exact (show (3 : Nat) ≠ 0 by decide)
  · rename_i sv h2
    split
    · rename_i h3
      refine absurd ?_ hr
      unfold reached
      simp only [Bool.and_eq_true, decide_eq_true_eq, Bool.or_eq_true, Option.isSome_iff_exists]
      exact ⟨⟨⟨hd, hb⟩, sv, by rw [← hm.svc]; exact h2⟩, .inl (by rw [← hm.sn]; exact h3)⟩
    · split
      · exact (show (1 : Nat) ≠ 0 by decide)
      · rename_i code h3
        refine absurd ?_ hr
        unfold reached
        simp only [Bool.and_eq_true, decide_eq_true_eq, Bool.or_eq_true, Option.isSome_iff_exists]
        exact ⟨⟨⟨hd, hb⟩, sv, by rw [← hm.svc]; exact h2⟩, .inr ⟨code, by rw [← hm.body]; exact h3⟩⟩

/-- A message is not for the call service, and no service sees it. -/
theorem bounce_go (nd : Node) (j : J) (b : St) (s' : St) (m0 : Msg) (h1 : b.log = j.b.log) (h2 : Mv nd.bmc.net (abs j.b) [m0] [] (abs b))
    (e : List Event) (h3 : s'.log = b.log ++ e) (h4 : Mv nd.bmc.net (abs b) [] e (abs s')) (h5 : Bounce nd.bmc.net m0 e)
    (h6 : 0 < m0.sn → owed (abs s') (m0.src, m0.svc, m0.sn) = 0) : JGo nd j [m0] ⟨s', j.x⟩ := by
  intro _
  refine ⟨e, by rw [h3, h1], ?_⟩
  by_cases hx : m0.svc = X
  · exact .one (.reject (abs j.b) j.x m0 (abs b) e (abs s') h2 hx h4 h5 h6)
  · have hm : ∀ m ∈ msgsOf e, m.svc ≠ X := by
      intro m hm
      rcases h5 with ⟨-, next, seq, m', rfl, -, -, h7, -⟩ | ⟨prev, seq, m', code, rfl, -⟩
      · rw [msgsOf_one, List.mem_singleton] at hm
        subst hm
        rw [h7]; exact hx
      · exact nomatch hm
    have := JMvs.cons (x := j.x) (nd := nd) (.plain (abs j.b) j.x [m0] [] (abs b) h2 (fun h => nomatch h) (fun _ m hm => by
        rw [List.mem_singleton] at hm; subst hm; exact hx))
      (.cons (.plain (abs b) j.x [] e (abs s') h4 (fun _ => hm) (fun _ m hm => nomatch hm)) (.nil _ _))
    simpa using this

theorem jitem_go (nd : Node) (env : Env) (ok : Bool) (acts : JOps) (hf : FineAll nd acts) (caller : Nat) (prev : String) (seq : Nat) (j j' : J) (m0 : Msg)
    (h : jitem nd env ok acts caller prev seq j m0 = some j') : JGo nd j [m0] j' := by
  unfold jitem at h
  by_cases hd : m0.dst = nd.bmc.net
  · by_cases hr : reached nd env m0 = true
    · rw [if_pos hr] at h
      by_cases hx : m0.svc = X
      · rw [if_pos hx] at h
        split at h
        · rename_i x' hx'
          rw [Option.map_eq_some_iff] at h
          obtain ⟨s', h, rfl⟩ := h
          obtain ⟨h1, h2, m, hm, h3⟩ := item_here nd env true id caller prev seq j.b s' m0 h hd
          have hk := handle_reached nd env true id (before nd caller prev j.b m0) m0 m hm hr
          rw [if_pos rfl] at hk
          rcases h3 with ⟨-, h4⟩ | ⟨h4, -⟩
          · intro _
            rw [h4, hk.2 rfl]
            refine ⟨[], by dsimp only [id]; rw [h1, List.append_nil], .one (.take (abs j.b) j.x m0 _ x' h2 hx hx')⟩
          · exact absurd hk.1 h4
        · rename_i hx'
          rw [Option.map_eq_some_iff] at h
          obtain ⟨s', h, rfl⟩ := h
          obtain ⟨h1, h2, m, hm, h3⟩ := item_here nd env false id caller prev seq j.b s' m0 h hd
          have hk := handle_reached nd env false id (before nd caller prev j.b m0) m0 m hm hr
          rcases h3 with ⟨h4, -⟩ | ⟨-, e, h4, h5, h6, h7⟩
          · rw [hk.1] at h4; exact absurd h4 (by decide)
          · exact bounce_go nd j _ s' m0 h1 h2 e h4 h5 h6 h7
      · rw [if_neg hx] at h
        dsimp only at h
        rw [Option.map_eq_some_iff] at h
        obtain ⟨s', h, rfl⟩ := h
        obtain ⟨h1, h2, m, hm, h3⟩ := item_here nd env ok _ caller prev seq j.b s' m0 h hd
        generalize hq : before nd caller prev j.b m0 = b at *
        have hk := handle_reached nd env ok (fun _ => (jrun nd acts ⟨b, j.x⟩).b) b m0 m hm hr
        cases ok
        · rcases h3 with ⟨h4, -⟩ | ⟨-, e, h4, h5, h6, h7⟩
          · rw [hk.1] at h4; exact absurd h4 (by decide)
          · exact bounce_go nd j _ s' m0 h1 h2 e h4 h5 h6 h7
        · rcases h3 with ⟨-, h4⟩ | ⟨h4, -⟩
          · rw [hk.2 rfl] at h4
            have g1 : JGo nd j [m0] ⟨b, j.x⟩ := fun _ => ⟨[], by dsimp only; rw [h1, List.append_nil],
              .one (.plain (abs j.b) j.x [m0] [] (abs b) h2 (fun h => nomatch h) (fun _ m hm => by rw [List.mem_singleton] at hm; subst hm; exact hx))⟩
            have g2 := g1.trans (jrun_go nd acts ⟨b, j.x⟩ hf)
            rw [List.append_nil] at g2
            rw [h4]
            exact g2
          · exact absurd hk.1 h4
    · rw [if_neg hr, Option.map_eq_some_iff] at h
      obtain ⟨s', h, rfl⟩ := h
      obtain ⟨h1, h2, m, hm, h3⟩ := item_here nd env ok id caller prev seq j.b s' m0 h hd
      rcases h3 with ⟨h3, h4⟩ | ⟨-, e, h4, h5, h6, h7⟩
      · by_cases hb : m0.svc = "bmc"
        · have g1 : JGo nd j [m0] ⟨before nd caller prev j.b m0, j.x⟩ := fun _ => ⟨[], by dsimp only; rw [h1, List.append_nil],
              .one (.plain (abs j.b) j.x [m0] [] _ h2 (fun h => nomatch h) (fun _ m hm => by
                rw [List.mem_singleton] at hm; subst hm; rw [hb]; decide))⟩
          have g2 := g1.trans (own_plain nd env ok id _ j.x m (hm.svc.trans hb) h3)
          rw [List.append_nil] at g2
          rw [h4]
          exact g2
        · exact absurd h3 (handle_missed nd env ok id _ m0 m hm hd hb hr)
      · exact bounce_go nd j _ s' m0 h1 h2 e h4 h5 h6 h7
  · have hr : reached nd env m0 ≠ true := by
      unfold reached
      simp [hd]
    rw [if_neg hr, Option.map_eq_some_iff] at h
    obtain ⟨s', h, rfl⟩ := h
    obtain ⟨e, h1, h2, h3⟩ := item_pass nd.bmc env ok id caller prev seq j.b s' m0 h hd
    exact fun _ => ⟨e, h2, .one (.plain (abs j.b) j.x [m0] e (abs s') h3 (fun h => nomatch h) (fun h => absurd h h1))⟩

theorem jitems_go (nd : Node) (caller : Nat) (prev : String) : ∀ (items : JItems) (seq : Nat) (j j' : J), FineItems nd items →
    jitems nd items caller prev seq j = some j' → JGo nd j items.msgs j'
  | .nil, seq, j, j', _, h => by
    rw [jitems] at h
    obtain rfl := Option.some.inj h
    exact .still (.refl _)
  | .cons m env ok acts t, seq, j, j', hf, h => by
    rw [jitems] at h
    rw [FineItems] at hf
    split at h
    · cases h
    rename_i j1 h1
    exact (jitem_go nd env ok acts hf.1 caller prev (seq + 1) j j1 m h1).trans (jitems_go nd caller prev t (seq + 1) j1 j' hf.2 h)

theorem jrelay_go (nd : Node) (env : Env) (caller : Nat) (prev : String) (items : JItems) (hf : FineItems nd items) (j j' : J)
    (h : jrelay nd env caller prev items j = some j') : JGo nd j items.msgs j' := by
  unfold jrelay at h
  split at h
  · split at h
    · cases h
    rename_i j1 h1
    obtain rfl := Option.some.inj h
    have g := (jitems_go nd caller prev items _ j j1 hf h1).trans
      (JGo.still (nd := nd) (b := j1.b) (b' := { j1.b with rx := upd j1.b.rx prev (j1.b.rx prev + items.msgs.length) }) (x := j1.x) ⟨rfl, rfl, rfl⟩)
    rw [List.append_nil] at g
    exact g
  · cases h

theorem drop_jgo (nd : Node) (env : Env) (seq : Nat) (m : Msg) (s s' : St) (x : XCall.St)
    (h : exec nd.bmc (.drop env m.src seq m.svc m.sn m.nsn m.fee) s = some s') : JGo nd ⟨s, x⟩ [m] ⟨s', x⟩ := by
  intro _
  have main : ∃ e, e ≠ [] ∧ s'.log = s.log ++ e ∧ Mv nd.bmc.net (abs s) [m] e (abs s') := by
    rw [exec] at h
    unfold dropMessage at h
    split at h
    · rename_i next _ hr hsv
      split at h
      · cases h
      dsimp only at h
      have h1 := accumulate_still (addIn s m.fee.network m.fee.values.sum) nd.bmc.periphery m.fee
      generalize accumulate (addIn s m.fee.network m.fee.values.sum) nd.bmc.periphery m.fee = q at h h1
      obtain ⟨s1, f1⟩ := q
      dsimp only at h h1
      split at h
      · simp only [Option.some.injEq] at h
        subst h
        have h2 : Still s { s1 with rx := upd s1.rx next (s1.rx next + 1), disp := upd s1.disp next (s1.disp next ++ [none]) } :=
          ⟨h1.1, h1.2.1, h1.2.2⟩
        generalize ({ s1 with rx := upd s1.rx next (s1.rx next + 1), disp := upd s1.disp next (s1.disp next ++ [none]) } : St) = s2 at h2
        by_cases hp : 0 < m.sn
        · obtain ⟨s4, f4, h4, h5⟩ := sendError_pos nd.bmc env s2 next seq ⟨m.src, "", m.svc, m.sn, [], m.nsn, f1⟩ 1 hp
          rw [h5]
          refine ⟨[.message next (s4.tx next + 1) _], List.cons_ne_nil _ _, by show s4.log ++ _ = _; rw [h4.2.2, h2.2.2], ?_⟩
          rw [show abs (sendMsg s4 next _) = abs s from (h2.trans h4).abs]
          exact .back (abs s) next _ m _ hp rfl rfl rfl rfl rfl
        · obtain ⟨m', h3, h4, h5, h6⟩ := sendError_neg nd.bmc env s2 next seq ⟨m.src, "", m.svc, m.sn, [], m.nsn, f1⟩ 1 hp
          have : abs (sendError nd.bmc env s2 next seq ⟨m.src, "", m.svc, m.sn, [], m.nsn, f1⟩ 1) = abs s := by
            unfold abs; rw [h4, h5, h2.1, h2.2.1]
          exact ⟨_, List.cons_ne_nil _ _, by rw [h6, h2.2.2], by rw [this]; exact .giveUp _ _ _ _ _ _ (by omega) h3⟩
      · cases h
    · cases h
  obtain ⟨e, h1, h2, h3⟩ := main
  exact ⟨e, h2, .one (.plain (abs s) x [m] e (abs s') h3 (fun h => nomatch h) (fun h => absurd h h1))⟩

/-- A step of the network is a sequence of moves of both contracts of one chain. -/
theorem JStep.moves {nd : String → Node} {nets : List String} {S S' : Net} {n : String} {D : List Msg} (h0 : ∀ n ∈ nets, 0 ≤ (S.sys.st n).nsn)
    (h : JStep nd nets S n D S') : n ∈ nets ∧ ∃ s' x' evs rest, S.sys.pool.Perm (D ++ rest) ∧
      S' = ⟨⟨upd S.sys.st n s', rest ++ msgsOf evs⟩, upd S.x n x'⟩ ∧ s'.log = (S.sys.st n).log ++ evs ∧
      JMvs (nd n) (abs (S.sys.st n)) (S.x n) D evs (abs s') x' := by
  have main : ∀ (j : J) (rest : List Msg), n ∈ nets → JGo (nd n) ⟨S.sys.st n, S.x n⟩ D j → S.sys.pool.Perm (D ++ rest) → S' = S.next n j rest →
      n ∈ nets ∧ ∃ s' x' evs rest, S.sys.pool.Perm (D ++ rest) ∧
      S' = ⟨⟨upd S.sys.st n s', rest ++ msgsOf evs⟩, upd S.x n x'⟩ ∧ s'.log = (S.sys.st n).log ++ evs ∧
      JMvs (nd n) (abs (S.sys.st n)) (S.x n) D evs (abs s') x' := by
    intro j rest hn hg hp he
    obtain ⟨evs, h1, h2⟩ := hg (h0 n hn)
    refine ⟨hn, j.b, j.x, evs, rest, hp, ?_, h1, h2⟩
    rw [he]
    unfold Net.next Sys.next
    rw [h1, drop_log]
  cases h with
  | call o j h1 h2 h3 => exact main j _ h1 (jexec_go _ o _ _ h2 h3) (.refl _) rfl
  | relay env caller prev items rest j h1 h2 h3 h4 => exact main j rest h1 (jrelay_go _ env caller prev items h2 _ _ h4) h3 rfl
  | drop env seq m rest s' h1 h2 h3 => exact main ⟨s', S.x n⟩ rest h1 (drop_jgo _ env seq m _ _ _ h3) h2 rfl

end Verif.XNet
