import Verif.SolLinks
/-!
Requests and answers in the network of EVM message centers of SolNet.

* What a call does to the numbers, the answers still owed and the emitted messages is broken into moves (`Mv`): a new message is
  sent, an owed answer is sent, a message is stored to be answered, received, passed on, sent back as an error, or given up.
  `exec_moves`, `items_moves` and `drop_moves` show that every call is a sequence of such moves.
* `TStep` is the step of SolNet together with the messages the chain takes from the pool: those of a relay call, or the one its
  owner drops. `TReach` keeps the lists of messages taken.
-/
namespace Verif.SolNet
open Verif Verif.SolBmc

/-! ### Moves of one message center -/

/-- The answers owed, the number of the last message, and whether the message center can fail to send an error back (that of ICON can,
    when the chain refuses a message). -/
structure Abs where
  resp : FM (String × String × Int) Resp
  nsn : Int
  ic : Bool

def abs (s : St) : Abs := ⟨s.resp, s.nsn, false⟩

/-- `m'` is `m`, but for the fees. -/
structure SameMsg (m m' : Msg) : Prop where
  src : m'.src = m.src
  dst : m'.dst = m.dst
  svc : m'.svc = m.svc
  sn : m'.sn = m.sn
  body : m'.body = m.body
  nsn : m'.nsn = m.nsn

theorem SameMsg.refl (m : Msg) : SameMsg m m := ⟨rfl, rfl, rfl, rfl, rfl, rfl⟩
theorem SameMsg.trans {a b d : Msg} (h1 : SameMsg a b) (h2 : SameMsg b d) : SameMsg a d :=
  ⟨h2.1.trans h1.1, h2.2.trans h1.2, h2.3.trans h1.3, h2.4.trans h1.4, h2.5.trans h1.5, h2.6.trans h1.6⟩
theorem SameMsg.symm {a b : Msg} (h : SameMsg a b) : SameMsg b a :=
  ⟨h.1.symm, h.2.symm, h.3.symm, h.4.symm, h.5.symm, h.6.symm⟩

/-- The answer owed for a key. -/
def owed (a : Abs) (k : String × String × Int) : Int := (a.resp.get Resp.empty k).nsn

/-- One move of the message center of `net`: messages taken, events emitted. -/
inductive Mv (net : String) : Abs → List Msg → List Event → Abs → Prop where
  | fresh (a : Abs) (next : String) (seq : Nat) (m : Msg) : m.src = net → m.nsn = a.nsn + 1 → (0 ≤ m.sn ∨ m.sn = a.nsn + 1) →
      (m.svc = "bmc" → 0 < m.sn → m.sn = m.nsn) → Mv net a [] [.message next seq m] ⟨a.resp, a.nsn + 1, a.ic⟩
  | answer (a : Abs) (next : String) (seq : Nat) (m : Msg) (sn : Int) : 0 < owed a (m.dst, m.svc, sn) → m.src = net →
      m.nsn = -owed a (m.dst, m.svc, sn) → (m.sn = 0 ∨ m.sn = -sn) →
      Mv net a [] [.message next seq m] ⟨a.resp.set (m.dst, m.svc, sn) Resp.empty, a.nsn, a.ic⟩
  | store (a : Abs) (m : Msg) (f : FeeInfo) : m.dst = net → 0 < m.sn → Mv net a [m] [] ⟨a.resp.set (m.src, m.svc, m.sn) ⟨m.nsn, f⟩, a.nsn, a.ic⟩
  | receive (a : Abs) (m : Msg) : m.dst = net → m.sn ≤ 0 → Mv net a [m] [] a
  | pass (a : Abs) (next : String) (seq : Nat) (m m' : Msg) : m.dst ≠ net → SameMsg m m' → Mv net a [m] [.message next seq m'] a
  | back (a : Abs) (next : String) (seq : Nat) (m m' : Msg) : 0 < m.sn → m'.src = net → m'.dst = m.src → m'.svc = m.svc → m'.sn = -m.sn →
      m'.nsn = -m.nsn → Mv net a [m] [.message next seq m'] a
  | giveUp (a : Abs) (prev : String) (seq : Nat) (m m' : Msg) (code : Nat) : m.sn ≤ 0 → m'.nsn = m.nsn →
      Mv net a [m] [.dropped prev seq m' code] a
  | note (a : Abs) (prev : String) (seq : Nat) (m' : Msg) (code : Nat) : Mv net a [] [.dropped prev seq m' code] a
  | fall (a : Abs) (prev : String) (seq : Nat) (m m' : Msg) (code : Nat) : a.ic = true → 0 < m.sn → m'.src = m.src → m'.nsn = m.nsn →
      Mv net a [m] [.dropped prev seq m' code] a
  | forget (a : Abs) (prev : String) (seq : Nat) (key : String × String × Int) (m' : Msg) (code : Nat) : a.ic = true → 0 < owed a key → m'.src = key.1 →
      m'.nsn = owed a key → Mv net a [] [.dropped prev seq m' code] ⟨a.resp.set key Resp.empty, a.nsn, a.ic⟩

inductive Mvs (net : String) : Abs → List Msg → List Event → Abs → Prop where
  | nil (a : Abs) : Mvs net a [] [] a
  | cons {a b d : Abs} {i j : List Msg} {e f : List Event} : Mv net a i e b → Mvs net b j f d → Mvs net a (i ++ j) (e ++ f) d

theorem Mvs.trans {net : String} {a b d : Abs} {i j : List Msg} {e f : List Event} (h1 : Mvs net a i e b) (h2 : Mvs net b j f d) :
    Mvs net a (i ++ j) (e ++ f) d := by
  induction h1 with
  | nil => exact h2
  | cons h _ ih =>
    rw [List.append_assoc, List.append_assoc]
    exact .cons h (ih h2)

theorem Mvs.one {net : String} {a b : Abs} {i : List Msg} {e : List Event} (h : Mv net a i e b) : Mvs net a i e b := by
  have := Mvs.cons h (.nil b)
  simpa using this

/-- A stretch of a call that takes the messages `i`. -/
def Go (net : String) (s : St) (i : List Msg) (s' : St) : Prop := ∃ evs, s'.log = s.log ++ evs ∧ Mvs net (abs s) i evs (abs s')

theorem Go.trans {net : String} {a b d : St} {i j : List Msg} (h1 : Go net a i b) (h2 : Go net b j d) : Go net a (i ++ j) d := by
  obtain ⟨e, h1, h2'⟩ := h1
  obtain ⟨f, h3, h4⟩ := h2
  exact ⟨e ++ f, by rw [h3, h1, List.append_assoc], h2'.trans h4⟩

theorem Go.trans0 {net : String} {a b d : St} {i : List Msg} (h1 : Go net a [] b) (h2 : Go net b i d) : Go net a i d := h1.trans h2
theorem Go.trans1 {net : String} {a b d : St} {i : List Msg} (h1 : Go net a i b) (h2 : Go net b [] d) : Go net a i d := by
  have := h1.trans h2
  rwa [List.append_nil] at this

/-- Nothing of interest changes. -/
def Still (s s' : St) : Prop := s'.resp = s.resp ∧ s'.nsn = s.nsn ∧ s'.log = s.log

theorem Still.refl (s : St) : Still s s := ⟨rfl, rfl, rfl⟩
theorem Still.trans {a b d : St} (h1 : Still a b) (h2 : Still b d) : Still a d :=
  ⟨h2.1.trans h1.1, h2.2.1.trans h1.2.1, h2.2.2.trans h1.2.2⟩

theorem Still.abs {s s' : St} (h : Still s s') : SolNet.abs s' = SolNet.abs s := by unfold SolNet.abs; rw [h.1, h.2.1]

theorem Still.go {s s' : St} (h : Still s s') (net : String) : Go net s [] s' :=
  ⟨[], by rw [h.2.2, List.append_nil], by rw [h.abs]; exact .nil _⟩

theorem Go.one {net : String} {s s' : St} {i : List Msg} {e : Event} (hl : s'.log = s.log ++ [e]) (h : Mv net (abs s) i [e] (abs s')) : Go net s i s' :=
  ⟨[e], hl, .one h⟩

theorem addReward_still (s : St) (k : String) (a v : Nat) : Still s (addReward s k a v) := by
  unfold addReward
  split <;> exact ⟨rfl, rfl, rfl⟩

theorem collectRemain_still (c : Cfg) (s : St) (f : FeeInfo) : Still s (collectRemain c s f).1 := addReward_still _ _ _ _

theorem accumulate_still (s : St) (a : Nat) (f : FeeInfo) : Still s (accumulate s a f).1 := by
  unfold accumulate
  split
  · exact Still.refl s
  · exact addReward_still _ _ _ _

theorem handleErrorFee_still (c : Cfg) (env : Env) (s : St) (src : String) (sn : Int) (f : FeeInfo) : Still s (handleErrorFee c env s src sn f).1 := by
  unfold handleErrorFee
  split
  · dsimp only
    split <;> exact Still.refl s
  · exact collectRemain_still c s f

theorem handleResponse_still (s s' : St) (k : Int) (res : Nat) (h : handleResponse s k res = some s') : Still s s' := by
  unfold handleResponse at h
  dsimp only at h
  split at h
  · simp only [Option.some.injEq] at h
    subst h
    split
    · have := addReward_still { s with req := s.req.set (s.req.get Req.empty k).nsn Req.empty } (s.req.get Req.empty k).dst
        (s.req.get Req.empty k).caller (s.req.get Req.empty k).amount
      exact ⟨this.1, this.2.1, this.2.2⟩
    · exact ⟨rfl, rfl, rfl⟩
  · cases h

theorem send_go {net : String} {s : St} {next : String} {m : Msg} {a : Abs} (i : List Msg) (s1 : St) (hl : s1.log = s.log)
    (ha : a = abs s1) (h : Mv net (abs s) i [.message next (s1.tx next + 1) m] a) : Go net s i (sendMsg s1 next m) := by
  refine ⟨[.message next (s1.tx next + 1) m], ?_, ?_⟩
  · show s1.log ++ _ = _; rw [hl]
  · subst ha; exact .one h

/-- The fee of a message does not matter. -/
theorem sendWithFee_go (c : Cfg) (env : Env) (s s' : St) (sender value : Nat) (to svc : String) (sn : Int) (body : Bytes) (isR fill : Bool) (k : Int)
    (h : sendWithFee c env s sender value to svc sn body isR fill = some (s', k)) (hsn : 0 ≤ sn)
    (hb : isR = false → fill = false → svc = "bmc" → sn ≤ 0) : Go c.net s [] s' := by
  unfold sendWithFee at h
  split at h
  · cases h
  rename_i next hn
  dsimp only at h
  have hs : Still s (addIn { s with coins := s.coins + value } c.net value) := ⟨rfl, rfl, rfl⟩
  generalize addIn { s with coins := s.coins + value } c.net value = s0 at h hs
  refine (hs.go c.net).trans0 ?_
  clear hs
  cases isR
  · simp only [Bool.false_eq_true, if_false] at h
    have hsn' : 0 ≤ (if fill then s0.nsn + 1 else sn) ∨ (if fill then s0.nsn + 1 else sn) = s0.nsn + 1 := by
      cases fill
      · exact .inl hsn
      · exact .inr rfl
    have hb' : svc = "bmc" → 0 < (if fill then s0.nsn + 1 else sn) → (if fill then s0.nsn + 1 else sn) = s0.nsn + 1 := by
      intro e1 e2
      cases fill
      · have := hb rfl rfl e1
        simp only [Bool.false_eq_true, if_false] at e2
        omega
      · rfl
    split at h
    · split at h
      · simp only [Option.some.injEq, Prod.mk.injEq] at h
        obtain ⟨rfl, rfl⟩ := h
        generalize (getFee env to (decide (sn > 0))) = vs at *
        have h1 := addReward_still { s0 with nsn := s0.nsn + 1 } c.net c.periphery (value - vs.sum)
        exact send_go [] _ h1.2.2 h1.abs.symm (.fresh (abs s0) next _ _ rfl rfl hsn' hb')
      · cases h
    · simp only [Option.some.injEq, Prod.mk.injEq] at h
      obtain ⟨rfl, rfl⟩ := h
      exact send_go [] { s0 with nsn := s0.nsn + 1 } rfl rfl (.fresh (abs s0) next _ _ rfl rfl hsn' hb')
  · simp only [if_true] at h
    split at h
    · cases h
    rename_i s1 r hr
    simp only [Option.some.injEq, Prod.mk.injEq] at h
    obtain ⟨rfl, rfl⟩ := h
    have h1 := addReward_still s1 c.net c.periphery value
    simp only [removeResponse] at hr
    split at hr
    · rename_i hp
      simp only [Option.some.injEq, Prod.mk.injEq] at hr
      obtain ⟨rfl, rfl⟩ := hr
      exact send_go [] _ h1.2.2 h1.abs.symm (.answer (abs s0) next _ ⟨c.net, to, svc, 0, body, _, _⟩ sn hp rfl rfl (.inl rfl))
    · cases hr

theorem sendMessage_go (c : Cfg) (env : Env) (s s' : St) (sender value : Nat) (to svc : String) (sn : Int) (body : Bytes)
    (h : sendMessage c env s sender value to svc sn body = some s') (hb : svc = "bmc" → sn ≤ 0) : Go c.net s [] s' := by
  unfold sendMessage at h
  split at h
  · cases h
  dsimp only at h
  rw [Option.map_eq_some_iff] at h
  obtain ⟨⟨s1, k⟩, h, rfl⟩ := h
  refine sendWithFee_go c env s s1 sender value to svc _ body _ _ k h ?_ ?_
  · split <;> omega
  · intro h1 _ h2
    have h3 := hb h2
    have h4 := of_decide_eq_false h1
    rw [if_neg h4]; exact h3

theorem claim_go (c : Cfg) (env : Env) (s s' : St) (sender value : Nat) (net receiver : String)
    (h : claimReward c env s sender value net receiver = some s') : Go c.net s [] s' := by
  unfold claimReward at h
  dsimp only at h
  generalize (if sender = env.feeHandler then c.periphery else sender) = who at h
  split at h
  case isFalse => cases h
  have h0 : Still s { s with reward := s.reward.set (who, net) 0 } := ⟨rfl, rfl, rfl⟩
  split at h
  · split at h
    · cases h
    simp only [Option.some.injEq] at h
    subst h
    exact Still.go ⟨rfl, rfl, rfl⟩ _
  · split at h
    · cases h
    rename_i s2 k hsend
    simp only [Option.some.injEq] at h
    subst h
    have h1 := sendWithFee_go c env _ _ sender value net "bmc" 0 _ _ _ k hsend (by omega) (fun _ e => nomatch e)
    exact (h0.go c.net).trans0 (h1.trans1 (Still.go ⟨rfl, rfl, rfl⟩ _))

theorem internal_go (c : Cfg) (s : St) (next to : String) (body : Bytes) : Go c.net s [] (sendInternal c s next to body) :=
  send_go [] { s with nsn := s.nsn + 1 } rfl rfl (.fresh (abs s) next _ _ rfl rfl (.inl (Int.le_refl _)) (fun _ h => absurd h (Int.lt_irrefl _)))

theorem quiet_go (c : Cfg) (o : Op) (hq : Quiet c o) (s s' : St) (h : exec c o s = some s') : Go c.net s [] s' := by
  cases o with
  | send env sender value to svc sn body =>
    rw [exec] at h
    split at h
    · cases h
    rename_i hne
    refine sendMessage_go c env s s' sender value to svc sn body h (fun e => ?_)
    unfold sendMessage at h
    split at h
    · cases h
    · rename_i hs
      exfalso
      apply hs
      refine ⟨hne, ?_⟩
      have hq' : env.service "bmc" = some c.service := hq
      rw [e, hq']
      intro e'
      exact hne (Option.some.inj e').symm
  | claim env sender value net receiver =>
    rw [exec] at h
    split at h
    · cases h
    exact claim_go c env s s' sender value net receiver h
  | relay env caller prev items => exact hq.elim
  | drop env src seq svc sn nsn f => exact hq.elim
  | clear link => exact hq.elim
  | internal next to body =>
    rw [exec] at h
    simp only [Option.some.injEq] at h
    subst h
    exact internal_go c s next to body

theorem quietOps_go (c : Cfg) : ∀ (acts : Ops), QuietOps c acts → ∀ s, Go c.net s [] (execOps c acts s)
  | .nil, _, s => by rw [execOps]; exact (Still.refl s).go _
  | .cons o t, hq, s => by
    rw [execOps]
    cases h : exec c o s with
    | none => exact quietOps_go c t hq.2 s
    | some s1 => exact (quiet_go c o hq.1 s s1 h).trans0 (quietOps_go c t hq.2 s1)

theorem ownService_go (c : Cfg) (env : Env) (ok : Bool) (s s' : St) (fr : String) (sn : Int) (body : Bytes)
    (h : ownService c env ok s fr sn body = some s') (hsn : 0 ≤ sn) : Go c.net s [] s' := by
  unfold ownService at h
  split at h
  · cases h
  · split at h
    · cases h
    rename_i amount _ _ _ a _
    have h1 := addReward_still (addIn { s with credited := s.credited + amount } c.net amount) c.net a amount
    have h0 : Still s (addIn { s with credited := s.credited + amount } c.net amount) := ⟨rfl, rfl, rfl⟩
    exact ((h0.trans h1).go c.net).trans0 (sendMessage_go c env _ _ _ _ _ _ _ _ h (fun _ => by omega))
  · exact (handleResponse_still _ _ _ _ h).go _
  · split at h
    · simp only [Option.some.injEq] at h
      subst h; exact (Still.refl s).go _
    · cases h
  · cases h

theorem handleMessage_go (c : Cfg) (env : Env) (ok : Bool) (call : St → St) (hc : ∀ s, Go c.net s [] (call s)) (s : St) (m : Msg) :
    Go c.net s [] (handleMessage c env ok call s m).2 ∧ ((handleMessage c env ok call s m).1 ≠ 0 → (handleMessage c env ok call s m).2 = s) := by
  have hs : Go c.net s [] s := (Still.refl s).go _
  unfold handleMessage
  split
  · dsimp only
    have hnn : m.sn ≥ 0 → 0 ≤ (if m.sn ≥ 0 ∧ m.nsn < 0 then -m.nsn else m.nsn) := by
      intro h
      by_cases h2 : m.nsn < 0
      · rw [if_pos ⟨h, h2⟩]; omega
      · rw [if_neg (fun e => h2 e.2)]; omega
    generalize (if m.sn ≥ 0 ∧ m.nsn < 0 then -m.nsn else m.nsn) = sn at hnn
    split
    · rename_i hm
      split
      · rename_i s1 h
        exact ⟨ownService_go c env ok s s1 _ _ _ h (hnn hm), fun e => absurd rfl e⟩
      · exact ⟨hs, fun _ => rfl⟩
    · split
      · exact ⟨hs, fun _ => rfl⟩
      · split
        · rename_i s1 h
          exact ⟨(handleResponse_still _ _ _ _ h).go _, fun e => absurd rfl e⟩
        · exact ⟨hs, fun _ => rfl⟩
  · split
    · exact ⟨hs, fun _ => rfl⟩
    · split
      · split
        · exact ⟨hc s, fun e => absurd rfl e⟩
        · exact ⟨hs, fun _ => rfl⟩
      · split
        · exact ⟨hs, fun _ => rfl⟩
        · split
          · exact ⟨hc s, fun e => absurd rfl e⟩
          · exact ⟨hs, fun _ => rfl⟩

/-- The fees of a message are shared out, and a request is stored. -/
theorem handleFee_go (c : Cfg) (s : St) (a : Nat) (m : Msg) : SameMsg m (handleFee c s a m).2 ∧
    (m.dst = c.net → 0 < m.sn → ∃ f, (handleFee c s a m).1.resp = s.resp.set (m.src, m.svc, m.sn) ⟨m.nsn, f⟩ ∧
      (handleFee c s a m).1.nsn = s.nsn ∧ (handleFee c s a m).1.log = s.log) ∧
    (¬ (m.dst = c.net ∧ 0 < m.sn) → Still s (handleFee c s a m).1) := by
  have h := accumulate_still s a m.fee
  unfold handleFee
  dsimp only
  generalize accumulate s a m.fee = q at h
  obtain ⟨s1, f⟩ := q
  dsimp only at h ⊢
  by_cases h1 : m.dst = c.net
  · by_cases h2 : m.sn > 0
    · rw [if_pos h1, if_pos h2]
      have h3 := h.trans (collectRemain_still c s1 (s1.resp.get Resp.empty (m.src, m.svc, m.sn)).fee)
      refine ⟨⟨rfl, rfl, rfl, rfl, rfl, rfl⟩, fun _ _ => ⟨f, ?_, h3.2.1, h3.2.2⟩, fun e => absurd ⟨h1, h2⟩ e⟩
      dsimp only
      rw [h3.1]
    · rw [if_pos h1, if_neg h2]
      exact ⟨⟨rfl, rfl, rfl, rfl, rfl, rfl⟩, fun _ e => absurd e h2, fun _ => h.trans (collectRemain_still c s1 _)⟩
  · rw [if_neg h1]
    exact ⟨⟨rfl, rfl, rfl, rfl, rfl, rfl⟩, fun e => absurd e h1, fun _ => h⟩

theorem sendError_pos (c : Cfg) (env : Env) (s : St) (prev : String) (seq : Nat) (m : Msg) (code : Nat) (h : 0 < m.sn) :
    ∃ s1 f, Still s s1 ∧ sendError c env s prev seq m code = sendMsg s1 prev ⟨c.net, m.src, m.svc, -m.sn, c.encResp code, -m.nsn, f⟩ := by
  have h1 := handleErrorFee_still c env s m.src m.sn m.fee
  unfold sendError
  dsimp only
  generalize handleErrorFee c env s m.src m.sn m.fee = p at h1
  obtain ⟨s1, f⟩ := p
  dsimp only at h1 ⊢
  rw [if_pos h]
  exact ⟨s1, f, h1, rfl⟩

theorem sendError_neg (c : Cfg) (env : Env) (s : St) (prev : String) (seq : Nat) (m : Msg) (code : Nat) (h : ¬ 0 < m.sn) :
    ∃ m', m'.nsn = m.nsn ∧ (sendError c env s prev seq m code).resp = s.resp ∧ (sendError c env s prev seq m code).nsn = s.nsn ∧
      (sendError c env s prev seq m code).log = s.log ++ [.dropped prev seq m' code] := by
  have h1 := handleErrorFee_still c env s m.src m.sn m.fee
  unfold sendError
  dsimp only
  generalize handleErrorFee c env s m.src m.sn m.fee = p at h1
  obtain ⟨s1, f⟩ := p
  dsimp only at h1 ⊢
  rw [if_neg h]
  exact ⟨{ m with fee := f }, rfl, h1.1, h1.2.1, by show s1.log ++ _ = _; rw [h1.2.2]⟩

theorem item_go (c : Cfg) (env : Env) (ok : Bool) (call : St → St) (hc : ∀ s, Go c.net s [] (call s)) (caller : Nat) (prev : String) (seq : Nat)
    (s s' : St) (m0 : Msg) (h : item c env ok call caller prev seq s m0 = some s') : Go c.net s [m0] s' := by
  unfold item at h
  dsimp only at h
  have hs : Still s { addIn s m0.fee.network m0.fee.values.sum with
      disp := upd (addIn s m0.fee.network m0.fee.values.sum).disp prev ((addIn s m0.fee.network m0.fee.values.sum).disp prev ++ [some m0]) } := ⟨rfl, rfl, rfl⟩
  generalize ({ addIn s m0.fee.network m0.fee.values.sum with
      disp := upd (addIn s m0.fee.network m0.fee.values.sum).disp prev ((addIn s m0.fee.network m0.fee.values.sum).disp prev ++ [some m0]) } : St) = s0 at h hs
  refine (hs.go c.net).trans0 ?_
  clear hs
  obtain ⟨hm, hst, hno⟩ := handleFee_go c s0 caller m0
  generalize handleFee c s0 caller m0 = q at h hm hst hno
  obtain ⟨s1, m⟩ := q
  dsimp only at h hm hst hno
  split at h
  · rename_i hd
    have hd0 : m0.dst = c.net := by rw [← hm.dst]; exact hd
    have hh := handleMessage_go c env ok call hc s1 m
    generalize handleMessage c env ok call s1 m = q at h hh
    obtain ⟨ecode, s2⟩ := q
    dsimp only at h hh
    by_cases hp : 0 < m0.sn
    · obtain ⟨f, h1, h2, h3⟩ := hst hd0 hp
      have hgo : Go c.net s0 [m0] s1 := ⟨[], by rw [h3, List.append_nil], by
        have : abs s1 = ⟨(abs s0).resp.set (m0.src, m0.svc, m0.sn) ⟨m0.nsn, f⟩, (abs s0).nsn, (abs s0).ic⟩ := by unfold abs; rw [h1, h2]
        rw [this]
        exact .one (.store (abs s0) m0 f hd0 hp)⟩
      refine hgo.trans1 ?_
      split at h
      · simp only [Option.some.injEq] at h
        subst h; exact hh.1
      · rename_i hne
        have e2 := hh.2 hne
        subst e2
        rw [if_pos (by rw [hm.sn]; exact hp)] at h
        split at h
        · cases h
        rename_i s3 r hr
        simp only [Option.some.injEq] at h
        subst h
        simp only [removeResponse] at hr
        split at hr
        · rename_i hpos
          simp only [Option.some.injEq, Prod.mk.injEq] at hr
          obtain ⟨rfl, rfl⟩ := hr
          rw [hm.src, hm.svc, hm.sn, h1, FM.get_set, if_pos rfl] at hpos
          dsimp only at hpos
          obtain ⟨s4, f4, h4, h5⟩ := sendError_pos c env { s2 with resp := s2.resp.set (m.src, m.svc, m.sn) Resp.empty } prev seq m ecode (by rw [hm.sn]; exact hp)
          rw [h5]
          have hw : owed (abs s2) (m.src, m.svc, m.sn) = m0.nsn := by
            unfold owed abs
            rw [hm.src, hm.svc, hm.sn]
            dsimp only
            rw [h1, FM.get_set, if_pos rfl]
          refine send_go [] s4 h4.2.2 h4.abs.symm (.answer (abs s2) prev _ ⟨c.net, m.src, m.svc, -m.sn, c.encResp ecode, -m.nsn, f4⟩ m.sn ?_ rfl ?_ (.inr rfl))
          · dsimp only; rw [hw]; exact hpos
          · dsimp only; rw [hw, hm.nsn]
        · cases hr
    · have h1 := hno (fun e => hp e.2)
      have hgo : Go c.net s0 [m0] s1 := ⟨[], by rw [h1.2.2, List.append_nil], by
        rw [h1.abs]; exact .one (.receive (abs s0) m0 hd0 (by omega))⟩
      refine hgo.trans1 ?_
      split at h
      · simp only [Option.some.injEq] at h
        subst h; exact hh.1
      · rename_i hne
        have e2 := hh.2 hne
        subst e2
        rw [if_neg (by rw [hm.sn]; exact hp)] at h
        simp only [Option.some.injEq] at h
        subst h
        obtain ⟨m', h2, h3, h4, h5⟩ := sendError_neg c env s2 prev seq m ecode (by rw [hm.sn]; exact hp)
        have : abs (sendError c env s2 prev seq m ecode) = abs s2 := by unfold abs; rw [h3, h4]
        exact Go.one h5 (by rw [this]; exact .note _ _ _ _ _)
  · rename_i hd
    have hd0 : m0.dst ≠ c.net := by rw [← hm.dst]; exact hd
    have h1 := hno (fun e => hd0 e.1)
    split at h
    · rename_i next hn
      simp only [Option.some.injEq] at h
      subst h
      exact send_go [m0] s1 h1.2.2 h1.abs.symm (.pass (abs s0) next _ m0 m hd0 hm)
    · simp only [Option.some.injEq] at h
      subst h
      by_cases hp : 0 < m0.sn
      · obtain ⟨s4, f4, h4, h5⟩ := sendError_pos c env s1 prev seq m 2 (by rw [hm.sn]; exact hp)
        rw [h5]
        exact send_go [m0] s4 (h4.2.2.trans h1.2.2) (h1.trans h4).abs.symm
          (.back (abs s0) prev _ m0 _ hp rfl hm.src hm.svc (by dsimp only; rw [hm.sn]) (by dsimp only; rw [hm.nsn]))
      · obtain ⟨m', h2, h3, h4, h5⟩ := sendError_neg c env s1 prev seq m 2 (by rw [hm.sn]; exact hp)
        have : abs (sendError c env s1 prev seq m 2) = abs s0 := by unfold abs; rw [h3, h4, h1.1, h1.2.1]
        refine Go.one (by rw [h5, h1.2.2]) ?_
        rw [this]
        exact .giveUp _ _ _ _ _ _ (by omega) (by rw [h2, hm.nsn])

theorem items_go (c : Cfg) (caller : Nat) (prev : String) : ∀ (items : Items) (seq : Nat) (s s' : St), QuietItems c items →
    execItems c items caller prev seq s = some s' → Go c.net s items.msgs s'
  | .nil, seq, s, s', _, h => by
    rw [execItems] at h
    simp only [Option.some.injEq] at h
    subst h; exact (Still.refl s).go _
  | .cons m env ok acts t, seq, s, s', hq, h => by
    rw [execItems] at h
    split at h
    · cases h
    rename_i s1 h1
    exact (item_go c env ok _ (quietOps_go c acts hq.1) caller prev (seq + 1) s s1 m h1).trans (items_go c caller prev t (seq + 1) s1 s' hq.2 h)

theorem relay_go (c : Cfg) (env : Env) (caller : Nat) (prev : String) (items : Items) (hq : QuietItems c items) (s s' : St)
    (h : exec c (.relay env caller prev items) s = some s') : Go c.net s items.msgs s' := by
  rw [exec] at h
  split at h
  · split at h
    · cases h
    rename_i s1 h1
    simp only [Option.some.injEq] at h
    subst h
    exact (items_go c caller prev items _ s s1 hq h1).trans1 (Still.go ⟨rfl, rfl, rfl⟩ _)
  · cases h

theorem drop_go (c : Cfg) (env : Env) (seq : Nat) (m : Msg) (s s' : St)
    (h : exec c (.drop env m.src seq m.svc m.sn m.nsn m.fee) s = some s') : Go c.net s [m] s' := by
  rw [exec] at h
  unfold dropMessage at h
  split at h
  · rename_i next _ hr hsv
    split at h
    · cases h
    dsimp only at h
    have h1 := accumulate_still (addIn s m.fee.network m.fee.values.sum) c.periphery m.fee
    generalize accumulate (addIn s m.fee.network m.fee.values.sum) c.periphery m.fee = q at h h1
    obtain ⟨s1, f1⟩ := q
    dsimp only at h h1
    split at h
    · simp only [Option.some.injEq] at h
      subst h
      have h2 : Still s { s1 with rx := upd s1.rx next (s1.rx next + 1), disp := upd s1.disp next (s1.disp next ++ [none]) } :=
        ⟨h1.1, h1.2.1, h1.2.2⟩
      generalize ({ s1 with rx := upd s1.rx next (s1.rx next + 1), disp := upd s1.disp next (s1.disp next ++ [none]) } : St) = s2 at h2
      by_cases hp : 0 < m.sn
      · obtain ⟨s4, f4, h4, h5⟩ := sendError_pos c env s2 next seq ⟨m.src, "", m.svc, m.sn, [], m.nsn, f1⟩ 1 hp
        rw [h5]
        exact send_go [m] s4 (h4.2.2.trans h2.2.2) (h2.trans h4).abs.symm (.back (abs s) next _ m _ hp rfl rfl rfl rfl rfl)
      · obtain ⟨m', h3, h4, h5, h6⟩ := sendError_neg c env s2 next seq ⟨m.src, "", m.svc, m.sn, [], m.nsn, f1⟩ 1 hp
        have : abs (sendError c env s2 next seq ⟨m.src, "", m.svc, m.sn, [], m.nsn, f1⟩ 1) = abs s := by
          unfold abs; rw [h4, h5, h2.1, h2.2.1]
        refine Go.one (by rw [h6, h2.2.2]) ?_
        rw [this]
        exact .giveUp _ _ _ _ _ _ (by omega) h3
    · cases h
  · cases h

/-! ### Messages taken from the pool -/

/-- The states reached, with the messages each chain has taken. -/
inductive TReach (cfg : String → Cfg) (nets : List String) : Sys → (String → List Msg) → Prop where
  | init : TReach cfg nets ⟨fun _ => SolBmc.init, []⟩ (fun _ => [])
  | step {σ σ' : Sys} {T : String → List Msg} {n : String} {D : List Msg} : TReach cfg nets σ T → TStep cfg nets σ n D σ' →
      TReach cfg nets σ' (upd T n (T n ++ D))

theorem TReach.reach {cfg : String → Cfg} {nets : List String} {σ : Sys} {T : String → List Msg} (h : TReach cfg nets σ T) : Reach cfg nets σ := by
  induction h with
  | init => exact .init
  | step _ hs ih => exact ih.step hs.step

theorem Reach.treach {cfg : String → Cfg} {nets : List String} {σ : Sys} (h : Reach cfg nets σ) : ∃ T, TReach cfg nets σ T := by
  induction h with
  | init => exact ⟨_, .init⟩
  | step _ hs ih =>
    obtain ⟨T, ih⟩ := ih
    cases hs with
    | call n o s' h1 h2 h3 => exact ⟨_, ih.step (.call _ n o s' h1 h2 h3)⟩
    | relay n env caller prev items rest s' h1 h2 h3 h4 => exact ⟨_, ih.step (.relay _ n env caller prev items rest s' h1 h2 h3 h4)⟩
    | drop n env seq m rest s' h1 h2 h3 => exact ⟨_, ih.step (.drop _ n env seq m rest s' h1 h2 h3)⟩

/-- A step of the network is a sequence of moves. -/
theorem TStep.moves {cfg : String → Cfg} {nets : List String} (hname : ∀ n ∈ nets, (cfg n).net = n) {σ σ' : Sys} {n : String} {D : List Msg}
    (h : TStep cfg nets σ n D σ') : n ∈ nets ∧ ∃ s' evs rest, σ.pool.Perm (D ++ rest) ∧ σ' = ⟨upd σ.st n s', rest ++ msgsOf evs⟩ ∧
      s'.log = (σ.st n).log ++ evs ∧ Mvs n (abs (σ.st n)) D evs (abs s') := by
  have main : ∀ (s' : St) (rest : List Msg), n ∈ nets → Go (cfg n).net (σ.st n) D s' → σ.pool.Perm (D ++ rest) → σ' = σ.next n s' rest →
      n ∈ nets ∧ ∃ s' evs rest, σ.pool.Perm (D ++ rest) ∧ σ' = ⟨upd σ.st n s', rest ++ msgsOf evs⟩ ∧
      s'.log = (σ.st n).log ++ evs ∧ Mvs n (abs (σ.st n)) D evs (abs s') := by
    intro s' rest hn ⟨evs, h1, h2⟩ hp he
    rw [hname n hn] at h2
    refine ⟨hn, s', evs, rest, hp, ?_, h1, h2⟩
    rw [he]
    unfold Sys.next
    rw [h1, drop_log]
  cases h with
  | call o s' h1 h2 h3 => exact main s' _ h1 (quiet_go _ o h2 _ _ h3) (.refl _) rfl
  | relay env caller prev items rest s' h1 h2 h3 h4 => exact main s' rest h1 (relay_go _ env caller prev items h2 _ _ h4) h3 rfl
  | drop env seq m rest s' h1 h2 h3 => exact main s' rest h1 (drop_go _ env seq m _ _ h3) h2 rfl

/-! ### Tokens: where the answer to a message is -/

/-- Answers owed to `n` for its message number `k`. -/
def kept (a : Abs) (n : String) (k : Int) : Nat := FM.total (fun (key : String × String × Int) (v : Resp) => if key.1 = n ∧ v.nsn = k then 1 else 0) a.resp

/-- An answer to message `k` of `n`. -/
def isAns (n : String) (k : Int) (m : Msg) : Bool := decide (m.dst = n ∧ m.nsn = -k)

/-- The message `k` of `n`, or an answer to it. -/
def isTok (n : String) (k : Int) (m : Msg) : Bool := decide ((m.src = n ∧ m.nsn = k) ∨ (m.dst = n ∧ m.nsn = -k))

theorem isAns_iff {n : String} {k : Int} {m : Msg} : isAns n k m = true ↔ m.dst = n ∧ m.nsn = -k := by unfold isAns; exact decide_eq_true_iff
theorem isTok_iff {n : String} {k : Int} {m : Msg} : isTok n k m = true ↔ (m.src = n ∧ m.nsn = k) ∨ (m.dst = n ∧ m.nsn = -k) := by
  unfold isTok; exact decide_eq_true_iff

theorem countP_one (p : Msg → Bool) (m : Msg) : [m].countP p = if p m = true then 1 else 0 := by
  rw [List.countP_cons, List.countP_nil]; omega

theorem kept_set (a : Abs) (key : String × String × Int) (r : Resp) (n : String) (k : Int) (hk : 0 < k) (z : Int) (w : Bool) :
    kept ⟨a.resp.set key r, z, w⟩ n k + (if key.1 = n ∧ owed a key = k then 1 else 0) = kept a n k + (if key.1 = n ∧ r.nsn = k then 1 else 0) :=
  FM.total_set (fun (key : String × String × Int) (v : Resp) => if key.1 = n ∧ v.nsn = k then 1 else 0) Resp.empty a.resp key r (by
    rw [if_neg]
    intro h
    have : (0 : Int) = k := h.2
    omega)

/-- Numbers in use. -/
def used (net : String) (a : Abs) (n : String) (k : Int) : Nat := if net = n ∧ k ≤ a.nsn then 1 else 0

theorem Mv.tok {net : String} {a b : Abs} {i : List Msg} {e : List Event} (h : Mv net a i e b) (n : String) (k : Int) (hk : 0 < k)
    (hi : ∀ m ∈ i, 0 < m.sn → 0 < m.nsn) (ha : 0 ≤ a.nsn) :
    kept b n k + (msgsOf e).countP (isTok n k) + (if net = n then i.countP (isAns n k) else 0) + used net a n k ≤
      kept a n k + i.countP (isTok n k) + used net b n k := by
  have hle : ∀ m : Msg, (if net = n then [m].countP (isAns n k) else 0) ≤ [m].countP (isTok n k) := by
    intro m
    rw [countP_one, countP_one]
    split
    · split
      · rename_i h1
        rw [if_pos (isTok_iff.2 (.inr (isAns_iff.1 h1)))]; exact Nat.le_refl _
      · exact Nat.zero_le _
    · exact Nat.zero_le _
  have hmsg : ∀ next seq m, msgsOf [Event.message next seq m] = [m] := fun _ _ _ => rfl
  have hzero : (if net = n then ([] : List Msg).countP (isAns n k) else 0) = 0 := by split <;> rfl
  have hnil : ([] : List Msg).countP (isTok n k) = 0 := rfl
  cases h with
  | fresh next seq m h1 h2 h3 =>
    rw [hmsg, countP_one, hzero, hnil]
    have e1 : kept ⟨a.resp, a.nsn + 1, a.ic⟩ n k = kept a n k := rfl
    rw [e1]
    have ht : isTok n k m = true ↔ net = n ∧ k = a.nsn + 1 := by
      rw [isTok_iff, h1, h2]
      constructor
      · intro h
        rcases h with h | h
        · exact ⟨h.1, h.2.symm⟩
        · omega
      · intro h; exact .inl ⟨h.1, h.2.symm⟩
    unfold used
    simp only [ht]
    by_cases h : net = n
    · simp only [h, true_and]
      split <;> split <;> split <;> omega
    · simp only [h, false_and, if_false]
      omega
  | answer next seq m sn h1 h2 h3 h4 =>
    rw [hmsg, countP_one, hzero, hnil]
    have hs := kept_set a (m.dst, m.svc, sn) Resp.empty n k hk a.nsn a.ic
    have e0 : (if (m.dst, m.svc, sn).1 = n ∧ Resp.empty.nsn = k then 1 else 0) = 0 := by
      rw [if_neg]
      intro h
      have : (0 : Int) = k := h.2
      omega
    rw [e0] at hs
    have e1 : used net ⟨a.resp.set (m.dst, m.svc, sn) Resp.empty, a.nsn, a.ic⟩ n k = used net a n k := rfl
    rw [e1]
    have e2 : (if isTok n k m = true then 1 else 0) = (if (m.dst, m.svc, sn).1 = n ∧ owed a (m.dst, m.svc, sn) = k then 1 else 0) := by
      apply ite_congr _ (fun _ => rfl) (fun _ => rfl)
      rw [isTok_iff]
      dsimp only
      apply propext
      constructor
      · intro h
        rcases h with h | h
        · omega
        · exact ⟨h.1, by omega⟩
      · intro h
        exact .inr ⟨h.1, by omega⟩
    omega
  | store m f h1 h2 =>
    have h3 := hi m (List.mem_singleton.2 rfl) h2
    have hs := kept_set a (m.src, m.svc, m.sn) ⟨m.nsn, f⟩ n k hk a.nsn a.ic
    have e1 : used net ⟨a.resp.set (m.src, m.svc, m.sn) ⟨m.nsn, f⟩, a.nsn, a.ic⟩ n k = used net a n k := rfl
    rw [e1]
    have e2 : (msgsOf []).countP (isTok n k) = 0 := rfl
    have e3 : (if net = n then [m].countP (isAns n k) else 0) = 0 := by
      rw [countP_one]
      split
      · rw [if_neg]; rw [isAns_iff]; omega
      · rfl
    have e4 : (if (m.src, m.svc, m.sn).1 = n ∧ (⟨m.nsn, f⟩ : Resp).nsn = k then 1 else 0) ≤ [m].countP (isTok n k) := by
      rw [countP_one]
      split
      · rename_i h
        rw [if_pos (isTok_iff.2 (.inl h))]; exact Nat.le_refl _
      · exact Nat.zero_le _
    omega
  | receive m h1 h2 =>
    have := hle m
    have e2 : (msgsOf []).countP (isTok n k) = 0 := rfl
    omega
  | pass next seq m m' h1 h2 =>
    rw [hmsg]
    have e1 : (if net = n then [m].countP (isAns n k) else 0) = 0 := by
      rw [countP_one]
      split
      · rename_i h
        rw [if_neg]
        rw [isAns_iff]
        intro h'
        exact h1 (h'.1.trans h.symm)
      · rfl
    have e2 : [m'].countP (isTok n k) = [m].countP (isTok n k) := by
      rw [countP_one, countP_one]
      unfold isTok
      rw [h2.src, h2.dst, h2.nsn]
    omega
  | back next seq m m' h1 h2 h3 h4 h5 h6 =>
    rw [hmsg]
    have h7 := hi m (List.mem_singleton.2 rfl) h1
    have e1 : (if net = n then [m].countP (isAns n k) else 0) = 0 := by
      rw [countP_one]
      split
      · rw [if_neg]; rw [isAns_iff]; omega
      · rfl
    have e2 : [m'].countP (isTok n k) ≤ [m].countP (isTok n k) := by
      rw [countP_one, countP_one]
      split
      · rename_i h
        rw [if_pos]
        · exact Nat.le_refl _
        · rw [isTok_iff] at h ⊢
          rcases h with h | h
          · omega
          · exact .inl ⟨by rw [← h3]; exact h.1, by omega⟩
      · exact Nat.zero_le _
    omega
  | giveUp prev seq m m' code h1 h2 =>
    have := hle m
    have e2 : (msgsOf [Event.dropped prev seq m' code]).countP (isTok n k) = 0 := rfl
    omega
  | note prev seq m' code =>
    rw [hzero, hnil]
    have e2 : (msgsOf [Event.dropped prev seq m' code]).countP (isTok n k) = 0 := rfl
    omega
  | fall prev seq m m' code h0 h1 h2 h3 =>
    have := hle m
    have e2 : (msgsOf [Event.dropped prev seq m' code]).countP (isTok n k) = 0 := rfl
    omega
  | forget prev seq key m' code h0 h1 h2 h3 =>
    rw [hzero, hnil]
    have hs := kept_set a key Resp.empty n k hk a.nsn a.ic
    have e0 : (if key.1 = n ∧ Resp.empty.nsn = k then 1 else 0) = 0 := by
      rw [if_neg]
      intro h
      have : (0 : Int) = k := h.2
      omega
    rw [e0] at hs
    have e1 : used net ⟨a.resp.set key Resp.empty, a.nsn, a.ic⟩ n k = used net a n k := rfl
    have e2 : (msgsOf [Event.dropped prev seq m' code]).countP (isTok n k) = 0 := rfl
    omega

end Verif.SolNet
