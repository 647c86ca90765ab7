import Verif.XCallNet
/-!
What the calls of XCallNet do, chain by chain: the messages the message center emits in the name of the call service are the ones the call
service sent, in order (`Coup`); what the call service does is a history of XCall (`jrun_ops`); and a relay call is a sequence of moves of both
contracts (`JMvs`).
-/
namespace Verif.XNet
open Verif Verif.SolBmc Verif.SolNet

/-! ### Sending -/

/-- The message the message center emits for a call of `sendMessageWithFee`. -/
theorem sendWithFee_msg (c : Cfg) (env : Env) (s s' : St) (sender value : Nat) (to svc : String) (sn : Int) (body : Bytes) (isR fill : Bool) (k : Int)
    (h : sendWithFee c env s sender value to svc sn body isR fill = some (s', k)) :
    ∃ next seq m, s'.log = s.log ++ [.message next seq m] ∧ m.src = c.net ∧ m.dst = to ∧ m.svc = svc ∧ m.body = body ∧
      (isR = true → m.sn = 0 ∧ m.nsn < 0 ∧ m.nsn = -owed (abs s) (to, svc, sn)) ∧ (isR = false → m.nsn = s.nsn + 1 ∧ m.sn = if fill = true then s.nsn + 1 else sn) := by
  unfold sendWithFee at h
  split at h
  · cases h
  rename_i next hn
  dsimp only at h
  have hs : Still s (addIn { s with coins := s.coins + value } c.net value) := ⟨rfl, rfl, rfl⟩
  generalize addIn { s with coins := s.coins + value } c.net value = s0 at h hs
  cases isR
  · simp only [Bool.false_eq_true, if_false] at h
    split at h
    · split at h
      · simp only [Option.some.injEq, Prod.mk.injEq] at h
        obtain ⟨rfl, rfl⟩ := h
        generalize getFee env to (decide (sn > 0)) = vs at *
        have h1 := addReward_still { s0 with nsn := s0.nsn + 1 } c.net c.periphery (value - vs.sum)
        refine ⟨next, (addReward { s0 with nsn := s0.nsn + 1 } c.net c.periphery (value - vs.sum)).tx next + 1,
          ⟨c.net, to, svc, if fill = true then s0.nsn + 1 else sn, body, s0.nsn + 1, ⟨c.net, vs⟩⟩, ?_, rfl, rfl, rfl, rfl, fun e => (nomatch e), fun _ => ?_⟩
        · show (addReward _ _ _ _).log ++ _ = _
          rw [h1.2.2]
          show s0.log ++ _ = _
          rw [hs.2.2]
        · rw [← hs.2.1]; exact ⟨rfl, rfl⟩
      · cases h
    · simp only [Option.some.injEq, Prod.mk.injEq] at h
      obtain ⟨rfl, rfl⟩ := h
      refine ⟨next, s0.tx next + 1,
        ⟨c.net, to, svc, if fill = true then s0.nsn + 1 else sn, body, s0.nsn + 1, ⟨c.net, []⟩⟩, ?_, rfl, rfl, rfl, rfl, fun e => (nomatch e), fun _ => ?_⟩
      · show s0.log ++ _ = _
        rw [hs.2.2]
      · rw [← hs.2.1]; exact ⟨rfl, rfl⟩
  · simp only [if_true] at h
    split at h
    · cases h
    rename_i s2 r hr
    simp only [Option.some.injEq, Prod.mk.injEq] at h
    obtain ⟨rfl, rfl⟩ := h
    simp only [removeResponse] at hr
    split at hr
    · rename_i hp
      simp only [Option.some.injEq, Prod.mk.injEq] at hr
      obtain ⟨rfl, rfl⟩ := hr
      have h1 := addReward_still { s0 with resp := s0.resp.set (to, svc, sn) Resp.empty } c.net c.periphery value
      refine ⟨next, (addReward { s0 with resp := s0.resp.set (to, svc, sn) Resp.empty } c.net c.periphery value).tx next + 1,
        ⟨c.net, to, svc, 0, body, -(s0.resp.get Resp.empty (to, svc, sn)).nsn, (s0.resp.get Resp.empty (to, svc, sn)).fee⟩, ?_, rfl, rfl, rfl, rfl,
        fun _ => ⟨rfl, ?_, by unfold owed abs; dsimp only; rw [← hs.1]⟩, fun e => (nomatch e)⟩
      · show (addReward _ _ _ _).log ++ _ = _
        rw [h1.2.2]
        show s0.log ++ _ = _
        rw [hs.2.2]
      · dsimp only; omega
    · cases hr

/-- The message the message center emits for a call of `sendMessage`. -/
theorem sendMessage_msg (c : Cfg) (env : Env) (s s' : St) (sender value : Nat) (to svc : String) (sn : Int) (body : Bytes)
    (h : sendMessage c env s sender value to svc sn body = some s') :
    (sender ≠ c.service → env.service svc = some sender) ∧ ∃ next seq m, s'.log = s.log ++ [.message next seq m] ∧ m.src = c.net ∧ m.dst = to ∧
      m.svc = svc ∧ m.body = body ∧ (0 ≤ sn → m.sn = sn ∧ m.nsn = s.nsn + 1) ∧ (sn < 0 → m.sn = 0 ∧ m.nsn < 0 ∧ m.nsn = -owed (abs s) (to, svc, -sn)) := by
  unfold sendMessage at h
  split at h
  · cases h
  rename_i hsv
  refine ⟨fun hc => Classical.byContradiction fun e => hsv ⟨hc, e⟩, ?_⟩
  dsimp only at h
  rw [Option.map_eq_some_iff] at h
  obtain ⟨⟨s1, k⟩, h, rfl⟩ := h
  obtain ⟨next, seq, m, h1, h2, h3, h4, h5, h6, h7⟩ := sendWithFee_msg c env s s1 sender value to svc _ body _ _ k h
  refine ⟨next, seq, m, h1, h2, h3, h4, h5, fun e => ?_, fun e => ?_⟩
  · obtain ⟨h8, h9⟩ := h7 (decide_eq_false (by omega))
    rw [if_neg (by decide), if_neg (by omega)] at h9
    exact ⟨h9, h8⟩
  · have := h6 (decide_eq_true e)
    rw [if_pos e] at this
    exact this

theorem msgsOf_one (next : String) (seq : Nat) (m : Msg) : msgsOf [.message next seq m] = [m] := rfl

/-- Others emit nothing in the name of the call service. -/
theorem quiet_other (nd : Node) (o : Op) (hf : Fine nd (.bmc o)) (s s' : St) (h : exec nd.bmc o s = some s') :
    ∃ evs, s'.log = s.log ++ evs ∧ ∀ m ∈ msgsOf evs, m.svc ≠ X := by
  rw [Fine] at hf
  cases o with
  | send env sender value to svc sn body =>
    rw [exec] at h
    split at h
    · cases h
    rename_i hc
    obtain ⟨h1, next, seq, m, h2, -, -, h3, -⟩ := sendMessage_msg nd.bmc env s s' sender value to svc sn body h
    obtain ⟨h4, h5⟩ := hf.2 env sender value to svc sn body rfl
    refine ⟨_, h2, fun m' hm => ?_⟩
    rw [msgsOf_one, List.mem_singleton] at hm
    subst hm
    rw [h3]
    rintro rfl
    exact h4 (h5 sender (h1 hc))
  | claim env sender value net receiver =>
    rw [exec] at h
    split at h
    · cases h
    unfold claimReward at h
    dsimp only at h
    generalize (if sender = env.feeHandler then nd.bmc.periphery else sender) = who at h
    split at h
    case isFalse => cases h
    split at h
    · split at h
      · cases h
      simp only [Option.some.injEq] at h
      subst h
      exact ⟨[], (List.append_nil _).symm, fun m hm => nomatch hm⟩
    · split at h
      · cases h
      rename_i s2 k hsend
      simp only [Option.some.injEq] at h
      subst h
      obtain ⟨next, seq, m, h1, -, -, h2, -⟩ := sendWithFee_msg nd.bmc env _ _ sender value net "bmc" 0 _ _ _ k hsend
      refine ⟨_, h1, fun m' hm => ?_⟩
      rw [msgsOf_one, List.mem_singleton] at hm
      subst hm
      rw [h2]
      decide
  | relay env caller prev items => exact hf.1.elim
  | drop env src seq svc sn nsn f => exact hf.1.elim
  | clear link => exact hf.1.elim
  | internal next to body =>
    rw [exec] at h
    simp only [Option.some.injEq] at h
    subst h
    refine ⟨[.message next (s.tx next + 1) ⟨nd.bmc.net, to, "bmc", 0, body, s.nsn + 1, ⟨nd.bmc.net, []⟩⟩], rfl, fun m hm => ?_⟩
    rw [msgsOf_one, List.mem_singleton] at hm
    subst hm
    show "bmc" ≠ X
    decide

/-! ### Calls of both contracts -/

/-- The message `m` of the message center of `nd` is what the call service gave to `sendMessage`. -/
structure Match (nd : Node) (m : Msg) (net : BtpAddress.Str) (sn : Int) (xm : XCall.Msg) : Prop where
  src : m.src = nd.bmc.net
  dst : m.dst = String.ofList net
  svc : m.svc = X
  body : m.body = nd.enc xm
  fresh : 0 ≤ sn → m.sn = sn ∧ 0 < m.nsn
  answer : sn < 0 → m.sn = 0 ∧ m.nsn < 0

/-- The messages `evs` emitted in the name of the call service are the ones it sent; `new` gives their places in its log. -/
structure Tie (nd : Node) (j j' : J) (evs : List Event) (new : List (Nat × Msg)) (acts : Ops) : Prop where
  log : j'.b.log = j.b.log ++ evs
  mvs : Mvs nd.bmc.net (abs j.b) [] evs (abs j'.b)
  quiet : QuietOps nd.bmc acts
  acts : execOps nd.bmc acts j.b = j'.b
  ext : ∃ y, j'.x.log = j.x.log ++ y
  sent : ∀ p ∈ new, j.x.log.length ≤ p.1 ∧ p.2 ∈ msgsOf evs ∧ ∃ net sn xm v, j'.x.log[p.1]? = some (.out net sn xm v) ∧ Match nd p.2 net sn xm
  all : ∀ m ∈ msgsOf evs, m.svc = X → ∃ p ∈ new, p.2 = m
  uniq : ∀ p ∈ new, ∀ q ∈ new, p.1 = q.1 → p.2 = q.2
  due : ∀ p ∈ new, ∀ net sn xm v, j'.x.log[p.1]? = some (.out net sn xm v) → sn < 0 → p.2.nsn = -owed (abs j.b) (String.ofList net, X, -sn)
  outs : ∀ (i : Nat) net sn xm v, j.x.log.length ≤ i → j'.x.log[i]? = some (.out net sn xm v) → ∃ m, (i, m) ∈ new

/-- The same of what the moves are about. -/
structure Bond (nd : Node) (a : Abs) (x : XCall.St) (evs : List Event) (new : List (Nat × Msg)) (b : Abs) (x' : XCall.St) : Prop where
  mvs : Mvs nd.bmc.net a [] evs b
  ext : ∃ y, x'.log = x.log ++ y
  sent : ∀ p ∈ new, x.log.length ≤ p.1 ∧ p.2 ∈ msgsOf evs ∧ ∃ net sn xm v, x'.log[p.1]? = some (.out net sn xm v) ∧ Match nd p.2 net sn xm
  all : ∀ m ∈ msgsOf evs, m.svc = X → ∃ p ∈ new, p.2 = m
  uniq : ∀ p ∈ new, ∀ q ∈ new, p.1 = q.1 → p.2 = q.2
  due : ∀ p ∈ new, ∀ net sn xm v, x'.log[p.1]? = some (.out net sn xm v) → sn < 0 → p.2.nsn = -owed a (String.ofList net, X, -sn)
  outs : ∀ (i : Nat) net sn xm v, x.log.length ≤ i → x'.log[i]? = some (.out net sn xm v) → ∃ m, (i, m) ∈ new

theorem Tie.bond {nd : Node} {j j' : J} {evs : List Event} {new : List (Nat × Msg)} {acts : Ops} (h : Tie nd j j' evs new acts) :
    Bond nd (abs j.b) j.x evs new (abs j'.b) j'.x := ⟨h.mvs, h.ext, h.sent, h.all, h.uniq, h.due, h.outs⟩

def Coup (nd : Node) (j j' : J) : Prop := 0 ≤ j.b.nsn → ∃ evs new acts, Tie nd j j' evs new acts

theorem mvs_mono {net : String} {a b : Abs} {i : List Msg} {e : List Event} (h : Mvs net a i e b) : a.nsn ≤ b.nsn := by
  induction h with
  | nil => exact Int.le_refl _
  | @cons x y z i j e f hm _ ih =>
    have := Mv.mono (A := fun _ => x) hm
    omega

theorem mv_owed {net : String} {a b : Abs} {e : List Event} (h : Mv net a [] e b) (k : String × String × Int) : owed b k = 0 ∨ owed b k = owed a k := by
  cases h with
  | fresh => exact .inr rfl
  | answer next seq m sn h1 h2 h3 h4 =>
    rw [owed_set]
    split
    · exact .inl rfl
    · exact .inr rfl
  | note => exact .inr rfl
  | forget =>
    rw [owed_set]
    split
    · exact .inl rfl
    · exact .inr rfl

/-- Calls only take answers owed away. -/
theorem mvs_owed {net : String} {a b : Abs} {i : List Msg} {e : List Event} (h : Mvs net a i e b) : i = [] → ∀ k, owed b k = 0 ∨ owed b k = owed a k := by
  induction h with
  | nil => intro _ k; exact .inr rfl
  | @cons x y z i j e f hm _ ih =>
    intro hi k
    obtain ⟨rfl, rfl⟩ := List.append_eq_nil_iff.1 hi
    rcases ih rfl k with h | h
    · exact .inl h
    · rcases mv_owed hm k with h' | h'
      · exact .inl (h.trans h')
      · exact .inr (h.trans h')

def appOps : Ops → Ops → Ops
  | .nil, b => b
  | .cons o t, b => .cons o (appOps t b)

theorem quiet_app (c : Cfg) (b : Ops) (hb : QuietOps c b) : ∀ a : Ops, QuietOps c a → QuietOps c (appOps a b)
  | .nil, _ => hb
  | .cons _ t, h => ⟨h.1, quiet_app c b hb t h.2⟩

theorem exec_app (c : Cfg) (b : Ops) : ∀ (a : Ops) (s : St), execOps c (appOps a b) s = execOps c b (execOps c a s)
  | .nil, s => by rw [appOps, execOps]
  | .cons o t, s => by rw [appOps, execOps, execOps, exec_app c b t]

theorem Coup.refl (nd : Node) (j : J) : Coup nd j j := fun _ =>
  ⟨[], [], .nil, (List.append_nil _).symm, .nil _, trivial, by rw [execOps], ⟨[], (List.append_nil _).symm⟩, fun p hp => (nomatch hp), fun m hm => (nomatch hm),
    fun p hp => (nomatch hp), fun p hp => (nomatch hp), fun i net sn xm v h1 h2 => by rw [List.getElem?_eq_none h1] at h2; cases h2⟩

theorem Bond.refl (nd : Node) (a : Abs) (x : XCall.St) : Bond nd a x [] [] a x :=
  ⟨.nil _, ⟨[], (List.append_nil _).symm⟩, fun p hp => (nomatch hp), fun m hm => (nomatch hm),
    fun p hp => (nomatch hp), fun p hp => (nomatch hp), fun i net sn xm v h1 h2 => by rw [List.getElem?_eq_none h1] at h2; cases h2⟩

theorem Bond.trans {nd : Node} {a b d : Abs} {x y z : XCall.St} {e e' : List Event} {n n' : List (Nat × Msg)} (g : Bond nd a x e n b y)
    (g' : Bond nd b y e' n' d z) : Bond nd a x (e ++ e') (n ++ n') d z := by
  obtain ⟨w, hy⟩ := g.ext
  obtain ⟨w', hy'⟩ := g'.ext
  have hlen : x.log.length ≤ y.log.length := by rw [hy, List.length_append]; omega
  have hlt : ∀ p ∈ n, p.1 < y.log.length := fun p hp => by
    obtain ⟨-, -, net, sn, xm, v, h3, -⟩ := g.sent p hp
    exact (List.getElem?_eq_some_iff.mp h3).1
  refine ⟨g.mvs.trans g'.mvs, ⟨w ++ w', by rw [hy', hy, List.append_assoc]⟩, fun p hp => ?_,
    fun m hm hs => ?_, fun p hp q hq hpq => ?_, fun p hp net sn xm v ho hs => ?_, fun i net sn xm v hi ho => ?_⟩
  · rcases List.mem_append.1 hp with hp | hp
    · obtain ⟨h3, h4, net, sn, xm, v, h5, h6⟩ := g.sent p hp
      refine ⟨h3, by rw [msgsOf_append]; exact List.mem_append_left _ h4, net, sn, xm, v, ?_, h6⟩
      rw [hy', List.getElem?_append_left (hlt p hp)]; exact h5
    · obtain ⟨h3, h4, h5⟩ := g'.sent p hp
      exact ⟨by omega, by rw [msgsOf_append]; exact List.mem_append_right _ h4, h5⟩
  · rw [msgsOf_append] at hm
    rcases List.mem_append.1 hm with hm | hm
    · obtain ⟨p, hp, h⟩ := g.all m hm hs
      exact ⟨p, List.mem_append_left _ hp, h⟩
    · obtain ⟨p, hp, h⟩ := g'.all m hm hs
      exact ⟨p, List.mem_append_right _ hp, h⟩
  · rcases List.mem_append.1 hp with hp | hp <;> rcases List.mem_append.1 hq with hq | hq
    · exact g.uniq p hp q hq hpq
    · have := hlt p hp; have := (g'.sent q hq).1; omega
    · have := hlt q hq; have := (g'.sent p hp).1; omega
    · exact g'.uniq p hp q hq hpq
  · rcases List.mem_append.1 hp with hp | hp
    · rw [hy', List.getElem?_append_left (hlt p hp)] at ho
      exact g.due p hp net sn xm v ho hs
    · have h3 := g'.due p hp net sn xm v ho hs
      obtain ⟨-, -, net', sn', xm', v', h4, h5⟩ := g'.sent p hp
      rw [ho] at h4
      simp only [Option.some.injEq, XCall.Ev.out.injEq] at h4
      obtain ⟨rfl, rfl, rfl, rfl⟩ := h4
      have := (h5.answer hs).2
      rcases mvs_owed g.mvs rfl (String.ofList net, X, -sn) with h6 | h6
      · omega
      · rw [h3, h6]
  · by_cases hlt : i < y.log.length
    · rw [hy', List.getElem?_append_left hlt] at ho
      obtain ⟨m, hm⟩ := g.outs i net sn xm v hi ho
      exact ⟨m, List.mem_append_left _ hm⟩
    · obtain ⟨m, hm⟩ := g'.outs i net sn xm v (by omega) ho
      exact ⟨m, List.mem_append_right _ hm⟩

/-- The call service sends nothing, and nothing is sent in its name. -/
theorem Bond.silent {nd : Node} {a b : Abs} {x x' : XCall.St} {e : List Event} (h : Mvs nd.bmc.net a [] e b) (he : ∀ m ∈ msgsOf e, m.svc ≠ X)
    (y : List XCall.Ev) (hx : x'.log = x.log ++ y) (hy : ∀ net sn xm v, XCall.Ev.out net sn xm v ∉ y) : Bond nd a x e [] b x' :=
  ⟨h, ⟨y, hx⟩, fun p hp => (nomatch hp), fun m hm hs => absurd hs (he m hm), fun p hp => (nomatch hp), fun p hp => (nomatch hp),
    fun i net sn xm v h1 h2 => by
      rw [hx, List.getElem?_append_right h1] at h2
      exact absurd (List.mem_of_getElem? h2) (hy net sn xm v)⟩

/-- The call service sends a message. -/
theorem Bond.one {nd : Node} {a b : Abs} {x : XCall.St} {next : String} {seq : Nat} {m : Msg} {net : BtpAddress.Str} {sn : Int} {xm : XCall.Msg} {v : Nat}
    (h : Mvs nd.bmc.net a [] [.message next seq m] b) (hm : Match nd m net sn xm) (hd : sn < 0 → m.nsn = -owed a (String.ofList net, X, -sn)) :
    Bond nd a x [.message next seq m] [(x.log.length, m)] b { x with log := x.log ++ [.out net sn xm v] } := by
  refine ⟨h, ⟨_, rfl⟩, fun p hp => ?_, fun m' hm _ => ?_, fun p hp q hq _ => ?_, fun p hp net' sn' xm' v' ho hs => ?_, fun i net' sn' xm' v' hi ho => ?_⟩
  · rw [List.mem_singleton] at hp
    subst hp
    exact ⟨Nat.le_refl _, List.mem_singleton.2 rfl, net, sn, xm, v, by simp, hm⟩
  · rw [msgsOf_one, List.mem_singleton] at hm
    exact ⟨_, List.mem_singleton.2 rfl, hm.symm⟩
  · rw [List.mem_singleton] at hp hq
    rw [hp, hq]
  · rw [List.mem_singleton] at hp
    subst hp
    have h10 : (x.log ++ [XCall.Ev.out net sn xm v])[x.log.length]? = some (.out net sn xm v) := by simp
    rw [show ((x.log ++ [XCall.Ev.out net sn xm v])[x.log.length]?) = _ from ho] at h10
    simp only [Option.some.injEq, XCall.Ev.out.injEq] at h10
    obtain ⟨rfl, rfl, rfl, rfl⟩ := h10
    exact hd hs
  · have hlt := (List.getElem?_eq_some_iff.mp ho).1
    dsimp only at hi hlt
    rw [List.length_append, List.length_singleton] at hlt
    have : i = x.log.length := by omega
    exact ⟨m, by rw [this]; exact List.mem_singleton.2 rfl⟩

theorem Coup.trans {nd : Node} {a b d : J} (h1 : Coup nd a b) (h2 : Coup nd b d) : Coup nd a d := by
  intro h0
  obtain ⟨e, n, o, g⟩ := h1 h0
  have hb : 0 ≤ b.b.nsn := by
    have := mvs_mono g.mvs
    show 0 ≤ (abs b.b).nsn
    exact Int.le_trans h0 this
  obtain ⟨e', n', o', g'⟩ := h2 hb
  have t := g.bond.trans g'.bond
  refine ⟨e ++ e', n ++ n', appOps o o', ?_, t.mvs, quiet_app _ _ g'.quiet _ g.quiet, ?_, t.ext, t.sent, t.all, t.uniq, t.due, t.outs⟩
  · rw [g'.log, g.log, List.append_assoc]
  · rw [exec_app, g.acts, g'.acts]

/-- The message center is left alone and nothing is sent. -/
theorem Coup.silent {nd : Node} {b : St} {x x' : XCall.St} (y : List XCall.Ev) (h : x'.log = x.log ++ y)
    (hy : ∀ net sn xm v, XCall.Ev.out net sn xm v ∉ y) : Coup nd ⟨b, x⟩ ⟨b, x'⟩ := fun _ =>
  ⟨[], [], .nil, (List.append_nil _).symm, .nil _, trivial, by rw [execOps], ⟨y, h⟩, fun p hp => (nomatch hp), fun m hm => (nomatch hm),
    fun p hp => (nomatch hp), fun p hp => (nomatch hp), fun i net sn xm v h1 h2 => by
      dsimp only at h1 h2
      rw [h, List.getElem?_append_right h1] at h2
      exact absurd (List.mem_of_getElem? h2) (hy net sn xm v)⟩

/-- Only the log of the call service matters. -/
theorem Coup.log {nd : Node} {j : J} {b : St} {x x' : XCall.St} (h : Coup nd j ⟨b, x⟩) (hx : x'.log = x.log) : Coup nd j ⟨b, x'⟩ := by
  intro h0
  obtain ⟨e, n, o, g⟩ := h h0
  exact ⟨e, n, o, g.log, g.mvs, g.quiet, g.acts, by rw [show (J.mk b x').x.log = x.log from hx]; exact g.ext,
    fun p hp => by rw [show (J.mk b x').x.log = x.log from hx]; exact g.sent p hp, g.all, g.uniq,
    fun p hp net sn xm v h => by rw [show (J.mk b x').x.log = x.log from hx] at h; exact g.due p hp net sn xm v h,
    fun i net sn xm v h1 h2 => g.outs i net sn xm v h1 (by rw [show (J.mk b x').x.log = x.log from hx] at h2; exact h2)⟩

theorem append_inj_right {α : Type} {l a b : List α} (h : l ++ a = l ++ b) : a = b := List.append_cancel_left h

theorem bmc_coup (nd : Node) (o : Op) (hf : Fine nd (.bmc o)) (x : XCall.St) (s s' : St) (h : exec nd.bmc o s = some s') : Coup nd ⟨s, x⟩ ⟨s', x⟩ := by
  intro _
  have hq : Quiet nd.bmc o := by rw [Fine] at hf; exact hf.1
  obtain ⟨evs, h1, h2⟩ := quiet_go nd.bmc o hq s s' h
  obtain ⟨evs', h3, h4⟩ := quiet_other nd o hf s s' h
  have : evs' = evs := append_inj_right (h3.symm.trans h1)
  subst this
  refine ⟨evs', [], .cons o .nil, h1, h2, ⟨hq, trivial⟩, ?_, ⟨[], (List.append_nil _).symm⟩, fun p hp => (nomatch hp), fun m hm hs => absurd hs (h4 m hm),
    fun p hp => (nomatch hp), fun p hp => (nomatch hp), fun i net sn xm v h1 h2 => ?_⟩
  · rw [execOps, h, execOps]; rfl
  · rw [List.getElem?_eq_none h1] at h2; cases h2

/-- The call service sends a message. -/
theorem sendOut_coup (nd : Node) (env : Env) (henv : env.service "bmc" = some nd.bmc.service) (s s' : St) (x : XCall.St) (e : XCall.Ev)
    (h : sendOut nd env s e = some s') : Coup nd ⟨s, x⟩ ⟨s', { x with log := x.log ++ [e] }⟩ := by
  by_cases he : ∃ net sn xm v, e = .out net sn xm v
  · obtain ⟨net, sn, xm, v, rfl⟩ := he
    intro h0
    rw [sendOut] at h
    have hq : Quiet nd.bmc (.send env nd.addr v (String.ofList net) X sn (nd.enc xm)) := henv
    obtain ⟨evs, h1, h2⟩ := quiet_go nd.bmc _ hq s s' h
    have hx := h
    rw [exec] at hx
    split at hx
    · cases hx
    obtain ⟨-, next, seq, m, h3, h4, h5, h6, h7, h8, h9⟩ := sendMessage_msg nd.bmc env s s' nd.addr v (String.ofList net) X sn (nd.enc xm) hx
    have : evs = [.message next seq m] := append_inj_right (h1.symm.trans h3)
    subst this
    have t : Bond nd (abs s) x [.message next seq m] [(x.log.length, m)] (abs s') { x with log := x.log ++ [.out net sn xm v] } :=
      .one h2 ⟨h4, h5, h6, h7, fun e => ⟨(h8 e).1, by have := (h8 e).2; dsimp only at h0; omega⟩, fun e => ⟨(h9 e).1, (h9 e).2.1⟩⟩ (fun e => (h9 e).2.2)
    refine ⟨_, [(x.log.length, m)], .cons (.send env nd.addr v (String.ofList net) X sn (nd.enc xm)) .nil, h1, h2, ⟨hq, trivial⟩, ?_, t.ext, t.sent, t.all, t.uniq,
      t.due, t.outs⟩
    rw [execOps, h, execOps]; rfl
  · have hs : s' = s := by
      cases e with
      | out net sn m v => exact absurd ⟨net, sn, m, v, rfl⟩ he
      | _ => exact (Option.some.inj (show some s = some s' from h)).symm
    subst hs
    exact .silent [e] rfl (fun net sn xm v hm => he ⟨net, sn, xm, v, (List.mem_singleton.1 hm).symm⟩)

theorem sendOuts_coup (nd : Node) (env : Env) (henv : env.service "bmc" = some nd.bmc.service) : ∀ (y : List XCall.Ev) (s s' : St) (x x' : XCall.St),
    sendOuts nd env y s = some s' → x'.log = x.log ++ y → Coup nd ⟨s, x⟩ ⟨s', x'⟩
  | [], s, s', x, x', h, hx => by
    rw [sendOuts] at h
    obtain rfl := Option.some.inj h
    exact .silent [] hx (fun _ _ _ _ hm => nomatch hm)
  | e :: t, s, s', x, x', h, hx => by
    rw [sendOuts, Option.bind_eq_some_iff] at h
    obtain ⟨s1, h1, h2⟩ := h
    exact (sendOut_coup nd env henv s s1 x e h1).trans (sendOuts_coup nd env henv t s1 s' { x with log := x.log ++ [e] } x' h2 (by
      rw [hx]; simp))

theorem drop_ext {x x' : XCall.St} (h : ∃ y, x'.log = x.log ++ y) : x'.log = x.log ++ x'.log.drop x.log.length := by
  obtain ⟨y, h⟩ := h
  rw [h, List.drop_left]

theorem execEnd_ext {C : XCall.Cfg} {x x' : XCall.St} {id : Int} {r : XCall.Req} {net : BtpAddress.Str} {out : XCall.Outcome} {nsn : Option Int}
    (h : XCall.execEnd C x id r net out nsn = some x') : ∃ y, x'.log = x.log ++ y := by
  rcases XCall.execEnd_ok h with ⟨-, rfl⟩ | ⟨n, -, -, rfl⟩ <;> exact ⟨_, rfl⟩

theorem leaf_silent {C : XCall.Cfg} {x x' : XCall.St} (op : XCall.Op) (hl : leaf op = true) (h : XCall.step C op x = some x') :
    ∃ y, x'.log = x.log ++ y ∧ ∀ net sn xm v, XCall.Ev.out net sn xm v ∉ y := by
  cases op with
  | send => cases hl
  | exec => cases hl
  | undo => cases hl
  | message caller net svc sn m =>
    rw [XCall.step] at h
    obtain ⟨-, -, ⟨r, -, -, h⟩ | ⟨sn', code, -, -, h⟩⟩ := XCall.message_ok h
    · rw [XCall.handleRequest_ok h]
      exact ⟨_, rfl, fun _ _ _ _ hm => by simp at hm⟩
    · rcases XCall.response_ok h with ⟨_, rfl⟩ | ⟨c, hc, rfl⟩
      · exact ⟨[], (List.append_nil _).symm, fun _ _ _ _ hm => nomatch hm⟩
      · exact ⟨_, rfl, fun _ _ _ _ hm => by simp at hm⟩
  | error caller net svc sn code =>
    rw [XCall.step] at h
    rcases XCall.response_ok (XCall.error_ok h).2.2 with ⟨_, rfl⟩ | ⟨c, hc, rfl⟩
    · exact ⟨[], (List.append_nil _).symm, fun _ _ _ _ hm => nomatch hm⟩
    · exact ⟨_, rfl, fun _ _ _ _ hm => by simp at hm⟩
  | setAdmin caller a =>
    rw [XCall.step] at h
    split at h
    · cases h
    obtain rfl := Option.some.inj h
    exact ⟨[], (List.append_nil _).symm, fun _ _ _ _ hm => nomatch hm⟩
  | setHandler caller a =>
    rw [XCall.step] at h
    obtain ⟨-, l, hs, hl⟩ := XCall.setHandler_ok h
    refine ⟨l, by rw [hs], fun _ _ _ _ hm => ?_⟩
    rcases hl with ⟨rfl, -⟩ | ⟨w, -, rfl, -⟩
    · cases hm
    · simp at hm
  | setFee caller v =>
    rw [XCall.step] at h
    split at h
    · cases h
    obtain rfl := Option.some.inj h
    exact ⟨[], (List.append_nil _).symm, fun _ _ _ _ hm => nomatch hm⟩

mutual
theorem jexec_coup (nd : Node) : ∀ (o : JOp) (j j' : J), Fine nd o → jexec nd o j = some j' → Coup nd j j'
  | .bmc o, j, j', hf, h => by
    rw [jexec, Option.map_eq_some_iff] at h
    obtain ⟨s', h, rfl⟩ := h
    exact bmc_coup nd o hf j.x j.b s' h
  | .send env caller isC to data rb value fee, j, j', hf, h => by
    rw [Fine] at hf
    rw [jexec] at h
    split at h
    · cases h
    rename_i x' hx
    rw [Option.map_eq_some_iff] at h
    obtain ⟨s', h, rfl⟩ := h
    obtain ⟨y, hy, -⟩ := XCall.step_ext nd.x _ _ _ hx
    exact sendOuts_coup nd env hf _ j.b s' j.x x' h (drop_ext ⟨y, hy⟩)
  | .exec env id inner out, j, j', hf, h => by
    rw [Fine] at hf
    rw [jexec] at h
    split at h
    · cases h
    rename_i r net x1 hs
    dsimp only at h
    split at h
    · cases h
    rename_i x3 he
    rw [Option.map_eq_some_iff] at h
    obtain ⟨s', h, rfl⟩ := h
    have h1 : Coup nd j ⟨j.b, x1⟩ := .silent (b := j.b) (x := j.x) [.call id r] (by rw [(XCall.execStart_ok hs).2.2]) (fun _ _ _ _ hm => by simp at hm)
    have h2 : Coup nd ⟨j.b, x1⟩ (if XCall.committed out = true then jrun nd inner ⟨j.b, x1⟩ else ⟨j.b, x1⟩) := by
      split
      · exact jrun_coup nd inner _ hf.2
      · exact .refl _ _
    exact (h1.trans h2).trans (sendOuts_coup nd env hf.1 _ _ s' _ x3 h (drop_ext (execEnd_ext he)))
  | .undo sn inner out, j, j', hf, h => by
    rw [Fine] at hf
    rw [jexec] at h
    split at h
    · cases h
    rename_i x1 hs
    dsimp only at h
    obtain rfl := Option.some.inj h
    obtain ⟨c, -, -, hx1⟩ := XCall.undoStart_ok hs
    have h1 : Coup nd j ⟨j.b, x1⟩ := .silent (b := j.b) (x := j.x) [.undo sn c.src c.rollback] (by rw [hx1]) (fun _ _ _ _ hm => by simp at hm)
    have h2 : Coup nd ⟨j.b, x1⟩ (if XCall.committed out = true then jrun nd inner ⟨j.b, x1⟩ else ⟨j.b, x1⟩) := by
      split
      · exact jrun_coup nd inner _ hf
      · exact .refl _ _
    refine (h1.trans h2).trans (.silent [.undone sn (XCall.respCode nd.x.lang out)] rfl (fun _ _ _ _ hm => by simp at hm))
  | .other op, j, j', hf, h => by
    rw [jexec] at h
    split at h
    · rename_i hl
      rw [Option.map_eq_some_iff] at h
      obtain ⟨x', h, rfl⟩ := h
      obtain ⟨y, hy, h2⟩ := leaf_silent op hl h
      exact .silent (b := j.b) (x := j.x) y hy h2
    · cases h
theorem jrun_coup (nd : Node) : ∀ (os : JOps) (j : J), FineAll nd os → Coup nd j (jrun nd os j)
  | .nil, j, _ => by rw [jrun]; exact .refl nd j
  | .cons o t, j, hf => by
    rw [FineAll] at hf
    rw [jrun]
    cases h : jexec nd o j with
    | none => exact jrun_coup nd t j hf.2
    | some j1 => exact (jexec_coup nd o j j1 hf.1 h).trans (jrun_coup nd t j1 hf.2)
end

/-! ### The history of the call service -/

def appX : XCall.Ops → XCall.Ops → XCall.Ops
  | .nil, b => b
  | .cons o t, b => .cons o (appX t b)

theorem appX_by {P Q : BtpAddress.Str → Prop} (b : XCall.Ops) (hb : XCall.ByAll P Q b) : ∀ a : XCall.Ops, XCall.ByAll P Q a → XCall.ByAll P Q (appX a b)
  | .nil, _ => hb
  | .cons o t, h => by
    rw [XCall.ByAll] at h
    rw [appX, XCall.ByAll]
    exact ⟨h.1, appX_by b hb t h.2⟩

theorem appX_run (C : XCall.Cfg) (b : XCall.Ops) : ∀ (a : XCall.Ops) (s : XCall.St), XCall.run C (appX a b) s = XCall.run C b (XCall.run C a s)
  | .nil, s => by rw [appX, XCall.run]
  | .cons o t, s => by
    rw [appX, XCall.run, XCall.run]
    split <;> exact appX_run C b t _

theorem payFee_proxy {x x' : XCall.St} {v : Nat} (h : XCall.payFee { x with bal := x.bal + v } = some x') : x'.proxy = x.proxy := by
  unfold XCall.payFee at h
  split at h
  · obtain rfl := Option.some.inj h; rfl
  · split at h
    · obtain rfl := Option.some.inj h; rfl
    · split at h
      · cases h
      · obtain rfl := Option.some.inj h; rfl

theorem sendTail_proxy {C : XCall.Cfg} {x x' : XCall.St} {caller to net acct : BtpAddress.Str} {data : Bytes} {rb : Option Bytes} {value : Nat} {nsn : Option Int}
    (h : XCall.sendTail C x caller to net acct data rb value nsn = some x') : x'.proxy = x.proxy := by
  unfold XCall.sendTail at h
  split at h
  · cases h
  rename_i sn _
  dsimp only at h
  split at h
  · cases h
  rw [Option.map_eq_some_iff] at h
  obtain ⟨x2, h, rfl⟩ := h
  obtain ⟨-, rfl⟩ := XCall.sendBTP_ok h
  show (XCall.keep _ _ _ _ _ _).proxy = _
  unfold XCall.keep
  split <;> rfl

theorem leaf_proxy {C : XCall.Cfg} {x x' : XCall.St} (op : XCall.Op) (hl : leaf op = true) (hb : XCall.By (· ≠ C.bmc) (fun _ => True) op)
    (h : XCall.step C op x = some x') : x'.proxy = x.proxy := by
  cases op with
  | send => cases hl
  | exec => cases hl
  | undo => cases hl
  | message caller net svc sn m =>
    rw [XCall.step] at h
    rw [XCall.By] at hb
    exact absurd (XCall.message_ok h).1 hb
  | error caller net svc sn code =>
    rw [XCall.step] at h
    rw [XCall.By] at hb
    exact absurd (XCall.error_ok h).1 hb
  | setAdmin caller a =>
    rw [XCall.step] at h
    split at h
    · cases h
    obtain rfl := Option.some.inj h; rfl
  | setHandler caller a =>
    rw [XCall.step] at h
    obtain ⟨-, l, hs, hl⟩ := XCall.setHandler_ok h
    rw [hs]
  | setFee caller v =>
    rw [XCall.step] at h
    split at h
    · cases h
    obtain rfl := Option.some.inj h; rfl

mutual
theorem jexec_ops (nd : Node) : ∀ (o : JOp) (j j' : J), Fine nd o → jexec nd o j = some j' →
    ∃ ops, XCall.ByAll (· ≠ nd.x.bmc) (fun _ => True) ops ∧ XCall.run nd.x ops j.x = j'.x
  | .bmc o, j, j', _, h => by
    rw [jexec, Option.map_eq_some_iff] at h
    obtain ⟨s', h, rfl⟩ := h
    exact ⟨.nil, by rw [XCall.ByAll]; trivial, by rw [XCall.run]⟩
  | .send env caller isC to data rb value fee, j, j', _, h => by
    rw [jexec] at h
    split at h
    · cases h
    rename_i x' hx
    rw [Option.map_eq_some_iff] at h
    obtain ⟨s', h, rfl⟩ := h
    refine ⟨.cons (.send caller isC to data rb value fee (some 0)) .nil, by rw [XCall.ByAll, XCall.By, XCall.ByAll]; exact ⟨trivial, trivial⟩, ?_⟩
    rw [XCall.run, hx]
    show XCall.run nd.x .nil x' = x'
    rw [XCall.run]
  | .exec env id inner out, j, j', hf, h => by
    rw [Fine] at hf
    rw [jexec] at h
    split at h
    · cases h
    rename_i r net x1 hs
    dsimp only at h
    split at h
    · cases h
    rename_i x3 he
    rw [Option.map_eq_some_iff] at h
    obtain ⟨s', h, rfl⟩ := h
    obtain ⟨inner', hb, hr⟩ := jrun_ops nd inner ⟨j.b, x1⟩ hf.2
    refine ⟨.cons (.exec id inner' out (some 0)) .nil, by rw [XCall.ByAll, XCall.By, XCall.ByAll]; exact ⟨hb, trivial⟩, ?_⟩
    have : XCall.step nd.x (.exec id inner' out (some 0)) j.x = some x3 := by
      rw [XCall.step, hs]
      dsimp only
      rw [← he]
      congr 1
      split
      · exact hr
      · rfl
    rw [XCall.run, this]
    show XCall.run nd.x .nil x3 = x3
    rw [XCall.run]
  | .undo sn inner out, j, j', hf, h => by
    rw [Fine] at hf
    rw [jexec] at h
    split at h
    · cases h
    rename_i x1 hs
    dsimp only at h
    obtain rfl := Option.some.inj h
    obtain ⟨inner', hb, hr⟩ := jrun_ops nd inner ⟨j.b, x1⟩ hf
    refine ⟨.cons (.undo sn inner' out) .nil, by rw [XCall.ByAll, XCall.By, XCall.ByAll]; exact ⟨hb, trivial⟩, ?_⟩
    rw [XCall.run, XCall.step, hs]
    dsimp only
    rw [XCall.run]
    have : (if XCall.committed out = true then XCall.run nd.x inner' x1 else x1) = (if XCall.committed out = true then jrun nd inner ⟨j.b, x1⟩ else ⟨j.b, x1⟩).x := by
      split
      · exact hr
      · rfl
    rw [this]
  | .other op, j, j', hf, h => by
    rw [Fine] at hf
    rw [jexec] at h
    split at h
    · rw [Option.map_eq_some_iff] at h
      obtain ⟨x', h, rfl⟩ := h
      refine ⟨.cons op .nil, by rw [XCall.ByAll, XCall.ByAll]; exact ⟨hf, trivial⟩, ?_⟩
      rw [XCall.run, h]
      show XCall.run nd.x .nil x' = x'
      rw [XCall.run]
    · cases h
theorem jrun_ops (nd : Node) : ∀ (os : JOps) (j : J), FineAll nd os →
    ∃ ops, XCall.ByAll (· ≠ nd.x.bmc) (fun _ => True) ops ∧ XCall.run nd.x ops j.x = (jrun nd os j).x
  | .nil, j, _ => ⟨.nil, by rw [XCall.ByAll]; trivial, by rw [XCall.run, jrun]⟩
  | .cons o t, j, hf => by
    rw [FineAll] at hf
    rw [jrun]
    cases h : jexec nd o j with
    | none => exact jrun_ops nd t j hf.2
    | some j1 =>
      obtain ⟨o1, h1, h2⟩ := jexec_ops nd o j j1 hf.1 h
      obtain ⟨o2, h3, h4⟩ := jrun_ops nd t j1 hf.2
      refine ⟨appX o1 o2, appX_by o2 h3 o1 h1, ?_⟩
      rw [appX_run, h2, h4]; rfl
end

/-! ### Requests received and answers owed -/

/-- Answers no longer owed stay so; and a request taken by the call service waits there, or its answer is no longer owed. -/
structure Keeps (nd : Node) (j j' : J) : Prop where
  zero : ∀ k, owed (abs j.b) k = 0 → owed (abs j'.b) k = 0
  wait : ∀ id r net a, j.x.proxy id = some r → r.rb = true → 0 < r.sn → r.sn < 2 ^ 255 → '/' ∉ net → r.src = BtpAddress.solCompose net a →
    j'.x.proxy id = some r ∨ owed (abs j'.b) (String.ofList net, X, r.sn) = 0

/-- The same of what the moves are about. -/
structure Keep (a : Abs) (x : XCall.St) (b : Abs) (x' : XCall.St) : Prop where
  zero : ∀ k, owed a k = 0 → owed b k = 0
  wait : ∀ id r net y, x.proxy id = some r → r.rb = true → 0 < r.sn → r.sn < 2 ^ 255 → '/' ∉ net → r.src = BtpAddress.solCompose net y →
    x'.proxy id = some r ∨ owed b (String.ofList net, X, r.sn) = 0

theorem Keeps.keep {nd : Node} {j j' : J} (h : Keeps nd j j') : Keep (abs j.b) j.x (abs j'.b) j'.x := ⟨h.zero, h.wait⟩

theorem Keeps.refl (nd : Node) (j : J) : Keeps nd j j := ⟨fun _ h => h, fun _ _ _ _ h _ _ _ _ _ => .inl h⟩

theorem Keeps.trans {nd : Node} {a b d : J} (h1 : Keeps nd a b) (h2 : Keeps nd b d) : Keeps nd a d :=
  ⟨fun k h => h2.zero k (h1.zero k h), fun id r net x h hr hs hl hc hp => (h1.wait id r net x h hr hs hl hc hp).elim
    (fun h => h2.wait id r net x h hr hs hl hc hp) (fun h => .inr (h2.zero _ h))⟩

theorem mv_zero {net : String} {a b : Abs} {e : List Event} (h : Mv net a [] e b) (k : String × String × Int) (hk : owed a k = 0) : owed b k = 0 := by
  cases h with
  | fresh => exact hk
  | answer next seq m sn h1 h2 h3 h4 =>
    show (FM.get Resp.empty (a.resp.set (m.dst, m.svc, sn) Resp.empty) k).nsn = 0
    rw [FM.get_set]
    split
    · rfl
    · exact hk
  | note => exact hk
  | forget prev seq key m' code =>
    show (FM.get Resp.empty (a.resp.set key Resp.empty) k).nsn = 0
    rw [FM.get_set]
    split
    · rfl
    · exact hk

theorem mvs_zero {net : String} {a b : Abs} {i : List Msg} {e : List Event} (h : Mvs net a i e b) : i = [] → ∀ k, owed a k = 0 → owed b k = 0 := by
  induction h with
  | nil => intro _ k h; exact h
  | @cons x y z i j e f hm _ ih =>
    intro hi k hk
    obtain ⟨rfl, rfl⟩ := List.append_eq_nil_iff.1 hi
    exact ih rfl k (mv_zero hm k hk)

theorem go_zero {net : String} {s s' : St} (h : Go net s [] s') (k : String × String × Int) (hk : owed (abs s) k = 0) : owed (abs s') k = 0 := by
  obtain ⟨e, -, h⟩ := h
  exact mvs_zero h rfl k hk

theorem sendMessage_owed (c : Cfg) (env : Env) (s s' : St) (sender value : Nat) (to svc : String) (sn : Int) (body : Bytes) (hneg : sn < 0)
    (h : sendMessage c env s sender value to svc sn body = some s') : owed (abs s') (to, svc, -sn) = 0 := by
  unfold sendMessage at h
  split at h
  · cases h
  simp only [hneg, decide_true] at h
  rw [Option.map_eq_some_iff] at h
  obtain ⟨⟨s1, k⟩, h, rfl⟩ := h
  unfold sendWithFee at h
  split at h
  · cases h
  dsimp only at h
  generalize addIn { s with coins := s.coins + value } c.net value = s0 at h
  simp only [if_true] at h
  split at h
  · cases h
  rename_i s2 r hr
  simp only [Option.some.injEq, Prod.mk.injEq] at h
  obtain ⟨rfl, rfl⟩ := h
  simp only [removeResponse] at hr
  split at hr
  · simp only [Option.some.injEq, Prod.mk.injEq] at hr
    obtain ⟨rfl, rfl⟩ := hr
    have h1 := addReward_still { s0 with resp := s0.resp.set (to, svc, -sn) Resp.empty } c.net c.periphery value
    show (FM.get Resp.empty (addReward { s0 with resp := s0.resp.set (to, svc, -sn) Resp.empty } c.net c.periphery value).resp _).nsn = 0
    rw [h1.1, FM.get_set, if_pos rfl]; rfl
  · cases hr

theorem sendOut_zero (nd : Node) (env : Env) (henv : env.service "bmc" = some nd.bmc.service) (s s' : St) (e : XCall.Ev) (h : sendOut nd env s e = some s')
    (k : String × String × Int) (hk : owed (abs s) k = 0) : owed (abs s') k = 0 := by
  cases e with
  | out net sn m v => exact go_zero (quiet_go nd.bmc (.send env nd.addr v (String.ofList net) X sn (nd.enc m)) henv s s' h) k hk
  | _ =>
    obtain rfl := Option.some.inj (show some s = some s' from h)
    exact hk

theorem sendOuts_zero (nd : Node) (env : Env) (henv : env.service "bmc" = some nd.bmc.service) (k : String × String × Int) : ∀ (y : List XCall.Ev) (s s' : St),
    sendOuts nd env y s = some s' → owed (abs s) k = 0 → owed (abs s') k = 0
  | [], s, s', h, hk => by
    rw [sendOuts] at h
    obtain rfl := Option.some.inj h
    exact hk
  | e :: t, s, s', h, hk => by
    rw [sendOuts, Option.bind_eq_some_iff] at h
    obtain ⟨s1, h1, h2⟩ := h
    exact sendOuts_zero nd env henv k t s1 s' h2 (sendOut_zero nd env henv s s1 e h1 k hk)

theorem negSn_small {l : XCall.Lang} {sn n : Int} (h0 : 0 < sn) (h1 : sn < 2 ^ 255) (h : XCall.negSn l sn = some n) : n = -sn := by
  unfold XCall.negSn XCall.toInt256 at h
  cases l
  · exact (Option.some.inj h).symm
  · dsimp only at h
    rw [if_pos h1, if_neg (by omega)] at h
    exact (Option.some.inj h).symm

mutual
theorem jexec_keeps (nd : Node) : ∀ (o : JOp) (j j' : J), Fine nd o → jexec nd o j = some j' → Keeps nd j j'
  | .bmc o, j, j', hf, h => by
    rw [Fine] at hf
    rw [jexec, Option.map_eq_some_iff] at h
    obtain ⟨s', h, rfl⟩ := h
    exact ⟨fun k hk => go_zero (quiet_go nd.bmc o hf.1 j.b s' h) k hk, fun _ _ _ _ h _ _ _ _ _ => .inl h⟩
  | .send env caller isC to data rb value fee, j, j', hf, h => by
    rw [Fine] at hf
    rw [jexec] at h
    split at h
    · cases h
    rename_i x' hx
    rw [Option.map_eq_some_iff] at h
    obtain ⟨s', h, rfl⟩ := h
    refine ⟨fun k hk => sendOuts_zero nd env hf k _ _ _ h hk, fun id r net a h _ _ _ _ _ => .inl ?_⟩
    rw [XCall.step] at hx
    obtain ⟨net, acct, f, s1, -, -, -, -, -, -, h1, h2⟩ := XCall.send_ok hx
    rw [← h]
    have e1 : x'.proxy = s1.proxy := sendTail_proxy h2
    have e2 : s1.proxy = j.x.proxy := payFee_proxy h1
    rw [e1, e2]
  | .exec env id inner out, j, j', hf, h => by
    rw [Fine] at hf
    rw [jexec] at h
    split at h
    · cases h
    rename_i r net x1 hs
    dsimp only at h
    split at h
    · cases h
    rename_i x3 he
    rw [Option.map_eq_some_iff] at h
    obtain ⟨s', h, rfl⟩ := h
    obtain ⟨hp, ⟨a, hpar⟩, hx1⟩ := XCall.execStart_ok hs
    have h2 : Keeps nd ⟨j.b, x1⟩ (if XCall.committed out = true then jrun nd inner ⟨j.b, x1⟩ else ⟨j.b, x1⟩) := by
      split
      · exact jrun_keeps nd inner _ hf.2
      · exact .refl _ _
    generalize (if XCall.committed out = true then jrun nd inner ⟨j.b, x1⟩ else ⟨j.b, x1⟩ : J) = j2 at h he h2
    have h3 : x3.proxy = j2.x.proxy := by
      rcases XCall.execEnd_ok he with ⟨-, rfl⟩ | ⟨n, -, -, rfl⟩ <;> rfl
    refine ⟨fun k hk => sendOuts_zero nd env hf.1 k _ _ _ h (h2.zero k hk), fun id' r' net' a' hp' hr' hs' hl' hc' hpar' => ?_⟩
    by_cases hid : id' = id
    · subst hid
      rw [hp] at hp'
      obtain rfl := Option.some.inj hp'
      rw [hpar'] at hpar
      obtain ⟨rfl, rfl⟩ := XCall.parse_compose hc' hpar
      rcases XCall.execEnd_ok he with ⟨hrb, -⟩ | ⟨n, -, hn, hx3⟩
      · rw [hr'] at hrb; cases hrb
      · right
        have hn' := negSn_small hs' hl' hn
        subst hn'
        rw [hx3] at h
        dsimp only at h
        rw [List.drop_left, sendOuts, Option.bind_eq_some_iff] at h
        obtain ⟨s1, hb1, h⟩ := h
        rw [sendOuts, Option.bind_eq_some_iff] at h
        obtain ⟨s4, hb2, h⟩ := h
        rw [sendOuts] at h
        obtain rfl := Option.some.inj h
        rw [sendOut, exec] at hb2
        split at hb2
        · cases hb2
        have := sendMessage_owed nd.bmc env s1 s4 nd.addr 0 (String.ofList net) X (-r.sn) _ (by omega) hb2
        rwa [Int.neg_neg] at this
    · rcases h2.wait id' r' net' a' (by rw [hx1]; dsimp only; rw [if_neg hid]; exact hp') hr' hs' hl' hc' hpar' with h4 | h4
      · exact .inl (by show x3.proxy id' = _; rw [h3]; exact h4)
      · exact .inr (sendOuts_zero nd env hf.1 _ _ _ _ h h4)
  | .undo sn inner out, j, j', hf, h => by
    rw [Fine] at hf
    rw [jexec] at h
    split at h
    · cases h
    rename_i x1 hs
    dsimp only at h
    obtain rfl := Option.some.inj h
    obtain ⟨c, -, -, hx1⟩ := XCall.undoStart_ok hs
    have h2 : Keeps nd ⟨j.b, x1⟩ (if XCall.committed out = true then jrun nd inner ⟨j.b, x1⟩ else ⟨j.b, x1⟩) := by
      split
      · exact jrun_keeps nd inner _ hf
      · exact .refl _ _
    exact ⟨fun k hk => h2.zero k hk, fun id' r' net' a' hp' hr' hs' hl' hc' hpar' => h2.wait id' r' net' a' (by rw [hx1]; exact hp') hr' hs' hl' hc' hpar'⟩
  | .other op, j, j', hf, h => by
    rw [Fine] at hf
    rw [jexec] at h
    split at h
    · rename_i hl
      rw [Option.map_eq_some_iff] at h
      obtain ⟨x', h, rfl⟩ := h
      refine ⟨fun _ h => h, fun id r net a hp _ _ _ _ _ => .inl ?_⟩
      show x'.proxy id = _
      rw [leaf_proxy op hl hf h]; exact hp
    · cases h
theorem jrun_keeps (nd : Node) : ∀ (os : JOps) (j : J), FineAll nd os → Keeps nd j (jrun nd os j)
  | .nil, j, _ => by rw [jrun]; exact .refl nd j
  | .cons o t, j, hf => by
    rw [FineAll] at hf
    rw [jrun]
    cases h : jexec nd o j with
    | none => exact jrun_keeps nd t j hf.2
    | some j1 => exact (jexec_keeps nd o j j1 hf.1 h).trans (jrun_keeps nd t j1 hf.2)
end

end Verif.XNet
