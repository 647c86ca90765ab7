import Verif.DApp
/-!
C141: the sample application and the call service: rollback data comes back exactly once, to the right call, and only after a failure.
-/
namespace Verif.DApp
open Verif Verif.BtpAddress Verif.XCall

variable (C : Cfg)

/-! ### the call service alone -/

theorem handle_x {C : Cfg} {caller src : Str} {data : Bytes} {s s' : St} (h : handle C caller src data s = some s') : s'.x = s.x := by
  unfold handle at h
  split at h
  · cases h
  split at h
  · split at h
    · cases h
    · split at h
      · cases h
      · split at h
        · cases h; rfl
        · cases h
  · split at h
    · cases h
    · cases h; rfl

mutual
/-- What the call service goes through beside the application is a history of the call service. -/
theorem step_sim : ∀ (op : Op) (s s' : St), step C op s = some s' →
    s'.x = s.x ∨ ∃ op', XCall.step C.X op' s.x = some s'.x
  | .base op, s, s', h => by
    simp only [step] at h
    split at h
    · rw [Option.map_eq_some_iff] at h
      obtain ⟨x, hx, rfl⟩ := h
      exact Or.inr ⟨op, hx⟩
    · cases h
  | .send to data rb value fee nsn, s, s', h => by
    simp only [step, sendMessage] at h
    split at h
    · cases hn : next C.X.lang s.lastId with
      | none => simp [hn] at h
      | some id =>
        simp only [hn, Option.bind_some, Option.map_eq_some_iff] at h
        obtain ⟨x, hx, rfl⟩ := h
        exact Or.inr ⟨.send C.self true to data (some (C.enc id (rb.getD []))) value fee nsn, by simpa only [XCall.step] using hx⟩
    · rw [Option.map_eq_some_iff] at h
      obtain ⟨x, hx, rfl⟩ := h
      exact Or.inr ⟨.send C.self true to data none value fee nsn, by simpa only [XCall.step] using hx⟩
  | .handle caller src data, s, s', h => by
    simp only [step] at h
    split at h
    · cases h
    · exact Or.inl (handle_x h)
  | .exec id inner out nsn, s, s', h => by
    simp only [step] at h
    cases he : execStart C.X s.x id with
    | none => simp [he] at h
    | some p =>
      obtain ⟨r, net, x1⟩ := p
      simp only [he, Option.map_eq_some_iff] at h
      obtain ⟨x, hx, rfl⟩ := h
      right
      simp only
      cases hm : C.isSelf r.dst with
      | true =>
        rw [hm] at hx
        cases hc : call C true r.src r.data out (run C inner) { s with x := x1 } with
        | none =>
          rw [hc] at hx
          exact ⟨.exec id .nil .failed nsn, by simpa [XCall.step, he, committed, outcome] using hx⟩
        | some s2 =>
          rw [hc] at hx
          have h2 : s2.x = x1 := by simpa using handle_x (s := { s with x := x1 }) (by simpa [call] using hc)
          exact ⟨.exec id .nil .ok nsn, by simpa [XCall.step, he, committed, outcome, h2, XCall.run] using hx⟩
      | false =>
        rw [hm] at hx
        by_cases ho : committed out = true
        · obtain ⟨ops, hops⟩ := run_sim inner { s with x := x1 }
          refine ⟨.exec id ops out nsn, ?_⟩
          simp [call, ho, outcome] at hx
          simpa [XCall.step, he, ho, hops] using hx
        · refine ⟨.exec id .nil out nsn, ?_⟩
          simp [call, ho, outcome] at hx
          simpa [XCall.step, he, ho] using hx
  | .undo sn inner out, s, s', h => by
    simp only [step] at h
    split at h
    case h_2 => cases h
    rename_i q x1 hq hu
    right
    cases h
    simp only
    by_cases hm : q.src = C.self
    · simp only [hm, decide_true]
      cases hc : call C true (own C) (q.rollback.getD []) out (run C inner) { s with x := x1 } with
      | none => exact ⟨.undo sn .nil .failed, by simp [XCall.step, hu, committed, outcome]⟩
      | some s2 =>
        have h2 : s2.x = x1 := by simpa using handle_x (s := { s with x := x1 }) (by simpa [call] using hc)
        exact ⟨.undo sn .nil .ok, by simp [XCall.step, hu, committed, outcome, h2, XCall.run]⟩
    · simp only [hm, decide_false]
      by_cases ho : committed out = true
      · obtain ⟨ops, hops⟩ := run_sim inner { s with x := x1 }
        exact ⟨.undo sn ops out, by simp [XCall.step, hu, call, ho, outcome, hops]⟩
      · exact ⟨.undo sn .nil out, by simp [XCall.step, hu, call, ho, outcome]⟩
theorem run_sim : ∀ (ops : Ops) (s : St), ∃ ops', XCall.run C.X ops' s.x = (run C ops s).x
  | .nil, s => ⟨.nil, by simp [XCall.run, run]⟩
  | .cons op t, s => by
    simp only [run]
    cases h : step C op s with
    | none => exact run_sim t s
    | some s' =>
      obtain ⟨o, ho⟩ := run_sim t s'
      rcases step_sim op s s' h with hx | ⟨op', hx⟩
      · exact ⟨o, by rw [← hx]; exact ho⟩
      · exact ⟨.cons op' o, by simp only [XCall.run, hx]; exact ho⟩
end

theorem step_ext {C : Cfg} {op : Op} {s s' : St} (h : step C op s = some s') : Ext s.x s'.x := by
  rcases step_sim C op s s' h with hx | ⟨op', hx⟩
  · rw [hx]; exact Ext.refl _
  · exact XCall.step_ext C.X op' _ _ hx

theorem run_ext (ops : Ops) (s : St) : Ext s.x (run C ops s).x := by
  obtain ⟨ops', h⟩ := run_sim C ops s
  rw [← h]
  exact XCall.run_ext C.X ops' s.x

/-! ### the invariant -/

/-- No call delivered claims to come from the call service of this chain. -/
def Foreign (x : XCall.St) : Prop := ∀ id net r, XCall.Ev.received id net r ∈ x.log → solCompose net r.src ≠ own C

theorem Foreign.of_log {C : Cfg} {x x' : XCall.St} {l : List XCall.Ev} (h : x'.log = x.log ++ l) (f : Foreign C x') : Foreign C x :=
  fun id net r hr => f id net r (by rw [h]; simp [hr])

theorem Foreign.of_ext {C : Cfg} {x x' : XCall.St} (h : Ext x x') (f : Foreign C x') : Foreign C x := by
  obtain ⟨l, h1, _⟩ := h
  intro id net r hr
  exact f id net r (by rw [h1]; simp [hr])

/-- Addresses contain no slash, and rollback data can be read back. -/
structure Ok : Prop where
  net : '/' ∉ C.net
  svc : '/' ∉ C.svc
  dec : ∀ id b, (C.X.lang = .sol → id < 2 ^ 256) → (C.enc id b).length ≤ maxRollback → C.dec (C.enc id b) = some (id, b)
  ne : ∀ id b, C.enc id b ≠ []

def sentId : Ev → Option Nat
  | .sent id _ _ => some id
  | _ => none
def sentSsn : Ev → Option Nat
  | .sent _ _ n => some n
  | _ => none
/-- The rollbacks reported by the application. -/
def rollOf : Ev → Option Int
  | .rollback _ n _ => some n
  | _ => none
/-- The rollbacks the call service runs for the application. -/
def undoMine : XCall.Ev → Option Int
  | .undo sn dst _ => if dst = C.self then some sn else none
  | _ => none
/-- The messages reported by the application. -/
def msgOf : Ev → Option (Str × Bytes)
  | .message src data => some (src, data)
  | _ => none
/-- The calls of the application by the call service, other than those it refuses. -/
def callMine : XCall.Ev → Option (Str × Bytes)
  | .call _ r => if C.isSelf r.dst = true ∧ r.data ≠ revertText then some (r.src, r.data) else none
  | _ => none

structure DI (s : St) : Prop where
  x : XCall.Inv C.X s.x
  reqs : ∀ sn q, s.x.reqs sn = some q → q.src = C.self → ∃ (n id : Nat) (b : Bytes), sn = n ∧ q.rollback = some (C.enc id b) ∧
    (C.X.lang = .sol → id < 2 ^ 256) ∧ (C.enc id b).length ≤ maxRollback ∧ s.rbs id = some (b, n)
  rbs : ∀ id b n, s.rbs id = some (b, n) → Ev.sent id b n ∈ s.log
  ids : s.log.filterMap sentId = upTo s.lastId
  ssns : (s.log.filterMap sentSsn).Nodup
  ssn : ∀ id b n, Ev.sent id b n ∈ s.log → n ≤ s.x.sn ∧ ∃ net acct d, XCall.Ev.sent n C.self net acct d (some (C.enc id b)) ∈ s.x.log
  rolls : s.log.filterMap rollOf = s.x.log.filterMap (undoMine C)
  roll : ∀ src n b, Ev.rollback src n b ∈ s.log → src = own C ∧ ∃ id, Ev.sent id b n ∈ s.log ∧
    XCall.Ev.undo n C.self (some (C.enc id b)) ∈ s.x.log
  msgs : s.log.filterMap msgOf = s.x.log.filterMap (callMine C)
  undone : ∀ sn code data, XCall.Ev.undo sn C.self data ∈ s.x.log → XCall.Ev.undone sn code ∈ s.x.log → code = 0
  executed : ∀ id r code, XCall.Ev.call id r ∈ s.x.log → C.isSelf r.dst = true → XCall.Ev.executed id code ∈ s.x.log →
    (code = 0 ↔ r.data ≠ revertText)
  called : ∀ id code, XCall.Ev.executed id code ∈ s.x.log → ∃ r, XCall.Ev.call id r ∈ s.x.log
  undid : ∀ sn code, XCall.Ev.undone sn code ∈ s.x.log → ∃ d b, XCall.Ev.undo sn d b ∈ s.x.log

variable {C}

theorem compose_ne (hC : Ok C) {net : Str} (h : net ≠ C.net) (a : Str) : solCompose net a ≠ own C := by
  intro he
  unfold own solCompose at he
  have h1 := List.append_cancel_left_eq _ _ _ |>.mp (by simpa only [List.append_assoc] using he)
  have h2 : ∀ (x y u v : Str), '/' ∉ y → '/' ∉ v → x ++ ('/' :: u) = y ++ ('/' :: v) → x = y := by
    intro x
    induction x with
    | nil =>
      intro y u v hy hv e
      cases y with
      | nil => rfl
      | cons c y => simp at e; exact absurd (by simp [← e.1]) hy
    | cons c x ih =>
      intro y u v hy hv e
      cases y with
      | nil =>
        simp at e
        exact absurd (by rw [← e.2]; simp) hv
      | cons d y =>
        simp at e
        rw [e.1, ih y u v (fun hm => hy (by simp [hm])) hv e.2]
  exact h (h2 net C.net a C.svc hC.net hC.svc (by simpa using h1))

/-- C141: it is enough that the message center names a network other than this one for every call delivered. -/
theorem C141_other_networks (hC : Ok C) (x : XCall.St) (h : ∀ id net r, XCall.Ev.received id net r ∈ x.log → net ≠ C.net) : Foreign C x :=
  fun id net r hr => compose_ne hC (h id net r hr) _

theorem call_foreign {x : XCall.St} (f : Foreign C x) {id : Int} {r : Req} (h : FromNet x.log id r) : r.src ≠ own C := by
  obtain ⟨n, net, q, _, hr, rfl⟩ := h
  exact f n net q hr

/-- What happens without the application. -/
theorem DI.quiet {s s' : St} (i : DI C s) (h1 : s'.lastId = s.lastId) (h2 : s'.rbs = s.rbs) (h3 : s'.log = s.log)
    (hx : XCall.Inv C.X s'.x) (hs : s.x.sn ≤ s'.x.sn)
    (hr : ∀ sn q, s'.x.reqs sn = some q → q.src = C.self → ∃ q0, s.x.reqs sn = some q0 ∧ q0.src = q.src ∧ q0.rollback = q.rollback)
    {l : List XCall.Ev} (hl : s'.x.log = s.x.log ++ l)
    (hu : ∀ sn d, XCall.Ev.undo sn C.self d ∉ l) (hc : ∀ id r, XCall.Ev.call id r ∈ l → C.isSelf r.dst = false)
    (hn : ∀ sn code, XCall.Ev.undone sn code ∈ l → ∀ d, XCall.Ev.undo sn C.self d ∉ s'.x.log)
    (he : ∀ id code, XCall.Ev.executed id code ∈ l → ∀ r, XCall.Ev.call id r ∈ s'.x.log → C.isSelf r.dst = false)
    (hk : ∀ id code, XCall.Ev.executed id code ∈ l → ∃ r, XCall.Ev.call id r ∈ s'.x.log)
    (hk' : ∀ sn code, XCall.Ev.undone sn code ∈ l → ∃ d b, XCall.Ev.undo sn d b ∈ s'.x.log) : DI C s' where
  x := hx
  reqs := by
    intro sn q h hq
    obtain ⟨q0, a, b, c⟩ := hr sn q h hq
    rw [h2, ← c]
    exact i.reqs sn q0 a (b.trans hq)
  rbs := by rw [h2, h3]; exact i.rbs
  ids := by rw [h1, h3]; exact i.ids
  ssns := by rw [h3]; exact i.ssns
  ssn := by
    rw [h3]
    intro id b n h
    obtain ⟨a, net, acct, d, e⟩ := i.ssn id b n h
    exact ⟨Nat.le_trans a hs, net, acct, d, by rw [hl]; simp [e]⟩
  rolls := by
    rw [h3, hl, List.filterMap_append, i.rolls]
    suffices l.filterMap (undoMine C) = [] by rw [this, List.append_nil]
    rw [List.filterMap_eq_nil_iff]
    intro e hm
    cases e <;> simp only [undoMine]
    split
    · rename_i hd; subst hd; exact absurd hm (hu _ _)
    · rfl
  roll := by
    rw [h3]
    intro src n b h
    obtain ⟨a, id, c, d⟩ := i.roll src n b h
    exact ⟨a, id, c, by rw [hl]; simp [d]⟩
  msgs := by
    rw [h3, hl, List.filterMap_append, i.msgs]
    suffices l.filterMap (callMine C) = [] by rw [this, List.append_nil]
    rw [List.filterMap_eq_nil_iff]
    intro e hm
    cases e <;> simp only [callMine]
    rename_i id r
    rw [if_neg (by rw [hc id r hm]; simp)]
  undone := by
    intro sn code d h h'
    rw [hl] at h'
    rcases List.mem_append.1 h' with h' | h'
    · rw [hl] at h
      rcases List.mem_append.1 h with h | h
      · exact i.undone sn code d h h'
      · exact absurd h (hu _ _)
    · exact absurd h (hn sn code h' d)
  executed := by
    intro id r code h hd h'
    rw [hl] at h'
    rcases List.mem_append.1 h' with h' | h'
    · rw [hl] at h
      rcases List.mem_append.1 h with h | h
      · exact i.executed id r code h hd h'
      · rw [hc id r h] at hd; cases hd
    · rw [he id code h' r h] at hd; cases hd
  called := by
    intro id code h
    rw [hl] at h
    rcases List.mem_append.1 h with h | h
    · obtain ⟨r, h⟩ := i.called id code h
      exact ⟨r, by rw [hl]; simp [h]⟩
    · exact hk id code h
  undid := by
    intro sn code h
    rw [hl] at h
    rcases List.mem_append.1 h with h | h
    · obtain ⟨d, b, h⟩ := i.undid sn code h
      exact ⟨d, b, by rw [hl]; simp [h]⟩
    · exact hk' sn code h

/-- The call service's `sendCallMessage`. -/
theorem send_effect {X : XCall.Cfg} {x x' : XCall.St} {caller to : Str} {isC : Bool} {data : Bytes} {rb : Option Bytes} {value : Nat}
    {fee : Option Nat} {nsn : Option Int} (h : XCall.send X x caller isC to data rb value fee nsn = some x') :
    x'.sn = x.sn + 1 ∧ (rb.getD []).length ≤ maxRollback ∧
    (x'.reqs = fun k => if k = ((x.sn + 1 : Nat) : Int) ∧ present X.lang rb = true then some ⟨caller, to, rb, false⟩ else x.reqs k) ∧
    ∃ l net acct, x'.log = x.log ++ l ∧ (XCall.Ev.sent (x.sn + 1) caller net acct data (if present X.lang rb = true then rb else none) ∈ l) ∧
      ∀ e ∈ l, match e with | .sent _ _ _ _ _ _ => True | .out _ _ _ _ => True | .paid _ _ => True | _ => False := by
  obtain ⟨net, acct, f, x1, _, _, _, _, hr, _, hp, ht⟩ := send_ok h
  obtain ⟨l, hl, hcase⟩ := payFee_ok hp
  obtain ⟨_, _, rfl⟩ := sendTail_ok ht
  rw [hl]
  refine ⟨rfl, hr, ?_, l ++ _, net, acct, by simp only [List.append_assoc]; rfl, by simp, ?_⟩
  · funext k
    simp only [keep]
    split
    · rename_i hpr; simp [hpr]
    · rename_i hpr; simp [hpr]
  · intro e he
    rcases List.mem_append.1 he with he | he
    · rcases hcase with ⟨_, h0, _⟩ | ⟨_, _, _, w, _, h0⟩
      · rw [h0] at he; cases he
      · rw [h0] at he
        rw [List.mem_singleton.1 he]
        trivial
    · simp only [List.mem_cons, List.not_mem_nil, or_false] at he
      rcases he with rfl | rfl <;> trivial

theorem resp_effect {X : XCall.Cfg} {x x' : XCall.St} {sn code : Int} (h : handleResponse X x sn code = some x') :
    x'.sn = x.sn ∧ (∀ k q, x'.reqs k = some q → ∃ q0, x.reqs k = some q0 ∧ q0.src = q.src ∧ q0.rollback = q.rollback) ∧
    ∃ l, x'.log = x.log ++ l ∧ ∀ e ∈ l, ∃ a b, e = XCall.Ev.response a b := by
  rcases response_ok h with ⟨_, rfl⟩ | ⟨c, hc, rfl⟩
  · exact ⟨rfl, fun k q h => ⟨q, h, rfl, rfl⟩, [], by simp, by simp⟩
  · clear h
    refine ⟨rfl, fun k q h => ?_, _, rfl, fun e he => ⟨sn, code, List.mem_singleton.1 he⟩⟩
    simp only at h
    split at h
    · rename_i hk
      subst hk
      split at h
      · cases h
      · cases h; exact ⟨c, hc, rfl, rfl⟩
    · exact ⟨q, h, rfl, rfl⟩

theorem quiet_log {s s' : St} (i : DI C s) (h1 : s'.lastId = s.lastId) (h2 : s'.rbs = s.rbs) (h3 : s'.log = s.log)
    (hx : XCall.Inv C.X s'.x) (hs : s.x.sn ≤ s'.x.sn)
    (hr : ∀ sn q, s'.x.reqs sn = some q → q.src = C.self → ∃ q0, s.x.reqs sn = some q0 ∧ q0.src = q.src ∧ q0.rollback = q.rollback)
    {l : List XCall.Ev} (hl : s'.x.log = s.x.log ++ l)
    (he : ∀ e ∈ l, match e with | .undo _ _ _ => False | .call _ _ => False | .undone _ _ => False | .executed _ _ => False | _ => True) :
    DI C s' :=
  i.quiet h1 h2 h3 hx hs hr hl (fun _ _ h => he _ h) (fun _ _ h => (he _ h).elim) (fun _ _ h => (he _ h).elim)
    (fun _ _ h => (he _ h).elim) (fun _ _ h => (he _ h).elim) (fun _ _ h => (he _ h).elim)

theorem base_di {op : XCall.Op} {s : St} {x : XCall.St} (hp : plain C op = true) (h : XCall.step C.X op s.x = some x) (i : DI C s) :
    DI C { s with x := x } := by
  have hx := XCall.step_inv C.X op _ _ i.x h
  cases op with
  | send caller isC to data rb value fee nsn =>
    simp only [XCall.step] at h
    simp only [plain, decide_eq_true_eq] at hp
    obtain ⟨a, _, b, l, net, acct, c, _, d⟩ := send_effect h
    refine quiet_log i rfl rfl rfl hx (by simp only [a]; omega) ?_ (l := l) c ?_
    · intro sn q hq hs
      simp only at hq
      rw [b] at hq
      simp only at hq
      split at hq
      · cases hq; exact absurd hs hp
      · exact ⟨q, hq, rfl, rfl⟩
    · intro e he
      have := d e he
      cases e <;> first | trivial | exact this.elim
  | exec id inner out nsn => cases hp
  | undo sn inner out => cases hp
  | message caller net svc sn m =>
    simp only [XCall.step] at h
    obtain ⟨_, _, hcase⟩ := message_ok h
    rcases hcase with ⟨r, _, _, hr⟩ | ⟨a, b, _, _, hr⟩
    · have e := handleRequest_ok hr
      refine quiet_log i rfl rfl rfl hx (by rw [e]; exact Nat.le_refl _) ?_ (l := [.received (s.x.reqId + 1) net r]) (by rw [e]) ?_
      · intro sn q hq hs
        rw [e] at hq
        exact ⟨q, hq, rfl, rfl⟩
      · intro e he
        rw [List.mem_singleton.1 he]
        trivial
    · obtain ⟨a, b, l, c, d⟩ := resp_effect hr
      refine quiet_log i rfl rfl rfl hx (by simp only [a]; exact Nat.le_refl _) (fun sn q hq _ => b sn q hq) (l := l) c ?_
      intro e he
      obtain ⟨u, v, rfl⟩ := d e he
      trivial
  | error caller net svc sn code =>
    simp only [XCall.step] at h
    obtain ⟨_, _, hr⟩ := error_ok h
    obtain ⟨a, b, l, c, d⟩ := resp_effect hr
    refine quiet_log i rfl rfl rfl hx (by simp only [a]; exact Nat.le_refl _) (fun sn q hq _ => b sn q hq) (l := l) c ?_
    intro e he
    obtain ⟨u, v, rfl⟩ := d e he
    trivial
  | setAdmin caller a =>
    simp only [XCall.step] at h
    split at h
    · cases h
    · cases h
      exact quiet_log i rfl rfl rfl hx (Nat.le_refl _) (fun sn q hq _ => ⟨q, hq, rfl, rfl⟩) (l := []) (by simp) (by simp)
  | setHandler caller a =>
    simp only [XCall.step] at h
    obtain ⟨_, l, h1, h2⟩ := setHandler_ok h
    refine quiet_log i rfl rfl rfl hx (by rw [h1]; exact Nat.le_refl _) ?_ (l := l) (by rw [h1]) ?_
    · intro sn q hq _
      rw [h1] at hq
      exact ⟨q, hq, rfl, rfl⟩
    · intro e he
      rcases h2 with ⟨rfl, _⟩ | ⟨w, _, rfl, _⟩
      · cases he
      · rw [List.mem_singleton.1 he]; trivial
  | setFee caller v =>
    simp only [XCall.step] at h
    split at h
    · cases h
    · cases h
      exact quiet_log i rfl rfl rfl hx (Nat.le_refl _) (fun sn q hq _ => ⟨q, hq, rfl, rfl⟩) (l := []) (by simp) (by simp)

theorem send_di (hC : Ok C) {s s' : St} {to : Str} {data : Bytes} {rb : Option Bytes} {value : Nat} {fee : Option Nat} {nsn : Option Int}
    (h : sendMessage C s to data rb value fee nsn = some s') (i : DI C s) : DI C s' := by
  unfold sendMessage at h
  split at h
  · rename_i hpr
    cases hn : next C.X.lang s.lastId with
    | none => simp [hn] at h
    | some id =>
      simp only [hn, Option.bind_some, Option.map_eq_some_iff] at h
      obtain ⟨x, hx, rfl⟩ := h
      have hxi : XCall.Inv C.X x := XCall.step_inv C.X (.send C.self true to data (some (C.enc id (rb.getD []))) value fee nsn) _ _ i.x
        (by simpa only [XCall.step] using hx)
      have hid := next_ok hn
      have hlim : C.X.lang = .sol → id < 2 ^ 256 := by
        intro hl
        rw [hl] at hn
        simp only [next] at hn
        split at hn
        · cases hn; assumption
        · cases hn
      obtain ⟨a, hlen, b, l, net, acct, c, d, e⟩ := send_effect hx
      have hpe : present C.X.lang (some (C.enc id (rb.getD []))) = true := by
        unfold present
        cases C.X.lang
        · rfl
        · simp [hC.ne]
      simp only [hpe, and_true, if_true] at b d
      have hfresh : ∀ b n, Ev.sent id b n ∉ s.log := by
        intro b n hm
        have : id ∈ s.log.filterMap sentId := List.mem_filterMap.2 ⟨_, hm, rfl⟩
        rw [i.ids, mem_upTo] at this
        omega
      have hne : ∀ k b n, s.rbs k = some (b, n) → k ≠ id := by
        intro k b' n hk hk'
        subst hk'
        exact hfresh b' n (i.rbs _ _ _ hk)
      constructor
      · exact hxi
      · intro sn q hq hs
        simp only at hq
        rw [b] at hq
        simp only at hq
        split at hq
        · rename_i hk
          cases hq
          exact ⟨s.x.sn + 1, id, rb.getD [], hk, rfl, hlim, hlen, by simp [a]⟩
        · obtain ⟨n, k, b', h1, h2, h3, h4, h5⟩ := i.reqs sn q hq hs
          exact ⟨n, k, b', h1, h2, h3, h4, by simp only; rw [if_neg (hne k b' n h5)]; exact h5⟩
      · intro k b' n hk
        simp only at hk ⊢
        split at hk
        · rename_i hk'; cases hk; subst hk'; simp
        · exact List.mem_append_left _ (i.rbs k b' n hk)
      · simp only [List.filterMap_append, i.ids, hid, upTo_succ]
        rfl
      · simp only [List.filterMap_append]
        have : List.filterMap sentSsn [Ev.sent id (rb.getD []) x.sn] = [x.sn] := rfl
        rw [this, List.nodup_append]
        refine ⟨i.ssns, by simp, ?_⟩
        intro u hu v hv
        rw [List.mem_singleton.1 hv, a]
        obtain ⟨ev, he1, he2⟩ := List.mem_filterMap.1 hu
        cases ev <;> simp only [sentSsn, Option.some.injEq, reduceCtorEq] at he2
        subst he2
        have := (i.ssn _ _ _ he1).1
        omega
      · intro k b' n hk
        simp only at hk ⊢
        rcases List.mem_append.1 hk with hk | hk
        · obtain ⟨u, v⟩ := i.ssn k b' n hk
          obtain ⟨net', acct', d', v⟩ := v
          exact ⟨by omega, net', acct', d', by rw [c]; simp [v]⟩
        · have := List.mem_singleton.1 hk
          cases this
          exact ⟨Nat.le_refl _, net, acct, data, by rw [c, a]; simp [d]⟩
      · simp only [List.filterMap_append, i.rolls, c]
        have : l.filterMap (undoMine C) = [] := by
          rw [List.filterMap_eq_nil_iff]
          intro ev hev
          have := e ev hev
          cases ev <;> first | rfl | exact this.elim
        rw [this]
        rfl
      · intro src n b' hm
        simp only at hm ⊢
        rcases List.mem_append.1 hm with hm | hm
        · obtain ⟨u, k, v, w⟩ := i.roll src n b' hm
          exact ⟨u, k, by simp [v], by rw [c]; simp [w]⟩
        · simp at hm
      · simp only [List.filterMap_append, i.msgs, c]
        have : l.filterMap (callMine C) = [] := by
          rw [List.filterMap_eq_nil_iff]
          intro ev hev
          have := e ev hev
          cases ev <;> first | rfl | exact this.elim
        rw [this]
        rfl
      · intro sn code dd h1 h2
        simp only [c, List.mem_append] at h1 h2
        rcases h1 with h1 | h1
        · rcases h2 with h2 | h2
          · exact i.undone sn code dd h1 h2
          · exact (e _ h2).elim
        · exact (e _ h1).elim
      · intro k r code h1 hd h2
        simp only [c, List.mem_append] at h1 h2
        rcases h1 with h1 | h1
        · rcases h2 with h2 | h2
          · exact i.executed k r code h1 hd h2
          · exact (e _ h2).elim
        · exact (e _ h1).elim
      · intro k code h2
        simp only [c, List.mem_append] at h2 ⊢
        rcases h2 with h2 | h2
        · obtain ⟨r, h2⟩ := i.called k code h2
          exact ⟨r, Or.inl h2⟩
        · exact (e _ h2).elim
      · intro k code h2
        simp only [c, List.mem_append] at h2 ⊢
        rcases h2 with h2 | h2
        · obtain ⟨d', b', h2⟩ := i.undid k code h2
          exact ⟨d', b', Or.inl h2⟩
        · exact (e _ h2).elim
  · rw [Option.map_eq_some_iff] at h
    obtain ⟨x, hx, rfl⟩ := h
    have hxi : XCall.Inv C.X x := XCall.step_inv C.X (.send C.self true to data none value fee nsn) _ _ i.x
      (by simpa only [XCall.step] using hx)
    obtain ⟨a, _, b, l, net, acct, c, _, d⟩ := send_effect hx
    refine quiet_log i rfl rfl rfl hxi (by simp only [a]; omega) ?_ (l := l) c ?_
    · intro sn q hq hs
      simp only at hq
      have hn : present C.X.lang none = false := by cases C.X.lang <;> rfl
      rw [b] at hq
      simp only [hn] at hq
      exact ⟨q, by simpa using hq, rfl, rfl⟩
    · intro e he
      have := d e he
      cases e <;> first | trivial | exact this.elim

theorem nodup_call {x : XCall.St} (h : XCall.Inv C.X x) {id : Int} {r r' : Req} (h1 : XCall.Ev.call id r ∈ x.log)
    (h2 : XCall.Ev.call id r' ∈ x.log) : r = r' := by
  obtain ⟨l1, l2, hl⟩ := List.append_of_mem h1
  have hn := h.calls
  rw [hl] at hn h2
  rcases List.mem_append.1 h2 with h2 | h2
  · simp only [List.filterMap_append, List.nodup_append] at hn
    exact absurd rfl (hn.2.2 id (mem_callId.2 ⟨r', h2⟩) id (by simp [callId]))
  · rcases List.mem_cons.1 h2 with h2 | h2
    · cases h2; rfl
    · simp only [List.filterMap_append, List.nodup_append] at hn
      have := hn.2.1
      simp only [List.filterMap_cons, callId, List.nodup_cons] at this
      exact absurd (mem_callId.2 ⟨r', h2⟩) this.1

theorem nodup_undo {x : XCall.St} (h : XCall.Inv C.X x) {sn : Int} {d d' : Str} {b b' : Option Bytes} (h1 : XCall.Ev.undo sn d b ∈ x.log)
    (h2 : XCall.Ev.undo sn d' b' ∈ x.log) : d = d' := by
  obtain ⟨l1, l2, hl⟩ := List.append_of_mem h1
  have hn := h.undos
  rw [hl] at hn h2
  rcases List.mem_append.1 h2 with h2 | h2
  · simp only [List.filterMap_append, List.nodup_append] at hn
    exact absurd rfl (hn.2.2 sn (mem_undoSn.2 ⟨d', b', h2⟩) sn (by simp [undoSn]))
  · rcases List.mem_cons.1 h2 with h2 | h2
    · cases h2; rfl
    · simp only [List.filterMap_append, List.nodup_append] at hn
      have := hn.2.1
      simp only [List.filterMap_cons, undoSn, List.nodup_cons] at this
      exact absurd (mem_undoSn.2 ⟨d', b', h2⟩) this.1

/-- A call of another contract, up to the call. -/
theorem exec_other {s : St} {id : Int} {r : Req} {net : Str} {x1 : XCall.St} (h : execStart C.X s.x id = some (r, net, x1))
    (hd : C.isSelf r.dst = false) (i : DI C s) : DI C { s with x := x1 } := by
  have hx := execStart_inv i.x h
  obtain ⟨_, _, rfl⟩ := execStart_ok h
  refine i.quiet (s' := { s with x := _ }) rfl rfl rfl hx (Nat.le_refl _) (fun sn q hq _ => ⟨q, hq, rfl, rfl⟩) (l := [.call id r]) rfl ?_ ?_ ?_ ?_ ?_ ?_
  · simp
  · intro id' r' hm; simp only [List.mem_singleton, XCall.Ev.call.injEq] at hm; rw [hm.2]; exact hd
  · simp
  · simp
  · simp
  · simp

/-- The end of a call of another contract. -/
theorem exec_end {s : St} {id : Int} {r : Req} {net : Str} {out : Outcome} {nsn : Option Int} {x : XCall.St}
    (h : execEnd C.X s.x id r net out nsn = some x) (hc : XCall.Ev.call id r ∈ s.x.log) (hd : C.isSelf r.dst = false) (i : DI C s) :
    DI C { s with x := x } := by
  have hx := execEnd_inv i.x h
  have key : ∃ l, x = { s.x with log := s.x.log ++ l } ∧ ∀ e ∈ l, (∃ c, e = XCall.Ev.executed id c) ∨ ∃ a b c d, e = XCall.Ev.out a b c d := by
    rcases execEnd_ok h with ⟨_, rfl⟩ | ⟨n, _, _, rfl⟩
    · exact ⟨_, rfl, fun e he => Or.inl ⟨_, List.mem_singleton.1 he⟩⟩
    · refine ⟨_, rfl, fun e he => ?_⟩
      simp only [List.mem_cons, List.not_mem_nil, or_false] at he
      rcases he with he | he
      · exact Or.inl ⟨_, he⟩
      · exact Or.inr ⟨_, _, _, _, he⟩
  obtain ⟨l, rfl, hl⟩ := key
  refine i.quiet (s' := { s with x := { s.x with log := s.x.log ++ l } }) rfl rfl rfl hx (Nat.le_refl _)
    (fun sn q hq _ => ⟨q, hq, rfl, rfl⟩) (l := l) rfl ?_ ?_ ?_ ?_ ?_ ?_
  · intro sn d hm; rcases hl _ hm with ⟨c, hc⟩ | ⟨a, b, c, d, hc⟩ <;> cases hc
  · intro sn d hm; rcases hl _ hm with ⟨c, hc⟩ | ⟨a, b, c, d, hc⟩ <;> cases hc
  · intro sn d hm; rcases hl _ hm with ⟨c, hc⟩ | ⟨a, b, c, d, hc⟩ <;> cases hc
  · intro id' code hm r' hr'
    rcases hl _ hm with ⟨c, hc'⟩ | ⟨a, b, c, d, hc'⟩
    · cases hc'
      have : r = r' := nodup_call (C := C) hx (by simp [hc]) hr'
      rw [← this]; exact hd
    · cases hc'
  · intro id' code hm
    rcases hl _ hm with ⟨c, hc'⟩ | ⟨a, b, c, d, hc'⟩
    · cases hc'; exact ⟨r, by simp [hc]⟩
    · cases hc'
  · intro sn d hm; rcases hl _ hm with ⟨c, hc⟩ | ⟨a, b, c, d, hc⟩ <;> cases hc

/-- A call of the application by the call service. -/
theorem exec_mine {s : St} {id : Int} {r : Req} {net : Str} {x1 x : XCall.St} {out : Outcome} {nsn : Option Int} {inner : Ops}
    (h : execStart C.X s.x id = some (r, net, x1)) (hd : C.isSelf r.dst = true) (i : DI C s) (f : Foreign C s.x)
    (he : execEnd C.X ((call C true r.src r.data out (run C inner) { s with x := x1 }).getD { s with x := x1 }).x id r net
      (outcome true out (call C true r.src r.data out (run C inner) { s with x := x1 })) nsn = some x) :
    DI C { (call C true r.src r.data out (run C inner) { s with x := x1 }).getD { s with x := x1 } with x := x } := by
  have hx1 := execStart_inv i.x h
  obtain ⟨hp, _, rfl⟩ := execStart_ok h
  have hsrc : r.src ≠ own C := call_foreign f (i.x.proxy id r hp).1
  have hnew := (i.x.proxy id r hp).2
  generalize hx1' : ({ s.x with proxy := fun k => if k = id then none else s.x.proxy k, log := s.x.log ++ [.call id r] } : XCall.St) = x1
    at he h hx1
  have hlog1 : x1.log = s.x.log ++ [.call id r] := by rw [← hx1']
  have hreqs1 : x1.reqs = s.x.reqs := by rw [← hx1']
  have hsn1 : x1.sn = s.x.sn := by rw [← hx1']
  -- the two outcomes
  have hcall : call C true r.src r.data out (run C inner) { s with x := x1 } =
      if r.data = revertText then none else some { s with x := x1, log := s.log ++ [.message r.src r.data] } := by
    simp [call, handle, hsrc]
  rw [hcall] at he ⊢
  have hend : ∀ (o : Outcome) (y : XCall.St), execEnd C.X x1 id r net o nsn = some y → XCall.Inv C.X y ∧
      ∃ l, y = { x1 with log := x1.log ++ l } ∧ ∀ e ∈ l, e = XCall.Ev.executed id (respCode C.X.lang o) ∨ ∃ a b c d, e = XCall.Ev.out a b c d := by
    intro o y hy
    refine ⟨execEnd_inv hx1 hy, ?_⟩
    rcases execEnd_ok hy with ⟨_, rfl⟩ | ⟨n, _, _, rfl⟩
    · exact ⟨_, rfl, fun e he => Or.inl (List.mem_singleton.1 he)⟩
    · refine ⟨_, rfl, fun e he => ?_⟩
      simp only [List.mem_cons, List.not_mem_nil, or_false] at he
      rcases he with he | he
      · exact Or.inl he
      · exact Or.inr ⟨_, _, _, _, he⟩
  have main : ∀ (o : Outcome) (y : XCall.St) (m : List Ev), execEnd C.X x1 id r net o nsn = some y →
      (m = if r.data = revertText then [] else [.message r.src r.data]) → (o = .ok ↔ r.data ≠ revertText) →
      DI C { s with x := y, log := s.log ++ m } := by
    intro o y m hy hm ho
    obtain ⟨hyi, l, rfl, hl⟩ := hend o y hy
    have hsent : ∀ (k : Nat) (b : Bytes) (n : Nat), Ev.sent k b n ∈ s.log ++ m → Ev.sent k b n ∈ s.log := by
      intro k b n hk
      rcases List.mem_append.1 hk with hk | hk
      · exact hk
      · rw [hm] at hk; split at hk <;> simp at hk
    have hgood : ∀ {e}, e ∈ s.x.log → e ∈ x1.log ++ l := by
      intro e he; rw [hlog1]; simp [he]
    constructor
    · exact hyi
    · simp only [hreqs1]; exact i.reqs
    · intro k b n hk
      exact List.mem_append_left _ (i.rbs k b n hk)
    · have : m.filterMap sentId = [] := by rw [hm]; split <;> rfl
      simp only [List.filterMap_append, this, List.append_nil]; exact i.ids
    · have : m.filterMap sentSsn = [] := by rw [hm]; split <;> rfl
      simp only [List.filterMap_append, this, List.append_nil]; exact i.ssns
    · intro k b n hk
      obtain ⟨a, net', acct, d, e⟩ := i.ssn k b n (hsent k b n hk)
      exact ⟨by simp only [hsn1]; exact a, net', acct, d, hgood e⟩
    · have h1 : m.filterMap rollOf = [] := by rw [hm]; split <;> rfl
      have h2 : l.filterMap (undoMine C) = [] := by
        rw [List.filterMap_eq_nil_iff]
        intro e he
        rcases hl e he with rfl | ⟨a, b, c, d, rfl⟩ <;> rfl
      simp only [List.filterMap_append, h1, List.append_nil, hlog1, h2, i.rolls]
      simp [undoMine]
    · intro src n b hk
      have hk : Ev.rollback src n b ∈ s.log := by
        rcases List.mem_append.1 hk with hk | hk
        · exact hk
        · rw [hm] at hk; split at hk <;> simp at hk
      obtain ⟨a, k, c, d⟩ := i.roll src n b hk
      exact ⟨a, k, List.mem_append_left _ c, hgood d⟩
    · have h2 : l.filterMap (callMine C) = [] := by
        rw [List.filterMap_eq_nil_iff]
        intro e he
        rcases hl e he with rfl | ⟨a, b, c, d, rfl⟩ <;> rfl
      simp only [List.filterMap_append, hlog1, h2, i.msgs, List.append_nil]
      congr 1
      rw [hm]
      by_cases hr : r.data = revertText
      · simp [hr, callMine]
      · simp [hr, callMine, hd, msgOf]
    · intro sn code d h1 h2
      have h1' : XCall.Ev.undo sn C.self d ∈ s.x.log := by
        simp only [hlog1, List.mem_append, List.mem_singleton] at h1
        rcases h1 with (h1 | h1) | h1
        · exact h1
        · cases h1
        · rcases hl _ h1 with h1 | ⟨a, b, c, d, h1⟩ <;> cases h1
      have h2' : XCall.Ev.undone sn code ∈ s.x.log := by
        simp only [hlog1, List.mem_append, List.mem_singleton] at h2
        rcases h2 with (h2 | h2) | h2
        · exact h2
        · cases h2
        · rcases hl _ h2 with h2 | ⟨a, b, c, d, h2⟩ <;> cases h2
      exact i.undone sn code d h1' h2'
    · intro k r' code h1 hr' h2
      simp only [List.mem_append] at h2
      rcases h2 with h2 | h2
      · have h2' : XCall.Ev.executed k code ∈ s.x.log := by
          rw [hlog1] at h2
          rcases List.mem_append.1 h2 with h2 | h2
          · exact h2
          · simp at h2
        have h1' : XCall.Ev.call k r' ∈ s.x.log := by
          simp only [hlog1, List.mem_append, List.mem_singleton] at h1
          rcases h1 with (h1 | h1) | h1
          · exact h1
          · cases h1
            obtain ⟨r'', hr''⟩ := i.called _ code h2'
            exact absurd (mem_callId.2 ⟨r'', hr''⟩) hnew
          · rcases hl _ h1 with h1 | ⟨a, b, c, d, h1⟩ <;> cases h1
        exact i.executed k r' code h1' hr' h2'
      · rcases hl _ h2 with h2 | ⟨a, b, c, d, h2⟩
        · cases h2
          have : r = r' := nodup_call (C := C) hyi (by simp [hlog1]) h1
          subst this
          rw [C53_code]
          exact ho
        · cases h2
    · intro k code h2
      simp only [List.mem_append] at h2
      rcases h2 with h2 | h2
      · have h2' : XCall.Ev.executed k code ∈ s.x.log := by
          rw [hlog1] at h2
          rcases List.mem_append.1 h2 with h2 | h2
          · exact h2
          · simp at h2
        obtain ⟨r'', hr''⟩ := i.called k code h2'
        exact ⟨r'', hgood hr''⟩
      · rcases hl _ h2 with h2 | ⟨a, b, c, d, h2⟩
        · cases h2; exact ⟨r, by simp [hlog1]⟩
        · cases h2
    · intro k code h2
      have h2' : XCall.Ev.undone k code ∈ s.x.log := by
        simp only [hlog1, List.mem_append, List.mem_singleton] at h2
        rcases h2 with (h2 | h2) | h2
        · exact h2
        · cases h2
        · rcases hl _ h2 with h2 | ⟨a, b, c, d, h2⟩ <;> cases h2
      obtain ⟨d', b', h3⟩ := i.undid k code h2'
      exact ⟨d', b', hgood h3⟩
  by_cases hr : r.data = revertText
  · simp only [hr, if_true, Option.getD_none, outcome] at he ⊢
    have := main .failed x [] he (by simp [hr]) (by simp [hr])
    simpa using this
  · simp only [hr, if_false, Option.getD_some, outcome] at he ⊢
    exact main .ok x _ he (by simp [hr]) (by simp [hr])

/-- A rollback of another contract, up to the call. -/
theorem undo_other {s : St} {sn : Int} {q : Call} {x1 : XCall.St} (hq : s.x.reqs sn = some q) (h : undoStart s.x sn = some x1)
    (hd : q.src ≠ C.self) (i : DI C s) : DI C { s with x := x1 } := by
  have hx := undoStart_inv i.x h
  obtain ⟨c, hc, _, rfl⟩ := undoStart_ok h
  rw [hq] at hc
  cases hc
  refine i.quiet (s' := { s with x := _ }) rfl rfl rfl hx (Nat.le_refl _) ?_ (l := [.undo sn q.src q.rollback]) rfl ?_ ?_ ?_ ?_ ?_ ?_
  · intro k q' hk _
    simp only at hk
    split at hk
    · cases hk
    · exact ⟨q', hk, rfl, rfl⟩
  · intro k d hm
    simp only [List.mem_singleton, XCall.Ev.undo.injEq] at hm
    exact hd hm.2.1.symm
  all_goals simp

/-- The end of a rollback of another contract. -/
theorem undo_end {s : St} {sn : Int} {d : Str} {b : Option Bytes} (h : XCall.Ev.undo sn d b ∈ s.x.log) (hd : d ≠ C.self) (code : Int)
    (i : DI C s) : DI C { s with x := { s.x with log := s.x.log ++ [.undone sn code] } } := by
  have hx : XCall.Inv C.X { s.x with log := s.x.log ++ [.undone sn code] } := i.x.neutral (by trivial)
  refine i.quiet (s' := { s with x := { s.x with log := s.x.log ++ [.undone sn code] } }) rfl rfl rfl hx (Nat.le_refl _)
    (fun sn q hq _ => ⟨q, hq, rfl, rfl⟩) (l := [.undone sn code]) rfl ?_ ?_ ?_ ?_ ?_ ?_
  · simp
  · simp
  · intro k c hm d' hd'
    simp only [List.mem_singleton, XCall.Ev.undone.injEq] at hm
    obtain ⟨rfl, _⟩ := hm
    exact hd (nodup_undo (C := C) hx (List.mem_append_left _ h) hd')
  · simp
  · simp
  · intro k c hm
    simp only [List.mem_singleton, XCall.Ev.undone.injEq] at hm
    obtain ⟨rfl, _⟩ := hm
    exact ⟨d, b, List.mem_append_left _ h⟩

/-- A rollback of the application: it always ends well. -/
theorem undo_mine (hC : Ok C) {s : St} {sn : Int} {q : Call} {x1 : XCall.St} {out : Outcome} {inner : Ops} (hq : s.x.reqs sn = some q)
    (h : undoStart s.x sn = some x1) (hd : q.src = C.self) (i : DI C s) :
    ∃ s2, call C true (own C) (q.rollback.getD []) out (run C inner) { s with x := x1 } = some s2 ∧
      DI C { s2 with x := { s2.x with log := s2.x.log ++ [.undone sn 0] } } := by
  have hx1 := undoStart_inv i.x h
  obtain ⟨c, hc, _, rfl⟩ := undoStart_ok h
  rw [hq] at hc
  cases hc
  obtain ⟨n, id, b, rfl, hrb, hlim, hlen, hst⟩ := i.reqs sn q hq hd
  have hund := (i.x.reqs _ _ hq).2.2.1
  have hdec := hC.dec id b hlim hlen
  refine ⟨{ s with
    x := { s.x with reqs := fun k => if k = (n : Int) then none else s.x.reqs k, log := s.x.log ++ [.undo n q.src q.rollback] }
    rbs := fun k => if k = id then none else s.rbs k
    log := s.log ++ [.rollback (own C) n b] }, ?_, ?_⟩
  · simp only [call, if_true, handle, hrb, Option.getD_some, hdec, ne_eq, not_true_eq_false, if_false, hst]
    rw [show stored C.X.lang (some (b, n)) = some (b, n) by cases C.X.lang <;> rfl]
    simp only [if_true]
  · have hsent : ∀ (m : Ev) (k : Nat) (b' : Bytes) (n' : Nat), (∀ k b n, m ≠ .sent k b n) → Ev.sent k b' n' ∈ s.log ++ [m] → Ev.sent k b' n' ∈ s.log := by
      intro m k b' n' hm hk
      rcases List.mem_append.1 hk with hk | hk
      · exact hk
      · exact absurd (List.mem_singleton.1 hk).symm (hm _ _ _)
    have hsent' := fun k b' n' => hsent (.rollback (own C) n b) k b' n' (by simp)
    constructor
    · exact hx1.neutral (by trivial)
    · intro k q' hk hq'
      simp only at hk
      split at hk
      · cases hk
      · rename_i hkn
        obtain ⟨n', id', b', h1, h2, h3, h4, h5⟩ := i.reqs k q' hk hq'
        refine ⟨n', id', b', h1, h2, h3, h4, ?_⟩
        simp only
        rw [if_neg, h5]
        intro he
        subst he
        rw [hst] at h5
        cases h5
        exact hkn h1
    · intro k b' n' hk
      simp only at hk ⊢
      split at hk
      · cases hk
      · exact List.mem_append_left _ (i.rbs k b' n' hk)
    · simp only [List.filterMap_append, List.filterMap_cons, List.filterMap_nil, sentId, List.append_nil]; exact i.ids
    · simp only [List.filterMap_append, List.filterMap_cons, List.filterMap_nil, sentSsn, List.append_nil]; exact i.ssns
    · intro k b' n' hk
      obtain ⟨a, net', acct, d, e⟩ := i.ssn k b' n' (hsent' k b' n' hk)
      exact ⟨a, net', acct, d, by simp [e]⟩
    · simp [rollOf, undoMine, hd, i.rolls]
    · intro src n' b' hk
      simp only at hk ⊢
      rcases List.mem_append.1 hk with hk | hk
      · obtain ⟨a, k, c, d⟩ := i.roll src n' b' hk
        exact ⟨a, k, by simp [c], by simp [d]⟩
      · simp only [List.mem_singleton, Ev.rollback.injEq] at hk
        obtain ⟨rfl, rfl, rfl⟩ := hk
        exact ⟨rfl, id, List.mem_append_left _ (i.rbs id b' n' hst), by simp [hrb, hd]⟩
    · simp only [List.filterMap_append, i.msgs, List.append_assoc]; rfl
    · intro k code d h1 h2
      simp only [List.mem_append, List.mem_singleton, reduceCtorEq, or_false, XCall.Ev.undone.injEq] at h1 h2
      rcases h2 with h2 | h2
      · rcases h1 with h1 | h1
        · exact i.undone k code d h1 h2
        · simp only [XCall.Ev.undo.injEq] at h1
          obtain ⟨rfl, _⟩ := h1
          obtain ⟨d', b', hm⟩ := i.undid _ _ h2
          exact absurd (mem_undoSn.2 ⟨d', b', hm⟩) hund
      · exact h2.2
    · intro k r code h1 hr h2
      simp only [List.mem_append, List.mem_singleton, reduceCtorEq, or_false] at h1 h2
      exact i.executed k r code h1 hr h2
    · intro k code h2
      simp only [List.mem_append, List.mem_singleton, reduceCtorEq, or_false] at h2 ⊢
      exact i.called k code h2
    · intro k code h2
      simp only [List.mem_append, List.mem_singleton, reduceCtorEq, or_false, XCall.Ev.undone.injEq] at h2 ⊢
      rcases h2 with h2 | ⟨rfl, _⟩
      · obtain ⟨d', b', h3⟩ := i.undid k code h2
        exact ⟨d', b', Or.inl h3⟩
      · exact ⟨_, _, Or.inr rfl⟩

mutual
theorem step_di (hC : Ok C) : ∀ (op : Op) (s s' : St), step C op s = some s' → Foreign C s'.x → DI C s → DI C s'
  | .base op, s, s', h, _, i => by
    simp only [step] at h
    split at h
    · rename_i hp
      rw [Option.map_eq_some_iff] at h
      obtain ⟨x, hx, rfl⟩ := h
      exact base_di hp hx i
    · cases h
  | .send to data rb value fee nsn, s, s', h, _, i => send_di hC (by simpa only [step] using h) i
  | .handle caller src data, s, s', h, _, i => by
    simp only [step] at h
    split at h
    · cases h
    · rename_i hc
      simp [handle, hc] at h
  | .exec id inner out nsn, s, s', h, f, i => by
    have hext := step_ext h
    simp only [step] at h
    cases he : execStart C.X s.x id with
    | none => simp [he] at h
    | some p =>
      obtain ⟨r, net, x1⟩ := p
      simp only [he, Option.map_eq_some_iff] at h
      obtain ⟨x, hx, rfl⟩ := h
      cases hm : C.isSelf r.dst with
      | true =>
        rw [hm] at hx
        exact exec_mine he hm i (Foreign.of_ext hext f) hx
      | false =>
        rw [hm] at hx
        have i1 := exec_other he hm i
        have hc1 : XCall.Ev.call id r ∈ x1.log := by obtain ⟨_, _, rfl⟩ := execStart_ok he; simp
        by_cases ho : committed out = true
        · simp only [call, ho, if_true, Bool.false_eq_true, if_false, Option.getD_some, outcome] at hx f ⊢
          have hf : Foreign C (run C inner { s with x := x1 }).x := by
            rcases execEnd_ok hx with ⟨_, h0⟩ | ⟨n, _, _, h0⟩
            · exact Foreign.of_log (by rw [h0]) f
            · exact Foreign.of_log (by rw [h0]) f
          have i2 := run_di hC inner { s with x := x1 } hf i1
          refine exec_end hx ?_ hm i2
          obtain ⟨l, hl, _⟩ := run_ext C inner { s with x := x1 }
          rw [hl]
          exact List.mem_append_left _ hc1
        · simp only [call, ho, Bool.false_eq_true, if_false, Option.getD_none, outcome] at hx f ⊢
          exact exec_end (s := { s with x := x1 }) hx hc1 hm i1
  | .undo sn inner out, s, s', h, f, i => by
    simp only [step] at h
    split at h
    case h_2 => cases h
    rename_i q x1 hq hu
    cases h
    by_cases hm : q.src = C.self
    · simp only [hm, decide_true]
      obtain ⟨s2, h2, h3⟩ := undo_mine hC (out := out) (inner := inner) hq hu hm i
      rw [h2]
      exact h3
    · simp only [hm, decide_false] at f ⊢
      have i1 := undo_other hq hu hm i
      have hu1 : XCall.Ev.undo sn q.src q.rollback ∈ x1.log := by
        obtain ⟨c, hc, _, rfl⟩ := undoStart_ok hu
        rw [hq] at hc; cases hc
        simp
      by_cases ho : committed out = true
      · simp only [call, ho, if_true, Bool.false_eq_true, if_false, Option.getD_some, outcome] at f ⊢
        have hf : Foreign C (run C inner { s with x := x1 }).x :=
          Foreign.of_log (l := [.undone sn (respCode C.X.lang out)]) rfl f
        have i2 := run_di hC inner { s with x := x1 } hf i1
        refine undo_end (b := q.rollback) ?_ hm _ i2
        · obtain ⟨l, hl, _⟩ := run_ext C inner { s with x := x1 }
          rw [hl]
          exact List.mem_append_left _ hu1
      · simp only [call, ho, Bool.false_eq_true, if_false, Option.getD_none, outcome] at f ⊢
        exact undo_end (s := { s with x := x1 }) hu1 hm _ i1
theorem run_di (hC : Ok C) : ∀ (ops : Ops) (s : St), Foreign C (run C ops s).x → DI C s → DI C (run C ops s)
  | .nil, s, _, i => by simpa only [run] using i
  | .cons op t, s, f, i => by
    simp only [run] at f ⊢
    cases h : step C op s with
    | none => rw [h] at f; exact run_di hC t s f i
    | some s' =>
      rw [h] at f
      exact run_di hC t s' f (step_di hC op s s' h (Foreign.of_ext (run_ext C t s') f) i)
end

theorem init_di (b : Nat) : DI C (init b) where
  x := init_inv C.X b
  reqs := by intro sn q h; simp [init, XCall.init] at h
  rbs := by intro id b n h; simp [init] at h
  ids := rfl
  ssns := by simp [init]
  ssn := by intro id b n h; simp [init] at h
  rolls := rfl
  roll := by intro src n b h; simp [init] at h
  msgs := rfl
  undone := by intro sn c d h; simp [init, XCall.init] at h
  executed := by intro id r c h; simp [init, XCall.init] at h
  called := by intro id c h; simp [init, XCall.init] at h
  undid := by intro id c h; simp [init, XCall.init] at h

variable (C)

/-- A history from deployment in which the message center does not name this network as the origin of a call. -/
theorem reach_di (hC : Ok C) (b : Nat) (ops : Ops) (f : Foreign C (run C ops (init b)).x) : DI C (run C ops (init b)) :=
  run_di hC ops _ f (init_di b)

/-- C141: the rollbacks the application reports are exactly those the call service runs for it, in the same order. -/
theorem C141_rollbacks_partial (hC : Ok C) (b : Nat) (ops : Ops) (f : Foreign C (run C ops (init b)).x) :
    (run C ops (init b)).log.filterMap (fun | .rollback _ n _ => some (n : Int) | _ => none) =
    (run C ops (init b)).x.log.filterMap (fun | .undo sn dst _ => if dst = C.self then some sn else none | _ => none) := by
  have h := (reach_di C hC b ops f).rolls
  have e1 : rollOf = (fun | .rollback _ n _ => some (n : Int) | _ => none) := by funext e; cases e <;> rfl
  have e2 : undoMine C = (fun | .undo sn dst _ => if dst = C.self then some sn else none | _ => none) := by funext e; cases e <;> rfl
  rw [e1, e2] at h
  exact h

/-- C141: no call's rollback is reported twice. -/
theorem C141_once_partial (hC : Ok C) (b : Nat) (ops : Ops) (f : Foreign C (run C ops (init b)).x) (l1 l2 l3 : List Ev) (src src' : Str)
    (n : Nat) (d d' : Bytes) (h : (run C ops (init b)).log = l1 ++ .rollback src n d :: l2 ++ .rollback src' n d' :: l3) : False := by
  have i := reach_di C hC b ops f
  have h1 := i.rolls
  rw [h] at h1
  have hn := i.x.undos
  have hsub : ((run C ops (init b)).x.log.filterMap (undoMine C)).Sublist ((run C ops (init b)).x.log.filterMap undoSn) := by
    generalize (run C ops (init b)).x.log = l
    induction l with
    | nil => exact List.Sublist.refl _
    | cons e t ih =>
      cases e <;> simp only [List.filterMap_cons, undoMine, undoSn] <;> try exact ih
      split
      · rename_i h0
        split at h0
        · cases h0
        · exact List.Sublist.cons _ ih
      · rename_i h0
        split at h0
        · cases h0; exact ih.cons_cons _
        · cases h0
  have hnd := hn.sublist hsub
  rw [← h1] at hnd
  simp [List.nodup_append, rollOf] at hnd

/-- C141: a rollback is reported only for a call the application sent with this data and number, after the call service was told that the
call failed and never that it succeeded. -/
theorem C141_after_failure_partial (hC : Ok C) (b : Nat) (ops : Ops) (f : Foreign C (run C ops (init b)).x) (src : Str) (n : Nat) (d : Bytes)
    (h : Ev.rollback src n d ∈ (run C ops (init b)).log) :
    (∃ id, Ev.sent id d n ∈ (run C ops (init b)).log) ∧
    (∃ l1 l2 id net acct data code, (run C ops (init b)).x.log = l1 ++ .undo n C.self (some (C.enc id d)) :: l2 ∧
      XCall.Ev.sent n C.self net acct data (some (C.enc id d)) ∈ l1 ∧ code ≠ 0 ∧ XCall.Ev.response n code ∈ l1) ∧
    XCall.Ev.response n 0 ∉ (run C ops (init b)).x.log := by
  have i := reach_di C hC b ops f
  obtain ⟨_, id, h1, h2⟩ := i.roll src n d h
  obtain ⟨l1, l2, hl⟩ := List.append_of_mem h2
  obtain ⟨ops', hops⟩ := run_sim C ops (init b)
  have hl' : (XCall.run C.X ops' (XCall.init b)).log = l1 ++ .undo n C.self (some (C.enc id d)) :: l2 := by
    rw [← hl, ← hops]; rfl
  obtain ⟨⟨m, net, acct, data, hm, hs⟩, _, ⟨code, hc, hr⟩, hno⟩ := C54_rollback_after_failure C.X b ops' l1 l2 n C.self _ hl'
  have hm : n = m := by omega
  subst hm
  refine ⟨⟨id, h1⟩, ⟨l1, l2, id, net, acct, data, code, hl, hs, hc, hr⟩, ?_⟩
  rw [hl]
  intro hm
  simp only [List.mem_append, List.mem_cons, reduceCtorEq, false_or] at hm
  exact hno (by simpa using hm)

/-- C141: the application's rollbacks never fail. -/
theorem C141_never_fails_partial (hC : Ok C) (b : Nat) (ops : Ops) (f : Foreign C (run C ops (init b)).x) (sn code : Int) (d : Option Bytes)
    (h1 : XCall.Ev.undo sn C.self d ∈ (run C ops (init b)).x.log) (h2 : XCall.Ev.undone sn code ∈ (run C ops (init b)).x.log) : code = 0 :=
  (reach_di C hC b ops f).undone sn code d h1 h2

/-- C141: whenever the call service has enabled the rollback of a call of the application, anybody can run it, and the application reports the
data and number of that call. -/
theorem C141_possible_partial (hC : Ok C) (b : Nat) (ops : Ops) (f : Foreign C (run C ops (init b)).x) (sn : Int) (q : Call)
    (h : (run C ops (init b)).x.reqs sn = some q) (he : q.enabled = true) (hs : q.src = C.self) (inner : Ops) (out : Outcome) :
    ∃ s' id d, ∃ n : Nat, step C (.undo sn inner out) (run C ops (init b)) = some s' ∧ sn = n ∧ q.rollback = some (C.enc id d) ∧
      Ev.sent id d n ∈ (run C ops (init b)).log ∧ s'.log = (run C ops (init b)).log ++ [.rollback (own C) n d] := by
  have i := reach_di C hC b ops f
  generalize run C ops (init b) = s at *
  obtain ⟨n, id, d, rfl, hrb, hlim, hlen, hst⟩ := i.reqs sn q h hs
  have hdec := hC.dec id d hlim hlen
  have hu : undoStart s.x n = some { s.x with reqs := fun k => if k = (n : Int) then none else s.x.reqs k, log := s.x.log ++ [.undo n q.src q.rollback] } := by
    simp [undoStart, h, he]
  have hstd : stored C.X.lang (some (d, n)) = some (d, n) := by cases C.X.lang <;> rfl
  refine ⟨_, id, d, n, by simp only [step, h, hu]; rfl, rfl, hrb, i.rbs id d n hst, ?_⟩
  simp [call, handle, hs, hrb, hdec, hst, hstd]

/-- C141: the messages the application reports are exactly the calls the call service makes for others, without those whose data is
"revertMessage", with the sender's address and the data of the call. -/
theorem C141_messages_partial (hC : Ok C) (b : Nat) (ops : Ops) (f : Foreign C (run C ops (init b)).x) :
    (run C ops (init b)).log.filterMap (fun | .message src data => some (src, data) | _ => none) =
    (run C ops (init b)).x.log.filterMap
      (fun | .call _ r => if C.isSelf r.dst = true ∧ r.data ≠ revertText then some (r.src, r.data) else none | _ => none) := by
  have h := (reach_di C hC b ops f).msgs
  have e1 : msgOf = (fun | .message src data => some (src, data) | _ => none) := by funext e; cases e <;> rfl
  have e2 : callMine C = (fun | .call _ r => if C.isSelf r.dst = true ∧ r.data ≠ revertText then some (r.src, r.data) else none | _ => none) := by
    funext e; cases e <;> rfl
  rw [e1, e2] at h
  exact h

/-- C141: a call of the application fails exactly if its data is "revertMessage". -/
theorem C141_calls_partial (hC : Ok C) (b : Nat) (ops : Ops) (f : Foreign C (run C ops (init b)).x) (id code : Int) (r : Req)
    (h1 : XCall.Ev.call id r ∈ (run C ops (init b)).x.log) (hd : C.isSelf r.dst = true)
    (h2 : XCall.Ev.executed id code ∈ (run C ops (init b)).x.log) : code = 0 ↔ r.data ≠ revertText :=
  (reach_di C hC b ops f).executed id r code h1 hd h2

/-- C141: the application's calls with rollback data are numbered 1, 2, 3, …, have different serial numbers, and each has been given to the
call service with the data under that serial number. -/
theorem C141_sent_partial (hC : Ok C) (b : Nat) (ops : Ops) (f : Foreign C (run C ops (init b)).x) :
    (∃ k, (run C ops (init b)).log.filterMap (fun | .sent id _ _ => some id | _ => none) = (List.range k).map (· + 1)) ∧
    ((run C ops (init b)).log.filterMap (fun | .sent _ _ n => some n | _ => none)).Nodup ∧
    ∀ id d n, Ev.sent id d n ∈ (run C ops (init b)).log → ∃ net acct data, XCall.Ev.sent n C.self net acct data (some (C.enc id d)) ∈ (run C ops (init b)).x.log := by
  have i := reach_di C hC b ops f
  have e1 : sentId = (fun | .sent id _ _ => some id | _ => none) := by funext e; cases e <;> rfl
  have e2 : sentSsn = (fun | .sent _ _ n => some n | _ => none) := by funext e; cases e <;> rfl
  have h1 := i.ids
  have h2 := i.ssns
  rw [e1] at h1
  rw [e2] at h2
  exact ⟨⟨_, h1⟩, h2, fun id d n h => (i.ssn id d n h).2⟩

/-- C141: in every state, whatever the origin of the call: only the call service is listened to; rollback data is accepted only if it is equal to
the data stored under its id (on the EVM, if nothing is stored, only if it is empty), and is reported with the serial number stored. -/
theorem C141_checks (caller src : Str) (data : Bytes) (s s' : St) (h : handle C caller src data s = some s') :
    caller = C.svc ∧
    (src = own C → ∃ id r n, C.dec data = some (id, r) ∧ (s.rbs id = some (r, n) ∨ (C.X.lang = .sol ∧ s.rbs id = none ∧ r = [] ∧ n = 0)) ∧
      s'.rbs id = none ∧ (∀ k, k ≠ id → s'.rbs k = s.rbs k) ∧ s'.log = s.log ++ [.rollback src n r]) ∧
    (src ≠ own C → s'.rbs = s.rbs ∧ s'.log = s.log ++ [.message src data]) := by
  unfold handle at h
  split at h
  · cases h
  rename_i hc
  refine ⟨by simpa using hc, ?_⟩
  split at h
  · rename_i hs
    refine ⟨fun _ => ?_, fun hn => absurd hs hn⟩
    split at h
    · cases h
    · rename_i id r hd
      split at h
      · cases h
      · rename_i b n hst
        split at h
        · rename_i hr
          cases h
          subst hr
          refine ⟨id, r, n, hd, ?_, by simp, fun k hk => by simp [hk], rfl⟩
          unfold stored at hst
          split at hst
          · exact Or.inl hst
          · rename_i hl
            cases hrb : s.rbs id with
            | none => rw [hrb] at hst; simp at hst; exact Or.inr ⟨hl, rfl, by simp [hst.1], by simp [hst.2]⟩
            | some p => rw [hrb] at hst; exact Or.inl hst
        · cases h
  · rename_i hs
    refine ⟨fun hn => absurd hn hs, fun _ => ?_⟩
    split at h
    · cases h
    · cases h; exact ⟨rfl, rfl⟩

/-! ### the data on the EVM -/

theorem foldl_word (n : Nat) : ∀ (k : Nat), k ≤ 32 → ((List.range k).map (fun i => UInt8.ofNat (n / 256 ^ (31 - i)))).foldl
    (fun a c => a * 256 + c.toNat) 0 = n / 256 ^ (32 - k) % 256 ^ k
  | 0, _ => by simp [Nat.mod_one]
  | k + 1, h => by
    rw [List.range_succ, List.map_append, List.foldl_append, foldl_word n k (by omega)]
    simp only [List.map_cons, List.map_nil, List.foldl_cons, List.foldl_nil, UInt8.toNat_ofNat']
    have e : 32 - k = (32 - (k + 1)) + 1 := by omega
    have e' : 31 - k = 32 - (k + 1) := by omega
    rw [e, e', Nat.pow_succ, ← Nat.div_div_eq_div_mul]
    generalize n / 256 ^ (32 - (k + 1)) = m
    rw [show (256 : Nat) ^ (k + 1) = 256 * 256 ^ k by rw [Nat.pow_succ, Nat.mul_comm], Nat.mod_mul]
    have : (2 : Nat) ^ 8 = 256 := by decide
    omega

theorem word_length (n : Nat) : (word n).length = 32 := by simp [word]

theorem word_value (n : Nat) (h : n < 2 ^ 256) : (word n).foldl (fun a c => a * 256 + c.toNat) 0 = n := by
  have := foldl_word n 32 (Nat.le_refl _)
  rw [word, this]
  simp only [Nat.sub_self, Nat.pow_zero, Nat.div_one]
  exact Nat.mod_eq_of_lt (by omega)

theorem wordAt_append (a : Bytes) (n : Nat) (r : Bytes) (h : n < 2 ^ 256) : wordAt (a ++ (word n ++ r)) a.length = n := by
  unfold wordAt
  rw [List.drop_left, List.take_append_of_le_length (by rw [word_length]; omega), List.take_of_length_le (by rw [word_length]; omega)]
  exact word_value n h

/-- C141: what the EVM contract stores with its calls is read back as it was written. -/
theorem C141_abi (id : Nat) (b : Bytes) (h1 : id < 2 ^ 256) (h2 : b.length < 2 ^ 64) : abiDecode (abiEncode id b) = some (id, b) := by
  have hlen : (abiEncode id b).length = 96 + b.length + (32 - b.length % 32) % 32 := by
    simp [abiEncode, word_length]; omega
  have w0 : wordAt (abiEncode id b) 0 = id := by
    have := wordAt_append [] id (word 64 ++ word b.length ++ b ++ List.replicate ((32 - b.length % 32) % 32) 0) h1
    simpa [abiEncode] using this
  have w1 : wordAt (abiEncode id b) 32 = 64 := by
    have := wordAt_append (word id) 64 (word b.length ++ b ++ List.replicate ((32 - b.length % 32) % 32) 0) (by decide)
    rw [word_length] at this
    simpa [abiEncode] using this
  have w2 : wordAt (abiEncode id b) 64 = b.length := by
    have := wordAt_append (word id ++ word 64) b.length (b ++ List.replicate ((32 - b.length % 32) % 32) 0)
      (Nat.lt_trans h2 (by decide))
    rw [List.length_append, word_length, word_length] at this
    simpa [abiEncode] using this
  have w3 : ((abiEncode id b).drop 96).take b.length = b := by
    have e : abiEncode id b = (word id ++ word 64 ++ word b.length) ++ (b ++ List.replicate ((32 - b.length % 32) % 32) 0) := by
      simp [abiEncode]
    rw [e, List.drop_left' (by simp [word_length]), List.take_left]
  unfold abiDecode
  rw [if_neg (by omega)]
  simp only [w1]
  rw [if_neg (by omega)]
  simp only [w2]
  rw [if_neg (by omega)]
  simp only [w0, w3]

/-- What the EVM reads from any data: exactly a part of them of the length told in front of it, at the place told in the second word. -/
theorem C141_abi_reads (d : Bytes) (id : Nat) (b : Bytes) : abiDecode d = some (id, b) ↔
    64 ≤ d.length ∧ id = wordAt d 0 ∧ wordAt d 32 < 2 ^ 64 ∧ b.length = wordAt d (wordAt d 32) ∧ b.length < 2 ^ 64 ∧
      ∃ p q, p.length = wordAt d 32 + 32 ∧ d = p ++ b ++ q := by
  unfold abiDecode
  by_cases h1 : d.length < 64
  · rw [if_pos h1]
    constructor
    · intro h; cases h
    · rintro ⟨h, _⟩; omega
  · rw [if_neg h1]
    dsimp only
    generalize wordAt d 32 = o
    by_cases h2 : 2 ^ 64 ≤ o ∨ d.length ≤ o + 31
    · rw [if_pos h2]
      constructor
      · intro h; cases h
      · rintro ⟨_, _, h3, _, _, p, q, hp, hd⟩
        have := congrArg List.length hd
        simp only [List.length_append] at this
        omega
    · rw [if_neg h2]
      by_cases h3 : 2 ^ 64 ≤ wordAt d o ∨ d.length < o + 32 + wordAt d o
      · rw [if_pos h3]
        constructor
        · intro h; cases h
        · rintro ⟨_, _, _, hb, hb2, p, q, hp, hd⟩
          have := congrArg List.length hd
          simp only [List.length_append] at this
          omega
      · rw [if_neg h3]
        constructor
        · intro h
          cases h
          have hl : ((d.drop (o + 32)).take (wordAt d o)).length = wordAt d o := by
            rw [List.length_take, List.length_drop]; omega
          refine ⟨by omega, rfl, by omega, hl, by omega, d.take (o + 32), (d.drop (o + 32)).drop (wordAt d o), ?_, ?_⟩
          · rw [List.length_take]; omega
          · rw [List.append_assoc, List.take_append_drop, List.take_append_drop]
        · rintro ⟨_, rfl, _, hb, _, p, q, hp, hd⟩
          have : (d.drop (o + 32)).take (wordAt d o) = b := by
            rw [← hb]
            generalize wordAt d o = w at *
            rw [hd, List.append_assoc, ← hp, List.drop_left, List.take_left]
          rw [this]

/-- The contract on the EVM meets the assumptions above. -/
theorem C141_evm_ok (C : Cfg) (h1 : '/' ∉ C.net) (h2 : '/' ∉ C.svc) (hl : C.X.lang = .sol) (he : C.enc = abiEncode) (hd : C.dec = abiDecode) :
    Ok C where
  net := h1
  svc := h2
  dec := by
    intro id b hid hlen
    rw [he, hd]
    rw [he] at hlen
    refine C141_abi id b (hid hl) ?_
    have : b.length ≤ (abiEncode id b).length := by simp [abiEncode]; omega
    have h3 : b.length ≤ 1024 := Nat.le_trans this hlen
    exact Nat.lt_of_le_of_lt h3 (by decide)
  ne := by
    intro id b h
    rw [he] at h
    have : (abiEncode id b).length = 0 := by rw [h]; rfl
    simp [abiEncode, word_length] at this

/-! ### examples -/

namespace Demo

def xc : XCall.Cfg := ⟨.sol, ['b'], ['o']⟩
/-- EVM chain "e", call service "x", application "d". -/
def cfg : Cfg where
  X := xc
  self := ['d']
  isSelf := fun a => decide (a = ['d'])
  net := ['e']
  svc := ['x']
  enc := abiEncode
  dec := abiDecode

def to : Str := "btp://i/p".toList
def open2 : List Op := [.send to [1] (some [7, 7]) 0 (some 0) (some 1), .send to [2] (some [8]) 0 (some 0) (some 1)]
def ops : List Op → Ops
  | [] => .nil
  | o :: t => .cons o (ops t)
/-- Call 1 fails and is rolled back, call 2 succeeds; then a message and a message that is refused. -/
def hist : Ops := ops (open2 ++ [.base (.message ['b'] ['i'] name 0 (.res 1 (-1))), .base (.message ['b'] ['i'] name 0 (.res 2 0)),
  .undo 1 .nil .ok, .undo 1 .nil .ok,
  .base (.message ['b'] ['i'] name 0 (.req ⟨['p'], ['d'], 5, true, [4, 4]⟩)), .exec 1 .nil .failed (some 1),
  .base (.message ['b'] ['i'] name 0 (.req ⟨['p'], ['d'], 6, true, revertText⟩)), .exec 2 .nil .ok (some 1)])

example : Ok cfg := C141_evm_ok cfg (by decide) (by decide) rfl rfl rfl

example : (run cfg hist (init 0)).log = [.sent 1 [7, 7] 1, .sent 2 [8] 2, .rollback "btp://e/x".toList 1 [7, 7],
      .message "btp://i/p".toList [4, 4]] ∧
    (run cfg hist (init 0)).x.log.filterMap (fun | .undone sn c => some (sn, c) | .executed id c => some (id, c) | _ => none) =
      [(1, 0), (1, 0), (2, -1)] ∧
    (run cfg hist (init 0)).x.log.all (fun | .received _ net _ => decide (net ≠ cfg.net) | _ => true) = true := by decide +kernel

/-- C141 is false if a message can name this network as its origin: a call "from the call service" with the data of an open call makes the
application report a rollback, although nothing failed; when the call then does fail, its rollback fails. -/
def forged : Ops := ops (open2 ++ [.base (.message ['b'] ['e'] name 0 (.req ⟨['x'], ['d'], 5, false, abiEncode 1 [7, 7]⟩)),
  .exec 1 .nil .ok none, .base (.message ['b'] ['i'] name 0 (.res 1 (-1))), .undo 1 .nil .ok])

theorem C141_forged_witness : (run cfg forged (init 0)).log = [.sent 1 [7, 7] 1, .sent 2 [8] 2, .rollback "btp://e/x".toList 1 [7, 7]] ∧
    (run cfg forged (init 0)).x.log.filterMap (fun | .call _ r => some (r.sn, 0) | .response sn _ => some (sn, 1) | .undone sn c => some (sn, c) | _ => none) =
      [(5, 0), (1, 1), (1, -1)] := by decide +kernel

/-- On the EVM such a message also makes it report a rollback that nobody ever sent, with serial number 0. -/
theorem C141_forged_empty_witness : (run cfg (ops [.base (.message ['b'] ['e'] name 0 (.req ⟨['x'], ['d'], 5, false, abiEncode 9 []⟩)),
    .exec 1 .nil .ok none]) (init 0)).log = [.rollback "btp://e/x".toList 0 []] := by decide +kernel

/-- The data of a call that succeeded stays stored for ever. -/
theorem C141_kept_witness : (run cfg hist (init 0)).rbs 1 = none ∧ (run cfg hist (init 0)).rbs 2 = some ([8], 2) ∧
    (run cfg hist (init 0)).x.reqs 2 = none := by decide +kernel

end Demo

end Verif.DApp
