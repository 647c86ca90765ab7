import Verif.XCallInv
/-!
C53, C54, C55, C77, C78, C79: one call service, every history of calls, with re-entrant contracts.
-/
namespace Verif.XCall
open Verif Verif.BtpAddress

theorem reach (C : Cfg) (b : Nat) (ops : Ops) : Inv2 C (run C ops (init b)) := run_inv2 C ops _ (init_inv2 C b)

/-- C53: in every history no request runs its target twice, also if the target calls back. -/
theorem C53_executed_once (C : Cfg) (b : Nat) (ops : Ops) (l1 l2 l3 : List Ev) (id : Int) (r r' : Req)
    (h : (run C ops (init b)).log = l1 ++ .call id r :: l2 ++ .call id r' :: l3) : False := by
  have hn := (reach C b ops).inv.calls
  rw [h] at hn
  simp [List.nodup_append, callId] at hn

/-- C53: a target is run only for a request the message center delivered before, with its content. -/
theorem C53_executed_received (C : Cfg) (b : Nat) (ops : Ops) (l1 l2 : List Ev) (id : Int) (r : Req)
    (h : (run C ops (init b)).log = l1 ++ .call id r :: l2) :
    ∃ (n : Nat) (net : Str) (q : Req), id = n ∧ Ev.received n net q ∈ l1 ∧
      r.src = solCompose net q.src ∧ r.dst = q.dst ∧ r.sn = q.sn ∧ r.rb = q.rb ∧ r.data = q.data := by
  obtain ⟨⟨n, net, q, h1, h2, rfl⟩, _⟩ := (reach C b ops).good.just _ _ _ h
  exact ⟨n, net, q, h1, h2, rfl, rfl, rfl, rfl, rfl⟩

/-- C53: the requests received are numbered 1, 2, 3, … in the order of arrival. -/
theorem C53_ids (C : Cfg) (b : Nat) (ops : Ops) :
    ∃ k, (run C ops (init b)).log.filterMap (fun | .received id _ _ => some id | _ => none) = (List.range k).map (· + 1) := by
  have h := (reach C b ops).inv.recv
  refine ⟨(run C ops (init b)).reqId, ?_⟩
  rw [show (List.range (run C ops (init b)).reqId).map (· + 1) = upTo (run C ops (init b)).reqId from rfl, ← h]
  rfl

/-- C53: the result of a call is reported at most once. -/
theorem C53_one_result (C : Cfg) (b : Nat) (ops : Ops) (l1 l2 l3 : List Ev) (id c c' : Int)
    (h : (run C ops (init b)).log = l1 ++ .executed id c :: l2 ++ .executed id c' :: l3) : False := by
  obtain ⟨_, hj⟩ := (reach C b ops).good.just _ _ _ h
  exact hj (mem_execId.mpr ⟨c, by simp⟩)

/-- C53: the code reported is 0 exactly if the target ended without a revert. -/
theorem C53_code (l : Lang) (o : Outcome) : respCode l o = 0 ↔ o = .ok := by
  cases o with
  | ok => simp [respCode]
  | failed => simp [respCode]
  | userReverted c =>
    cases l
    · simp only [respCode, reduceCtorEq, iff_false]
      split <;> omega
    · simp [respCode]

/-- C54: no rollback is run twice. -/
theorem C54_rollback_once (C : Cfg) (b : Nat) (ops : Ops) (l1 l2 l3 : List Ev) (sn : Int) (d d' : Str) (x x' : Option Bytes)
    (h : (run C ops (init b)).log = l1 ++ .undo sn d x :: l2 ++ .undo sn d' x' :: l3) : False := by
  have hn := (reach C b ops).inv.undos
  rw [h] at hn
  simp [List.nodup_append, undoSn] at hn

/-- C54: a rollback is run only for a call sent before with rollback data; it goes to the caller with that data; a failure was
    reported before, and success neither before nor ever after. -/
theorem C54_rollback_after_failure (C : Cfg) (b : Nat) (ops : Ops) (l1 l2 : List Ev) (sn : Int) (dst : Str) (data : Option Bytes)
    (h : (run C ops (init b)).log = l1 ++ .undo sn dst data :: l2) :
    (∃ (n : Nat) (net acct : Str) (d : Bytes), sn = n ∧ Ev.sent n dst net acct d data ∈ l1) ∧
    (∃ x, data = some x ∧ (C.lang = .sol → x ≠ [])) ∧
    (∃ code, code ≠ 0 ∧ Ev.response sn code ∈ l1) ∧
    Ev.response sn 0 ∉ l1 ++ l2 := by
  obtain ⟨h1, h2, h3, _, _⟩ := (reach C b ops).good.just _ _ _ h
  have h5 := ((reach C b ops).inv.undo sn dst data (by rw [h]; simp)).2.2.2.1
  refine ⟨h1, ?_, h3, ?_⟩
  · cases data with
    | none => cases hl : C.lang <;> simp [hl, present] at h2
    | some x =>
      refine ⟨x, rfl, fun hl hx => ?_⟩
      simp [hl, present, hx] at h2
  · intro hm
    apply h5
    unfold Succeeded
    rw [h]
    simp only [List.mem_append, List.mem_cons] at hm ⊢
    exact hm.imp id Or.inr

/-- C54: a success is reported at most once, only for a call sent before with rollback data, and never after a rollback. -/
theorem C54_response (C : Cfg) (b : Nat) (ops : Ops) (l1 l2 : List Ev) (sn code : Int)
    (h : (run C ops (init b)).log = l1 ++ .response sn code :: l2) :
    (∃ (n : Nat) (c net acct : Str) (d : Bytes) (rb : Bytes), sn = n ∧ Ev.sent n c net acct d (some rb) ∈ l1) ∧
    Ev.response sn 0 ∉ l1 ∧ ∀ d x, Ev.undo sn d x ∉ l1 := by
  obtain ⟨⟨n, c, net, a, d, rb, h1, h2, h3⟩, h4, h5⟩ := (reach C b ops).good.just _ _ _ h
  refine ⟨?_, h4, fun d x hm => h5 (mem_undoSn.mpr ⟨d, x, hm⟩)⟩
  cases rb with
  | none => cases hl : C.lang <;> simp [hl, present] at h3
  | some x => exact ⟨n, c, net, a, d, x, h1, h2⟩

/-- C54: calls sent are numbered 1, 2, 3, … in order. -/
theorem C54_sns (C : Cfg) (b : Nat) (ops : Ops) :
    ∃ k, (run C ops (init b)).log.filterMap (fun | .sent sn _ _ _ _ _ => some sn | _ => none) = (List.range k).map (· + 1) := by
  have h := (reach C b ops).inv.sents
  refine ⟨(run C ops (init b)).sn, ?_⟩
  rw [show (List.range (run C ops (init b)).sn).map (· + 1) = upTo (run C ops (init b)).sn from rfl, ← h]
  rfl

/-! ### C55: the network of a response is not looked at -/

/-- C55 is false: whatever call is pending, a response from whatever network settles it, and does what the response of the
    called network would do. -/
theorem C55_any_network (C : Cfg) (s : St) (sn : Nat) (c : Call) (h : s.reqs sn = some c) (hp : present C.lang c.rollback = true)
    (net : Str) (n : Int) :
    (∃ s', step C (.message C.bmc net name n (.res sn 0)) s = some s' ∧ s'.reqs sn = none) ∧
    (∀ code, code ≠ 0 → ∃ s', step C (.message C.bmc net name n (.res sn code)) s = some s' ∧
      s'.reqs sn = some { c with enabled := true } ∧ ∃ s'', step C (.undo sn .nil .ok) s' = some s'' ∧ Ev.undo sn c.src c.rollback ∈ s''.log) := by
  have hn : ¬ ((C.lang = .sol) ∧ ((sn : Int) < 0)) := by omega
  constructor
  · refine ⟨{ s with reqs := fun k => if k = (sn : Int) then none else s.reqs k, log := s.log ++ [.response sn 0] }, ?_, by simp⟩
    simp only [step, message, ne_eq, not_true, if_false, if_neg hn, handleResponse, h, if_true]
  · intro code hc
    generalize hs : ({ s with
        reqs := fun k => if k = (sn : Int) then some { c with enabled := true } else s.reqs k
        log := s.log ++ [.response sn code] } : St) = s1
    have h1 : s1.reqs sn = some { c with enabled := true } := by subst hs; simp
    refine ⟨s1, ?_, h1, ?_⟩
    · simp only [step, message, ne_eq, not_true, if_false, if_neg hn, handleResponse, h, if_neg hc, hp, Bool.true_eq_false, ← hs]
    · simp only [step, undoStart, h1, Bool.true_eq_false, if_false, committed, run, if_true]
      exact ⟨_, rfl, by simp⟩

/-! ### C78: who may do what -/

mutual
/-- Every call of a function for the message center is by one of `P`, every call of a function for the admin or the owner by one
    of `Q`, also nested ones. -/
def By (P Q : Str → Prop) : Op → Prop
  | .send _ _ _ _ _ _ _ _ => True
  | .exec _ inner _ _ => ByAll P Q inner
  | .undo _ inner _ => ByAll P Q inner
  | .message caller _ _ _ _ => P caller
  | .error caller _ _ _ _ => P caller
  | .setAdmin caller _ => Q caller
  | .setHandler caller _ => Q caller
  | .setFee caller _ => Q caller
def ByAll (P Q : Str → Prop) : Ops → Prop
  | .nil => True
  | .cons op t => By P Q op ∧ ByAll P Q t
end

/-- Events only the message center causes. -/
def fromBmc : Ev → Bool
  | .received _ _ _ | .response _ _ => true
  | _ => false

/-- No request or response is taken, and the admin, the fee and its handler stay. -/
def Same (bmc adm : Prop) (s s' : St) : Prop :=
  (bmc → ∃ x, s'.log = s.log ++ x ∧ ∀ e ∈ x, fromBmc e = false) ∧ (adm → s'.admin = s.admin ∧ s'.fee = s.fee ∧ s'.handler = s.handler)

theorem Same.refl (b a : Prop) (s : St) : Same b a s s := ⟨fun _ => ⟨[], by simp, by simp⟩, fun _ => ⟨rfl, rfl, rfl⟩⟩

theorem Same.trans {b a : Prop} {s s1 s2 : St} (h : Same b a s s1) (h' : Same b a s1 s2) : Same b a s s2 := by
  refine ⟨fun hb => ?_, fun ha => ?_⟩
  · obtain ⟨x, e, f⟩ := h.1 hb
    obtain ⟨y, e', f'⟩ := h'.1 hb
    refine ⟨x ++ y, by rw [e', e, List.append_assoc], fun v hv => ?_⟩
    exact (List.mem_append.mp hv).elim (f v) (f' v)
  · obtain ⟨a1, a2, a3⟩ := h.2 ha
    obtain ⟨b1, b2, b3⟩ := h'.2 ha
    exact ⟨b1.trans a1, b2.trans a2, b3.trans a3⟩

theorem Same.of {b a : Prop} {s s' : St} {x : List Ev} (h : s'.log = s.log ++ x) (hx : ∀ e ∈ x, fromBmc e = false)
    (h1 : s'.admin = s.admin) (h2 : s'.fee = s.fee) (h3 : s'.handler = s.handler) : Same b a s s' :=
  ⟨fun _ => ⟨x, h, hx⟩, fun _ => ⟨h1, h2, h3⟩⟩

theorem response_same {C : Cfg} {s s' : St} {sn code : Int} (hk : handleResponse C s sn code = some s') :
    s'.admin = s.admin ∧ s'.fee = s.fee ∧ s'.handler = s.handler := by
  rcases response_ok hk with ⟨_, rfl⟩ | ⟨c, hc, rfl⟩ <;> exact ⟨rfl, rfl, rfl⟩

mutual
theorem step_same (C : Cfg) (P Q : Str → Prop) : ∀ (op : Op) (s s' : St), By P Q op → step C op s = some s' →
    Same (¬ P C.bmc) (¬ Q C.owner ∧ ¬ Q (adminOf C s)) s s'
  | .send caller isC to data rb value fee nsn, s, s', _, hk => by
    simp only [step] at hk
    obtain ⟨net, acct, f, s1, _, _, _, _, _, _, hp, ht⟩ := send_ok hk
    obtain ⟨l, e1, hl⟩ := payFee_ok hp
    obtain ⟨_, _, e2⟩ := sendTail_ok ht
    refine Same.trans (s1 := s1) ?_ ?_
    · refine .of (x := l) (by rw [e1]) ?_ (by rw [e1]) (by rw [e1]) (by rw [e1])
      rcases hl with ⟨_, rfl, _⟩ | ⟨_, _, _, h, _, rfl⟩ <;> simp [fromBmc]
    · exact .of (by rw [e2]) (by simp [fromBmc]) (by rw [e2]) (by rw [e2]) (by rw [e2])
  | .exec id inner out nsn, s, s', hb, hk => by
    simp only [By] at hb
    simp only [step] at hk
    split at hk
    · cases hk
    · rename_i r net s1 hs
      obtain ⟨_, _, e1⟩ := execStart_ok hs
      have h1 : ∀ a b, Same a b s s1 := fun a b => .of (by rw [e1]) (by simp [fromBmc]) (by rw [e1]) (by rw [e1]) (by rw [e1])
      have ha : adminOf C s1 = adminOf C s := by rw [e1]; rfl
      have h2 : Same (¬ P C.bmc) (¬ Q C.owner ∧ ¬ Q (adminOf C s)) s1 (if committed out = true then run C inner s1 else s1) := by
        split
        · rw [← ha]; exact run_same C P Q inner s1 hb
        · exact .refl _ _ _
      generalize (if committed out = true then run C inner s1 else s1) = s2 at hk h2
      refine (h1 _ _).trans (h2.trans ?_)
      rcases execEnd_ok hk with ⟨_, e⟩ | ⟨n, _, _, e⟩
      · exact .of (by rw [e]) (by simp [fromBmc]) (by rw [e]) (by rw [e]) (by rw [e])
      · exact .of (by rw [e]) (by simp [fromBmc]) (by rw [e]) (by rw [e]) (by rw [e])
  | .undo sn inner out, s, s', hb, hk => by
    simp only [By] at hb
    simp only [step] at hk
    split at hk
    · cases hk
    · rename_i s1 hs
      obtain ⟨c, _, _, e1⟩ := undoStart_ok hs
      have h1 : ∀ a b, Same a b s s1 := fun a b => .of (by rw [e1]) (by simp [fromBmc]) (by rw [e1]) (by rw [e1]) (by rw [e1])
      have ha : adminOf C s1 = adminOf C s := by rw [e1]; rfl
      have h2 : Same (¬ P C.bmc) (¬ Q C.owner ∧ ¬ Q (adminOf C s)) s1 (if committed out = true then run C inner s1 else s1) := by
        split
        · rw [← ha]; exact run_same C P Q inner s1 hb
        · exact .refl _ _ _
      generalize (if committed out = true then run C inner s1 else s1) = s2 at hk h2
      cases hk
      exact (h1 _ _).trans (h2.trans (.of rfl (by simp [fromBmc]) rfl rfl rfl))
  | .message caller net svc sn m, s, s', hb, hk => by
    simp only [By] at hb
    simp only [step] at hk
    obtain ⟨h1, _, hq⟩ := message_ok hk
    refine ⟨fun hn => absurd (h1 ▸ hb) hn, fun _ => ?_⟩
    rcases hq with ⟨r, _, _, h⟩ | ⟨sn, code, _, _, h⟩
    · rw [handleRequest_ok h]; exact ⟨rfl, rfl, rfl⟩
    · exact response_same h
  | .error caller net svc sn code, s, s', hb, hk => by
    simp only [By] at hb
    simp only [step] at hk
    obtain ⟨h1, _, hq⟩ := error_ok hk
    exact ⟨fun hn => absurd (h1 ▸ hb) hn, fun _ => response_same hq⟩
  | .setAdmin caller a, s, s', hb, hk => by
    simp only [By] at hb
    simp only [step] at hk
    split at hk
    · cases hk
    · rename_i hc
      cases hk
      have hc : caller = C.owner := by simpa using hc
      exact ⟨fun _ => ⟨[], by simp, by simp⟩, fun hn => absurd (hc ▸ hb) hn.1⟩
  | .setHandler caller a, s, s', hb, hk => by
    simp only [By] at hb
    simp only [step] at hk
    obtain ⟨hc, l, e, hl⟩ := setHandler_ok hk
    refine ⟨fun _ => ⟨l, by rw [e], ?_⟩, fun hn => absurd (hc ▸ hb) hn.2⟩
    rcases hl with ⟨rfl, _⟩ | ⟨h, _, rfl, _⟩ <;> simp [fromBmc]
  | .setFee caller v, s, s', hb, hk => by
    simp only [By] at hb
    simp only [step] at hk
    split at hk
    · cases hk
    · rename_i hc
      cases hk
      have hc : caller = adminOf C s := by simpa using hc
      exact ⟨fun _ => ⟨[], by simp, by simp⟩, fun hn => absurd (hc ▸ hb) hn.2⟩
theorem run_same (C : Cfg) (P Q : Str → Prop) : ∀ (ops : Ops) (s : St), ByAll P Q ops →
    Same (¬ P C.bmc) (¬ Q C.owner ∧ ¬ Q (adminOf C s)) s (run C ops s)
  | .nil, s, _ => .refl _ _ _
  | .cons op t, s, hb => by
    simp only [ByAll] at hb
    simp only [run]
    cases hs : step C op s with
    | none => exact run_same C P Q t s hb.2
    | some s' =>
      have h1 := step_same C P Q op s s' hb.1 hs
      have h2 := run_same C P Q t s' hb.2
      refine ⟨fun hn => ?_, fun hn => ?_⟩
      · obtain ⟨x, e, f⟩ := h1.1 hn
        obtain ⟨y, e', f'⟩ := h2.1 hn
        refine ⟨x ++ y, by rw [e', e, List.append_assoc], fun v hv => ?_⟩
        exact (List.mem_append.mp hv).elim (f v) (f' v)
      · obtain ⟨a1, a2, a3⟩ := h1.2 hn
        have ha : adminOf C s' = adminOf C s := by unfold adminOf; rw [a1]
        obtain ⟨b1, b2, b3⟩ := h2.2 (by rw [ha]; exact hn)
        exact ⟨b1.trans a1, b2.trans a2, b3.trans a3⟩
end

/-- C78: whatever others than the owner and the admin call, and whatever contracts they make the service call, the admin, the
    protocol fee and its handler stay. -/
theorem C78_admin_only (C : Cfg) (Q : Str → Prop) (ops : Ops) (s : St) (h : ByAll (fun _ => True) Q ops) (ho : ¬ Q C.owner)
    (ha : ¬ Q (adminOf C s)) :
    (run C ops s).admin = s.admin ∧ (run C ops s).fee = s.fee ∧ (run C ops s).handler = s.handler :=
  (run_same C _ Q ops s h).2 ⟨ho, ha⟩

/-- C78: whatever others than the message center call, no request is received and no call is settled. -/
theorem C78_center_only (C : Cfg) (P : Str → Prop) (ops : Ops) (s : St) (h : ByAll P (fun _ => True) ops) (hb : ¬ P C.bmc) :
    ∃ x, (run C ops s).log = s.log ++ x ∧ ∀ e ∈ x, (∀ id net r, e ≠ .received id net r) ∧ ∀ sn code, e ≠ .response sn code := by
  obtain ⟨x, h1, h2⟩ := (run_same C P _ ops s h).1 hb
  refine ⟨x, h1, fun e he => ⟨?_, ?_⟩⟩
  · rintro id net r rfl; exact absurd (h2 _ he) (by simp [fromBmc])
  · rintro sn code rfl; exact absurd (h2 _ he) (by simp [fromBmc])

/-- C78: messages for other services are refused. -/
theorem C78_service (C : Cfg) (s : St) (caller net svc : Str) (sn code : Int) (m : Msg) (h : svc ≠ name) :
    step C (.message caller net svc sn m) s = none ∧ step C (.error caller net svc sn code) s = none := by
  simp only [step, message, error, if_pos h, ite_self, and_self]

/-! ### C77: coins -/

def outVal : Ev → Nat
  | .out _ _ _ v => v
  | .paid _ v => v
  | _ => 0

def spent (l : List Ev) : Nat := (l.map outVal).sum

theorem spent_append (a b : List Ev) : spent (a ++ b) = spent a + spent b := by simp [spent]

mutual
/-- Coins sent along with the calls that did not revert. -/
def gained (C : Cfg) : Op → St → Nat
  | .send caller isC to data rb value fee nsn, s => if (send C s caller isC to data rb value fee nsn).isSome then value else 0
  | .exec id inner out nsn, s =>
    match execStart C s id with
    | none => 0
    | some (r, net, s1) =>
      if committed out = true then
        if (execEnd C (run C inner s1) id r net out nsn).isSome then gainedAll C inner s1 else 0
      else 0
  | .undo sn inner out, s =>
    match undoStart s sn with
    | none => 0
    | some s1 => if committed out = true then gainedAll C inner s1 else 0
  | .message _ _ _ _ _, _ => 0
  | .error _ _ _ _ _, _ => 0
  | .setAdmin _ _, _ => 0
  | .setHandler _ _, _ => 0
  | .setFee _ _, _ => 0
def gainedAll (C : Cfg) : Ops → St → Nat
  | .nil, _ => 0
  | .cons op t, s =>
    match step C op s with
    | none => gainedAll C t s
    | some s' => gained C op s + gainedAll C t s'
end

theorem response_coins {C : Cfg} {s s' : St} {sn code : Int} (hk : handleResponse C s sn code = some s') :
    s'.bal + spent s'.log = s.bal + spent s.log := by
  rcases response_ok hk with ⟨_, rfl⟩ | ⟨c, hc, rfl⟩
  · rfl
  · simp [spent, outVal]

theorem execEnd_coins {C : Cfg} {s s' : St} {id : Int} {r : Req} {net : Str} {out : Outcome} {nsn : Option Int}
    (hk : execEnd C s id r net out nsn = some s') : s'.bal + spent s'.log = s.bal + spent s.log := by
  rcases execEnd_ok hk with ⟨_, rfl⟩ | ⟨n, _, _, rfl⟩ <;> simp [spent, outVal]

theorem payFee_coins {s s1 : St} (hp : payFee s = some s1) : s1.bal + spent s1.log = s.bal + spent s.log := by
  obtain ⟨l, e1, hl⟩ := payFee_ok hp
  have hlg : s1.log = s.log ++ l := by rw [e1]
  rw [hlg, spent_append]
  rcases hl with ⟨hb, rfl, _⟩ | ⟨hle, hb, _, w, _, rfl⟩
  · rw [hb]; simp [spent]
  · rw [hb]; simp [spent, outVal]; omega

theorem sendTail_coins {C : Cfg} {s s' : St} {caller to net acct : Str} {data : Bytes} {rb : Option Bytes} {value : Nat}
    {nsn : Option Int} (ht : sendTail C s caller to net acct data rb value nsn = some s') :
    s'.bal + spent s'.log = s.bal + spent s.log := by
  obtain ⟨_, hle, e⟩ := sendTail_ok ht
  rw [e]
  simp [spent, outVal]
  omega

mutual
theorem step_coins (C : Cfg) : ∀ (op : Op) (s s' : St), step C op s = some s' →
    s'.bal + spent s'.log = s.bal + spent s.log + gained C op s
  | .send caller isC to data rb value fee nsn, s, s', hk => by
    simp only [step] at hk
    have hg : gained C (.send caller isC to data rb value fee nsn) s = value := by simp [gained, hk]
    obtain ⟨net, acct, f, s1, _, _, _, _, _, _, hp, ht⟩ := send_ok hk
    rw [hg, sendTail_coins ht, payFee_coins hp]
    simp only
    omega
  | .exec id inner out nsn, s, s', hk => by
    simp only [step] at hk
    split at hk
    · cases hk
    · rename_i r net s1 hs
      simp only [gained, hs]
      have e1 := (execStart_ok hs).2.2
      have h1 : s1.bal + spent s1.log = s.bal + spent s.log := by rw [e1]; simp [spent, outVal]
      cases hc : committed out
      · simp only [hc, Bool.false_eq_true, if_false] at hk ⊢
        rw [execEnd_coins hk, h1]; rfl
      · simp only [hc, if_true] at hk ⊢
        simp only [hk, Option.isSome_some, if_true]
        rw [execEnd_coins hk, run_coins C inner s1, h1]
  | .undo sn inner out, s, s', hk => by
    simp only [step] at hk
    split at hk
    · cases hk
    · rename_i s1 hs
      simp only [gained, hs]
      obtain ⟨c, _, _, e1⟩ := undoStart_ok hs
      have h1 : s1.bal + spent s1.log = s.bal + spent s.log := by rw [e1]; simp [spent, outVal]
      cases hk
      have h0 : spent [Ev.undone sn (respCode C.lang out)] = 0 := rfl
      rw [spent_append, h0]
      cases hc : committed out
      · simp only [Bool.false_eq_true, if_false, Nat.add_zero]; exact h1
      · simp only [if_true, Nat.add_zero]; rw [run_coins C inner s1, h1]
  | .message caller net svc sn m, s, s', hk => by
    simp only [step] at hk
    simp only [gained, Nat.add_zero]
    obtain ⟨_, _, ⟨r, _, _, h⟩ | ⟨sn, code, _, _, h⟩⟩ := message_ok hk
    · rw [handleRequest_ok h]; simp [spent, outVal]
    · exact response_coins h
  | .error caller net svc sn code, s, s', hk => by
    simp only [step] at hk
    simp only [gained, Nat.add_zero]
    exact response_coins (error_ok hk).2.2
  | .setAdmin caller a, s, s', hk => by
    simp only [step] at hk
    split at hk
    · cases hk
    · cases hk; rfl
  | .setHandler caller a, s, s', hk => by
    simp only [step] at hk
    simp only [gained, Nat.add_zero]
    obtain ⟨_, l, e, hl⟩ := setHandler_ok hk
    have hlg : s'.log = s.log ++ l := by rw [e]
    rw [hlg, spent_append]
    rcases hl with ⟨rfl, hb⟩ | ⟨h, _, rfl, hb⟩
    · rw [hb]; simp [spent]
    · rw [hb]; simp [spent, outVal]; omega
  | .setFee caller v, s, s', hk => by
    simp only [step] at hk
    split at hk
    · cases hk
    · cases hk; rfl
theorem run_coins (C : Cfg) : ∀ (ops : Ops) (s : St),
    (run C ops s).bal + spent (run C ops s).log = s.bal + spent s.log + gainedAll C ops s
  | .nil, s => by simp [run, gainedAll]
  | .cons op t, s => by
    simp only [run, gainedAll]
    cases hs : step C op s with
    | none => exact run_coins C t s
    | some s' =>
      simp only
      rw [run_coins C t s', step_coins C op s s' hs]
      omega
end

/-- C77: in every history the coins that came in are those passed to the message center, those paid to fee handlers and the
    balance. -/
theorem C77_conservation (C : Cfg) (b : Nat) (ops : Ops) :
    b + gainedAll C ops (init b) =
      ((run C ops (init b)).log.map (fun | .out _ _ _ v => v | _ => 0)).sum + ((run C ops (init b)).log.map (fun | .paid _ v => v | _ => 0)).sum +
      (run C ops (init b)).bal := by
  have h := run_coins C ops (init b)
  have hsp : ∀ l : List Ev, spent l = (l.map (fun | .out _ _ _ v => v | _ => 0)).sum + (l.map (fun | .paid _ v => v | _ => 0)).sum := by
    intro l
    induction l with
    | nil => rfl
    | cons e t ih =>
      simp only [spent, List.map_cons, List.sum_cons] at ih ⊢
      rw [ih]
      cases e <;> simp [outVal] <;> omega
  rw [hsp] at h
  have h0 : spent (init b).log = 0 := rfl
  rw [h0] at h
  have h1 : (init b).bal = b := rfl
  rw [h1] at h
  omega

/-- C77: a call that is sent passes to the message center what is left of its coins after the protocol fee, at least the fee it
    asks for; the protocol fee goes to the handler, or stays if there is none. -/
theorem C77_send_fees (C : Cfg) (s s' : St) (caller to : Str) (isC : Bool) (data : Bytes) (rb : Option Bytes) (value : Nat)
    (f : Option Nat) (nsn : Option Int) (h : step C (.send caller isC to data rb value f nsn) s = some s') :
    ∃ net acct sn m fee l, parse C.lang to = some (net, acct) ∧ f = some fee ∧ s.fee + fee ≤ value ∧
      s'.log = s.log ++ l ++ [.out net sn m (value - s.fee), .sent (s.sn + 1) caller net acct data (if present C.lang rb = true then rb else none)] ∧
      ((s.handler = none ∧ l = [] ∧ s'.bal = s.bal + s.fee) ∨
       (∃ w, s.handler = some w ∧ s'.bal = s.bal ∧ l = (if s.fee = 0 then [] else [.paid w s.fee]))) := by
  simp only [step] at h
  obtain ⟨net, acct, fee, s1, h1, h2, h3, _, _, _, hp, ht⟩ := send_ok h
  obtain ⟨l, e1, hl⟩ := payFee_ok hp
  obtain ⟨_, _, e2⟩ := sendTail_ok ht
  have f1 : s1.fee = s.fee := by rw [e1]
  have f2 : s1.log = s.log ++ l := by rw [e1]
  have f3 : s1.sn = s.sn := by rw [e1]
  refine ⟨net, acct, _, _, fee, l, h1, h2, h3, by rw [e2, f1, f2, f3], ?_⟩
  have hb : s'.bal = s1.bal - (value - s.fee) := by rw [e2, f1]
  rw [hb]
  rcases hl with ⟨b1, rfl, b2 | b2⟩ | ⟨b1, b2, b3, w, b4, rfl⟩
  · refine Or.inl ⟨b2, rfl, ?_⟩
    rw [b1]; simp only; omega
  · simp only at b2
    cases hh : s.handler with
    | none =>
      refine Or.inl ⟨rfl, rfl, ?_⟩
      rw [b1]; simp only; omega
    | some w =>
      refine Or.inr ⟨w, rfl, ?_, by rw [if_pos b2]⟩
      rw [b1]; simp only; omega
  · simp only at b1 b2 b3 b4
    refine Or.inr ⟨w, b4, ?_, by rw [if_neg b3]⟩
    rw [b2]; omega

/-- C77: a call that pays both fees, within the sizes, to a proper address, is sent if the message center takes it: the service
    never lacks the coins. -/
theorem C77_send_succeeds (C : Cfg) (s : St) (caller to net acct : Str) (data : Bytes) (rb : Option Bytes) (value fee : Nat) (n : Int)
    (hp : parse C.lang to = some (net, acct)) (hn : C.lang = .java → ':' ∉ net) (hv : s.fee + fee ≤ value) (hd : data.length ≤ 2048)
    (hr : (rb.getD []).length ≤ 1024) (hs : s.sn + 1 < 2 ^ 256) :
    ∃ s', step C (.send caller true to data rb value (some fee) (some n)) s = some s' := by
  have hb : badNet C.lang net = false := by
    cases hl : C.lang with
    | sol => rfl
    | java => simpa [badNet] using hn hl
  have hpay : ∃ s1, payFee { s with bal := s.bal + value } = some s1 := by
    unfold payFee
    split
    · exact ⟨_, rfl⟩
    · split
      · exact ⟨_, rfl⟩
      · split
        · rename_i h; simp only at h; omega
        · exact ⟨_, rfl⟩
  obtain ⟨s1, hpay⟩ := hpay
  obtain ⟨l, e1, hl⟩ := payFee_ok hpay
  have f1 : s1.fee = s.fee := by rw [e1]
  have f3 : s1.sn = s.sn := by rw [e1]
  have hbal : value - s1.fee ≤ s1.bal := by
    rw [f1]
    rcases hl with ⟨b1, _⟩ | ⟨b1, b2, _⟩
    · rw [b1]; simp only; omega
    · rw [b2]; simp only; omega
  have hnx : next C.lang s1.sn = some (s1.sn + 1) := by
    unfold next
    rw [f3]
    split
    · rfl
    · rw [if_pos hs]
  have ht : ∃ s', sendTail C s1 caller to net acct data rb value (some n) = some s' := by
    unfold sendTail
    simp only [hnx]
    rw [if_neg (by omega)]
    have hk : ¬ (keep C.lang { s1 with sn := s1.sn + 1 } (s1.sn + 1) caller to rb).bal < value - s1.fee := by
      rw [keep_fields]; simp only; omega
    simp only [sendBTP, if_neg hk]
    exact ⟨_, rfl⟩
  obtain ⟨s', ht⟩ := ht
  refine ⟨s', ?_⟩
  simp only [step, send, maxData, maxRollback]
  have c1 : ¬ 2048 < data.length := by omega
  have c2 : ¬ 1024 < (rb.getD []).length := by omega
  have c3 : ¬ value < s.fee + fee := by omega
  simp only [Bool.true_eq_false, false_and, if_false, if_neg c1, if_neg c2, hp, hb, Bool.false_eq_true, if_neg c3, hpay]
  exact ht

/-! ### C79: nothing gets stuck in the service -/

/-- C79: a request received from a network can be executed, whatever the target does, if the message center takes the response. -/
theorem C79_executable (C : Cfg) (s : St) (id : Int) (r : Req) (net src : Str) (h : s.proxy id = some r)
    (hs : r.src = solCompose net src) (hn : net ≠ []) (hn' : '/' ∉ net) (hsrc : src ≠ []) (h255 : 0 ≤ r.sn ∧ r.sn < 2 ^ 255)
    (inner : Ops) (out : Outcome) (k : Int) :
    ∃ s', step C (.exec id inner out (some k)) s = some s' ∧ Ev.executed id (respCode C.lang out) ∈ s'.log := by
  have hsp : solParse r.src = some (net, src) := (C26_sol_parse_iff _ _ _).mpr ⟨hs, hn, hn', hsrc⟩
  have hp : parse C.lang r.src = some (net, src) := by
    unfold parse
    split
    · rw [(C26_java_sol_agree _ _ _).mp hsp]; rfl
    · exact hsp
  simp only [step, execStart, h, hp, execEnd]
  split
  · have hneg : ∃ m, negSn C.lang r.sn = some m := by
      unfold negSn
      split
      · exact ⟨_, rfl⟩
      · rw [if_neg]
        · exact ⟨_, rfl⟩
        · unfold toInt256
          rw [if_pos h255.2]
          omega
    obtain ⟨m, hm⟩ := hneg
    simp only [hm, Option.bind_some, sendBTP, Nat.not_lt_zero, if_false]
    exact ⟨_, rfl, by simp⟩
  · exact ⟨_, rfl, by simp⟩

/-- C79: after a failure the rollback can be run by anyone, whatever the caller's contract does. -/
theorem C79_rollback_possible (C : Cfg) (s : St) (sn : Int) (c : Call) (h : s.reqs sn = some c) (he : c.enabled = true) (inner : Ops)
    (out : Outcome) : ∃ s', step C (.undo sn inner out) s = some s' ∧ Ev.undone sn (respCode C.lang out) ∈ s'.log := by
  simp only [step, undoStart, h, he, Bool.true_eq_false, if_false]
  exact ⟨_, rfl, by simp⟩

/-! ### an example: both languages, with re-entrancy and a rollback -/

namespace Toy
def A : Str := ['0', 'x', '1', '.', 'a']
def B : Str := ['0', 'x', '2', '.', 'b']
def dapp : Str := ['d']
def target : Str := ['t']
def cfg (l : Lang) : Cfg := ⟨l, ['m'], ['o']⟩

/-- Sets a fee of 3 with a handler; sends a call with rollback data and 10 coins; takes a request and executes it, the target
    tries to run it again twice, and sends a call of its own; another network answers the first call with a failure, the rollback
    is run, its contract tries to run it again. -/
def ops : Ops :=
  .cons (.setFee ['o'] 3) <| .cons (.setHandler ['o'] (some ['h'])) <|
  .cons (.send dapp true (solCompose B target) [1] (some [2]) 10 (some 5) (some 1)) <|
  .cons (.message ['m'] B name 7 (.req ⟨['c'], target, 7, true, [3]⟩)) <|
  .cons (.exec 1 (.cons (.exec 1 .nil .ok (some 1)) <| .cons (.exec 1 .nil .failed (some 1)) <|
      .cons (.send target true (solCompose B dapp) [] none 8 (some 5) (some 1)) .nil) .ok (some 2)) <|
  .cons (.message ['m'] ['z'] name 1 (.res 1 (-1))) <|
  .cons (.undo 1 (.cons (.undo 1 .nil .ok) .nil) .ok) <|
  .cons (.message ['m'] B name 1 (.res 1 0)) .nil

def expected : List Ev :=
  [.paid ['h'] 3, .out B 1 (.req ⟨dapp, target, 1, true, [1]⟩) 7, .sent 1 dapp B target [1] (some [2]),
   .received 1 B ⟨['c'], target, 7, true, [3]⟩, .call 1 ⟨solCompose B ['c'], target, 7, true, [3]⟩,
   .paid ['h'] 3, .out B 0 (.req ⟨target, dapp, 2, false, []⟩) 5, .sent 2 target B dapp [] none,
   .executed 1 0, .out B (-7) (.res 7 0) 0, .response 1 (-1), .undo 1 dapp (some [2]), .undone 1 0]

example : (run (cfg .java) ops (init 4)).log = .paid ['h'] 4 :: expected := by decide +kernel
example : (run (cfg .sol) ops (init 4)).log = .paid ['h'] 4 :: expected := by decide +kernel
example : gainedAll (cfg .sol) ops (init 4) = 18 := by decide +kernel

/-- A target that reverts leaves nothing of what it did, and the answer says so. -/
example : (run (cfg .java)
    (.cons (.message ['m'] B name 7 (.req ⟨['c'], target, 7, true, [3]⟩)) <|
     .cons (.exec 1 (.cons (.send target true (solCompose B dapp) [] none 8 (some 5) (some 1)) .nil) (.userReverted 0) (some 2)) .nil) (init 0)).log =
    [.received 1 B ⟨['c'], target, 7, true, [3]⟩, .call 1 ⟨solCompose B ['c'], target, 7, true, [3]⟩, .executed 1 (-1),
     .out B (-7) (.res 7 (-1)) 0] := by decide +kernel
end Toy

end Verif.XCall
