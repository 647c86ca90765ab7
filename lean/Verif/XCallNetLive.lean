import Verif.XCallNetInv
/-!
A request that waits at a call service can be executed, whatever the contract called does meanwhile.
-/
namespace Verif.XNet
open Verif Verif.SolBmc Verif.SolNet

mutual
/-- Number of calls. -/
def JOp.size : JOp → Nat
  | .bmc _ => 1
  | .send .. => 1
  | .exec _ _ inner _ => inner.size + 1
  | .undo _ inner _ => inner.size + 1
  | .other _ => 1
def JOps.size : JOps → Nat
  | .nil => 0
  | .cons o t => o.size + t.size
end

/-- No request waiting would be answered with `-sn` to `y`. -/
def NoWait (nd : Node) (x : XCall.St) (y : BtpAddress.Str) (sn : Int) : Prop := ∀ id r net a, x.proxy id = some r → r.rb = true →
  XCall.parse nd.x.lang r.src = some (net, a) → XCall.negSn nd.x.lang r.sn = some (-sn) → net ≠ y

theorem mvs_keep {net : String} {a b : Abs} {i : List Msg} {e : List Event} (h : Mvs net a i e b) : a.ic = false → i = [] → ∀ k, (∀ m ∈ msgsOf e, m.svc ≠ k.2.1) →
    owed b k = owed a k := by
  induction h with
  | nil => intro _ _ _ _; rfl
  | @cons a b d i j e f hm _ ih =>
    intro hc hi k hk
    obtain ⟨rfl, rfl⟩ := List.append_eq_nil_iff.1 hi
    rw [msgsOf_append] at hk
    rw [ih ((Mv.ic (A := fun _ => a) hm).trans hc) rfl k (fun m h => hk m (List.mem_append_right _ h))]
    cases hm with
    | fresh => rfl
    | answer next seq m sn h1 h2 h3 h4 =>
      rw [owed_set, if_neg]
      rintro rfl
      exact hk m (List.mem_append_left _ (List.mem_singleton.2 rfl)) rfl
    | note => rfl
    | forget prev seq key m' code h0 => rw [hc] at h0; exact nomatch h0

theorem sendMessage_keep (c : Cfg) (env : Env) (s s' : St) (sender value : Nat) (to svc : String) (sn : Int) (body : Bytes)
    (h : sendMessage c env s sender value to svc sn body = some s') (k : String × String × Int) (hk : sn < 0 → (to, svc, -sn) ≠ k) :
    owed (abs s') k = owed (abs s) k := by
  unfold sendMessage at h
  split at h
  · cases h
  dsimp only at h
  rw [Option.map_eq_some_iff] at h
  obtain ⟨⟨s1, z⟩, h, rfl⟩ := h
  unfold sendWithFee at h
  split at h
  · cases h
  dsimp only at h
  have hs0 : (addIn { s with coins := s.coins + value } c.net value).resp = s.resp := rfl
  generalize addIn { s with coins := s.coins + value } c.net value = s0 at h hs0
  by_cases hneg : sn < 0
  · simp only [hneg, decide_true, if_true] at h
    split at h
    · cases h
    rename_i s2 r hr
    simp only [Option.some.injEq, Prod.mk.injEq] at h
    obtain ⟨rfl, rfl⟩ := h
    simp only [removeResponse] at hr
    split at hr
    · simp only [Option.some.injEq, Prod.mk.injEq] at hr
      obtain ⟨rfl, rfl⟩ := hr
      have h1 := addReward_still { s0 with resp := s0.resp.set (to, svc, -sn) Resp.empty } c.net c.periphery value
      show (FM.get Resp.empty (addReward { s0 with resp := s0.resp.set (to, svc, -sn) Resp.empty } c.net c.periphery value).resp _).nsn = _
      rw [h1.1, FM.get_set, if_neg (hk hneg), hs0]; rfl
    · cases hr
  · simp only [hneg, decide_false, Bool.false_eq_true, if_false] at h
    split at h
    · split at h
      · simp only [Option.some.injEq, Prod.mk.injEq] at h
        obtain ⟨rfl, rfl⟩ := h
        show (FM.get Resp.empty (addReward _ _ _ _).resp k).nsn = _
        rw [(addReward_still _ _ _ _).1]
        show (FM.get Resp.empty s0.resp k).nsn = _
        rw [hs0]; rfl
      · cases h
    · simp only [Option.some.injEq, Prod.mk.injEq] at h
      obtain ⟨rfl, rfl⟩ := h
      show (FM.get Resp.empty s0.resp k).nsn = _
      rw [hs0]; rfl

theorem sendOuts_keep (nd : Node) (env : Env) (k : String × String × Int) : ∀ (y : List XCall.Ev) (s s' : St), sendOuts nd env y s = some s' →
    (∀ net sn m v, XCall.Ev.out net sn m v ∈ y → sn < 0 → (String.ofList net, X, -sn) ≠ k) → owed (abs s') k = owed (abs s) k
  | [], s, s', h, _ => by
    rw [sendOuts] at h
    obtain rfl := Option.some.inj h
    rfl
  | e :: t, s, s', h, hk => by
    rw [sendOuts, Option.bind_eq_some_iff] at h
    obtain ⟨s1, h1, h2⟩ := h
    rw [sendOuts_keep nd env k t s1 s' h2 (fun net sn m v hm => hk net sn m v (List.mem_cons_of_mem _ hm))]
    cases e with
    | out net sn m v =>
      rw [sendOut, exec] at h1
      split at h1
      · cases h1
      exact sendMessage_keep _ _ _ _ _ _ _ _ _ _ h1 k (hk net sn m v (List.mem_cons_self ..))
    | _ =>
      obtain rfl := Option.some.inj (show some s = some s1 from h1)
      rfl

theorem ofList_inj {a b : List Char} (h : String.ofList a = String.ofList b) : a = b := by
  rw [← String.toList_ofList (l := a), h, String.toList_ofList]

theorem leaf_sn {C : XCall.Cfg} {x x' : XCall.St} (op : XCall.Op) (hl : leaf op = true) (hb : XCall.By (· ≠ C.bmc) (fun _ => True) op)
    (h : XCall.step C op x = some x') : x'.sn = x.sn := by
  cases op with
  | send => cases hl
  | exec => cases hl
  | undo => cases hl
  | message caller net svc sn m =>
    rw [XCall.step] at h
    rw [XCall.By] at hb
    exact absurd (XCall.message_ok h).1 hb
  | error caller net svc sn code =>
    rw [XCall.step] at h
    rw [XCall.By] at hb
    exact absurd (XCall.error_ok h).1 hb
  | setAdmin caller a =>
    rw [XCall.step] at h
    split at h
    · cases h
    obtain rfl := Option.some.inj h; rfl
  | setHandler caller a =>
    rw [XCall.step] at h
    obtain ⟨-, l, hs, hl⟩ := XCall.setHandler_ok h
    rw [hs]
  | setFee caller v =>
    rw [XCall.step] at h
    split at h
    · cases h
    obtain rfl := Option.some.inj h; rfl

/-- Calls of others do not touch an answer owed for a request nobody can execute any more, and add few calls. -/
def Due (nd : Node) (z : Nat) (j j' : J) : Prop := j'.x.sn ≤ j.x.sn + z ∧ (j.x.sn + z < 2 ^ 255 → ∀ y sn, NoWait nd j.x y sn →
  NoWait nd j'.x y sn ∧ owed (abs j'.b) (String.ofList y, X, sn) = owed (abs j.b) (String.ofList y, X, sn))

theorem Due.refl (nd : Node) (z : Nat) (j : J) : Due nd z j j := ⟨by omega, fun _ _ _ h => ⟨h, rfl⟩⟩

theorem Due.trans {nd : Node} {z w : Nat} {a b d : J} (h1 : Due nd z a b) (h2 : Due nd w b d) : Due nd (z + w) a d := by
  have h3 := h1.1
  have h4 := h2.1
  refine ⟨by omega, fun hl y sn h => ?_⟩
  obtain ⟨h5, h6⟩ := h1.2 (by omega) y sn h
  obtain ⟨h7, h8⟩ := h2.2 (by omega) y sn h5
  exact ⟨h7, h8.trans h6⟩

mutual
theorem jexec_due (nd : Node) : ∀ (o : JOp) (j j' : J), Fine nd o → jexec nd o j = some j' → Due nd o.size j j'
  | .bmc o, j, j', hf, h => by
    rw [jexec, Option.map_eq_some_iff] at h
    obtain ⟨s', h, rfl⟩ := h
    refine ⟨by dsimp only; omega, fun _ y sn hw => ⟨hw, ?_⟩⟩
    obtain ⟨evs, h1, h2⟩ := quiet_other nd o hf j.b s' h
    rw [Fine] at hf
    obtain ⟨evs', h3, h4⟩ := quiet_go nd.bmc o hf.1 j.b s' h
    rw [h1] at h3
    obtain rfl := List.append_cancel_left h3
    exact mvs_keep h4 rfl rfl _ h2
  | .send env caller isC to data rb value fee, j, j', hf, h => by
    rw [jexec] at h
    split at h
    · cases h
    rename_i x' hx
    rw [Option.map_eq_some_iff] at h
    obtain ⟨s', h, rfl⟩ := h
    rw [XCall.step] at hx
    obtain ⟨net, acct, f, s1, -, -, -, -, -, -, h1, h2⟩ := XCall.send_ok hx
    have e1 : x'.proxy = s1.proxy := sendTail_proxy h2
    have e2 : s1.proxy = j.x.proxy := payFee_proxy h1
    obtain ⟨l, hl1, hl2⟩ := XCall.payFee_ok h1
    have esn : s1.sn = j.x.sn := by rw [hl1]
    have elog : s1.log = j.x.log ++ l := by rw [hl1]
    obtain ⟨-, -, hx'⟩ := XCall.sendTail_ok h2
    refine ⟨by rw [hx']; dsimp only; rw [JOp.size]; omega, fun hlt y sn hw => ⟨?_, ?_⟩⟩
    · intro id r net a hp
      rw [show x'.proxy = j.x.proxy from e1.trans e2] at hp
      exact hw id r net a hp
    · refine sendOuts_keep nd env _ _ _ _ h fun net' sn' m v hm hneg => ?_
      rw [JOp.size] at hlt
      rw [hx'] at hm
      dsimp only at hm
      rw [elog, List.append_assoc, List.drop_left] at hm
      rcases List.mem_append.1 hm with hm | hm
      · rcases hl2 with ⟨-, rfl, -⟩ | ⟨-, -, -, w, -, rfl⟩
        · exact nomatch hm
        · simp at hm
      · simp only [List.mem_cons, XCall.Ev.out.injEq, List.not_mem_nil, or_false, reduceCtorEq] at hm
        obtain ⟨-, rfl, -⟩ := hm
        exfalso
        split at hneg
        · unfold XCall.posSn XCall.toInt256 at hneg
          split at hneg
          · omega
          · rw [if_pos (by omega)] at hneg
            omega
        · omega
  | .exec env id inner out, j, j', hf, h => by
    rw [Fine] at hf
    rw [jexec] at h
    split at h
    · cases h
    rename_i r net x1 hs
    dsimp only at h
    split at h
    · cases h
    rename_i x3 he
    rw [Option.map_eq_some_iff] at h
    obtain ⟨s', h, rfl⟩ := h
    obtain ⟨hp, ⟨a, hpar⟩, hx1⟩ := XCall.execStart_ok hs
    have h2 : Due nd inner.size ⟨j.b, x1⟩ (if XCall.committed out = true then jrun nd inner ⟨j.b, x1⟩ else ⟨j.b, x1⟩) := by
      split
      · exact jrun_due nd inner _ hf.2
      · exact .refl _ _ _
    generalize (if XCall.committed out = true then jrun nd inner ⟨j.b, x1⟩ else ⟨j.b, x1⟩ : J) = j2 at h he h2
    have e1 : x1.sn = j.x.sn := by rw [hx1]
    have h3 : x3.proxy = j2.x.proxy ∧ x3.sn = j2.x.sn := by
      rcases XCall.execEnd_ok he with ⟨-, rfl⟩ | ⟨n, -, -, rfl⟩ <;> exact ⟨rfl, rfl⟩
    have h4 := h2.1
    dsimp only at h4
    rw [JOp.size]
    refine ⟨by dsimp only; omega, fun hlt y sn hw => ?_⟩
    have hw1 : NoWait nd x1 y sn := by
      intro id' r' net' a' hp'
      rw [hx1] at hp'
      dsimp only at hp'
      split at hp'
      · exact nomatch hp'
      · exact hw id' r' net' a' hp'
    obtain ⟨h5, h6⟩ := h2.2 (by dsimp only; omega) y sn hw1
    refine ⟨fun id' r' net' a' hp' => h5 id' r' net' a' (by rw [← h3.1]; exact hp'), ?_⟩
    rw [← h6]
    refine sendOuts_keep nd env _ _ _ _ h fun net' sn' m v hm hneg => ?_
    rcases XCall.execEnd_ok he with ⟨-, hx3⟩ | ⟨n, hrb, hn, hx3⟩
    · rw [hx3] at hm
      dsimp only at hm
      rw [List.drop_left] at hm
      simp at hm
    · rw [hx3] at hm
      dsimp only at hm
      rw [List.drop_left] at hm
      simp only [List.mem_cons, XCall.Ev.out.injEq, List.not_mem_nil, or_false, reduceCtorEq, false_or] at hm
      obtain ⟨rfl, rfl, -⟩ := hm
      intro hk
      obtain ⟨hk1, hk2⟩ := Prod.mk.inj hk
      have hk3 := (Prod.mk.inj hk2).2
      refine hw id r net' a hp hrb hpar ?_ (ofList_inj hk1)
      rw [hn, ← hk3, Int.neg_neg]
  | .undo sn0 inner out, j, j', hf, h => by
    rw [Fine] at hf
    rw [jexec] at h
    split at h
    · cases h
    rename_i x1 hs
    dsimp only at h
    obtain rfl := Option.some.inj h
    obtain ⟨c, -, -, hx1⟩ := XCall.undoStart_ok hs
    have h2 : Due nd inner.size ⟨j.b, x1⟩ (if XCall.committed out = true then jrun nd inner ⟨j.b, x1⟩ else ⟨j.b, x1⟩) := by
      split
      · exact jrun_due nd inner _ hf
      · exact .refl _ _ _
    have e1 : x1.sn = j.x.sn := by rw [hx1]
    have h4 := h2.1
    dsimp only at h4
    rw [JOp.size]
    refine ⟨by dsimp only; omega, fun hlt y sn hw => ?_⟩
    exact h2.2 (by dsimp only; omega) y sn (fun id r net a hp => hw id r net a (by rw [hx1] at hp; exact hp))
  | .other op, j, j', hf, h => by
    rw [Fine] at hf
    rw [jexec] at h
    split at h
    · rename_i hl
      rw [Option.map_eq_some_iff] at h
      obtain ⟨x', h, rfl⟩ := h
      have h1 := leaf_sn op hl hf h
      have h2 := leaf_proxy op hl hf h
      refine ⟨by dsimp only; omega, fun _ y sn hw => ⟨fun id r net a hp => hw id r net a (by rw [← h2]; exact hp), rfl⟩⟩
    · cases h
theorem jrun_due (nd : Node) : ∀ (os : JOps) (j : J), FineAll nd os → Due nd os.size j (jrun nd os j)
  | .nil, j, _ => by rw [jrun]; exact .refl nd _ j
  | .cons o t, j, hf => by
    rw [FineAll] at hf
    rw [jrun, JOps.size]
    cases h : jexec nd o j with
    | none =>
      have h1 : Due nd o.size j j := .refl _ _ _
      exact h1.trans (jrun_due nd t j hf.2)
    | some j1 => exact (jexec_due nd o j j1 hf.1 h).trans (jrun_due nd t j1 hf.2)
end

/-- The message center takes an answer it owes. -/
theorem sendMessage_ok (c : Cfg) (env : Env) (s : St) (sender value : Nat) (to svc next : String) (sn : Int) (body : Bytes) (hn : sn < 0)
    (h1 : env.service svc = some sender) (h2 : env.resolve to = some next) (h3 : 0 < owed (abs s) (to, svc, -sn)) :
    ∃ s', sendMessage c env s sender value to svc sn body = some s' := by
  unfold sendMessage
  rw [if_neg (fun h => h.2 h1)]
  simp only [hn, decide_true]
  unfold sendWithFee
  rw [h2]
  dsimp only
  simp only [if_true]
  unfold removeResponse
  have h4 : (FM.get Resp.empty (addIn { s with coins := s.coins + value } c.net value).resp (to, svc, -sn)).nsn > 0 := h3
  dsimp only
  rw [if_pos h4]
  exact ⟨_, rfl⟩

/-- A request that waits, and for which the message center owes the answer, can be executed. -/
theorem exec_answers (nd : Node) (env : Env) (b : St) (x : XCall.St) (id : Int) (r : XCall.Req) (y a : BtpAddress.Str) (next : String) (inner : JOps) (out : XCall.Outcome)
    (hs : nd.addr ≠ nd.bmc.service) (he : env.service X = some nd.addr) (hr : env.resolve (String.ofList y) = some next) (hf : FineAll nd inner)
    (hp : x.proxy id = some r) (hrb : r.rb = true) (hsn : 0 < r.sn) (hlt : r.sn < 2 ^ 255) (hpar : XCall.parse nd.x.lang r.src = some (y, a))
    (hz : x.sn + inner.size < 2 ^ 255) (how : 0 < owed (abs b) (String.ofList y, X, r.sn))
    (hone : ∀ id' r' net' a', x.proxy id' = some r' → r'.rb = true → XCall.parse nd.x.lang r'.src = some (net', a') →
      XCall.negSn nd.x.lang r'.sn = some (-r.sn) → net' = y → id' = id) :
    ∃ j', jexec nd (.exec env id inner out) ⟨b, x⟩ = some j' ∧ owed (abs j'.b) (String.ofList y, X, r.sn) = 0 ∧
      XCall.Ev.executed id (XCall.respCode nd.x.lang out) ∈ j'.x.log ∧
      ∃ next' seq m, Event.message next' seq m ∈ j'.b.log ∧ m.dst = String.ofList y ∧ m.svc = X ∧ m.nsn = -owed (abs b) (String.ofList y, X, r.sn) := by
  rw [jexec]
  have h1 : XCall.execStart nd.x x id = some (r, y, { x with proxy := fun k => if k = id then none else x.proxy k, log := x.log ++ [.call id r] }) := by
    unfold XCall.execStart
    rw [hp]
    dsimp only
    rw [hpar]
  rw [h1]
  dsimp only
  generalize hx1 : ({ x with proxy := fun k => if k = id then none else x.proxy k, log := x.log ++ [.call id r] } : XCall.St) = x1
  have hw1 : NoWait nd x1 y r.sn := by
    intro id' r' net' a' hp' hrb' hpar' hneg' hy
    rw [← hx1] at hp'
    dsimp only at hp'
    split at hp'
    · exact nomatch hp'
    · rename_i hne
      exact hne (hone id' r' net' a' hp' hrb' hpar' hneg' hy)
  have h2 : Due nd inner.size ⟨b, x1⟩ (if XCall.committed out = true then jrun nd inner ⟨b, x1⟩ else ⟨b, x1⟩) := by
    split
    · exact jrun_due nd inner _ hf
    · exact .refl _ _ _
  generalize (if XCall.committed out = true then jrun nd inner ⟨b, x1⟩ else ⟨b, x1⟩ : J) = j2 at h2
  have e1 : x1.sn = x.sn := by rw [← hx1]
  obtain ⟨h3, h4⟩ := h2.2 (by dsimp only; omega) y r.sn hw1
  have hneg : XCall.negSn nd.x.lang r.sn = some (-r.sn) := by
    unfold XCall.negSn XCall.toInt256
    cases nd.x.lang
    · rfl
    · dsimp only
      rw [if_pos hlt, if_neg (by omega)]
  have h5 : XCall.execEnd nd.x j2.x id r y out (some 0) = some { j2.x with
      log := j2.x.log ++ [.executed id (XCall.respCode nd.x.lang out), .out y (-r.sn) (.res r.sn (XCall.respCode nd.x.lang out)) 0] } := by
    unfold XCall.execEnd
    rw [if_pos hrb, hneg]
    dsimp only [Option.bind_some]
    unfold XCall.sendBTP
    dsimp only
    rw [if_neg (Nat.not_lt_zero _)]
    simp
  rw [h5]
  dsimp only
  rw [List.drop_left]
  obtain ⟨s', hs'⟩ := sendMessage_ok nd.bmc env j2.b nd.addr 0 (String.ofList y) X next (-r.sn) (nd.enc (.res r.sn (XCall.respCode nd.x.lang out))) (by omega) he hr
    (by rw [Int.neg_neg, h4]; exact how)
  have h6 : sendOuts nd env [.executed id (XCall.respCode nd.x.lang out), .out y (-r.sn) (.res r.sn (XCall.respCode nd.x.lang out)) 0] j2.b = some s' := by
    have h7 : sendOut nd env j2.b (.out y (-r.sn) (.res r.sn (XCall.respCode nd.x.lang out)) 0) = some s' := by
      rw [sendOut, exec, if_neg hs, hs']
    show ((sendOut nd env j2.b _).bind fun z => some z) = _
    rw [h7]
    rfl
  rw [h6]
  refine ⟨_, rfl, ?_, ?_, ?_⟩
  · have := sendMessage_owed _ _ _ _ _ _ _ _ _ _ (by omega) hs'
    rwa [Int.neg_neg] at this
  · exact List.mem_append_right _ (List.mem_cons_self ..)
  · obtain ⟨-, next', seq, m, h7, -, h8, h9, -, -, h10⟩ := sendMessage_msg _ _ _ _ _ _ _ _ _ _ hs'
    refine ⟨next', seq, m, by rw [h7]; exact List.mem_append_right _ (List.mem_singleton.2 rfl), h8, h9, ?_⟩
    have := (h10 (by omega)).2.2
    rw [Int.neg_neg, h4] at this
    exact this

end Verif.XNet
