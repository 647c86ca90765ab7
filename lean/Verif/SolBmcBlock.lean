import Verif.EndToEndProps
/-!
C140: messages that stop a link of the EVM message center, and those that do not.

The model's `sendMsg` does not revert where the encoder does (`C140_evm_huge`, `C140_evm_unreadable` say when that is). What is proved over
histories is not affected by this: a call that reverts in the encoder is a history in which that call is left out, and in
`C140_evm_never_passed` a message that cannot be decoded or not be written again counts as one the source does not have.
-/
namespace Verif.SolBmc
open Verif

variable (c : Cfg)

/-- A message for this network that asks for an answer but carries no request number of the network it comes from. -/
def Unanswerable (m : Msg) : Prop := m.dst = c.net ∧ 0 < m.sn ∧ m.nsn ≤ 0

/-! ### one message -/

theorem handleMessage_fail (env : Env) (ok : Bool) (call : St → St) (s : St) (m : Msg) (h : (handleMessage c env ok call s m).1 ≠ 0) :
    (handleMessage c env ok call s m).2 = s := by
  revert h
  unfold handleMessage
  dsimp only
  repeat' split
  all_goals simp

theorem handleFee_msg (s : St) (a : Nat) (m : Msg) : (handleFee c s a m).2.dst = m.dst ∧ (handleFee c s a m).2.sn = m.sn ∧
    (handleFee c s a m).2.nsn = m.nsn ∧ (handleFee c s a m).2.src = m.src ∧ (handleFee c s a m).2.svc = m.svc ∧
    (handleFee c s a m).2.body = m.body := by
  unfold handleFee
  dsimp only
  repeat' split
  all_goals simp

theorem handleFee_resp (s : St) (a : Nat) (m : Msg) (hd : m.dst = c.net) (hs : 0 < m.sn) :
    ((handleFee c s a m).1.resp.get Resp.empty (m.src, m.svc, m.sn)).nsn = m.nsn := by
  unfold handleFee
  dsimp only
  rw [if_pos hd, if_pos (by omega)]
  simp only [collectRemain]
  rw [FM.get_set, if_pos rfl]

/-- C140: a message that does not ask for an answer without a number to answer to is dealt with: in every state, whatever the
management contract answers and whatever the service does, the loop goes on to the next message. -/
theorem C140_evm_item (env : Env) (ok : Bool) (call : St → St) (caller : Nat) (prev : String) (seq : Nat) (s : St) (m : Msg)
    (h : ¬ Unanswerable c m) : ∃ s', item c env ok call caller prev seq s m = some s' := by
  unfold item
  dsimp only
  generalize hs0 : ({ addIn s m.fee.network m.fee.values.sum with
    disp := upd (addIn s m.fee.network m.fee.values.sum).disp prev ((addIn s m.fee.network m.fee.values.sum).disp prev ++ [some m]) } : St) = s0
  have hm := handleFee_msg c s0 caller m
  have hr := handleFee_resp c s0 caller m
  generalize handleFee c s0 caller m = p at hm hr
  obtain ⟨s1, m1⟩ := p
  obtain ⟨m1, m2, m3, m4, m5, m6⟩ := hm
  dsimp only at m1 m2 m3 m4 m5 m6 hr ⊢
  by_cases hd : m.dst = c.net
  · rw [if_pos (by rw [m1]; exact hd)]
    split
    · exact ⟨_, rfl⟩
    rename_i hf
    rw [handleMessage_fail c _ _ _ _ _ hf]
    by_cases hs : 0 < m.sn
    · rw [if_pos (by rw [m2]; omega)]
      have hn : 0 < m.nsn := by
        rcases Int.lt_or_le 0 m.nsn with h1 | h1
        · exact h1
        · exact absurd ⟨hd, hs, h1⟩ h
      unfold removeResponse
      dsimp only
      rw [m4, m5, m2, if_pos (by rw [hr hd hs]; omega)]
      exact ⟨_, rfl⟩
    · rw [if_neg (by rw [m2]; omega)]
      exact ⟨_, rfl⟩
  · rw [if_neg (by rw [m1]; exact hd)]
    split <;> exact ⟨_, rfl⟩

/-- C140 is false for the others: if the service is not registered or reverts, the stored answer has no number, its removal
(BMCPeriphery.sol:114-116, BMCService.sol:237) reverts and with it the relay call. -/
theorem C140_evm_item_fails (env : Env) (ok : Bool) (call : St → St) (caller : Nat) (prev : String) (seq : Nat) (s : St) (m : Msg)
    (h : Unanswerable c m) (hf : (m.svc ≠ "bmc" ∧ (env.service m.svc = none ∨ ok = false)) ∨ (m.svc = "bmc" ∧ c.decInner m.body = none)) :
    item c env ok call caller prev seq s m = none := by
  obtain ⟨hd, hs, hn⟩ := h
  unfold item
  dsimp only
  generalize hs0 : ({ addIn s m.fee.network m.fee.values.sum with
    disp := upd (addIn s m.fee.network m.fee.values.sum).disp prev ((addIn s m.fee.network m.fee.values.sum).disp prev ++ [some m]) } : St) = s0
  have hm := handleFee_msg c s0 caller m
  have hr := handleFee_resp c s0 caller m hd hs
  generalize handleFee c s0 caller m = p at hm hr
  obtain ⟨s1, m1⟩ := p
  obtain ⟨m1, m2, m3, m4, m5, m6⟩ := hm
  dsimp only at m1 m2 m3 m4 m5 m6 hr ⊢
  rw [if_pos (by rw [m1]; exact hd)]
  have he : (handleMessage c env ok call s1 ‹Msg›).1 ≠ 0 := by
    unfold handleMessage
    dsimp only
    rw [m5, m2]
    rcases hf with ⟨h1, h2⟩ | ⟨h1, h2⟩
    · rw [if_neg h1]
      rcases h2 with h2 | h2
      · rw [h2]; simp
      · split
        · simp
        · rw [if_pos (by omega), h2]; simp
    · rw [if_pos h1, if_pos (by omega)]
      simp [ownService, m6, h2]
  rw [if_neg he, handleMessage_fail c _ _ _ _ _ he, if_pos (by rw [m2]; omega)]
  unfold removeResponse
  dsimp only
  rw [m4, m5, m2, if_neg (by rw [hr]; omega)]

/-! ### relay calls -/

theorem execItems_some : ∀ (items : Items) (caller : Nat) (prev : String) (seq : Nat) (s : St),
    (∀ m ∈ items.msgs, ¬ Unanswerable c m) → ∃ s', execItems c items caller prev seq s = some s'
  | .nil, _, _, _, s, _ => ⟨s, by simp [execItems]⟩
  | .cons m env ok acts t, caller, prev, seq, s, h => by
    obtain ⟨s1, h1⟩ := C140_evm_item c env ok (execOps c acts) caller prev (seq + 1) s m (h m (by simp [Items.msgs]))
    simp only [execItems, h1]
    exact execItems_some t caller prev (seq + 1) s1 (fun m hm => h m (by simp [Items.msgs, hm]))

/-- C140, part: in every state, a relay call of a registered relay with messages the verifier releases is carried out if none of them
asks for an answer without a number. If no service re-enters the link, its number is then greater by the number of messages. -/
theorem C140_evm_handled_partial (s : St) (env : Env) (caller : Nat) (prev : String) (items : Items)
    (hv : c.verify prev (s.rx prev) items.msgs = true) (hr : env.isRelay prev caller = true)
    (h : ∀ m ∈ items.msgs, ¬ Unanswerable c m) :
    ∃ s', exec c (.relay env caller prev items) s = some s' ∧
      (items.calm [prev] → s'.rx prev = s.rx prev + items.msgs.length ∧ s'.disp prev = s.disp prev ++ items.msgs.map some) := by
  obtain ⟨s1, h1⟩ := execItems_some c items caller prev (s.rx prev) s h
  refine ⟨{ s1 with rx := upd s1.rx prev (s1.rx prev + items.msgs.length) }, by simp [exec, hv, hr, h1], fun hc => ?_⟩
  have := execItems_calm c (fun _ _ _ => True) [prev] prev (by simp) items hc caller _ s s1 h1
  exact ⟨by simp [upd, this.2.1.1], this.2.1.2⟩

/-! ### what the centers send -/

/-- A property of states that every call preserves as long as the relayed messages have `A`. -/
structure PresA (A : Msg → Prop) (I : St → Prop) : Prop where
  send : ∀ env s sender value to svc sn body s', sendMessage c env s sender value to svc sn body = some s' → I s → I s'
  claim : ∀ env s sender value net receiver s', claimReward c env s sender value net receiver = some s' → I s → I s'
  item : ∀ env ok call caller prev seq s m s', A m → (∀ s, I s → I (call s)) → item c env ok call caller prev seq s m = some s' → I s → I s'
  rx : ∀ s prev n, I s → I { s with rx := upd s.rx prev n }
  drop : ∀ env s src seq svc sn nsn f s', dropMessage c env s src seq svc sn nsn f = some s' → I s → I s'
  clear : ∀ s link, I s → I (clearSeq s link)
  internal : ∀ s next to body, I s → I (sendInternal c s next to body)

mutual
theorem exec_presA {A : Msg → Prop} {I : St → Prop} (hv : ∀ l r ms, c.verify l r ms = true → ∀ m ∈ ms, A m) (P : PresA c A I)
    (o : Op) (s s' : St) (h : exec c o s = some s') (hi : I s) : I s' := by
  cases o with
  | send env sender value to svc sn body =>
    simp only [exec] at h
    split at h
    · cases h
    · exact P.send _ _ _ _ _ _ _ _ _ h hi
  | claim env sender value net receiver =>
    simp only [exec] at h
    split at h
    · cases h
    · exact P.claim _ _ _ _ _ _ _ h hi
  | relay env caller prev items =>
    simp only [exec] at h
    split at h
    · rename_i hc
      split at h
      · cases h
      · rename_i s1 h1
        have h2 := execItems_presA hv P items (hv _ _ _ hc.1) caller prev (s.rx prev) s s1 h1 hi
        have := P.rx s1 prev (s1.rx prev + items.msgs.length) h2
        cases h
        exact this
    · cases h
  | drop env src seq svc sn nsn f =>
    simp only [exec] at h
    exact P.drop _ _ _ _ _ _ _ _ _ h hi
  | clear link =>
    simp only [exec, Option.some.injEq] at h
    subst h
    exact P.clear s link hi
  | internal next to body =>
    simp only [exec, Option.some.injEq] at h
    subst h
    exact P.internal s next to body hi
theorem execItems_presA {A : Msg → Prop} {I : St → Prop} (hv : ∀ l r ms, c.verify l r ms = true → ∀ m ∈ ms, A m) (P : PresA c A I)
    (items : Items) (ha : ∀ m ∈ items.msgs, A m) (caller : Nat) (prev : String) (seq : Nat) (s s' : St)
    (h : execItems c items caller prev seq s = some s') (hi : I s) : I s' := by
  cases items with
  | nil => simp only [execItems, Option.some.injEq] at h; subst h; exact hi
  | cons m env ok acts t =>
    simp only [execItems] at h
    split at h
    · cases h
    · rename_i s1 h1
      have h2 := P.item _ _ _ _ _ _ _ _ _ (ha m (by simp [Items.msgs])) (fun x hx => execOps_presA hv P acts x hx) h1 hi
      exact execItems_presA hv P t (fun m hm => ha m (by simp [Items.msgs, hm])) caller prev (seq + 1) s1 s' h h2
theorem execOps_presA {A : Msg → Prop} {I : St → Prop} (hv : ∀ l r ms, c.verify l r ms = true → ∀ m ∈ ms, A m) (P : PresA c A I)
    (acts : Ops) (s : St) (hi : I s) : I (execOps c acts s) := by
  cases acts with
  | nil => simpa only [execOps] using hi
  | cons o t =>
    simp only [execOps]
    apply execOps_presA hv P t
    cases h : exec c o s with
    | none => simpa using hi
    | some s1 => simpa using exec_presA hv P o s s1 h hi
end

theorem run_presA {A : Msg → Prop} {I : St → Prop} (hv : ∀ l r ms, c.verify l r ms = true → ∀ m ∈ ms, A m) (P : PresA c A I)
    (h0 : I init) (ops : List Op) : I (run c ops) := by
  have key : ∀ (ops : List Op) (s : St), I s → I (ops.foldl (fun s o => (exec c o s).getD s) s) := by
    intro ops
    induction ops with
    | nil => intro s h; exact h
    | cons o t ih =>
      intro s h
      apply ih
      show I ((exec c o s).getD s)
      cases he : exec c o s with
      | none => exact h
      | some s1 => exact exec_presA c hv P o s s1 he h
  exact key ops init h0

/-- The numbers of a message that can be dealt with everywhere. -/
def Numbered (m : Msg) : Prop := 0 < m.sn → 0 < m.nsn

/-- Everything sent so far is numbered. -/
def Sent (s : St) : Prop := 0 ≤ s.nsn ∧ ∀ next k m, Event.message next k m ∈ s.log → Numbered m

theorem Sent.same {s s' : St} (i : Sent s) (h1 : s'.nsn = s.nsn) (h2 : s'.log = s.log) : Sent s' := by
  unfold Sent; rw [h1, h2]; exact i

theorem Sent.msg {s : St} (i : Sent s) (next : String) {m : Msg} (hm : Numbered m) : Sent (sendMsg s next m) := by
  refine ⟨i.1, ?_⟩
  intro n k m' h
  simp only [sendMsg, List.mem_append, List.mem_singleton] at h
  rcases h with h | h
  · exact i.2 _ _ _ h
  · cases h; exact hm

theorem Sent.reward {s : St} (i : Sent s) (k : String) (a v : Nat) : Sent (addReward s k a v) := by
  unfold addReward; split
  · exact i.same rfl rfl
  · exact i

theorem Sent.next {s : St} (i : Sent s) : Sent { s with nsn := s.nsn + 1 } := ⟨by have := i.1; simp only; omega, i.2⟩

theorem Sent.accumulate {s : St} (i : Sent s) (a : Nat) (f : FeeInfo) : Sent (accumulate s a f).1 := by
  unfold SolBmc.accumulate; split
  · exact i
  · exact i.reward _ _ _

theorem Sent.handleFee {s : St} (i : Sent s) (a : Nat) (m : Msg) : Sent (handleFee c s a m).1 := by
  unfold SolBmc.handleFee
  have h := i.accumulate a m.fee
  generalize SolBmc.accumulate s a m.fee = p at h
  obtain ⟨s1, f⟩ := p
  dsimp only at h ⊢
  split
  · split
    · exact (h.reward _ _ _).same rfl rfl
    · exact h.reward _ _ _
  · exact h

theorem Sent.error {s : St} (i : Sent s) (env : Env) (prev : String) (seq : Nat) (m : Msg) (code : Nat) :
    Sent (sendError c env s prev seq m code) := by
  unfold sendError
  have h : Sent (handleErrorFee c env s m.src m.sn m.fee).1 := by
    unfold handleErrorFee; dsimp only; repeat' split
    · exact i
    · exact i
    · exact i.reward _ _ _
  generalize handleErrorFee c env s m.src m.sn m.fee = p at h
  obtain ⟨s1, f⟩ := p
  dsimp only at h ⊢
  split
  · rename_i hs
    exact h.msg prev (fun h => by dsimp only at h; omega)
  · refine ⟨h.1, ?_⟩
    intro n k m' h'
    simp only [List.mem_append, List.mem_singleton, reduceCtorEq, or_false] at h'
    exact h.2 _ _ _ h'

theorem Sent.removeResponse {s s' : St} (i : Sent s) {to svc : String} {sn : Int} {r : Resp} (h : removeResponse s to svc sn = some (s', r)) :
    Sent s' := by
  unfold SolBmc.removeResponse at h
  dsimp only at h
  split at h
  · cases h; exact i.same rfl rfl
  · cases h

theorem Sent.withFee {s s' : St} (i : Sent s) {env : Env} {sender value : Nat} {to svc : String} {sn : Int} {body : Bytes} {isR fill : Bool}
    {k : Int} (h : sendWithFee c env s sender value to svc sn body isR fill = some (s', k)) : Sent s' := by
  unfold sendWithFee at h
  split at h
  · cases h
  have i0 : Sent (addIn { s with coins := s.coins + value } c.net value) := i.same rfl rfl
  generalize addIn { s with coins := s.coins + value } c.net value = s0 at h i0
  have hn := i0.1
  dsimp only at h
  split at h
  · split at h
    · cases h
    · rename_i s1 r hr
      cases h
      exact ((i0.removeResponse hr).reward _ _ _).msg _ (fun h => by dsimp only at h; omega)
  · split at h
    · split at h
      · cases h
        exact (i0.next.reward _ _ _).msg _ (fun _ => by dsimp only; omega)
      · cases h
    · cases h
      exact i0.next.msg _ (fun _ => by dsimp only; omega)

theorem Sent.sendMessage {s s' : St} (i : Sent s) {env : Env} {sender value : Nat} {to svc : String} {sn : Int} {body : Bytes}
    (h : sendMessage c env s sender value to svc sn body = some s') : Sent s' := by
  unfold SolBmc.sendMessage at h
  split at h
  · cases h
  · dsimp only at h
    rw [Option.map_eq_some_iff] at h
    obtain ⟨⟨a, k⟩, h1, h2⟩ := h
    cases h2
    exact i.withFee c h1

theorem Sent.response {s s' : St} (i : Sent s) {nsn : Int} {r : Nat} (h : handleResponse s nsn r = some s') : Sent s' := by
  unfold handleResponse at h
  dsimp only at h
  split at h
  · simp only [Option.some.injEq] at h
    subst h
    split
    · have i1 := Sent.reward (s := { s with req := s.req.set (s.req.get Req.empty nsn).nsn Req.empty }) (i.same rfl rfl)
        (s.req.get Req.empty nsn).dst (s.req.get Req.empty nsn).caller (s.req.get Req.empty nsn).amount
      exact ⟨i1.1, i1.2⟩
    · exact i.same rfl rfl
  · cases h

theorem Sent.own {s s' : St} (i : Sent s) {env : Env} {ok : Bool} {fr : String} {sn : Int} {body : Bytes}
    (h : ownService c env ok s fr sn body = some s') : Sent s' := by
  unfold ownService at h
  split at h
  · cases h
  · split at h
    · cases h
    · refine Sent.sendMessage c ?_ h
      exact Sent.reward (s := addIn { s with credited := s.credited + _ } c.net _) (i.same rfl rfl) _ _ _
  · exact i.response h
  · split at h
    · cases h; exact i
    · cases h
  · cases h

theorem Sent.handle {s : St} (i : Sent s) (env : Env) (ok : Bool) (call : St → St) (hc : ∀ s, Sent s → Sent (call s)) (m : Msg) :
    Sent (handleMessage c env ok call s m).2 := by
  unfold handleMessage
  dsimp only
  split
  · split
    · split
      · rename_i h; exact i.own c h
      · exact i
    · split
      · exact i
      · split
        · rename_i h; exact i.response h
        · exact i
  · split
    · exact i
    · split
      · split
        · exact hc _ i
        · exact i
      · split
        · exact i
        · split
          · exact hc _ i
          · exact i

theorem sent_pres : PresA c Numbered Sent where
  send := fun env s sender value to svc sn body s' h i => i.sendMessage c h
  claim := by
    intro env s sender value net receiver s' h i
    unfold claimReward at h
    dsimp only at h
    generalize (if sender = env.feeHandler then c.periphery else sender) = who at h
    split at h
    · split at h
      · split at h
        · cases h
        · cases h; exact i.same rfl rfl
      · split at h
        · cases h
        · rename_i s2 nsn hs
          cases h
          have : Sent s2 := Sent.withFee c (s := { s with reward := s.reward.set (who, net) 0 }) (i.same rfl rfl) hs
          exact this.same rfl rfl
    · cases h
  item := by
    intro env ok call caller prev seq s m s' hm hc h i
    unfold item at h
    dsimp only at h
    generalize hs0 : ({ addIn s m.fee.network m.fee.values.sum with
      disp := upd (addIn s m.fee.network m.fee.values.sum).disp prev ((addIn s m.fee.network m.fee.values.sum).disp prev ++ [some m]) } : St) = s0 at h
    have i0 : Sent s0 := by subst hs0; exact i.same rfl rfl
    have i1 := i0.handleFee c caller m
    have hf := handleFee_msg c s0 caller m
    generalize SolBmc.handleFee c s0 caller m = p at h i1 hf
    obtain ⟨s1, m1⟩ := p
    dsimp only at h i1 hf
    split at h
    · have i2 := i1.handle c env ok call hc m1
      generalize handleMessage c env ok call s1 m1 = q at h i2
      obtain ⟨e, s2⟩ := q
      dsimp only at h i2
      split at h
      · cases h; exact i2
      · split at h
        · split at h
          · cases h
          · rename_i hr
            cases h
            exact (i2.removeResponse hr).error c _ _ _ _ _
        · cases h
          exact i2.error c _ _ _ _ _
    · split at h
      · cases h
        refine i1.msg _ (fun h => ?_)
        rw [hf.2.2.1]; exact hm (by rw [← hf.2.1]; exact h)
      · cases h
        exact i1.error c _ _ _ _ _
  rx := fun s prev n i => i.same rfl rfl
  drop := by
    intro env s src seq svc sn nsn f s' h i
    unfold dropMessage at h
    split at h
    case h_2 => cases h
    split at h
    · cases h
    dsimp only at h
    have i1 : Sent (SolBmc.accumulate (addIn s f.network f.values.sum) c.periphery f).1 :=
      Sent.accumulate (s := addIn s f.network f.values.sum) (i.same rfl rfl) _ _
    generalize SolBmc.accumulate (addIn s f.network f.values.sum) c.periphery f = p at h i1
    obtain ⟨s1, f1⟩ := p
    dsimp only at h i1
    split at h
    · cases h
      refine Sent.error c ?_ _ _ _ _ _
      exact i1.same rfl rfl
    · cases h
  clear := by
    intro s link i
    refine ⟨i.1, ?_⟩
    intro n k m h
    simp only [clearSeq, List.mem_append, List.mem_singleton, reduceCtorEq, or_false] at h
    exact i.2 _ _ _ h
  internal := by
    intro s next to body i
    unfold sendInternal
    exact i.next.msg _ (fun _ => by have := i.1; dsimp only; omega)

/-- C140: over any history, if the messages taken from the verifiers ask for answers only with a number, so do all messages sent. So
in a network of such centers no message is unanswerable: each center only forwards or adds numbered ones. -/
theorem C140_evm_sent (hv : ∀ l r ms, c.verify l r ms = true → ∀ m ∈ ms, Numbered m) (ops : List Op) (next : String) (k : Nat) (m : Msg)
    (h : Event.message next k m ∈ (run c ops).log) : Numbered m ∧ ∀ c' : Cfg, ¬ Unanswerable c' m := by
  have : Numbered m := (run_presA c hv (sent_pres c) ⟨by decide, fun n k m h => by simp [init] at h⟩ ops).2 next k m h
  exact ⟨this, fun c' h' => by have := this h'.2.1; have := h'.2.2; omega⟩

/-! ### a link that is stopped -/

/-- Messages at which the loop fails in every state. -/
def Poison (m : Msg) : Prop := ∀ env ok call caller prev seq s, item c env ok call caller prev seq s m = none

/-- No such message is among the handled ones. -/
def Clean (s : St) : Prop := ∀ l m, some m ∈ s.disp l → ¬ Poison c m

theorem clean_pres : Pres c (Clean c) where
  send := fun env s sender value to svc sn body s' _ h i l m hm => i l m (by rw [← (sendMessage_frame c _ _ _ _ _ _ _ _ _ h).2.1]; exact hm)
  claim := fun env s sender value net receiver s' _ h i l m hm => i l m (by rw [← (claim_frame c _ _ _ _ _ _ _ h).2.1]; exact hm)
  item := by
    intro env ok call caller prev seq s m s' hc h i
    obtain ⟨s1, -, hd, -, hs⟩ := item_shape c env ok call caller prev seq s m s' h
    have i1 : Clean c s1 := by
      intro l m' hm
      rw [hd] at hm
      unfold upd at hm
      split at hm
      · simp only [List.mem_append, List.mem_singleton, Option.some.injEq] at hm
        rcases hm with hm | hm
        · exact i _ _ hm
        · subst hm; intro hp; rw [hp] at h; cases h
      · exact i _ _ hm
    rcases hs with hs | hs
    · intro l m' hm; exact i1 l m' (by rw [← hs.2.1]; exact hm)
    · subst hs; exact hc _ i1
  rx := fun s prev n i => i
  drop := by
    intro env s src seq svc sn nsn f s' h i l m hm
    obtain ⟨next, -, -, hd, -⟩ := drop_shape c _ _ _ _ _ _ _ _ _ h
    rw [hd] at hm
    unfold upd at hm
    split at hm
    · simp only [List.mem_append, List.mem_singleton, reduceCtorEq, or_false] at hm
      exact i _ _ hm
    · exact i _ _ hm
  clear := by
    intro s link i l m hm
    simp only [clearSeq, upd] at hm
    split at hm
    · cases hm
    · exact i _ _ hm
  internal := fun s next to body i => i

/-- C140 is false: let `src` be the messages of a link, `none` where a message can not be decoded, and let the verifier release only
these. Over any history (no service re-entering the link) the number of the link stays below a message that can not be decoded or at
which the loop fails, unless the owner gave this message up. -/
theorem C140_evm_never_passed (l : String) (src : Nat → Option Msg)
    (hv : ∀ r ms, c.verify l r ms = true → ∀ (i : Nat) (m : Msg), ms[i]? = some m → src (r + i + 1) = some m)
    (ops : List Op) (hc : ∀ o ∈ ops, o.calm []) (k : Nat) (hk : 0 < k) (hb : src k = none ∨ ∃ m, src k = some m ∧ Poison c m) :
    (run c ops).rx l < k ∨ ((run c ops).disp l)[k - 1]? = some none := by
  have g := run_goodQ c (fun _ n m => src n = some m) l hv ops hc
  have hcl : Clean c (run c ops) := run_pres c (clean_pres c) (fun l m h => by simp [init] at h) ops
  rcases Nat.lt_or_ge ((run c ops).rx l) k with h | h
  · exact Or.inl h
  · refine Or.inr ?_
    have hlt : k - 1 < ((run c ops).disp l).length := by rw [g.1]; omega
    cases hx : ((run c ops).disp l)[k - 1]? with
    | none => rw [List.getElem?_eq_none_iff] at hx; omega
    | some o =>
      cases o with
      | none => rfl
      | some m =>
        have h1 := g.2 (k - 1) m hx
        rw [show k - 1 + 1 = k by omega] at h1
        have h2 := hcl l m (List.mem_of_getElem? hx)
        rcases hb with hb | ⟨m', hb, hp⟩
        · rw [hb] at h1; cases h1
        · rw [hb] at h1; cases h1; exact absurd hp h2

/-- C140: such messages exist: an unanswerable one with an unreadable body for the message center's own service. -/
theorem C140_evm_poison (m : Msg) (h : Unanswerable c m) (hs : m.svc = "bmc") (hb : c.decInner m.body = none) : Poison c m :=
  fun env ok call caller prev seq s => C140_evm_item_fails c env ok call caller prev seq s m h (Or.inr ⟨hs, hb⟩)

/-! ### what the owner can do -/

/-- C140: the owner can give up the next message of a link if the network named leads to the link, the service named is registered and
the numbers named are of one sign; the message itself is not looked at. -/
theorem C140_evm_drop (env : Env) (s : St) (net link svc : String) (a : Nat) (sn nsn : Int) (f : FeeInfo)
    (h1 : env.resolve net = some link) (h2 : env.service svc = some a) (h3 : (0 < nsn ∧ 0 ≤ sn) ∨ (nsn < 0 ∧ sn ≤ 0)) :
    ∃ s', dropMessage c env s net (s.rx link + 1) svc sn nsn f = some s' ∧ s'.rx link = s.rx link + 1 ∧
      s'.disp link = s.disp link ++ [none] := by
  have hx : ∃ s', dropMessage c env s net (s.rx link + 1) svc sn nsn f = some s' := by
    unfold dropMessage
    rw [h1, h2]
    dsimp only
    rw [if_neg (by omega)]
    have hf := ((addIn_frame s f.network f.values.sum).trans (accumulate_frame _ c.periphery f)).1
    generalize SolBmc.accumulate (addIn s f.network f.values.sum) c.periphery f = p at hf
    obtain ⟨s1, f1⟩ := p
    dsimp only at hf ⊢
    rw [hf, if_pos rfl]
    exact ⟨_, rfl⟩
  obtain ⟨s', h⟩ := hx
  obtain ⟨next, q1, q2, q3, q4, -⟩ := drop_shape c env s s' _ _ _ _ _ _ h
  rw [h1] at q1
  cases q1
  exact ⟨s', h, by rw [q2]; simp [upd], by rw [q3]; simp [upd]⟩

/-- C140: named by its own numbers an unanswerable message can not be given up, nor can one for the message center's own service. -/
theorem C140_evm_drop_refused (env : Env) (s : St) (src svc : String) (seq : Nat) (sn nsn : Int) (f : FeeInfo)
    (h : (0 < sn ∧ nsn ≤ 0) ∨ env.service svc = none) : dropMessage c env s src seq svc sn nsn f = none := by
  unfold dropMessage
  rcases h with h | h
  · split
    · rw [if_pos (by omega)]
    · rfl
  · rw [h]
    split
    · rename_i h1; cases h1
    · rfl

/-! ### in histories -/
namespace Demo

/-- Two messages of a link: the second is unanswerable and has an unreadable body. -/
def src2 : Nat → Option Msg
  | 1 => some ⟨"B", "A", "svc", 1, [7], 1, ⟨"B", [5]⟩⟩
  | 2 => some ⟨"B", "A", "bmc", 1, [], 0, ⟨"B", []⟩⟩
  | _ => none

def cfg2 : Cfg := { cfg with verify := fun _ r ms => decide (ms.map some = (List.range ms.length).map (fun i => src2 (r + i + 1))) }

/-- C140 example: the second message is refused, alone and behind the first; the owner gives it up under another service's name. -/
example :
    (run cfg2 [.relay env 9 "B" (.cons ⟨"B", "A", "svc", 1, [7], 1, ⟨"B", [5]⟩⟩ env true .nil (.cons ⟨"B", "A", "bmc", 1, [], 0, ⟨"B", []⟩⟩ env true .nil .nil))]).rx "B" = 0 ∧
    (run cfg2 [.relay env 9 "B" (.cons ⟨"B", "A", "svc", 1, [7], 1, ⟨"B", [5]⟩⟩ env true .nil .nil),
      .relay env 9 "B" (.cons ⟨"B", "A", "bmc", 1, [], 0, ⟨"B", []⟩⟩ env true .nil .nil)]).rx "B" = 1 ∧
    (run cfg2 [.relay env 9 "B" (.cons ⟨"B", "A", "svc", 1, [7], 1, ⟨"B", [5]⟩⟩ env true .nil .nil),
      .drop env "B" 2 "svc" 0 1 ⟨"B", []⟩]).rx "B" = 2 := by decide +kernel

/-- C140_evm_sent: the verifier of the demo releases numbered messages; the reply, the error and the claim sent are numbered. -/
example : ((sentSince "B" (run cfg history).log).map (fun x => (x.2.sn, x.2.nsn))) = [(0, -1), (-3, -3), (1, 1)] := by decide +kernel

end Demo

end Verif.SolBmc

namespace Verif.EndToEnd
open Verif Verif.Rlp Verif.IntConv Verif.SolRlp Verif.SolBmc

/-! ### in bytes -/

/-- Bytes of a text with one character for each byte. -/
def bytesOf (s : String) : Bytes := s.toList.map (fun x => UInt8.ofNat x.toNat)

/-- The message as the structure that is encoded (Types.sol:72-80). -/
def toStruct (m : SolBmc.Msg) : BTPMessage :=
  ⟨bytesOf m.src, bytesOf m.dst, bytesOf m.svc, m.sn, m.body, m.nsn, ⟨bytesOf m.fee.network, m.fee.values⟩⟩

/-- C140 is false: an answer to request 128 of a network (its number is -128) can not be read by any EVM message center. -/
theorem C140_evm_unreadable (m : BTPMessage) (ok : MsgOk { m with nsn := 0 }) (hn : m.nsn = -128) :
    ∃ e, encodeBTPMessage m = some e ∧ ∀ junk, decodeBTPMessage e junk = none ∧ decodeMsg e junk = none := by
  obtain ⟨h, h', f1, f2, f3⟩ := encodeFee m.fee ok.network ok.values ok.count
  unfold encodeBTPMessage
  rw [(C59_int m.sn).1 ok.sn, hn, C59_byte_80_witness.1, f1, str_enc ok.src, str_enc ok.dst, str_enc ok.svc, str_enc ok.message]
  simp only [Option.bind_some]
  have l1 := flatten_len m.fee.values ok.values
  have lc := ok.count
  have l2 := hdr_len f2
  have l3 := hdr_len f3
  have l4 := str_len ok.network
  have fw := hdr_whole (base := 0xc0) (Or.inr rfl) f3
  have lf : (h' ++ [wBytes m.fee.network, h ++ (m.fee.values.map uEnc).flatten].flatten).length ≤ 2 ^ 62 := by
    simp only [List.length_append, List.flatten_cons, List.flatten_nil, List.length_nil]; simp only at l4 lc; omega
  generalize h' ++ [wBytes m.fee.network, h ++ (m.fee.values.map uEnc).flatten].flatten = fe at *
  have a1 := str_len ok.src
  have a2 := str_len ok.dst
  have a3 := str_len ok.svc
  have a4 := intw_len ok.sn
  have a5 := str_len ok.message
  simp only at a1 a2 a3 a4 a5
  obtain ⟨hd, e1, e2⟩ := listOf_hdr [wBytes m.src, wBytes m.dst, wBytes m.svc, wBytes (bigIntToBytes m.sn), wBytes m.message,
    [0x80], fe].flatten (by
      simp only [List.length_append, List.flatten_cons, List.flatten_nil, List.length_nil, List.length_cons]; omega)
  have hdec : ∀ junk, decodeBTPMessage (hd ++ [wBytes m.src, wBytes m.dst, wBytes m.svc, wBytes (bigIntToBytes m.sn), wBytes m.message,
      [0x80], fe].flatten) junk = none := by
    intro junk
    unfold decodeBTPMessage toRlpItem
    rw [toList_hdr _ e2 (by
      intro e he
      simp only [List.mem_cons, List.not_mem_nil, or_false] at he
      rcases he with rfl | rfl | rfl | rfl | rfl | rfl | rfl
      · exact str_whole ok.src
      · exact str_whole ok.dst
      · exact str_whole ok.svc
      · exact int_whole ok.sn
      · exact str_whole ok.message
      · exact ⟨by decide, fun rest => by simp [itemLength, byte0]⟩
      · exact fw) junk]
    simp only [itemsOf, Option.bind_some]
    rw [str_dec ok.src, str_dec ok.dst, str_dec ok.svc, int_dec ok.sn, str_dec ok.message]
    have := C59_byte_80_witness.2.2.1 ([fe].flatten ++ junk)
    unfold toRlpItem at this
    simp only [Option.bind_some]
    rw [show ([0x80] : Bytes).length = 1 from rfl] at this ⊢
    rw [this]
    rfl
  exact ⟨_, e1, fun junk => ⟨hdec junk, by unfold decodeMsg; rw [hdec junk]; rfl⟩⟩

theorem decodeAll_none {junk : Nat → Bytes} {b : Bytes} (hb : ∀ j, decodeMsg b j = none) (k : Nat) (bs : List Bytes) (h : b ∈ bs) :
    decodeAll junk k bs = none := by
  induction bs generalizing k with
  | nil => cases h
  | cons x t ih =>
    simp only [decodeAll]
    rcases List.mem_cons.1 h with h | h
    · subst h; rw [hb]; rfl
    · rw [ih (k + 1) h]; cases decodeMsg x (junk k) <;> rfl

/-- C140 is false: a relay call whose messages include an unreadable one changes nothing, neither in the message center nor in the block
verifier, whoever makes it. -/
theorem C140_evm_call_reverts (P : Par) (s : St) (env : SolBmc.Env) (caller : Nat) (msg : Bytes) (mem : SolRelay.Mem) (junk : Nat → Bytes)
    (beh : Nat → Beh) (b : Bytes) (hb : ∀ j, decodeMsg b j = none) (v : SolBtpBlock.St) (out : List Bytes)
    (h : SolRelay.handleBytes P.E P.C s.bmv ⟨P.bmc, P.net, s.bmc.rx P.link, msg, mem⟩ = some (v, out)) (hm : b ∈ out) :
    step P s (.relay env caller msg mem junk beh) = s := by
  simp only [step, relayCall, h, Option.bind_some, decodeAll_none hb 0 out hm, Option.bind_none, ite_self]

/-- The numbers of a message that the encoder refuses. -/
def Huge (m : SolBmc.Msg) : Prop := m.sn < -(2 ^ 127) ∨ 2 ^ 127 < m.sn ∨ m.nsn < -(2 ^ 127) ∨ 2 ^ 127 < m.nsn

theorem huge_refused {sn nsn : Int} {m : BTPMessage} (h1 : m.sn = sn) (h2 : m.nsn = nsn)
    (h : sn < -(2 ^ 127) ∨ 2 ^ 127 < sn ∨ nsn < -(2 ^ 127) ∨ 2 ^ 127 < nsn) : encodeBTPMessage m = none := by
  unfold encodeBTPMessage
  rw [h1, h2]
  by_cases hs : sn < -(2 ^ 127) ∨ 2 ^ 127 ≤ sn
  · rw [(C59_int sn).2 hs]; rfl
  · have hn : nsn < -(2 ^ 127) ∨ 2 ^ 127 ≤ nsn := by omega
    rw [(C59_int nsn).2 hn]
    cases encodeInt sn <;> rfl

/-- C140 is false: a message for another network with numbers beyond 128 bits can be read, but not be written again. Whether it is to be
forwarded, answered with an error or reported as dropped: the last thing the loop does is to emit an event with a message the encoder refuses,
so the relay call reverts. -/
theorem C140_evm_huge (c : SolBmc.Cfg) (env : SolBmc.Env) (ok : Bool) (call : SolBmc.St → SolBmc.St) (caller : Nat) (prev : String)
    (seq : Nat) (s s' : SolBmc.St) (m : SolBmc.Msg) (hd : m.dst ≠ c.net) (hh : Huge m)
    (h : item c env ok call caller prev seq s m = some s') :
    ∃ ev m', s'.log = s.log ++ [ev] ∧ ((∃ n k, ev = .message n k m') ∨ ∃ p q e, ev = .dropped p q m' e) ∧ encodeBTPMessage (toStruct m') = none := by
  unfold item at h
  dsimp only at h
  generalize hs0 : ({ addIn s m.fee.network m.fee.values.sum with
    disp := upd (addIn s m.fee.network m.fee.values.sum).disp prev ((addIn s m.fee.network m.fee.values.sum).disp prev ++ [some m]) } : SolBmc.St) = s0 at h
  have l0 : s0.log = s.log := by subst hs0; rfl
  have hm := handleFee_msg c s0 caller m
  have l1 : (handleFee c s0 caller m).1.log = s0.log := by
    unfold handleFee
    dsimp only
    rw [if_neg hd]
    unfold accumulate
    split
    · rfl
    · exact (addReward_log _ _ _ _).1
  generalize handleFee c s0 caller m = p at h hm l1
  obtain ⟨s1, m1⟩ := p
  obtain ⟨q1, q2, q3, q4, q5, q6⟩ := hm
  dsimp only at h l1 q1 q2 q3 q4 q5 q6
  rw [if_neg (by rw [q1]; exact hd)] at h
  split at h
  · cases h
    refine ⟨_, m1, by simp only [sendMsg]; rw [l1, l0], Or.inl ⟨_, _, rfl⟩, ?_⟩
    exact huge_refused (sn := m.sn) (nsn := m.nsn) (by simp [toStruct, q2]) (by simp [toStruct, q3]) hh
  · cases h
    unfold sendError
    have l2 : (handleErrorFee c env s1 m1.src m1.sn m1.fee).1.log = s1.log := by
      unfold handleErrorFee
      dsimp only
      repeat' split
      · rfl
      · rfl
      · exact (addReward_log _ _ _ _).1
    generalize handleErrorFee c env s1 m1.src m1.sn m1.fee = p at l2
    obtain ⟨s2, f⟩ := p
    dsimp only at l2 ⊢
    split
    · refine ⟨_, _, by simp only [sendMsg]; rw [l2, l1, l0], Or.inl ⟨_, _, rfl⟩, ?_⟩
      refine huge_refused (sn := -m.sn) (nsn := -m.nsn) (by simp [toStruct, q2]) (by simp [toStruct, q3]) ?_
      unfold Huge at hh
      omega
    · refine ⟨_, _, by rw [l2, l1, l0], Or.inr ⟨_, _, _, rfl⟩, ?_⟩
      exact huge_refused (sn := m.sn) (nsn := m.nsn) (by simp [toStruct, q2]) (by simp [toStruct, q3]) hh

/-- C140: the others can be written, forwarded and answered. -/
theorem C140_evm_writable (m : BTPMessage) (h : MsgOk m) : (encodeBTPMessage m).isSome := by
  obtain ⟨e, h1, _⟩ := C59_btp_message_roundtrip_partial m h
  rw [h1]; rfl

/-- Such messages: ICON writes the number 2^127 + 1, the EVM message center reads it and can not write it. -/
example : decodeMsg (wMsg ⟨"x", "y", "s", 2 ^ 127 + 1, [1], 5, none⟩) [] = some ⟨"x", "y", "s", 2 ^ 127 + 1, [1], 5, ⟨"", []⟩⟩ ∧
    encodeBTPMessage (toStruct ⟨"x", "y", "s", 2 ^ 127 + 1, [1], 5, ⟨"", []⟩⟩) = none := by decide +kernel

/-- The unreadable answer: the message center sends it when a service answers request 128. -/
example : Event.message "B" 1 ⟨"A", "B", "svc", 0, [9], -128, ⟨"B", [7]⟩⟩ ∈
    (SolBmc.run { SolBmc.Demo.cfg with verify := fun _ _ ms => decide (ms = [⟨"B", "A", "svc", 3, [], 128, ⟨"B", [5, 7]⟩⟩]) }
      [.relay SolBmc.Demo.env 9 "B" (.cons ⟨"B", "A", "svc", 3, [], 128, ⟨"B", [5, 7]⟩⟩ SolBmc.Demo.env true
        (.cons (.send SolBmc.Demo.env 50 4 "B" "svc" (-3) [9]) .nil) .nil)]).log := by decide +kernel

end Verif.EndToEnd
