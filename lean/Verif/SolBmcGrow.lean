import Verif.SolBmcProps
import Verif.SolNet
/-!
The log of an EVM message center only grows, and calls other than the clearing of numbers write no clearing into it.
-/
namespace Verif.SolBmc
open Verif
variable (c : Cfg)

/-- The log grows, and the numbers of no link are cleared. -/
def Grow (s s' : St) : Prop := ∃ evs, s'.log = s.log ++ evs ∧ ∀ e ∈ evs, ∀ l, e ≠ .cleared l

theorem Grow.refl (s : St) : Grow s s := ⟨[], (List.append_nil _).symm, fun _ h => nomatch h⟩
theorem Grow.trans {a b d : St} (h1 : Grow a b) (h2 : Grow b d) : Grow a d := by
  obtain ⟨e1, h1, k1⟩ := h1
  obtain ⟨e2, h2, k2⟩ := h2
  exact ⟨e1 ++ e2, by rw [h2, h1, List.append_assoc], fun e he => (List.mem_append.1 he).elim (k1 e) (k2 e)⟩
theorem Grow.of_eq {s s' : St} (h : s'.log = s.log) : Grow s s' := ⟨[], by rw [h, List.append_nil], fun _ h => nomatch h⟩

theorem addIn_grow (s : St) (k : String) (v : Nat) : Grow s (addIn s k v) := Grow.of_eq rfl

theorem addReward_grow (s : St) (k : String) (a v : Nat) : Grow s (addReward s k a v) := by
  exact Grow.of_eq (addReward_log s k a v).1

theorem sendMsg_grow (s : St) (next : String) (m : Msg) : Grow s (sendMsg s next m) :=
  ⟨[.message next (s.tx next + 1) m], rfl, fun e he l h => by rw [List.mem_singleton.1 he] at h; cases h⟩

theorem collectRemain_grow (s : St) (f : FeeInfo) : Grow s (collectRemain c s f).1 := addReward_grow _ _ _ _

theorem accumulate_grow (s : St) (a : Nat) (f : FeeInfo) : Grow s (accumulate s a f).1 := by
  unfold accumulate
  split
  · exact Grow.refl s
  · exact addReward_grow _ _ _ _

theorem handleFee_grow (s : St) (a : Nat) (m : Msg) : Grow s (handleFee c s a m).1 := by
  have h := accumulate_grow s a m.fee
  unfold handleFee
  dsimp only
  generalize accumulate s a m.fee = q at h
  obtain ⟨s1, f⟩ := q
  dsimp only at h ⊢
  split
  · split
    · exact h.trans ((collectRemain_grow c s1 _).trans (Grow.of_eq rfl))
    · exact h.trans (collectRemain_grow c s1 _)
  · exact h

theorem handleErrorFee_grow (env : Env) (s : St) (src : String) (sn : Int) (f : FeeInfo) : Grow s (handleErrorFee c env s src sn f).1 := by
  unfold handleErrorFee
  split
  · dsimp only
    split <;> exact Grow.refl s
  · exact collectRemain_grow c s f

theorem removeResponse_grow (s s' : St) (to svc : String) (sn : Int) (r : Resp) (h : removeResponse s to svc sn = some (s', r)) : Grow s s' := by
  have := removeResponse_ledger s s' to svc sn r h ""
  exact Grow.of_eq this.2.2.2.2.2.1

theorem sendError_grow (env : Env) (s : St) (prev : String) (seq : Nat) (m : Msg) (code : Nat) : Grow s (sendError c env s prev seq m code) := by
  have h := handleErrorFee_grow c env s m.src m.sn m.fee
  unfold sendError
  dsimp only
  generalize handleErrorFee c env s m.src m.sn m.fee = p at h
  obtain ⟨s1, f⟩ := p
  dsimp only at h ⊢
  split
  · exact h.trans (sendMsg_grow _ _ _)
  · exact h.trans ⟨_, rfl, fun e he l h => by rw [List.mem_singleton.1 he] at h; cases h⟩

theorem sendWithFee_grow (env : Env) (s s' : St) (sender value : Nat) (to svc : String) (sn : Int) (body : Bytes) (isR fill : Bool) (k : Int)
    (h : sendWithFee c env s sender value to svc sn body isR fill = some (s', k)) : Grow s s' := by
  unfold sendWithFee at h
  split at h
  · cases h
  dsimp only at h
  have ha : Grow s (addIn { s with coins := s.coins + value } c.net value) :=
    Grow.trans (b := { s with coins := s.coins + value }) (Grow.of_eq rfl) (addIn_grow _ c.net value)
  generalize addIn { s with coins := s.coins + value } c.net value = s0 at h ha
  have hn : Grow s0 { s0 with nsn := s0.nsn + 1 } := Grow.of_eq rfl
  split at h
  · split at h
    · cases h
    · rename_i hr
      simp only [Option.some.injEq, Prod.mk.injEq] at h
      obtain ⟨rfl, -⟩ := h
      exact ha.trans ((removeResponse_grow _ _ _ _ _ _ hr).trans ((addReward_grow _ _ _ _).trans (sendMsg_grow _ _ _)))
  · split at h
    · split at h
      · simp only [Option.some.injEq, Prod.mk.injEq] at h
        obtain ⟨rfl, -⟩ := h
        exact ha.trans (hn.trans ((addReward_grow _ _ _ _).trans (sendMsg_grow _ _ _)))
      · cases h
    · simp only [Option.some.injEq, Prod.mk.injEq] at h
      obtain ⟨rfl, -⟩ := h
      exact ha.trans (hn.trans (sendMsg_grow _ _ _))

theorem sendMessage_grow (env : Env) (s s' : St) (sender value : Nat) (to svc : String) (sn : Int) (body : Bytes)
    (h : sendMessage c env s sender value to svc sn body = some s') : Grow s s' := by
  unfold sendMessage at h
  split at h
  · cases h
  dsimp only at h
  rw [Option.map_eq_some_iff] at h
  obtain ⟨⟨s1, k⟩, h, rfl⟩ := h
  exact sendWithFee_grow c env s s1 _ _ _ _ _ _ _ _ k h

theorem handleResponse_grow (s s' : St) (k : Int) (res : Nat) (h : handleResponse s k res = some s') : Grow s s' := by
  unfold handleResponse at h
  dsimp only at h
  split at h
  case isFalse => cases h
  simp only [Option.some.injEq] at h
  subst h
  split
  · have h1 : Grow s { s with req := s.req.set (s.req.get Req.empty k).nsn Req.empty } := Grow.of_eq rfl
    exact h1.trans ((addReward_grow _ _ _ _).trans (Grow.of_eq rfl))
  · exact Grow.of_eq rfl

theorem ownService_grow (env : Env) (ok : Bool) (s s' : St) (fr : String) (sn : Int) (body : Bytes)
    (h : ownService c env ok s fr sn body = some s') : Grow s s' := by
  unfold ownService at h
  split at h
  · cases h
  · split at h
    · cases h
    · rename_i amount _ _ _ a _
      have ha : Grow s (addIn { s with credited := s.credited + amount } c.net amount) :=
        Grow.trans (b := { s with credited := s.credited + amount }) (Grow.of_eq rfl) (addIn_grow _ c.net amount)
      exact ha.trans ((addReward_grow _ _ _ _).trans (sendMessage_grow c env _ s' _ _ _ _ _ _ h))
  · exact handleResponse_grow s s' _ _ h
  · split at h
    · simp only [Option.some.injEq] at h; subst h; exact Grow.refl s
    · cases h
  · cases h

theorem handleMessage_grow (env : Env) (ok : Bool) (call : St → St) (s : St) (m : Msg) :
    Grow s (handleMessage c env ok call s m).2 ∨ ((handleMessage c env ok call s m).1 = 0 ∧ (handleMessage c env ok call s m).2 = call s) := by
  unfold handleMessage
  split
  · dsimp only
    split
    · split
      · rename_i h; exact Or.inl (ownService_grow c env ok s _ _ _ _ h)
      · exact Or.inl (Grow.refl s)
    · split
      · exact Or.inl (Grow.refl s)
      · split
        · rename_i h; exact Or.inl (handleResponse_grow s _ _ _ h)
        · exact Or.inl (Grow.refl s)
  · split
    · exact Or.inl (Grow.refl s)
    · split
      · split
        · exact Or.inr ⟨rfl, rfl⟩
        · exact Or.inl (Grow.refl s)
      · split
        · exact Or.inl (Grow.refl s)
        · split
          · exact Or.inr ⟨rfl, rfl⟩
          · exact Or.inl (Grow.refl s)

/-- A relayed message is recorded as handled; then either only frame steps or the called service's actions follow. -/
theorem item_grow (env : Env) (ok : Bool) (call : St → St) (caller : Nat) (prev : String) (seq : Nat) (s : St) (m0 : Msg) (s' : St)
    (h : item c env ok call caller prev seq s m0 = some s') :
    ∃ s1, Grow s s1 ∧ (Grow s1 s' ∨ s' = call s1) := by
  unfold item at h
  dsimp only at h
  have ha := addIn_grow s m0.fee.network m0.fee.values.sum
  generalize addIn s m0.fee.network m0.fee.values.sum = s0 at h ha
  have hb : Grow { s0 with disp := upd s0.disp prev (s0.disp prev ++ [some m0]) } (handleFee c { s0 with disp := upd s0.disp prev (s0.disp prev ++ [some m0]) } caller m0).1 :=
    handleFee_grow c _ caller m0
  generalize handleFee c { s0 with disp := upd s0.disp prev (s0.disp prev ++ [some m0]) } caller m0 = p at h hb
  obtain ⟨s1, m⟩ := p
  dsimp only at h hb
  refine ⟨s1, ha.trans (Grow.trans (Grow.of_eq rfl) hb), ?_⟩
  · split at h
    · have hm := handleMessage_grow c env ok call s1 m
      generalize handleMessage c env ok call s1 m = q at h hm
      obtain ⟨e, s2⟩ := q
      dsimp only at h hm
      split at h
      · simp only [Option.some.injEq] at h
        subst h
        rcases hm with hm | hm
        · exact Or.inl hm
        · exact Or.inr hm.2
      · rename_i he
        have hm : Grow s1 s2 := by
          rcases hm with hm | hm
          · exact hm
          · exact absurd hm.1 he
        split at h
        · split at h
          · cases h
          · rename_i hr
            simp only [Option.some.injEq] at h
            subst h
            exact Or.inl (hm.trans ((removeResponse_grow _ _ _ _ _ _ hr).trans (sendError_grow c env _ _ _ _ _)))
        · simp only [Option.some.injEq] at h
          subst h
          exact Or.inl (hm.trans (sendError_grow c env _ _ _ _ _))
    · split at h
      · simp only [Option.some.injEq] at h
        subst h
        exact Or.inl (sendMsg_grow _ _ _)
      · simp only [Option.some.injEq] at h
        subst h
        exact Or.inl (sendError_grow c env _ _ _ _ _)

theorem claim_grow (env : Env) (s s' : St) (sender value : Nat) (net receiver : String)
    (h : claimReward c env s sender value net receiver = some s') : Grow s s' := by
  unfold claimReward at h
  dsimp only at h
  generalize (if sender = env.feeHandler then c.periphery else sender) = who at h
  split at h
  case isFalse => cases h
  split at h
  · split at h
    · cases h
    simp only [Option.some.injEq] at h
    subst h
    exact Grow.of_eq rfl
  · split at h
    · cases h
    rename_i s2 k hsend
    simp only [Option.some.injEq] at h
    subst h
    have h1 := sendWithFee_grow c env _ s2 _ _ _ _ _ _ _ _ k hsend
    exact Grow.trans (b := { s with reward := s.reward.set (who, net) 0 }) (Grow.of_eq rfl)
      (h1.trans (Grow.of_eq rfl))

theorem drop_grow (env : Env) (s s' : St) (src : String) (seq : Nat) (svc : String) (sn nsn : Int) (f : FeeInfo)
    (h : dropMessage c env s src seq svc sn nsn f = some s') :
    Grow s s' := by
  unfold dropMessage at h
  split at h
  case h_2 => cases h
  rename_i next a hn _
  split at h
  · cases h
  dsimp only at h
  have h1 := addIn_grow s f.network f.values.sum
  generalize addIn s f.network f.values.sum = s0 at h h1
  have h2 := accumulate_grow s0 c.periphery f
  generalize accumulate s0 c.periphery f = p at h h2
  obtain ⟨s1, f1⟩ := p
  dsimp only at h h2
  split at h
  case isFalse => cases h
  rename_i hseq
  simp only [Option.some.injEq] at h
  subst h
  have h3 := sendError_grow c env { s1 with rx := upd s1.rx next (s1.rx next + 1), disp := upd s1.disp next (s1.disp next ++ [none]) } next seq
    ⟨src, "", svc, sn, [], nsn, f1⟩ 1
  have h4 := h1.trans h2
  exact h4.trans (Grow.trans (Grow.of_eq rfl) h3)

/-- A call that does not clear numbers, nor do the calls made meanwhile. -/
abbrev Keeps (c : Cfg) : Op → Prop
  | .relay _ _ _ items => SolNet.QuietItems c items
  | .drop _ _ _ _ _ _ _ => True
  | o => SolNet.Quiet c o

theorem quiet_grow (o : Op) (s s' : St) (hq : SolNet.Quiet c o) (h : exec c o s = some s') : Grow s s' := by
  cases o with
  | send env sender value to svc sn body =>
    simp only [exec] at h
    split at h
    · cases h
    · exact sendMessage_grow c env s s' _ _ _ _ _ _ h
  | claim env sender value net receiver =>
    simp only [exec] at h
    split at h
    · cases h
    · exact claim_grow c env s s' _ _ _ _ h
  | relay => exact hq.elim
  | drop => exact hq.elim
  | clear => exact hq.elim
  | internal next to body =>
    simp only [exec, Option.some.injEq] at h
    subst h
    exact Grow.trans (Grow.of_eq rfl) (sendMsg_grow _ _ _)

theorem execOps_grow : ∀ (acts : Ops) (s : St), SolNet.QuietOps c acts → Grow s (execOps c acts s)
  | .nil, s, _ => by simp only [execOps]; exact Grow.refl s
  | .cons o t, s, h => by
    simp only [execOps]
    refine Grow.trans ?_ (execOps_grow t _ h.2)
    cases he : exec c o s with
    | none => exact Grow.refl s
    | some s1 => exact quiet_grow c o s s1 h.1 he

theorem execItems_grow : ∀ (items : Items) (caller : Nat) (prev : String) (seq : Nat) (s s' : St), SolNet.QuietItems c items →
    execItems c items caller prev seq s = some s' → Grow s s'
  | .nil, caller, prev, seq, s, s', _, h => by simp only [execItems, Option.some.injEq] at h; subst h; exact Grow.refl s
  | .cons m env ok acts t, caller, prev, seq, s, s', hq, h => by
    simp only [execItems] at h
    split at h
    · cases h
    rename_i s1 h1
    refine Grow.trans ?_ (execItems_grow t caller prev (seq + 1) s1 s' hq.2 h)
    obtain ⟨s2, h2, h3⟩ := item_grow c env ok _ caller prev _ s m s1 h1
    rcases h3 with h3 | h3
    · exact h2.trans h3
    · rw [h3]; exact h2.trans (execOps_grow c acts s2 hq.1)

theorem exec_grow (o : Op) (s s' : St) (hq : Keeps c o) (h : exec c o s = some s') : Grow s s' := by
  cases o with
  | relay env caller prev items =>
    simp only [exec] at h
    split at h
    · split at h
      · cases h
      rename_i s1 h1
      cases h
      exact (execItems_grow c items caller prev _ s s1 hq h1).trans (Grow.of_eq rfl)
    · cases h
  | drop env src seq svc sn nsn f => simp only [exec] at h; exact drop_grow c env s s' _ _ _ _ _ _ h
  | send => exact quiet_grow c _ s s' hq h
  | claim => exact quiet_grow c _ s s' hq h
  | clear => exact hq.elim
  | internal => exact quiet_grow c _ s s' hq h

/-- The numbered messages emitted for a link. -/
def numbered (link : String) (log : List Event) : List (Nat × Msg) := log.filterMap (fun e => match e with
  | .message next seq m => if next = link then some (seq, m) else none
  | _ => none)

/-- Numbers from 1 on, and no clearing of numbers. -/
structure Lined (s : St) : Prop where
  num : Num s
  none : ∀ l, Event.cleared l ∉ s.log

theorem Lined.grow {s s' : St} (h : Lined s) (hn : Num s') (g : Grow s s') : Lined s' := by
  obtain ⟨evs, h1, h2⟩ := g
  refine ⟨hn, fun l hl => ?_⟩
  rw [h1] at hl
  rcases List.mem_append.1 hl with hl | hl
  · exact h.none l hl
  · exact h2 _ hl l rfl

theorem Lined.ops {s : St} (h : Lined s) (acts : Ops) (hq : SolNet.QuietOps c acts) : Lined (execOps c acts s) :=
  h.grow (execOps_pres c (num_pres c) acts s h.num) (execOps_grow c acts s hq)

theorem Lined.exec {s s' : St} (h : Lined s) (o : Op) (hq : Keeps c o) (he : SolBmc.exec c o s = some s') : Lined s' :=
  h.grow (exec_pres c (num_pres c) o s s' he h.num) (exec_grow c o s s' hq he)

theorem Lined.numbers {s : St} (h : Lined s) (link : String) : (numbered link s.log).map Prod.fst = List.range' 1 (s.tx link) := by
  have e : numbered link s.log = sentSince link s.log := (sentSince_all link _ (h.none link)).symm
  rw [e]
  exact h.num link

end Verif.SolBmc
