import Verif.SolBmcLemmas
/-!
Sequence numbers of the Solidity BMC: what each step does to the numbers of the links and to the messages handled per link.
-/
namespace Verif.SolBmc
open Verif

variable (c : Cfg)

/-- The numbered messages emitted for a link since its numbers were last cleared, read from the event log. -/
def sentSince (link : String) (log : List Event) : List (Nat × Msg) :=
  log.foldl (fun acc e => match e with
    | .message next seq m => if next = link then acc ++ [(seq, m)] else acc
    | .dropped _ _ _ _ => acc
    | .cleared l => if l = link then [] else acc) []

theorem sentSince_snoc (link : String) (log : List Event) (e : Event) : sentSince link (log ++ [e]) = (match e with
    | .message next seq m => if next = link then sentSince link log ++ [(seq, m)] else sentSince link log
    | .dropped _ _ _ _ => sentSince link log
    | .cleared l => if l = link then [] else sentSince link log) := by
  unfold sentSince
  rw [List.foldl_append]
  rfl

/-- The messages emitted for every link carry the numbers 1, 2, ..., `tx`. -/
def Num (s : St) : Prop := ∀ link, (sentSince link s.log).map Prod.fst = List.range' 1 (s.tx link)

/-- A step that handles no message: received numbers and handled messages stay, the numbering goes on. -/
def Frame (s s' : St) : Prop := s'.rx = s.rx ∧ s'.disp = s.disp ∧ (Num s → Num s')

theorem Frame.refl (s : St) : Frame s s := ⟨rfl, rfl, id⟩
theorem Frame.trans {a b d : St} (h1 : Frame a b) (h2 : Frame b d) : Frame a d :=
  ⟨h2.1.trans h1.1, h2.2.1.trans h1.2.1, fun h => h2.2.2 (h1.2.2 h)⟩

theorem Num.of_eq {s s' : St} (h1 : s'.log = s.log) (h2 : s'.tx = s.tx) (i : Num s) : Num s' := by
  intro l; rw [h1, h2]; exact i l

theorem Frame.of_eq {s s' : St} (h1 : s'.rx = s.rx) (h2 : s'.disp = s.disp) (h3 : s'.log = s.log) (h4 : s'.tx = s.tx) : Frame s s' :=
  ⟨h1, h2, Num.of_eq h3 h4⟩

theorem addIn_frame (s : St) (k : String) (v : Nat) : Frame s (addIn s k v) := Frame.of_eq rfl rfl rfl rfl

theorem addReward_frame (s : St) (k : String) (a v : Nat) : Frame s (addReward s k a v) := by
  have := addReward_log s k a v
  exact Frame.of_eq this.2.2.1 this.2.2.2.2 this.1 this.2.1

theorem sendMsg_frame (s : St) (next : String) (m : Msg) : Frame s (sendMsg s next m) := by
  refine ⟨rfl, rfl, fun i l => ?_⟩
  simp only [sendMsg, sentSince_snoc]
  by_cases h : next = l
  · subst h
    rw [if_pos rfl, List.map_append, i next]
    simp only [upd, List.map_cons, List.map_nil, if_pos]
    rw [List.range'_concat]
    simp [Nat.add_comm]
  · rw [if_neg h, i l]
    unfold upd
    rw [if_neg (fun e => h e.symm)]

theorem collectRemain_frame (s : St) (f : FeeInfo) : Frame s (collectRemain c s f).1 := addReward_frame _ _ _ _

theorem accumulate_frame (s : St) (a : Nat) (f : FeeInfo) : Frame s (accumulate s a f).1 := by
  unfold accumulate
  split
  · exact Frame.refl s
  · exact addReward_frame _ _ _ _

theorem handleFee_frame (s : St) (a : Nat) (m : Msg) : Frame s (handleFee c s a m).1 := by
  have h := accumulate_frame s a m.fee
  unfold handleFee
  dsimp only
  generalize accumulate s a m.fee = q at h
  obtain ⟨s1, f⟩ := q
  dsimp only at h ⊢
  split
  · split
    · exact h.trans ((collectRemain_frame c s1 _).trans (Frame.of_eq rfl rfl rfl rfl))
    · exact h.trans (collectRemain_frame c s1 _)
  · exact h

theorem handleErrorFee_frame (env : Env) (s : St) (src : String) (sn : Int) (f : FeeInfo) : Frame s (handleErrorFee c env s src sn f).1 := by
  unfold handleErrorFee
  split
  · dsimp only
    split <;> exact Frame.refl s
  · exact collectRemain_frame c s f

theorem removeResponse_frame (s s' : St) (to svc : String) (sn : Int) (r : Resp) (h : removeResponse s to svc sn = some (s', r)) : Frame s s' := by
  have := removeResponse_ledger s s' to svc sn r h ""
  exact Frame.of_eq this.2.2.2.2.2.2.2.1 this.2.2.2.2.2.2.2.2.1 this.2.2.2.2.2.1 this.2.2.2.2.2.2.1

theorem sendError_frame (env : Env) (s : St) (prev : String) (seq : Nat) (m : Msg) (code : Nat) : Frame s (sendError c env s prev seq m code) := by
  have h := handleErrorFee_frame c env s m.src m.sn m.fee
  unfold sendError
  dsimp only
  generalize handleErrorFee c env s m.src m.sn m.fee = p at h
  obtain ⟨s1, f⟩ := p
  dsimp only at h ⊢
  split
  · exact h.trans (sendMsg_frame _ _ _)
  · refine h.trans ⟨rfl, rfl, fun i l => ?_⟩
    simp only [sentSince_snoc]
    exact i l

theorem sendWithFee_frame (env : Env) (s s' : St) (sender value : Nat) (to svc : String) (sn : Int) (body : Bytes) (isR fill : Bool) (k : Int)
    (h : sendWithFee c env s sender value to svc sn body isR fill = some (s', k)) : Frame s s' := by
  unfold sendWithFee at h
  split at h
  · cases h
  dsimp only at h
  have ha : Frame s (addIn { s with coins := s.coins + value } c.net value) :=
    Frame.trans (b := { s with coins := s.coins + value }) (Frame.of_eq rfl rfl rfl rfl) (addIn_frame _ c.net value)
  generalize addIn { s with coins := s.coins + value } c.net value = s0 at h ha
  have hn : Frame s0 { s0 with nsn := s0.nsn + 1 } := Frame.of_eq rfl rfl rfl rfl
  split at h
  · split at h
    · cases h
    · rename_i hr
      simp only [Option.some.injEq, Prod.mk.injEq] at h
      obtain ⟨rfl, -⟩ := h
      exact ha.trans ((removeResponse_frame _ _ _ _ _ _ hr).trans ((addReward_frame _ _ _ _).trans (sendMsg_frame _ _ _)))
  · split at h
    · split at h
      · simp only [Option.some.injEq, Prod.mk.injEq] at h
        obtain ⟨rfl, -⟩ := h
        exact ha.trans (hn.trans ((addReward_frame _ _ _ _).trans (sendMsg_frame _ _ _)))
      · cases h
    · simp only [Option.some.injEq, Prod.mk.injEq] at h
      obtain ⟨rfl, -⟩ := h
      exact ha.trans (hn.trans (sendMsg_frame _ _ _))

theorem sendMessage_frame (env : Env) (s s' : St) (sender value : Nat) (to svc : String) (sn : Int) (body : Bytes)
    (h : sendMessage c env s sender value to svc sn body = some s') : Frame s s' := by
  unfold sendMessage at h
  split at h
  · cases h
  dsimp only at h
  rw [Option.map_eq_some_iff] at h
  obtain ⟨⟨s1, k⟩, h, rfl⟩ := h
  exact sendWithFee_frame c env s s1 _ _ _ _ _ _ _ _ k h

theorem handleResponse_frame (s s' : St) (k : Int) (res : Nat) (h : handleResponse s k res = some s') : Frame s s' := by
  unfold handleResponse at h
  dsimp only at h
  split at h
  case isFalse => cases h
  simp only [Option.some.injEq] at h
  subst h
  split
  · have h1 : Frame s { s with req := s.req.set (s.req.get Req.empty k).nsn Req.empty } := Frame.of_eq rfl rfl rfl rfl
    exact h1.trans ((addReward_frame _ _ _ _).trans (Frame.of_eq rfl rfl rfl rfl))
  · exact Frame.of_eq rfl rfl rfl rfl

theorem ownService_frame (env : Env) (ok : Bool) (s s' : St) (fr : String) (sn : Int) (body : Bytes)
    (h : ownService c env ok s fr sn body = some s') : Frame s s' := by
  unfold ownService at h
  split at h
  · cases h
  · split at h
    · cases h
    · rename_i amount _ _ _ a _
      have ha : Frame s (addIn { s with credited := s.credited + amount } c.net amount) :=
        Frame.trans (b := { s with credited := s.credited + amount }) (Frame.of_eq rfl rfl rfl rfl) (addIn_frame _ c.net amount)
      exact ha.trans ((addReward_frame _ _ _ _).trans (sendMessage_frame c env _ s' _ _ _ _ _ _ h))
  · exact handleResponse_frame s s' _ _ h
  · split at h
    · simp only [Option.some.injEq] at h; subst h; exact Frame.refl s
    · cases h
  · cases h

theorem handleMessage_shape (env : Env) (ok : Bool) (call : St → St) (s : St) (m : Msg) :
    Frame s (handleMessage c env ok call s m).2 ∨ ((handleMessage c env ok call s m).1 = 0 ∧ (handleMessage c env ok call s m).2 = call s) := by
  unfold handleMessage
  split
  · dsimp only
    split
    · split
      · rename_i h; exact Or.inl (ownService_frame c env ok s _ _ _ _ h)
      · exact Or.inl (Frame.refl s)
    · split
      · exact Or.inl (Frame.refl s)
      · split
        · rename_i h; exact Or.inl (handleResponse_frame s _ _ _ h)
        · exact Or.inl (Frame.refl s)
  · split
    · exact Or.inl (Frame.refl s)
    · split
      · split
        · exact Or.inr ⟨rfl, rfl⟩
        · exact Or.inl (Frame.refl s)
      · split
        · exact Or.inl (Frame.refl s)
        · split
          · exact Or.inr ⟨rfl, rfl⟩
          · exact Or.inl (Frame.refl s)

/-- A relayed message is recorded as handled; then either only frame steps or the called service's actions follow. -/
theorem item_shape (env : Env) (ok : Bool) (call : St → St) (caller : Nat) (prev : String) (seq : Nat) (s : St) (m0 : Msg) (s' : St)
    (h : item c env ok call caller prev seq s m0 = some s') :
    ∃ s1, s1.rx = s.rx ∧ s1.disp = upd s.disp prev (s.disp prev ++ [some m0]) ∧ (Num s → Num s1) ∧ (Frame s1 s' ∨ s' = call s1) := by
  unfold item at h
  dsimp only at h
  have ha := addIn_frame s m0.fee.network m0.fee.values.sum
  generalize addIn s m0.fee.network m0.fee.values.sum = s0 at h ha
  have hb : Frame { s0 with disp := upd s0.disp prev (s0.disp prev ++ [some m0]) } (handleFee c { s0 with disp := upd s0.disp prev (s0.disp prev ++ [some m0]) } caller m0).1 :=
    handleFee_frame c _ caller m0
  generalize handleFee c { s0 with disp := upd s0.disp prev (s0.disp prev ++ [some m0]) } caller m0 = p at h hb
  obtain ⟨s1, m⟩ := p
  dsimp only at h hb
  refine ⟨s1, hb.1.trans ha.1, ?_, ?_, ?_⟩
  · rw [hb.2.1]; show upd s0.disp prev _ = _; rw [ha.2.1]
  · intro i; exact hb.2.2 (Num.of_eq (s := s0) rfl rfl (ha.2.2 i))
  · split at h
    · have hm := handleMessage_shape c env ok call s1 m
      generalize handleMessage c env ok call s1 m = q at h hm
      obtain ⟨e, s2⟩ := q
      dsimp only at h hm
      split at h
      · simp only [Option.some.injEq] at h
        subst h
        rcases hm with hm | hm
        · exact Or.inl hm
        · exact Or.inr hm.2
      · rename_i he
        have hm : Frame s1 s2 := by
          rcases hm with hm | hm
          · exact hm
          · exact absurd hm.1 he
        split at h
        · split at h
          · cases h
          · rename_i hr
            simp only [Option.some.injEq] at h
            subst h
            exact Or.inl (hm.trans ((removeResponse_frame _ _ _ _ _ _ hr).trans (sendError_frame c env _ _ _ _ _)))
        · simp only [Option.some.injEq] at h
          subst h
          exact Or.inl (hm.trans (sendError_frame c env _ _ _ _ _))
    · split at h
      · simp only [Option.some.injEq] at h
        subst h
        exact Or.inl (sendMsg_frame _ _ _)
      · simp only [Option.some.injEq] at h
        subst h
        exact Or.inl (sendError_frame c env _ _ _ _ _)

theorem claim_frame (env : Env) (s s' : St) (sender value : Nat) (net receiver : String)
    (h : claimReward c env s sender value net receiver = some s') : Frame s s' := by
  unfold claimReward at h
  dsimp only at h
  generalize (if sender = env.feeHandler then c.periphery else sender) = who at h
  split at h
  case isFalse => cases h
  split at h
  · split at h
    · cases h
    simp only [Option.some.injEq] at h
    subst h
    exact Frame.of_eq rfl rfl rfl rfl
  · split at h
    · cases h
    rename_i s2 k hsend
    simp only [Option.some.injEq] at h
    subst h
    have h1 := sendWithFee_frame c env _ s2 _ _ _ _ _ _ _ _ k hsend
    exact Frame.trans (b := { s with reward := s.reward.set (who, net) 0 }) (Frame.of_eq rfl rfl rfl rfl)
      (h1.trans (Frame.of_eq rfl rfl rfl rfl))

theorem drop_shape (env : Env) (s s' : St) (src : String) (seq : Nat) (svc : String) (sn nsn : Int) (f : FeeInfo)
    (h : dropMessage c env s src seq svc sn nsn f = some s') :
    ∃ next, env.resolve src = some next ∧ s'.rx = upd s.rx next (s.rx next + 1) ∧ s'.disp = upd s.disp next (s.disp next ++ [none]) ∧
      seq = s.rx next + 1 ∧ (Num s → Num s') := by
  unfold dropMessage at h
  split at h
  case h_2 => cases h
  rename_i next a hn _
  split at h
  · cases h
  dsimp only at h
  have h1 := addIn_frame s f.network f.values.sum
  generalize addIn s f.network f.values.sum = s0 at h h1
  have h2 := accumulate_frame s0 c.periphery f
  generalize accumulate s0 c.periphery f = p at h h2
  obtain ⟨s1, f1⟩ := p
  dsimp only at h h2
  split at h
  case isFalse => cases h
  rename_i hseq
  simp only [Option.some.injEq] at h
  subst h
  have h3 := sendError_frame c env { s1 with rx := upd s1.rx next (s1.rx next + 1), disp := upd s1.disp next (s1.disp next ++ [none]) } next seq
    ⟨src, "", svc, sn, [], nsn, f1⟩ 1
  have h4 := h1.trans h2
  refine ⟨next, hn, ?_, ?_, ?_, ?_⟩
  · rw [h3.1]; show upd s1.rx _ _ = _; rw [h4.1]
  · rw [h3.2.1]; show upd s1.disp _ _ = _; rw [h4.2.1]
  · rw [hseq, h4.1]
  · intro i; exact h3.2.2 (Num.of_eq (s := s1) rfl rfl (h4.2.2 i))

theorem clear_num (s : St) (link : String) (i : Num s) : Num (clearSeq s link) := by
  intro l
  simp only [clearSeq, sentSince_snoc]
  by_cases h : link = l
  · subst h; rw [if_pos rfl]; simp [upd]
  · rw [if_neg h, i l]; unfold upd; rw [if_neg (fun e => h e.symm)]

theorem num_pres : Pres c Num where
  send := fun env s sender value to svc sn body s' _ h i => (sendMessage_frame c env s s' sender value to svc sn body h).2.2 i
  claim := fun env s sender value net receiver s' _ h i => (claim_frame c env s s' sender value net receiver h).2.2 i
  item := fun env ok call caller prev seq s m s' hc h i => by
    obtain ⟨s1, -, -, h1, h2⟩ := item_shape c env ok call caller prev seq s m s' h
    rcases h2 with h2 | h2
    · exact h2.2.2 (h1 i)
    · subst h2; exact hc s1 (h1 i)
  rx := fun s prev n i => i
  drop := fun env s src seq svc sn nsn f s' h i => by
    obtain ⟨_, _, _, _, _, h⟩ := drop_shape c env s s' src seq svc sn nsn f h
    exact h i
  clear := fun s link i => clear_num s link i
  internal := fun s next to body i => (sendMsg_frame _ _ _).2.2 (Num.of_eq (s := s) rfl rfl i)

/-! ### Handled messages per link -/

mutual
/-- A call during which no service re-enters the BMC for a link whose messages are just being handled: `busy` are those links. -/
def Op.calm (busy : List String) : Op → Prop
  | .send _ _ _ _ _ _ _ => True
  | .claim _ _ _ _ _ => True
  | .relay _ _ prev items => prev ∉ busy ∧ items.calm (prev :: busy)
  | .drop env src _ _ _ _ _ => ∀ next, env.resolve src = some next → next ∉ busy
  | .clear link => link ∉ busy
  | .internal _ _ _ => True
def Items.calm (busy : List String) : Items → Prop
  | .nil => True
  | .cons _ _ _ acts t => acts.calm busy ∧ t.calm busy
def Ops.calm (busy : List String) : Ops → Prop
  | .nil => True
  | .cons o t => o.calm busy ∧ t.calm busy
end

/-- The messages handled for a link are as many as its number says, and each has `Q` with its place. -/
def GoodQ (Q : String → Nat → Msg → Prop) (l : String) (s : St) : Prop :=
  (s.disp l).length = s.rx l ∧ ∀ i m, (s.disp l)[i]? = some (some m) → Q l (i + 1) m

/-- The verifier of a link only returns messages that have `Q` with the numbers that follow the given one. -/
def FaithfulQ (Q : String → Nat → Msg → Prop) (l : String) : Prop :=
  ∀ r ms, c.verify l r ms = true → ∀ i m, ms[i]? = some m → Q l (r + i + 1) m

/-- The messages handled for a link are as many as its number says, and each is the source message of its place. -/
def Good (src : String → Nat → Msg) (l : String) (s : St) : Prop :=
  (s.disp l).length = s.rx l ∧ ∀ i m, (s.disp l)[i]? = some (some m) → m = src l (i + 1)

/-- The verifier of every link only returns the source messages that follow the given number. -/
def Faithful (src : String → Nat → Msg) : Prop :=
  ∀ l r ms, c.verify l r ms = true → ∀ i m, ms[i]? = some m → m = src l (r + i + 1)

def Same (l : String) (s s' : St) : Prop := s'.rx l = s.rx l ∧ s'.disp l = s.disp l

theorem Same.refl (l : String) (s : St) : Same l s s := ⟨rfl, rfl⟩
theorem Same.trans {l : String} {a b d : St} (h1 : Same l a b) (h2 : Same l b d) : Same l a d := ⟨h2.1.trans h1.1, h2.2.trans h1.2⟩
theorem Frame.same {s s' : St} (h : Frame s s') (l : String) : Same l s s' := ⟨by rw [h.1], by rw [h.2.1]⟩
theorem GoodQ.same {Q : String → Nat → Msg → Prop} {l : String} {s s' : St} (g : GoodQ Q l s) (h : Same l s s') : GoodQ Q l s' := by
  unfold GoodQ; rw [h.1, h.2]; exact g

mutual
theorem exec_calm (Q : String → Nat → Msg → Prop) (busy : List String) (o : Op) (hc : o.calm busy) (s s' : St)
    (h : exec c o s = some s') : (∀ l, l ∈ busy → Same l s s') ∧ (∀ l, l ∉ busy → FaithfulQ c Q l → GoodQ Q l s → GoodQ Q l s') := by
  cases o with
  | send env sender value to svc sn body =>
    simp only [exec] at h
    split at h
    · cases h
    · have f := sendMessage_frame c _ _ _ _ _ _ _ _ _ h
      exact ⟨fun l _ => f.same l, fun l _ _ g => g.same (f.same l)⟩
  | claim env sender value net receiver =>
    simp only [exec] at h
    split at h
    · cases h
    · have f := claim_frame c _ _ _ _ _ _ _ h
      exact ⟨fun l _ => f.same l, fun l _ _ g => g.same (f.same l)⟩
  | relay env caller prev items =>
    simp only [exec] at h
    simp only [Op.calm] at hc
    split at h
    · rename_i hv
      split at h
      · cases h
      · rename_i s1 h1
        have h2 := execItems_calm Q (prev :: busy) prev (List.mem_cons_self ..) items hc.2 caller (s.rx prev) s s1 h1
        simp only [Option.some.injEq] at h
        subst h
        constructor
        · intro l hl
          have hne : l ≠ prev := fun e => hc.1 (e ▸ hl)
          have := h2.1 l (List.mem_cons_of_mem _ hl) hne
          exact ⟨by simp only [upd, if_neg hne]; exact this.1, this.2⟩
        · intro l hl F g
          by_cases hne : l = prev
          · subst hne
            obtain ⟨hrx, hd⟩ := h2.2.1
            unfold GoodQ
            simp only [upd, if_pos]
            rw [hd, hrx]
            constructor
            · rw [List.length_append, List.length_map, g.1]
            · intro i m hi
              rw [List.getElem?_append] at hi
              split at hi
              · exact g.2 i m hi
              · rename_i hge
                rw [List.getElem?_map, Option.map_eq_some_iff] at hi
                obtain ⟨m', hm1, hm2⟩ := hi
                cases hm2
                have := F (s.rx l) items.msgs hv.1 _ _ hm1
                rw [← g.1] at this
                rw [show (s.disp l).length + (i - (s.disp l).length) + 1 = i + 1 by omega] at this
                exact this
          · have g2 := h2.2.2 l (fun hm => (List.mem_cons.1 hm).elim hne hl) F g
            exact g2.same ⟨by simp only [upd, if_neg hne], rfl⟩
    · cases h
  | drop env dsrc seq svc sn nsn f =>
    simp only [exec] at h
    simp only [Op.calm] at hc
    obtain ⟨next, h1, h2, h3, -, -⟩ := drop_shape c env s s' dsrc seq svc sn nsn f h
    have hb := hc next h1
    constructor
    · intro l hl
      have hne : l ≠ next := fun e => hb (e ▸ hl)
      exact ⟨by rw [h2]; simp only [upd, if_neg hne], by rw [h3]; simp only [upd, if_neg hne]⟩
    · intro l _ _ g
      by_cases hne : l = next
      · subst hne
        unfold GoodQ
        rw [h2, h3]
        simp only [upd, if_pos]
        constructor
        · rw [List.length_append, g.1]; rfl
        · intro i m hi
          rw [List.getElem?_append] at hi
          split at hi
          · exact g.2 i m hi
          · rename_i hge
            cases hk : i - (s.disp l).length with
            | zero => rw [hk] at hi; simp at hi
            | succ k => rw [hk] at hi; simp at hi
      · exact g.same ⟨by rw [h2]; simp only [upd, if_neg hne], by rw [h3]; simp only [upd, if_neg hne]⟩
  | clear link =>
    simp only [exec, Option.some.injEq] at h
    simp only [Op.calm] at hc
    subst h
    constructor
    · intro l hl
      have hne : l ≠ link := fun e => hc (e ▸ hl)
      exact ⟨by simp only [clearSeq, upd, if_neg hne], by simp only [clearSeq, upd, if_neg hne]⟩
    · intro l _ _ g
      by_cases hne : l = link
      · subst hne
        unfold GoodQ
        simp [clearSeq, upd]
      · exact g.same ⟨by simp only [clearSeq, upd, if_neg hne], by simp only [clearSeq, upd, if_neg hne]⟩
  | internal next to body =>
    simp only [exec, Option.some.injEq] at h
    subst h
    exact ⟨fun l _ => ⟨rfl, rfl⟩, fun l _ _ g => g.same ⟨rfl, rfl⟩⟩
theorem execItems_calm (Q : String → Nat → Msg → Prop) (busy : List String) (prev : String) (hp : prev ∈ busy)
    (items : Items) (hc : items.calm busy) (caller : Nat) (seq : Nat) (s s' : St) (h : execItems c items caller prev seq s = some s') :
    (∀ l, l ∈ busy → l ≠ prev → Same l s s') ∧ (s'.rx prev = s.rx prev ∧ s'.disp prev = s.disp prev ++ items.msgs.map some) ∧
      (∀ l, l ∉ busy → FaithfulQ c Q l → GoodQ Q l s → GoodQ Q l s') := by
  cases items with
  | nil =>
    simp only [execItems, Option.some.injEq] at h
    subst h
    exact ⟨fun l _ _ => Same.refl l s, ⟨rfl, by simp [Items.msgs]⟩, fun l _ _ g => g⟩
  | cons m env ok acts t =>
    simp only [execItems] at h
    simp only [Items.calm] at hc
    split at h
    · cases h
    · rename_i s2 h1
      obtain ⟨s1, hrx, hd, -, hs⟩ := item_shape c env ok _ caller prev (seq + 1) s m s2 h1
      have hother : ∀ l, l ≠ prev → Same l s s1 := fun l hl => ⟨by rw [hrx], by rw [hd]; simp only [upd, if_neg hl]⟩
      have hstep : (∀ l, l ∈ busy → Same l s1 s2) ∧ (∀ l, l ∉ busy → FaithfulQ c Q l → GoodQ Q l s1 → GoodQ Q l s2) := by
        rcases hs with hs | hs
        · exact ⟨fun l _ => hs.same l, fun l _ _ g => g.same (hs.same l)⟩
        · subst hs
          exact execOps_calm Q busy acts hc.1 s1
      have hrest := execItems_calm Q busy prev hp t hc.2 caller (seq + 1) s2 s' h
      refine ⟨fun l hl hne => ((hother l hne).trans (hstep.1 l hl)).trans (hrest.1 l hl hne), ⟨?_, ?_⟩, ?_⟩
      · rw [hrest.2.1.1, (hstep.1 prev hp).1, hrx]
      · rw [hrest.2.1.2, (hstep.1 prev hp).2, hd]
        simp [upd, Items.msgs]
      · intro l hl F g
        have hne : l ≠ prev := fun e => hl (e ▸ hp)
        exact hrest.2.2 l hl F (hstep.2 l hl F (g.same (hother l hne)))
theorem execOps_calm (Q : String → Nat → Msg → Prop) (busy : List String) (acts : Ops) (hc : acts.calm busy) (s : St) :
    (∀ l, l ∈ busy → Same l s (execOps c acts s)) ∧ (∀ l, l ∉ busy → FaithfulQ c Q l → GoodQ Q l s → GoodQ Q l (execOps c acts s)) := by
  cases acts with
  | nil => simp only [execOps]; exact ⟨fun l _ => Same.refl l s, fun l _ _ g => g⟩
  | cons o t =>
    simp only [Ops.calm] at hc
    simp only [execOps]
    have h1 : (∀ l, l ∈ busy → Same l s ((exec c o s).getD s)) ∧ (∀ l, l ∉ busy → FaithfulQ c Q l → GoodQ Q l s → GoodQ Q l ((exec c o s).getD s)) := by
      cases h : exec c o s with
      | none => exact ⟨fun l _ => Same.refl l s, fun l _ _ g => g⟩
      | some s1 => exact exec_calm Q busy o hc.1 s s1 h
    have h2 := execOps_calm Q busy t hc.2 ((exec c o s).getD s)
    exact ⟨fun l hl => (h1.1 l hl).trans (h2.1 l hl), fun l hl F g => h2.2 l hl F (h1.2 l hl F g)⟩
end

theorem run_goodQ (Q : String → Nat → Msg → Prop) (l : String) (F : FaithfulQ c Q l) (ops : List Op) (hc : ∀ o ∈ ops, o.calm []) :
    GoodQ Q l (run c ops) := by
  have key : ∀ (ops : List Op) (s : St), (∀ o ∈ ops, o.calm []) → GoodQ Q l s → GoodQ Q l (ops.foldl (fun s o => (exec c o s).getD s) s) := by
    intro ops
    induction ops with
    | nil => intro s _ g; exact g
    | cons o t ih =>
      intro s hc g
      apply ih _ (fun o' ho => hc o' (List.mem_cons_of_mem _ ho))
      show GoodQ Q l ((exec c o s).getD s)
      cases h : exec c o s with
      | none => exact g
      | some s1 => exact (exec_calm c Q [] o (hc o (List.mem_cons_self ..)) s s1 h).2 l (by simp) F g
  exact key ops init hc ⟨rfl, fun i m hi => by simp [init] at hi⟩

theorem run_good {src : String → Nat → Msg} (F : Faithful c src) (ops : List Op) (hc : ∀ o ∈ ops, o.calm []) (l : String) :
    Good src l (run c ops) := run_goodQ c (fun l n m => m = src l n) l (F l) ops hc

end Verif.SolBmc
