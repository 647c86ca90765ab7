import Verif.SolBmc
/-!
Helper lemmas for the Solidity BMC: finite maps, the induction over nested calls, and the effect of every step on the ledger.
-/
namespace Verif.SolBmc
open Verif

section fm
variable {K V : Type} [DecidableEq K]

theorem FM.get_set (d : V) : ∀ (m : FM K V) (k k' : K) (v : V), (m.set k v).get d k' = if k = k' then v else m.get d k'
  | [], k, k', v => by simp [FM.set, FM.get]
  | (a, b) :: t, k, k', v => by
    simp only [FM.set]
    by_cases h : a = k
    · rw [if_pos h]
      subst h
      simp only [FM.get]
      by_cases h2 : a = k'
      · simp [h2]
      · simp [h2]
    · rw [if_neg h]
      simp only [FM.get, FM.get_set d t k k' v]
      by_cases h2 : a = k'
      · subst h2
        rw [if_pos rfl, if_neg (fun e => h e.symm), if_pos rfl]
      · simp [h2]

/-- Weighted sum of the entries. -/
def FM.total (w : K → V → Nat) (m : FM K V) : Nat := (m.map (fun p => w p.1 p.2)).sum

theorem FM.total_set (w : K → V → Nat) (d : V) : ∀ (m : FM K V) (k : K) (v : V), w k d = 0 →
    FM.total w (m.set k v) + w k (m.get d k) = FM.total w m + w k v
  | [], k, v, hd => by simp [FM.set, FM.get, FM.total, hd]
  | (a, b) :: t, k, v, hd => by
    simp only [FM.set, FM.get]
    by_cases h : a = k
    · subst h
      simp [FM.total]; omega
    · have ih := FM.total_set w d t k v hd
      simp only [FM.total, if_neg h, List.map_cons, List.sum_cons] at ih ⊢
      omega
end fm

variable (c : Cfg)

/-- A property of states that every call preserves, stated per kind of step. -/
structure Pres (I : St → Prop) : Prop where
  send : ∀ env s sender value to svc sn body s', sender ≠ c.service →
    sendMessage c env s sender value to svc sn body = some s' → I s → I s'
  claim : ∀ env s sender value net receiver s', sender ≠ c.service → claimReward c env s sender value net receiver = some s' → I s → I s'
  item : ∀ env ok call caller prev seq s m s', (∀ s, I s → I (call s)) → item c env ok call caller prev seq s m = some s' → I s → I s'
  rx : ∀ s prev n, I s → I { s with rx := upd s.rx prev n }
  drop : ∀ env s src seq svc sn nsn f s', dropMessage c env s src seq svc sn nsn f = some s' → I s → I s'
  clear : ∀ s link, I s → I (clearSeq s link)
  internal : ∀ s next to body, I s → I (sendInternal c s next to body)

mutual
theorem exec_pres {I : St → Prop} (P : Pres c I) (o : Op) (s s' : St) (h : exec c o s = some s') (hi : I s) : I s' := by
  cases o with
  | send env sender value to svc sn body =>
    simp only [exec] at h
    split at h
    · cases h
    · rename_i hs
      exact P.send _ _ _ _ _ _ _ _ _ hs h hi
  | claim env sender value net receiver =>
    simp only [exec] at h
    split at h
    · cases h
    · rename_i hs
      exact P.claim _ _ _ _ _ _ _ hs h hi
  | relay env caller prev items =>
    simp only [exec] at h
    split at h
    · split at h
      · cases h
      · rename_i s1 h1
        have h2 := execItems_pres P items caller prev (s.rx prev) s s1 h1 hi
        have := P.rx s1 prev (s1.rx prev + items.msgs.length) h2
        cases h
        exact this
    · cases h
  | drop env src seq svc sn nsn f =>
    simp only [exec] at h
    exact P.drop _ _ _ _ _ _ _ _ _ h hi
  | clear link =>
    simp only [exec, Option.some.injEq] at h
    subst h
    exact P.clear s link hi
  | internal next to body =>
    simp only [exec, Option.some.injEq] at h
    subst h
    exact P.internal s next to body hi
theorem execItems_pres {I : St → Prop} (P : Pres c I) (items : Items) (caller : Nat) (prev : String) (seq : Nat) (s s' : St)
    (h : execItems c items caller prev seq s = some s') (hi : I s) : I s' := by
  cases items with
  | nil => simp only [execItems, Option.some.injEq] at h; subst h; exact hi
  | cons m env ok acts t =>
    simp only [execItems] at h
    split at h
    · cases h
    · rename_i s1 h1
      have h2 := P.item _ _ _ _ _ _ _ _ _ (fun x hx => execOps_pres P acts x hx) h1 hi
      exact execItems_pres P t caller prev (seq + 1) s1 s' h h2
theorem execOps_pres {I : St → Prop} (P : Pres c I) (acts : Ops) (s : St) (hi : I s) : I (execOps c acts s) := by
  cases acts with
  | nil => simpa only [execOps] using hi
  | cons o t =>
    simp only [execOps]
    apply execOps_pres P t
    cases h : exec c o s with
    | none => simpa using hi
    | some s1 => simpa using exec_pres P o s s1 h hi
end

theorem foldl_pres {I : St → Prop} (P : Pres c I) (ops : List Op) : ∀ s, I s → I (ops.foldl (fun s o => (exec c o s).getD s) s) := by
  induction ops with
  | nil => intro s h; exact h
  | cons o t ih =>
    intro s h
    apply ih
    cases he : exec c o s with
    | none => show I ((exec c o s).getD s); rw [he]; exact h
    | some s1 => show I ((exec c o s).getD s); rw [he]; exact exec_pres c P o s s1 he h

theorem run_pres {I : St → Prop} (P : Pres c I) (h0 : I init) (ops : List Op) : I (run c ops) := foldl_pres c P ops init h0

/-! ### The ledger -/

/-- `v` if the currency is `n`. -/
def cur (k : String) (v : Nat) (n : String) : Nat := if k = n then v else 0

theorem cur_zero (k n : String) : cur k 0 n = 0 := by unfold cur; split <;> rfl
theorem cur_add (k n : String) (a b : Nat) : cur k (a + b) n = cur k a n + cur k b n := by unfold cur; split <;> rfl

/-- Value of a fee list in currency `n`. -/
def feeOf (f : FeeInfo) (n : String) : Nat := cur f.network f.values.sum n

def evFee (n : String) : Event → Nat
  | .message _ _ m => feeOf m.fee n
  | .dropped _ _ m _ => feeOf m.fee n
  | .cleared _ => 0

def rewards (s : St) (n : String) : Nat := FM.total (fun k v => cur k.2 v n) s.reward
def stored (s : St) (n : String) : Nat := FM.total (fun _ r => feeOf r.fee n) s.resp
def pending (s : St) (n : String) : Nat := FM.total (fun _ r => cur r.dst r.amount n) s.req
def carried (s : St) (n : String) : Nat := (s.log.map (evFee n)).sum

/-- Everything the contract owes, has passed on or has paid in currency `n`. -/
def ledger (s : St) (n : String) : Nat :=
  rewards s n + stored s n + pending s n + carried s n + s.paid n + s.settled n + s.lost n

theorem upd_cur (f : String → Nat) (k : String) (v : Nat) (n : String) : upd f k (f k + v) n = f n + cur k v n := by
  unfold upd cur
  by_cases h : n = k
  · subst h; simp
  · rw [if_neg h, if_neg (fun e => h e.symm)]; rfl

/-- The fields that the request table depends on are unchanged. -/
def SameReq (s s' : St) : Prop := s'.req = s.req ∧ s'.nsn = s.nsn ∧ s'.settle = s.settle

theorem SameReq.refl (s : St) : SameReq s s := ⟨rfl, rfl, rfl⟩
theorem SameReq.trans {a b d : St} (h1 : SameReq a b) (h2 : SameReq b d) : SameReq a d :=
  ⟨h2.1.trans h1.1, h2.2.1.trans h1.2.1, h2.2.2.trans h1.2.2⟩

theorem addIn_ledger (s : St) (k : String) (v : Nat) (n : String) :
    ledger (addIn s k v) n = ledger s n ∧ (addIn s k v).inflow n = s.inflow n + cur k v n ∧ SameReq s (addIn s k v) :=
  ⟨rfl, by simp [addIn, upd_cur], rfl, rfl, rfl⟩

theorem addReward_ledger (s : St) (k : String) (a v : Nat) (n : String) :
    ledger (addReward s k a v) n = ledger s n + cur k v n ∧ (addReward s k a v).inflow = s.inflow ∧ SameReq s (addReward s k a v) := by
  unfold addReward
  by_cases h : v > 0
  · rw [if_pos h]
    refine ⟨?_, rfl, rfl, rfl, rfl⟩
    have := FM.total_set (fun (k : Nat × String) v => cur k.2 v n) 0 s.reward (a, k) (s.reward.get 0 (a, k) + v) (cur_zero _ _)
    simp only [cur_add] at this
    simp only [ledger, rewards, stored, pending, carried]
    omega
  · rw [if_neg h]
    have : v = 0 := by omega
    subst this
    exact ⟨by rw [cur_zero]; rfl, rfl, SameReq.refl s⟩

theorem addReward_log (s : St) (k : String) (a v : Nat) : (addReward s k a v).log = s.log ∧ (addReward s k a v).tx = s.tx ∧
    (addReward s k a v).rx = s.rx ∧ (addReward s k a v).resp = s.resp ∧ (addReward s k a v).disp = s.disp := by
  unfold addReward; split <;> exact ⟨rfl, rfl, rfl, rfl, rfl⟩

theorem sendMsg_ledger (s : St) (next : String) (m : Msg) (n : String) :
    ledger (sendMsg s next m) n = ledger s n + feeOf m.fee n ∧ (sendMsg s next m).inflow = s.inflow ∧ SameReq s (sendMsg s next m) := by
  refine ⟨?_, rfl, rfl, rfl, rfl⟩
  simp only [ledger, rewards, stored, pending, carried, sendMsg, List.map_append, List.map_cons, List.map_nil, List.sum_append,
    List.sum_cons, List.sum_nil, evFee]
  omega

theorem collectRemain_ledger (s : St) (f : FeeInfo) (n : String) :
    ledger (collectRemain c s f).1 n = ledger s n + feeOf f n ∧ (collectRemain c s f).1.inflow = s.inflow ∧
      SameReq s (collectRemain c s f).1 ∧ feeOf (collectRemain c s f).2 n = 0 := by
  have := addReward_ledger s f.network c.periphery f.values.sum n
  exact ⟨this.1, this.2.1, this.2.2, by simp [collectRemain, feeOf, cur_zero]⟩

theorem accumulate_ledger (s : St) (a : Nat) (f : FeeInfo) (n : String) :
    ledger (accumulate s a f).1 n + feeOf (accumulate s a f).2 n = ledger s n + feeOf f n ∧
      (accumulate s a f).1.inflow = s.inflow ∧ SameReq s (accumulate s a f).1 := by
  unfold accumulate
  cases hv : f.values with
  | nil => exact ⟨rfl, rfl, SameReq.refl s⟩
  | cons v t =>
    have := addReward_ledger s f.network a v n
    refine ⟨?_, this.2.1, this.2.2⟩
    simp only [feeOf, hv, List.sum_cons, cur_add]
    omega

theorem removeResponse_ledger (s s' : St) (to svc : String) (sn : Int) (r : Resp) (h : removeResponse s to svc sn = some (s', r)) (n : String) :
    ledger s' n + feeOf r.fee n = ledger s n ∧ s'.inflow = s.inflow ∧ SameReq s s' ∧ r = s.resp.get Resp.empty (to, svc, sn) ∧ r.nsn > 0 ∧
      s'.log = s.log ∧ s'.tx = s.tx ∧ s'.rx = s.rx ∧ s'.disp = s.disp ∧ s'.reward = s.reward ∧
      s'.resp = s.resp.set (to, svc, sn) Resp.empty := by
  simp only [removeResponse] at h
  split at h
  · rename_i hp
    simp only [Option.some.injEq, Prod.mk.injEq] at h
    obtain ⟨rfl, rfl⟩ := h
    refine ⟨?_, rfl, ⟨rfl, rfl, rfl⟩, rfl, hp, rfl, rfl, rfl, rfl, rfl, rfl⟩
    have := FM.total_set (fun (_ : String × String × Int) (r : Resp) => feeOf r.fee n) Resp.empty s.resp (to, svc, sn) Resp.empty
      (by simp [feeOf, Resp.empty, cur_zero])
    have h0 : feeOf Resp.empty.fee n = 0 := by simp [feeOf, Resp.empty, cur_zero]
    rw [h0] at this
    simp only [ledger, rewards, stored, pending, carried]
    omega
  · cases h

theorem handleErrorFee_ledger (env : Env) (s : St) (src : String) (sn : Int) (f : FeeInfo) (n : String) :
    ledger (handleErrorFee c env s src sn f).1 n + feeOf (handleErrorFee c env s src sn f).2 n = ledger s n + feeOf f n ∧
      (handleErrorFee c env s src sn f).1.inflow = s.inflow ∧ SameReq s (handleErrorFee c env s src sn f).1 := by
  unfold handleErrorFee
  by_cases hs : sn > 0
  · rw [if_pos hs]
    dsimp only
    split
    · refine ⟨?_, rfl, SameReq.refl s⟩
      have : (f.values.drop (f.values.length - (env.fees src).length / 2) ++ f.values.take (f.values.length - (env.fees src).length / 2)).sum = f.values.sum := by
        rw [List.sum_append, Nat.add_comm, ← List.sum_append, List.take_append_drop]
      simp only [feeOf, this]
    · exact ⟨rfl, rfl, SameReq.refl s⟩
  · rw [if_neg hs]
    have := collectRemain_ledger c s f n
    exact ⟨by omega, this.2.1, this.2.2.1⟩

theorem sendError_ledger (env : Env) (s : St) (prev : String) (seq : Nat) (m : Msg) (code : Nat) (n : String) :
    ledger (sendError c env s prev seq m code) n = ledger s n + feeOf m.fee n ∧
      (sendError c env s prev seq m code).inflow = s.inflow ∧ SameReq s (sendError c env s prev seq m code) := by
  have h := handleErrorFee_ledger c env s m.src m.sn m.fee n
  unfold sendError
  dsimp only
  generalize handleErrorFee c env s m.src m.sn m.fee = p at h
  obtain ⟨s1, f⟩ := p
  dsimp only at h ⊢
  split
  · have h2 := sendMsg_ledger s1 prev ⟨c.net, m.src, m.svc, -m.sn, c.encResp code, -m.nsn, f⟩ n
    dsimp only at h2
    exact ⟨by omega, h2.2.1.trans h.2.1, h.2.2.trans h2.2.2⟩
  · refine ⟨?_, h.2.1, h.2.2⟩
    simp only [ledger, rewards, stored, pending, carried, List.map_append, List.map_cons, List.map_nil, List.sum_append,
      List.sum_cons, List.sum_nil, evFee] at h ⊢
    have e : feeOf { m with fee := f }.fee n = feeOf f n := rfl
    omega

theorem handleFee_ledger (s : St) (a : Nat) (m : Msg) (n : String) :
    let p := handleFee c s a m
    (ledger p.1 n + (if m.dst = c.net ∧ m.sn > 0 then 0 else feeOf p.2.fee n) = ledger s n + feeOf m.fee n) ∧ p.1.inflow = s.inflow ∧
      SameReq s p.1 ∧ p.2.dst = m.dst ∧ p.2.sn = m.sn ∧ p.2.src = m.src ∧ p.2.svc = m.svc ∧ p.2.nsn = m.nsn ∧ p.2.body = m.body ∧
      (m.dst = c.net ∧ m.sn > 0 → p.1.resp.get Resp.empty (m.src, m.svc, m.sn) = ⟨m.nsn, p.2.fee⟩) ∧
      (m.dst = c.net ∧ ¬ m.sn > 0 → p.2.fee.values = []) := by
  intro p
  have h := accumulate_ledger s a m.fee n
  have hp : p = handleFee c s a m := rfl
  clear_value p
  unfold handleFee at hp
  dsimp only at hp
  generalize accumulate s a m.fee = q at h hp
  obtain ⟨s1, f⟩ := q
  dsimp only at h hp
  by_cases hd : m.dst = c.net
  · rw [if_pos hd] at hp
    by_cases hs : m.sn > 0
    · rw [if_pos hs] at hp
      subst hp
      generalize hold : s1.resp.get Resp.empty (m.src, m.svc, m.sn) = old
      have h2 := collectRemain_ledger c s1 old.fee n
      have hresp : (collectRemain c s1 old.fee).1.resp = s1.resp := (addReward_log _ _ _ _).2.2.2.1
      have h3 := FM.total_set (fun (_ : String × String × Int) (r : Resp) => feeOf r.fee n) Resp.empty s1.resp (m.src, m.svc, m.sn) ⟨m.nsn, f⟩
        (by simp [feeOf, Resp.empty, cur_zero])
      rw [hold] at h3
      dsimp only at h3 ⊢
      refine ⟨?_, h2.2.1.trans h.2.1, h.2.2.trans ⟨h2.2.2.1.1, h2.2.2.1.2.1, h2.2.2.1.2.2⟩, rfl, rfl, rfl, rfl, rfl, rfl, ?_, ?_⟩
      · rw [if_pos ⟨hd, hs⟩]
        generalize hq : collectRemain c s1 old.fee = q at h2 hresp
        obtain ⟨s2, f2⟩ := q
        have h4 := h2.1
        dsimp only at h4 hresp
        simp only [ledger, rewards, stored, pending, carried] at h4 h ⊢
        rw [hresp] at h4 ⊢
        omega
      · intro _; rw [FM.get_set]; simp
      · intro h5; exact absurd hs h5.2
    · rw [if_neg hs] at hp
      subst hp
      have h2 := collectRemain_ledger c s1 f n
      dsimp only
      refine ⟨?_, h2.2.1.trans h.2.1, h.2.2.trans h2.2.2.1, rfl, rfl, rfl, rfl, rfl, rfl, fun h5 => absurd h5.2 hs, fun _ => rfl⟩
      rw [if_neg (fun h5 => hs h5.2)]
      omega
  · rw [if_neg hd] at hp
    subst hp
    dsimp only
    refine ⟨?_, h.2.1, h.2.2, rfl, rfl, rfl, rfl, rfl, rfl, fun h5 => absurd h5.1 hd, fun h5 => absurd h5.1 hd⟩
    rw [if_neg (fun h5 => hd h5.1)]
    omega

/-- The request table: every open request is stored under its own positive number, not above the counter; a settled number is
    not open and settled once. -/
structure ReqInv (s : St) : Prop where
  open_ : ∀ k, s.req.get Req.empty k = Req.empty ∨ ((s.req.get Req.empty k).nsn = k ∧ 0 < k ∧ k ≤ s.nsn)
  pos : 0 ≤ s.nsn
  once : (s.settle.map Prod.fst).Nodup
  done : ∀ p ∈ s.settle, p.1 ≤ s.nsn ∧ s.req.get Req.empty p.1 = Req.empty

theorem ReqInv.of_same {s s' : St} (h : SameReq s s') (i : ReqInv s) : ReqInv s' := by
  obtain ⟨h1, h2, h3⟩ := h
  constructor
  · rw [h1, h2]; exact i.open_
  · rw [h2]; exact i.pos
  · rw [h3]; exact i.once
  · rw [h1, h2, h3]; exact i.done

theorem ReqInv.eq3 {s s' : St} (i : ReqInv s) (h1 : s'.req = s.req) (h2 : s'.nsn = s.nsn) (h3 : s'.settle = s.settle) : ReqInv s' :=
  i.of_same ⟨h1, h2, h3⟩

theorem ReqInv.bump {s s' : St} (h1 : s'.req = s.req) (h2 : s'.nsn = s.nsn + 1) (h3 : s'.settle = s.settle) (i : ReqInv s) : ReqInv s' := by
  have hp := i.pos
  constructor
  · intro k
    rw [h1, h2]
    rcases i.open_ k with h | h
    · exact Or.inl h
    · exact Or.inr ⟨h.1, h.2.1, by omega⟩
  · rw [h2]; omega
  · rw [h3]; exact i.once
  · intro p hp
    rw [h3] at hp
    rw [h1, h2]
    have := i.done p hp
    exact ⟨by omega, this.2⟩

/-- The whole ledger invariant. -/
structure Led (s : St) : Prop where
  bal : ∀ n, s.inflow n = ledger s n
  reqs : ReqInv s

theorem sendWithFee_led (env : Env) (s s' : St) (sender value : Nat) (to svc : String) (sn : Int) (body : Bytes) (isR fill : Bool) (k : Int)
    (hv : sender = c.service → value = 0)
    (h : sendWithFee c env s sender value to svc sn body isR fill = some (s', k)) (n : String) :
    s'.inflow n + ledger s n = s.inflow n + ledger s' n ∧
      ((isR = true ∧ SameReq s s') ∨ (isR = false ∧ s'.req = s.req ∧ s'.nsn = s.nsn + 1 ∧ s'.settle = s.settle ∧ k = s.nsn + 1)) := by
  unfold sendWithFee at h
  split at h
  · cases h
  rename_i next hn
  dsimp only at h
  have ha : ledger (addIn { s with coins := s.coins + value } c.net value) n = ledger s n ∧
      (addIn { s with coins := s.coins + value } c.net value).inflow n = s.inflow n + cur c.net value n ∧
      SameReq s (addIn { s with coins := s.coins + value } c.net value) := addIn_ledger { s with coins := s.coins + value } c.net value n
  generalize addIn { s with coins := s.coins + value } c.net value = s0 at h ha
  cases isR
  · simp only [Bool.false_eq_true, if_false] at h
    split at h
    · split at h
      · rename_i hs hge
        simp only [Option.some.injEq, Prod.mk.injEq] at h
        obtain ⟨rfl, rfl⟩ := h
        generalize (getFee env to (decide (sn > 0))) = vs at *
        have h1 := addReward_ledger { s0 with nsn := s0.nsn + 1 } c.net c.periphery (value - vs.sum) n
        have h2 := sendMsg_ledger (addReward { s0 with nsn := s0.nsn + 1 } c.net c.periphery (value - vs.sum)) next
          ⟨c.net, to, svc, if fill then s0.nsn + 1 else sn, body, s0.nsn + 1, ⟨c.net, vs⟩⟩ n
        refine ⟨?_, Or.inr ⟨rfl, ?_, ?_, ?_, ?_⟩⟩
        · rw [h2.2.1, h1.2.1]
          have e1 : ledger { s0 with nsn := s0.nsn + 1 } n = ledger s0 n := rfl
          have e2 : cur c.net value n = cur c.net (value - vs.sum) n + cur c.net vs.sum n := by rw [← cur_add]; congr 1; omega
          have e3 : feeOf ⟨c.net, vs⟩ n = cur c.net vs.sum n := rfl
          have e4 : ({ s0 with nsn := s0.nsn + 1 } : St).inflow n = s0.inflow n := rfl
          dsimp only at h2 e4 ⊢
          omega
        · rw [h2.2.2.1, h1.2.2.1]; exact ha.2.2.1
        · rw [h2.2.2.2.1, h1.2.2.2.1]; exact congrArg (· + 1) ha.2.2.2.1
        · rw [h2.2.2.2.2, h1.2.2.2.2]; exact ha.2.2.2.2
        · rw [ha.2.2.2.1]
      · cases h
    · rename_i hs
      have hv0 := hv (Classical.not_not.1 hs)
      subst hv0
      simp only [Option.some.injEq, Prod.mk.injEq] at h
      obtain ⟨rfl, rfl⟩ := h
      have h2 := sendMsg_ledger { s0 with nsn := s0.nsn + 1 } next
          ⟨c.net, to, svc, if fill then s0.nsn + 1 else sn, body, s0.nsn + 1, ⟨c.net, []⟩⟩ n
      refine ⟨?_, Or.inr ⟨rfl, ?_, ?_, ?_, ?_⟩⟩
      · have e1 : ledger { s0 with nsn := s0.nsn + 1 } n = ledger s0 n := rfl
        have e3 : feeOf ⟨c.net, []⟩ n = 0 := cur_zero _ _
        have e4 := cur_zero c.net n
        have e5 : ({ s0 with nsn := s0.nsn + 1 } : St).inflow n = s0.inflow n := rfl
        rw [h2.2.1]
        dsimp only at h2 e5 ⊢
        omega
      · rw [h2.2.2.1]; exact ha.2.2.1
      · rw [h2.2.2.2.1]; exact congrArg (· + 1) ha.2.2.2.1
      · rw [h2.2.2.2.2]; exact ha.2.2.2.2
      · rw [ha.2.2.2.1]
  · simp only [if_true] at h
    split at h
    · cases h
    rename_i s1 r hr
    simp only [Option.some.injEq, Prod.mk.injEq] at h
    obtain ⟨rfl, rfl⟩ := h
    have h1 := removeResponse_ledger s0 s1 to svc sn r hr n
    have h2 := addReward_ledger s1 c.net c.periphery value n
    have h3 := sendMsg_ledger (addReward s1 c.net c.periphery value) next ⟨c.net, to, svc, 0, body, -r.nsn, r.fee⟩ n
    refine ⟨?_, Or.inl ⟨rfl, ha.2.2.trans (h1.2.2.1.trans (h2.2.2.trans h3.2.2))⟩⟩
    rw [h3.2.1, h2.2.1, h1.2.1]
    dsimp only at h3
    omega

theorem sendMessage_led (env : Env) (s s' : St) (sender value : Nat) (to svc : String) (sn : Int) (body : Bytes)
    (hv : sender = c.service → value = 0)
    (h : sendMessage c env s sender value to svc sn body = some s') :
    (∀ n, s'.inflow n + ledger s n = s.inflow n + ledger s' n) ∧ (ReqInv s → ReqInv s') := by
  unfold sendMessage at h
  split at h
  · cases h
  dsimp only at h
  rw [Option.map_eq_some_iff] at h
  obtain ⟨⟨s1, k⟩, h, rfl⟩ := h
  refine ⟨fun n => (sendWithFee_led c env s s1 sender value to svc _ body _ _ k hv h n).1, fun i => ?_⟩
  rcases (sendWithFee_led c env s s1 sender value to svc _ body _ _ k hv h "").2 with h | h
  · exact i.of_same h.2
  · exact i.bump h.2.1 h.2.2.1 h.2.2.2.1

theorem handleResponse_led (s s' : St) (k : Int) (res : Nat) (h : handleResponse s k res = some s') (i : Led s) : Led s' := by
  unfold handleResponse at h
  dsimp only at h
  split at h
  case isFalse => cases h
  rename_i hp
  generalize hr : s.req.get Req.empty k = r at h hp
  have hk : r.nsn = k ∧ 0 < k ∧ k ≤ s.nsn := by
    rcases i.reqs.open_ k with h0 | h0
    · rw [hr] at h0; subst h0; exact absurd hp (by decide)
    · rw [hr] at h0; exact h0
  obtain ⟨hk, hk0, hk1⟩ := hk
  have hnotin : k ∉ s.settle.map Prod.fst := by
    intro hm
    obtain ⟨p, hp1, hp2⟩ := List.mem_map.1 hm
    have := (i.reqs.done p hp1).2
    rw [hp2, hr] at this
    subst this
    exact absurd hp (by decide)
  have hset := fun n => FM.total_set (fun (_ : Int) (r : Req) => cur r.dst r.amount n) Req.empty s.req k Req.empty (cur_zero _ _)
  rw [hr] at hset
  rw [hk] at h
  simp only [Option.some.injEq] at h
  subst h
  have hreq : ∀ s1 : St, s1.req = s.req.set k Req.empty → s1.nsn = s.nsn → s1.settle = s.settle ++ [(k, res)] → ReqInv s1 := by
    intro s1 h1 h2 h3
    constructor
    · intro j
      rw [h1, h2, FM.get_set]
      split
      · exact Or.inl rfl
      · exact i.reqs.open_ j
    · rw [h2]; exact i.reqs.pos
    · rw [h3, List.map_append, List.nodup_append]
      refine ⟨i.reqs.once, by simp, ?_⟩
      intro a ha b hb
      simp only [List.map_cons, List.map_nil, List.mem_singleton] at hb
      subst hb
      exact fun e => hnotin (e ▸ ha)
    · intro p hp
      rw [h3] at hp
      rw [h1, h2, FM.get_set]
      rcases List.mem_append.1 hp with hp | hp
      · have := i.reqs.done p hp
        exact ⟨this.1, by split; rfl; exact this.2⟩
      · simp only [List.mem_singleton] at hp
        subst hp
        exact ⟨hk1, by rw [if_pos rfl]⟩
  by_cases h0 : res ≠ 0
  · simp only [if_pos h0]
    have hl := fun n => addReward_ledger { s with req := s.req.set k Req.empty } r.dst r.caller r.amount n
    constructor
    · intro n
      have h1 := hl n
      have h2 := hset n
      have h3 := i.bal n
      have e0 : cur Req.empty.dst Req.empty.amount n = 0 := cur_zero _ _
      generalize addReward { s with req := s.req.set k Req.empty } r.dst r.caller r.amount = s2 at h1
      have h4 : s2.inflow n = s.inflow n := by rw [h1.2.1]
      have h5 := h1.1
      simp only [ledger, rewards, stored, pending, carried] at h5 h3 ⊢
      omega
    · apply hreq
      · exact (hl "").2.2.1
      · exact (hl "").2.2.2.1
      · show (addReward _ _ _ _).settle ++ _ = _
        rw [(hl "").2.2.2.2]
  · simp only [if_neg h0]
    constructor
    · intro n
      have h2 := hset n
      have h3 := i.bal n
      have e0 : cur Req.empty.dst Req.empty.amount n = 0 := cur_zero _ _
      simp only [ledger, rewards, stored, pending, carried, upd_cur] at h3 ⊢
      omega
    · exact hreq _ rfl rfl rfl

theorem ownService_led (env : Env) (ok : Bool) (s s' : St) (fr : String) (sn : Int) (body : Bytes)
    (h : ownService c env ok s fr sn body = some s') (i : Led s) : Led s' := by
  unfold ownService at h
  split at h
  · cases h
  · split at h
    · cases h
    · rename_i amount _ _ _ a ha
      dsimp only at h
      have h1 : ∀ n, ledger (addIn { s with credited := s.credited + amount } c.net amount) n = ledger s n ∧
          (addIn { s with credited := s.credited + amount } c.net amount).inflow n = s.inflow n + cur c.net amount n ∧
          SameReq s (addIn { s with credited := s.credited + amount } c.net amount) :=
        fun n => addIn_ledger { s with credited := s.credited + amount } c.net amount n
      have h2 := fun n => addReward_ledger (addIn { s with credited := s.credited + amount } c.net amount) c.net a amount n
      have h3 := sendMessage_led c env _ s' _ _ _ _ _ _ (fun _ => rfl) h
      constructor
      · intro n
        have := i.bal n
        have h4 := h1 n
        have h5 := h2 n
        have h6 := h3.1 n
        rw [h5.2.1] at h6
        omega
      · exact h3.2 ((i.reqs.of_same (h1 "").2.2).of_same (h2 "").2.2)
  · exact handleResponse_led s s' _ _ h i
  · split at h
    · simp only [Option.some.injEq] at h; subst h; exact i
    · cases h
  · cases h

theorem handleMessage_led (env : Env) (ok : Bool) (call : St → St) (hc : ∀ s, Led s → Led (call s)) (s : St) (m : Msg) (i : Led s) :
    Led (handleMessage c env ok call s m).2 ∧ ((handleMessage c env ok call s m).1 ≠ 0 → (handleMessage c env ok call s m).2 = s) := by
  unfold handleMessage
  split
  · dsimp only
    split
    · split
      · rename_i h; exact ⟨ownService_led c env ok s _ _ _ _ h i, fun h0 => absurd rfl h0⟩
      · exact ⟨i, fun _ => rfl⟩
    · split
      · exact ⟨i, fun _ => rfl⟩
      · split
        · rename_i h; exact ⟨handleResponse_led s _ _ _ h i, fun h0 => absurd rfl h0⟩
        · exact ⟨i, fun _ => rfl⟩
  · split
    · exact ⟨i, fun _ => rfl⟩
    · split
      · split
        · exact ⟨hc s i, fun h0 => absurd rfl h0⟩
        · exact ⟨i, fun _ => rfl⟩
      · split
        · exact ⟨i, fun _ => rfl⟩
        · split
          · exact ⟨hc s i, fun h0 => absurd rfl h0⟩
          · exact ⟨i, fun _ => rfl⟩

theorem Led.keep {s s' : St} (i : Led s) (h : ∀ n, s'.inflow n + ledger s n = s.inflow n + ledger s' n) (hr : ReqInv s') : Led s' :=
  ⟨fun n => by have := h n; have := i.bal n; omega, hr⟩

theorem item_led (env : Env) (ok : Bool) (call : St → St) (caller : Nat) (prev : String) (seq : Nat) (s : St) (m0 : Msg) (s' : St)
    (hc : ∀ s, Led s → Led (call s)) (h : item c env ok call caller prev seq s m0 = some s') (i : Led s) : Led s' := by
  unfold item at h
  dsimp only at h
  have ha := fun n => addIn_ledger s m0.fee.network m0.fee.values.sum n
  have hra := i.reqs.of_same (ha "").2.2
  have hb : ∀ n, (addIn s m0.fee.network m0.fee.values.sum).inflow n = ledger s n + feeOf m0.fee n := fun n => by
    have := i.bal n; have := ha n; simp only [feeOf]; omega
  have hc2 : ∀ n, ledger (addIn s m0.fee.network m0.fee.values.sum) n = ledger s n := fun n => (ha n).1
  generalize addIn s m0.fee.network m0.fee.values.sum = s0 at h ha hb hra hc2
  have hd : ∀ n, ledger { s0 with disp := upd s0.disp prev (s0.disp prev ++ [some m0]) } n = ledger s n := hc2
  have hd2 : ∀ n, ({ s0 with disp := upd s0.disp prev (s0.disp prev ++ [some m0]) } : St).inflow n = ledger s n + feeOf m0.fee n := hb
  have hrd : ReqInv { s0 with disp := upd s0.disp prev (s0.disp prev ++ [some m0]) } := hra.eq3 rfl rfl rfl
  generalize ({ s0 with disp := upd s0.disp prev (s0.disp prev ++ [some m0]) } : St) = s00 at h hd hd2 hrd
  have hf := fun n => handleFee_ledger c s00 caller m0 n
  generalize handleFee c s00 caller m0 = p at h hf
  obtain ⟨s1, m⟩ := p
  dsimp only at h hf
  obtain ⟨-, hfi, hfr, hfd, hfs, hfsrc, hfsvc, hfnsn, -, hfresp, hfnil⟩ := hf ""
  have hfl := fun n => (hf n).1
  have hi1 := hrd.of_same hfr
  rw [hfd] at h
  by_cases hdst : m0.dst = c.net
  · rw [if_pos hdst] at h
    have hled1 : Led s1 := by
      refine ⟨fun n => ?_, hi1⟩
      have h1 := hfl n
      rw [hfi, hd2 n]
      rw [hd n] at h1
      by_cases hs : m0.sn > 0
      · rw [if_pos ⟨hdst, hs⟩] at h1; omega
      · rw [if_neg (fun h => hs h.2)] at h1
        have : feeOf m.fee n = 0 := by simp [feeOf, hfnil ⟨hdst, hs⟩, cur_zero]
        omega
    have hm := handleMessage_led c env ok call hc s1 m hled1
    generalize handleMessage c env ok call s1 m = q at h hm
    obtain ⟨e, s2⟩ := q
    dsimp only at h hm
    split at h
    · simp only [Option.some.injEq] at h; subst h; exact hm.1
    rename_i he
    have hs2 := hm.2 he
    subst hs2
    split at h
    · rename_i hsn
      split at h
      · cases h
      rename_i s3 r hr
      simp only [Option.some.injEq] at h
      subst h
      have h3 := fun n => removeResponse_ledger s2 s3 _ _ _ r hr n
      have h4 := fun n => sendError_ledger c env s3 prev seq m e n
      refine hled1.keep ?_ ((hi1.of_same (h3 "").2.2.1).of_same (h4 "").2.2)
      intro n
      have hrr := (h3 n).2.2.2.1
      rw [hfsrc, hfsvc, hfs] at hrr
      rw [hfs] at hsn
      rw [hfresp ⟨hdst, hsn⟩] at hrr
      have h5 := (h3 n).1
      rw [hrr] at h5
      dsimp only at h5
      have h6 := (h4 n).1
      rw [(h4 n).2.1, (h3 n).2.1]
      omega
    · simp only [Option.some.injEq] at h
      subst h
      rename_i hsn
      have h4 := fun n => sendError_ledger c env s2 prev seq m e n
      refine hled1.keep ?_ (hi1.of_same (h4 "").2.2)
      intro n
      rw [hfs] at hsn
      have : feeOf m.fee n = 0 := by simp [feeOf, hfnil ⟨hdst, hsn⟩, cur_zero]
      have := (h4 n).1
      rw [(h4 n).2.1]
      omega
  · rw [if_neg hdst] at h
    have hl1 : ∀ n, s1.inflow n = ledger s1 n + feeOf m.fee n := fun n => by
      have h1 := hfl n
      rw [if_neg (fun h => hdst h.1), hd n] at h1
      rw [hfi, hd2 n]; omega
    split at h
    · simp only [Option.some.injEq] at h
      subst h
      rename_i next hn
      have h4 := fun n => sendMsg_ledger s1 next m n
      refine ⟨fun n => ?_, hi1.of_same (h4 "").2.2⟩
      rw [(h4 n).2.1, (h4 n).1]; exact hl1 n
    · simp only [Option.some.injEq] at h
      subst h
      have h4 := fun n => sendError_ledger c env s1 prev seq m 2 n
      refine ⟨fun n => ?_, hi1.of_same (h4 "").2.2⟩
      rw [(h4 n).2.1, (h4 n).1]; exact hl1 n

theorem claim_led (env : Env) (s s' : St) (sender value : Nat) (net receiver : String) (hs : sender ≠ c.service)
    (h : claimReward c env s sender value net receiver = some s') (i : Led s) : Led s' := by
  unfold claimReward at h
  dsimp only at h
  generalize (if sender = env.feeHandler then c.periphery else sender) = who at h
  split at h
  case isFalse => cases h
  rename_i hr
  generalize hrw : s.reward.get 0 (who, net) = r at h hr
  have hset := fun n => FM.total_set (fun (k : Nat × String) v => cur k.2 v n) 0 s.reward (who, net) 0 (cur_zero _ _)
  rw [hrw] at hset
  simp only [cur_zero] at hset
  split at h
  · split at h
    · cases h
    rename_i a hpa
    simp only [Option.some.injEq] at h
    subst h
    refine ⟨fun n => ?_, i.reqs.eq3 rfl rfl rfl⟩
    have h1 := i.bal n
    have h2 := hset n
    simp only [ledger, rewards, stored, pending, carried, addIn, upd_cur] at h1 ⊢
    omega
  · split at h
    · cases h
    rename_i s2 k hsend
    simp only [Option.some.injEq] at h
    subst h
    have h1 := fun n => sendWithFee_led c env _ s2 sender value net "bmc" 0 _ _ _ k (fun e => absurd e hs) hsend n
    rcases (h1 "").2 with h2 | h2
    · exact absurd h2.1 (by decide)
    obtain ⟨-, hreq, hnsn, hsettle, hk⟩ := h2
    dsimp only at hreq hnsn hsettle hk
    have hpos := i.reqs.pos
    have hfresh : s2.req.get Req.empty k = Req.empty := by
      rw [hreq]
      rcases i.reqs.open_ k with h | h
      · exact h
      · exfalso; omega
    constructor
    · intro n
      have h3 := (h1 n).1
      have h4 := FM.total_set (fun (_ : Int) (r : Req) => cur r.dst r.amount n) Req.empty s2.req k ⟨k, net, who, r⟩ (cur_zero _ _)
      rw [hfresh] at h4
      have e0 : cur Req.empty.dst Req.empty.amount n = 0 := cur_zero _ _
      have h5 := i.bal n
      have h6 := hset n
      simp only [ledger, rewards, stored, pending, carried] at h3 h5 ⊢
      dsimp only at h4
      omega
    · constructor
      · intro j
        show FM.get _ (s2.req.set k _) j = _ ∨ (FM.get _ (s2.req.set k _) j).nsn = j ∧ 0 < j ∧ j ≤ s2.nsn
        rw [FM.get_set, hreq, hnsn]
        split
        · rename_i e; subst e; exact Or.inr ⟨rfl, by omega, by omega⟩
        · rcases i.reqs.open_ j with h | h
          · exact Or.inl h
          · exact Or.inr ⟨h.1, h.2.1, by omega⟩
      · show 0 ≤ s2.nsn; omega
      · show (s2.settle.map Prod.fst).Nodup; rw [hsettle]; exact i.reqs.once
      · intro p hp
        have hp' : p ∈ s.settle := by rw [← hsettle]; exact hp
        have := i.reqs.done p hp'
        show p.1 ≤ s2.nsn ∧ FM.get _ (s2.req.set k _) p.1 = _
        rw [FM.get_set, hreq, hnsn]
        refine ⟨by omega, ?_⟩
        rw [if_neg (by omega)]
        exact this.2

theorem drop_led (env : Env) (s s' : St) (src : String) (seq : Nat) (svc : String) (sn nsn : Int) (f : FeeInfo)
    (h : dropMessage c env s src seq svc sn nsn f = some s') (i : Led s) : Led s' := by
  unfold dropMessage at h
  split at h
  case h_2 => cases h
  rename_i next a _ _
  split at h
  · cases h
  dsimp only at h
  have h1 := fun n => addIn_ledger s f.network f.values.sum n
  generalize addIn s f.network f.values.sum = s0 at h h1
  have h2 := fun n => accumulate_ledger s0 c.periphery f n
  generalize accumulate s0 c.periphery f = p at h h2
  obtain ⟨s1, f1⟩ := p
  dsimp only at h h2
  split at h
  case isFalse => cases h
  simp only [Option.some.injEq] at h
  subst h
  have h3 := fun n => sendError_ledger c env
    { s1 with rx := upd s1.rx next (s1.rx next + 1), disp := upd s1.disp next (s1.disp next ++ [none]) } next seq
    ⟨src, "", svc, sn, [], nsn, f1⟩ 1 n
  refine ⟨fun n => ?_, ?_⟩
  · have h4 := (h3 n).1
    have e : ledger { s1 with rx := upd s1.rx next (s1.rx next + 1), disp := upd s1.disp next (s1.disp next ++ [none]) } n = ledger s1 n := rfl
    rw [(h3 n).2.1]
    show s1.inflow n = _
    have h5 := (h2 n).1
    have h6 := congrFun (h2 n).2.1 n
    have h7 := h1 n
    have h8 := i.bal n
    have e2 : feeOf f n = cur f.network f.values.sum n := rfl
    dsimp only at h4
    omega
  · have h9 := (i.reqs.of_same (h1 "").2.2).of_same (h2 "").2.2
    exact (h9.eq3 (s' := { s1 with rx := upd s1.rx next (s1.rx next + 1), disp := upd s1.disp next (s1.disp next ++ [none]) }) rfl rfl rfl).of_same (h3 "").2.2

theorem led_pres : Pres c Led where
  send := fun env s sender value to svc sn body s' hs h i => by
    have := sendMessage_led c env s s' sender value to svc sn body (fun e => absurd e hs) h
    exact i.keep this.1 (this.2 i.reqs)
  claim := fun env s sender value net receiver s' hs h i => claim_led c env s s' sender value net receiver hs h i
  item := fun env ok call caller prev seq s m s' hc h i => item_led c env ok call caller prev seq s m s' hc h i
  rx := fun s prev n i => ⟨i.bal, i.reqs.eq3 rfl rfl rfl⟩
  drop := fun env s src seq svc sn nsn f s' h i => drop_led c env s s' src seq svc sn nsn f h i
  clear := fun s link i => ⟨fun n => by
    have := i.bal n
    simp only [clearSeq, ledger, rewards, stored, pending, carried, List.map_append, List.map_cons, List.map_nil, List.sum_append,
      List.sum_cons, List.sum_nil, evFee] at this ⊢
    omega, i.reqs.eq3 rfl rfl rfl⟩
  internal := fun s next to body i => by
    have h := fun n => sendMsg_ledger { s with nsn := s.nsn + 1 } next ⟨c.net, to, "bmc", 0, body, s.nsn + 1, ⟨c.net, []⟩⟩ n
    refine ⟨fun n => ?_, ?_⟩
    · have h1 := (h n).1
      have e : ledger { s with nsn := s.nsn + 1 } n = ledger s n := rfl
      have e2 : feeOf ⟨c.net, []⟩ n = 0 := cur_zero _ _
      have := i.bal n
      show (sendMsg _ _ _).inflow n = _
      rw [(h n).2.1]
      show s.inflow n = ledger (sendMsg { s with nsn := s.nsn + 1 } next _) n
      dsimp only at h1
      omega
    · exact ReqInv.bump (s := s) rfl rfl rfl i.reqs

theorem init_led : Led init where
  bal := fun n => rfl
  reqs := ⟨fun _ => Or.inl rfl, by decide, by decide, fun p hp => nomatch hp⟩

end Verif.SolBmc
