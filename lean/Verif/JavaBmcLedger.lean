import Verif.JavaBmcInv
/-!
The ledger of the ICON BMC: effect of every step on the difference between what came in and where it is.
-/
namespace Verif.JavaBmc
open Verif
open Verif.SolBmc (FM upd FeeInfo cur)

variable {c : Cfg}

/-- Value of a fee list in currency `n`. -/
def feeOf : Option FeeInfo → String → Nat
  | none, _ => 0
  | some f, n => cur f.network f.values.sum n

/-- Value that left with an event. -/
def evFee (n : String) : Event → Nat
  | .message _ _ m => feeOf m.fee n
  | .chain _ _ _ m => feeOf m.fee n
  | _ => 0

def respFee (n : String) : Option Resp → Nat
  | none => 0
  | some r => feeOf (some r.fee) n

def reqVal (n : String) : Option Req → Nat
  | none => 0
  | some r => cur r.dst r.amount n

def rewards (s : St) (n : String) : Nat := FM.total (fun k v => cur k.2 v n) s.reward
def stored (s : St) (n : String) : Nat := FM.total (fun _ r => respFee n r) s.resp
def pending (s : St) (n : String) : Nat := FM.total (fun _ r => reqVal n r) s.req
def carried (s : St) (n : String) : Nat := (s.log.map (evFee n)).sum

/-- What came in (and what was counted twice) less everything owed, stored, claimed, passed on, paid or lost. -/
def bal (s : St) (n : String) : Int :=
  (s.inflow n : Int) + s.twice n - (rewards s n + stored s n + pending s n + carried s n + s.settled n + s.paid n + s.lost n)

theorem bal_congr {s s' : St} (n : String) (h1 : s'.inflow = s.inflow) (h2 : s'.twice = s.twice) (h3 : s'.reward = s.reward)
    (h4 : s'.resp = s.resp) (h5 : s'.req = s.req) (h6 : s'.log = s.log) (h7 : s'.settled = s.settled) (h8 : s'.paid = s.paid)
    (h9 : s'.lost = s.lost) : bal s' n = bal s n := by
  simp only [bal, rewards, stored, pending, carried, h1, h2, h3, h4, h5, h6, h7, h8, h9]

theorem upd_cur (f : String → Nat) (k n : String) (v : Nat) : upd f k (f k + v) n = f n + cur k v n := by
  unfold upd cur
  by_cases e : n = k
  · subst e; simp
  · rw [if_neg e, if_neg (fun x => e x.symm)]; rfl

theorem bal_addIn (s : St) (k : String) (v : Nat) (n : String) : bal (addIn s k v) n = bal s n + cur k v n := by
  unfold bal addIn
  simp only [upd_cur, rewards, stored, pending, carried]
  omega

theorem bal_addLost (s : St) (k : String) (v : Nat) (n : String) : bal (addLost s k v) n = bal s n - cur k v n := by
  unfold bal addLost
  simp only [upd_cur, rewards, stored, pending, carried]
  omega

theorem bal_addTwice (s : St) (k : String) (v : Nat) (n : String) : bal (addTwice s k v) n = bal s n + cur k v n := by
  unfold bal addTwice
  simp only [upd_cur, rewards, stored, pending, carried]
  omega

theorem bal_inFee (s : St) (f : Option FeeInfo) (n : String) : bal (inFee s f) n = bal s n + feeOf f n := by
  cases f with
  | none => simp [inFee, feeOf]
  | some f => exact bal_addIn _ _ _ _

theorem bal_lostFee (s : St) (f : Option FeeInfo) (n : String) : bal (lostFee s f) n = bal s n - feeOf f n := by
  cases f with
  | none => simp [lostFee, feeOf]
  | some f => exact bal_addLost _ _ _ _

theorem bal_twiceFee (s : St) (f : Option FeeInfo) (n : String) : bal (twiceFee s f) n = bal s n + feeOf f n := by
  cases f with
  | none => simp [twiceFee, feeOf]
  | some f => exact bal_addTwice _ _ _ _

theorem bal_setReward (s : St) (a : Nat) (k : String) (v : Nat) (n : String) :
    bal { s with reward := s.reward.set (a, k) v } n = bal s n + cur k (s.reward.get 0 (a, k)) n - cur k v n := by
  have := SolBmc.FM.total_set (fun (k : Nat × String) v => cur k.2 v n) 0 s.reward (a, k) v (SolBmc.cur_zero _ _)
  unfold bal rewards stored pending carried
  simp only at this ⊢
  omega

theorem bal_addReward (s : St) (a : Nat) (k : String) (v : Nat) (n : String) : bal (addReward s a k v) n = bal s n - cur k v n := by
  unfold addReward
  split
  · rw [bal_setReward, SolBmc.cur_add]; omega
  · have : v = 0 := by omega
    subst this
    rw [SolBmc.cur_zero]; simp

theorem bal_collect (s : St) (f : Option FeeInfo) (n : String) : bal (collect c s f) n = bal s n - feeOf f n := by
  cases f with
  | none => simp [collect, feeOf]
  | some f => exact bal_addReward _ _ _ _ _

theorem bal_accumulate (s : St) (a : Nat) (f : Option FeeInfo) (n : String) :
    bal (accumulate s a f).1 n = bal s n - feeOf f n + feeOf (accumulate s a f).2 n := by
  cases f with
  | none => simp [accumulate]
  | some f =>
    simp only [accumulate]
    split
    · simp only [feeOf]; omega
    · rename_i v t hv
      simp only [feeOf, bal_addReward, hv, List.sum_cons, SolBmc.cur_add]
      omega

theorem bal_setResp (s : St) (k : String × String × Int) (v : Option Resp) (n : String) :
    bal { s with resp := s.resp.set k v } n = bal s n + respFee n (s.resp.get none k) - respFee n v := by
  have := SolBmc.FM.total_set (fun (_ : String × String × Int) r => respFee n r) none s.resp k v rfl
  unfold bal rewards stored pending carried
  simp only at this ⊢
  omega

theorem bal_setReq (s : St) (k : Int) (v : Option Req) (n : String) :
    bal { s with req := s.req.set k v } n = bal s n + reqVal n (s.req.get none k) - reqVal n v := by
  have := SolBmc.FM.total_set (fun (_ : Int) r => reqVal n r) none s.req k v rfl
  unfold bal rewards stored pending carried
  simp only at this ⊢
  omega

theorem bal_log (s : St) (ev : Event) (n : String) : bal { s with log := s.log ++ [ev] } n = bal s n - evFee n ev := by
  unfold bal rewards stored pending carried
  simp only [List.map_append, List.map_cons, List.map_nil, List.sum_append, List.sum_cons, List.sum_nil, Nat.add_zero]
  omega

theorem bal_putLink (s : St) (l : Link) (n : String) : bal (putLink c s l) n = bal s n := by
  unfold putLink
  split
  · rfl
  · exact bal_congr n rfl rfl rfl rfl rfl rfl rfl rfl rfl

theorem bal_sendMsg {env : Env} {s s' : St} {next : String} {m : Msg} {r} (h : sendMsg c env s next m = (r, s')) (n : String) :
    bal s' n = if r = none then bal s n - feeOf m.fee n else bal s n := by
  have hlog : ∀ l, (putLink c s l).log = s.log := fun l => (putLink_rest s l).1
  have key : ∀ (l : Link) (ev : Event), bal { putLink c s l with log := s.log ++ [ev] } n = bal s n - evFee n ev := by
    intro l ev
    rw [← hlog l, bal_log, bal_putLink]
  rcases Tr.sendMsg (c := c) (env := env) (s := s) (next := next) (m := m) with ⟨e1, e⟩ | ⟨e1, l, hl, ⟨hid, e⟩ | ⟨id, hid, _, e⟩⟩
  all_goals rw [h] at e e1; simp only at e e1; subst e
  · rw [if_neg e1]
  · rw [if_pos e1, key]; rfl
  · rw [if_pos e1, key]; rfl

theorem bal_sendReply {env : Env} {s s' : St} {next : String} {value : Nat} {to svc : String} {sn : Int} {body : Bytes} {r}
    (h : sendReply c env s next value to svc sn body = (r, s')) (n : String) : bal s' n = bal s n := by
  unfold sendReply at h
  split at h
  · cases h; rfl
  · rename_i rr hr
    have hb : bal (addReward (addIn { s with resp := s.resp.set (to, svc, sn) none, coins := s.coins + value } c.net value) c.addr c.net value) n =
        bal s n + feeOf (some rr.fee) n := by
      rw [bal_addReward, bal_addIn, bal_congr (s' := { s with resp := s.resp.set (to, svc, sn) none, coins := s.coins + value })
        (s := { s with resp := s.resp.set (to, svc, sn) none }) n rfl rfl rfl rfl rfl rfl rfl rfl rfl, bal_setResp, hr]
      simp only [respFee]
      omega
    simp only at h
    split at h
    · rename_i h3
      cases h
      have := bal_sendMsg h3 n
      rw [if_neg (by simp)] at this
      rw [bal_lostFee, this, hb]
      omega
    · rename_i h3
      cases h
      have := bal_sendMsg h3 n
      rw [if_pos rfl] at this
      rw [this, hb]
      simp only
      omega

theorem sub_cur (k n : String) {a b : Nat} (h : ¬ a < b) : (cur k (a - b) n : Int) = cur k a n - cur k b n := by
  unfold cur
  split <;> omega

theorem bal_sendRequest {env : Env} {s s' : St} {next : String} {value : Nat} {to svc : String} {sn : Int} {body : Bytes} {r}
    (h : sendRequest c env s next value to svc sn body = (r, s')) (n : String) : bal s' n = bal s n := by
  unfold sendRequest at h
  simp only at h
  split at h
  · cases h; exact bal_congr n rfl rfl rfl rfl rfl rfl rfl rfl rfl
  · rename_i hv
    generalize feeList { s with nsn := s.nsn + 1 } to (decide (sn > 0)) = values at h hv
    have hb : bal (addReward (addIn { s with nsn := s.nsn + 1, coins := s.coins + value } c.net value) c.addr c.net (value - values.sum)) n =
        bal s n + feeOf (some ⟨c.net, values⟩) n := by
      rw [bal_addReward, bal_addIn, sub_cur _ _ hv, bal_congr (s' := { s with nsn := s.nsn + 1, coins := s.coins + value }) (s := s) n rfl rfl rfl rfl rfl rfl rfl rfl rfl]
      simp only [feeOf]
      omega
    split at h
    · rename_i h3
      cases h
      have := bal_sendMsg h3 n
      rw [if_neg (by simp)] at this
      rw [bal_lostFee, this, hb]
      omega
    · rename_i h3
      cases h
      have := bal_sendMsg h3 n
      rw [if_pos rfl] at this
      rw [this, hb]
      simp only
      omega

theorem bal_sendWithFee {env : Env} {s s' : St} {value : Nat} {to svc : String} {sn : Int} {body : Bytes} {isR fill : Bool} {r}
    (h : sendWithFee c env s value to svc sn body isR fill = (r, s')) (n : String) : bal s' n = bal s n := by
  unfold sendWithFee at h
  split at h
  · cases h; rfl
  · cases isR with
    | true => exact bal_sendReply h n
    | false => exact bal_sendRequest h n

theorem bal_sendMessage {env : Env} {s s' : St} {caller value : Nat} {to svc : String} {sn : Int} {body : Bytes}
    (h : sendMessage c env s caller value to svc sn body = some s') (n : String) : bal s' n = bal s n := by
  unfold sendMessage at h
  split at h
  · cases h
  · split at h
    · cases h
    · split at h
      · cases h
      · rename_i h3; cases h; exact bal_sendWithFee h3 n

theorem feeOf_swap (s : St) (src : String) (f : Option FeeInfo) (n : String) : feeOf (swapFee s src f) n = feeOf f n := by
  cases f with
  | none => rfl
  | some f =>
    simp only [swapFee]
    split
    · simp only [feeOf]
      congr 1
      rw [List.sum_append, Nat.add_comm, ← List.sum_append, List.take_append_drop]
    · rfl

theorem bal_sendError {env : Env} {s s' : St} {prev : String} {m : Msg} {e : Ex} {r} (h : sendError c env s prev m e = (r, s')) (n : String) :
    bal s' n = if r = none then bal s n - feeOf m.fee n else bal s n := by
  have := bal_sendMsg h n
  simp only [feeOf_swap] at this
  exact this

theorem bal_sendInternal {env : Env} {s s' : St} {next to : String} {body : Bytes} {r} (h : sendInternal c env s next to body = (r, s'))
    (n : String) : bal s' n = bal s n := by
  have := bal_sendMsg h n
  rw [bal_congr (s' := { s with nsn := s.nsn + 1 }) (s := s) n rfl rfl rfl rfl rfl rfl rfl rfl rfl] at this
  simp only [feeOf] at this
  rw [this]
  split <;> simp

theorem bal_propagate {env : Env} {body : Bytes} (n : String) : ∀ (l : List (String × Link)) {s s' : St}, propagate c env body l s = some s' →
    bal s' n = bal s n
  | [], s, s', h => by simp only [propagate, Option.some.injEq] at h; subst h; rfl
  | (_, l) :: t, s, s', h => by
    simp only [propagate] at h
    split at h
    · cases h
    · rename_i s1 h1
      rw [bal_propagate n t h, bal_sendInternal h1]

theorem bal_handleResponse {s s' : St} {nsn : Int} {result : Nat} {r} (h : handleResponse s nsn result = (r, s')) (n : String) :
    bal s' n = bal s n := by
  unfold handleResponse at h
  split at h
  · cases h; rfl
  · rename_i rr hr
    simp only [Prod.mk.injEq] at h
    obtain ⟨_, rfl⟩ := h
    have h1 := bal_setReq s nsn none n
    rw [hr] at h1
    simp only [reqVal] at h1
    refine (bal_congr n rfl rfl rfl rfl rfl rfl rfl rfl rfl : bal _ n = bal (if result ≠ 0 then
      addReward { s with req := s.req.set nsn none } rr.caller rr.dst rr.amount
      else { s with req := s.req.set nsn none, settled := upd s.settled rr.dst (s.settled rr.dst + rr.amount) }) n).trans ?_
    split
    · rw [bal_addReward, h1]; omega
    · have h2 : bal { s with req := s.req.set nsn none, settled := upd s.settled rr.dst (s.settled rr.dst + rr.amount) } n =
          bal { s with req := s.req.set nsn none } n - cur rr.dst rr.amount n := by
        unfold bal
        simp only [upd_cur, rewards, stored, pending, carried]
        omega
      rw [h2, h1]; omega

theorem bal_internalHandle {env : Env} {s s' : St} {src : String} {nsn : Int} {body : Bytes} {r}
    (h : internalHandle c env s src nsn body = (r, s')) (n : String) : bal s' n = bal s n := by
  unfold internalHandle at h
  split at h
  · cases h; rfl
  · split at h
    · cases h; rfl
    · rename_i a _
      have hb : ∀ v, bal (addReward (addIn s c.net v) a c.net v) n = bal s n := by
        intro v; rw [bal_addReward, bal_addIn]; omega
      simp only at h
      split at h
      · rename_i h3; cases h
        refine Eq.trans (bal_congr n rfl rfl rfl rfl rfl rfl rfl rfl rfl) ((bal_sendWithFee h3 n).trans (hb _))
      · rename_i h3; cases h
        refine Eq.trans (bal_congr n rfl rfl rfl rfl rfl rfl rfl rfl rfl) ((bal_sendWithFee h3 n).trans (hb _))
  · exact bal_handleResponse h n
  · unfold addReach at h
    split at h
    · cases h; rfl
    · cases h; exact bal_putLink _ _ _
  · unfold removeReach at h
    split at h
    · cases h; rfl
    · cases h; exact bal_putLink _ _ _
  · unfold addReach at h
    split at h
    · cases h; rfl
    · cases h; exact bal_putLink _ _ _

theorem respFee_map (o : Option Resp) (n : String) : feeOf (o.map (·.fee)) n = respFee n o := by
  cases o <;> rfl

theorem addReward_resp (s : St) (a : Nat) (k : String) (v : Nat) : (addReward s a k v).resp = s.resp := by
  unfold addReward; split <;> rfl

theorem collect_resp (s : St) (f : Option FeeInfo) : (collect c s f).resp = s.resp := by
  cases f with
  | none => rfl
  | some f => exact addReward_resp _ _ _ _

theorem bal_storeFee (s : St) (m : Msg) (n : String) : bal (storeFee c s m) n = bal s n - feeOf m.fee n := by
  unfold storeFee
  split
  · rename_i e; simp [e, feeOf]
  · rename_i f e
    rw [e]
    split
    · simp only
      rw [bal_setResp, collect_resp, bal_collect, respFee_map]
      simp only [respFee]
      omega
    · exact bal_collect _ _ _

theorem bal_unstoreFee (s : St) (m : Msg) (n : String) : bal (unstoreFee s m) n = if m.sn > 0 then bal s n + feeOf m.fee n else bal s n := by
  unfold unstoreFee
  split
  · rename_i e; simp [e, feeOf]
  · rename_i f e
    rw [e]
    by_cases hs : m.sn > 0
    · rw [if_pos hs, if_pos hs]
      simp only
      have h1 := bal_setResp s (m.src, m.svc, m.sn) none n
      rw [← respFee_map] at h1
      simp only [respFee] at h1
      split
      · rename_i h2
        rw [h2] at h1
        rw [h1]; omega
      · rw [bal_twiceFee, bal_lostFee, h1]; omega
    · rw [if_neg hs, if_neg hs]

/-- Success uses the fee up; a failure with sn > 0 leaves it with the message. -/
theorem bal_handleMessage {env : Env} {out : Out} {call : St → St} {s s' : St} {m : Msg} {r} (n : String)
    (hr : ReqInv s) (hc : ∀ x, ReqInv x → bal (call x) n = bal x n)
    (h : handleMessage c env out call s m = (r, s')) :
    bal s' n = if r ≠ none ∧ m.sn > 0 then bal s n else bal s n - feeOf m.fee n := by
  unfold handleMessage at h
  split at h
  · have h0 := bal_storeFee (c := c) s m n
    have hq := (Tr.storeFee (c := c) (b := false) (P := []) s m).reqInv hr
    generalize storeFee c s m = s1 at h h0 hq
    have key : ∀ (q : Option Ex × St), bal q.2 n = bal s1 n → (match q with
        | (none, s2) => (none, s2)
        | (some e, s2) => (some e, unstoreFee s2 m)) = (r, s') →
        bal s' n = if r ≠ none ∧ m.sn > 0 then bal s n else bal s n - feeOf m.fee n := by
      intro q hq hh
      obtain ⟨q1, q2⟩ := q
      cases q1 with
      | none =>
        simp only [Prod.mk.injEq] at hh
        obtain ⟨rfl, rfl⟩ := hh
        rw [if_neg (by simp)]
        simp only at hq
        omega
      | some e =>
        simp only [Prod.mk.injEq] at hh
        obtain ⟨rfl, rfl⟩ := hh
        simp only at hq
        rw [bal_unstoreFee]
        by_cases hs : m.sn > 0
        · rw [if_pos hs, if_pos ⟨by simp, hs⟩]; omega
        · rw [if_neg hs, if_neg (fun x => hs x.2)]; omega
    refine key _ ?_ h
    split
    · exact bal_internalHandle (r := (internalHandle c env s1 m.src m.nsn m.body).1) rfl n
    · split
      · rfl
      · split
        · exact hc _ hq
        · rfl
  · rename_i hs
    have hs' : ¬ (r ≠ none ∧ m.sn > 0) := fun x => hs (by have := x.2; omega)
    rw [if_neg hs']
    have h0 := bal_collect (c := c) s m.fee n
    have hq := (Tr.collect (c := c) (b := false) (P := []) s m.fee).reqInv hr
    generalize collect c s m.fee = s1 at h h0 hq
    rw [← h0]
    simp only at h
    split at h
    · cases h; rfl
    · split at h
      · exact bal_handleResponse h n
      · split at h
        · cases h; rfl
        · split at h
          · cases h; exact hc _ hq
          · cases h; rfl

theorem bal_deliver {env : Env} {out : Out} {call : St → St} {s s' : St} {m : Msg} {r} (n : String)
    (hr : ReqInv s) (hc : ∀ x, ReqInv x → bal (call x) n = bal x n)
    (h : deliver c env out call s m = (r, s')) :
    bal s' n = if r ≠ none ∧ (m.dst = c.net → m.sn > 0) then bal s n else bal s n - feeOf m.fee n := by
  unfold deliver at h
  split at h
  · rename_i hd
    rw [bal_handleMessage n hr hc h]
    by_cases hs : r ≠ none ∧ m.sn > 0
    · rw [if_pos hs, if_pos ⟨hs.1, fun _ => hs.2⟩]
    · rw [if_neg hs, if_neg (fun x => hs ⟨x.1, x.2 hd⟩)]
  · rename_i hd
    split at h
    · cases h
      rw [if_pos ⟨by simp, fun x => absurd x hd⟩]
    · have := bal_sendMsg h n
      rw [this]
      by_cases hr : r = none
      · rw [if_pos hr, if_neg (fun x => x.1 hr)]
      · rw [if_neg hr, if_pos ⟨hr, fun x => absurd x hd⟩]

theorem bal_failed (env : Env) (prev : String) (seq : Nat) (s : St) (m : Msg) (e : Ex) (n : String) :
    bal (failed c env prev seq s m e) n = if m.dst = c.net → m.sn > 0 then bal s n - feeOf m.fee n else bal s n := by
  unfold failed
  split
  · rename_i hs
    rw [if_pos (fun _ => hs)]
    split
    · rename_i h; rw [bal_sendError h, if_pos rfl]
    · rename_i h
      rw [bal_log, bal_collect, bal_sendError h, if_neg (by simp), feeOf_swap]
      simp [evFee]
  · rename_i hs
    simp only
    rw [bal_log]
    by_cases hd : m.dst = c.net
    · rw [if_pos hd, if_neg (fun x => hs (x hd)), bal_twiceFee, bal_collect]
      simp only [evFee]; omega
    · rw [if_neg hd, if_pos (fun x => absurd x hd), bal_collect]
      simp [evFee]

theorem bal_item (env : Env) (out : Out) (call : St → St) (caller : Nat) (prev : String) (gen seq : Nat) (s : St) (m : Msg) (n : String)
    (hr : ReqInv s) (hc : ∀ x, ReqInv x → bal (call x) n = bal x n) :
    bal (item c env out call caller prev gen seq s m) n = bal s n := by
  unfold item
  simp only
  have hb : bal { inFee s m.fee with disp := (inFee s m.fee).disp ++ [(gen, seq, some m)] } n = bal s n + feeOf m.fee n := by
    exact (bal_congr n rfl rfl rfl rfl rfl rfl rfl rfl rfl).trans (bal_inFee s m.fee n)
  have hq : ReqInv { inFee s m.fee with disp := (inFee s m.fee).disp ++ [(gen, seq, some m)] } :=
    ((Tr.inFee (c := c) (b := false) (P := []) s m.fee).reqInv hr).same rfl rfl rfl
  generalize { inFee s m.fee with disp := (inFee s m.fee).disp ++ [(gen, seq, some m)] } = s0 at hb hq ⊢
  have h1 := bal_accumulate s0 caller m.fee n
  have hq1 := (Tr.accumulate (c := c) (b := false) (P := []) s0 caller m.fee).reqInv hq
  generalize accumulate s0 caller m.fee = p at h1 hq1 ⊢
  obtain ⟨s1, f⟩ := p
  simp only at h1 hq1 ⊢
  split
  · rename_i h
    have := bal_deliver n hq1 hc h
    rw [if_neg (by simp)] at this
    simp only at this
    omega
  · rename_i e s2 h
    have := bal_deliver n hq1 hc h
    rw [bal_failed]
    simp only at this ⊢
    by_cases hd : m.dst = c.net → m.sn > 0
    · rw [if_pos hd]
      rw [if_pos ⟨by simp, hd⟩] at this
      omega
    · rw [if_neg hd]
      rw [if_neg (fun x => hd x.2)] at this
      omega

theorem ReqInv.free {s : St} (h : ReqInv s) : s.req.get none (s.nsn + 1) = none := by
  cases hr : s.req.get none (s.nsn + 1) with
  | none => rfl
  | some r => have := h.2 _ r hr; omega

theorem bal_claimReward {env : Env} {call : St → St} {s s' : St} {sender value : Nat} {net receiver : String} (n : String)
    (hr : ReqInv s) (hc : ∀ x, ReqInv x → bal (call x) n = bal x n)
    (h : claimReward c env call s sender value net receiver = some s') : bal s' n = bal s n := by
  unfold claimReward at h
  simp only at h
  split at h
  · cases h
  · generalize claimer c s sender = who at h
    have h1 := bal_setReward s who net 0 n
    rw [SolBmc.cur_zero] at h1
    split at h
    · split at h
      · cases h
      · split at h
        · cases h
          refine (hc _ ?_).trans ?_
          · exact hr.same rfl rfl rfl
          have h2 := bal_addLost (addIn { s with reward := s.reward.set (who, net) 0, coins := s.coins + value } c.net value) c.net value n
          rw [bal_addIn, bal_congr (s' := { s with reward := s.reward.set (who, net) 0, coins := s.coins + value })
            (s := { s with reward := s.reward.set (who, net) 0 }) n rfl rfl rfl rfl rfl rfl rfl rfl rfl, h1] at h2
          have h3 : ∀ (x : St) (v : Nat), bal { x with paid := upd x.paid net (x.paid net + v) } n = bal x n - cur net v n := by
            intro x v
            unfold bal
            simp only [upd_cur, rewards, stored, pending, carried]
            omega
          rw [h3, h2]
          omega
        · cases h
    · split at h
      · cases h
      · rename_i nsn s2 h2
        cases h
        obtain ⟨e1, e2, e3, _⟩ := Tr.sendWithFee_fields h2
        have h3 := bal_sendWithFee h2 n
        rw [bal_setReq, h3, h1, e2, e1]
        have : FM.get none s.req (s.nsn + 1) = none := hr.free
        simp only [this, reqVal]
        omega

theorem bal_dropMessage {env : Env} {s s' : St} {caller : Nat} {src : String} {seq : Nat} {svc : String} {sn nsn : Int} {fn : String}
    {fv : List Nat} (h : dropMessage c env s caller src seq svc sn nsn fn fv = some s') (n : String) : bal s' n = bal s n := by
  unfold dropMessage at h
  split at h
  · cases h
  · split at h
    · cases h
    · split at h
      · cases h
      · rename_i l hl
        split at h
        · cases h
        · split at h
          · cases h
          · split at h
            · cases h
            · simp only at h
              have hb : bal { putLink c s { l with rx := seq } with
                  taken := upd (putLink c s { l with rx := seq }).taken l.gen seq
                  disp := (putLink c s { l with rx := seq }).disp ++ [(l.gen, seq, none)] } n = bal s n := by
                refine Eq.trans ?_ (bal_putLink (c := c) s { l with rx := seq } n)
                exact bal_congr n rfl rfl rfl rfl rfl rfl rfl rfl rfl
              generalize { putLink c s { l with rx := seq } with
                  taken := upd (putLink c s { l with rx := seq }).taken l.gen seq
                  disp := (putLink c s { l with rx := seq }).disp ++ [(l.gen, seq, none)] } = s1 at h hb
              have h1 := bal_accumulate (inFee s1 (dropFee fn fv)) c.addr (dropFee fn fv) n
              rw [bal_inFee] at h1
              split at h
              · split at h
                · rename_i h3
                  cases h
                  rw [bal_sendError h3, if_pos rfl]
                  simp only
                  omega
                · cases h
              · cases h
                rw [bal_log, bal_lostFee]
                simp only [evFee]
                omega

theorem bal_setFees (n : String) : ∀ (l : List (String × List Nat)) {s s' : St}, setFees c s l = some s' → bal s' n = bal s n
  | [], s, s', h => by simp only [setFees, Option.some.injEq] at h; subst h; rfl
  | (d, v) :: t, s, s', h => by
    simp only [setFees] at h
    have hb : ∀ x, bal { s with fees := x } n = bal s n := fun x => bal_congr n rfl rfl rfl rfl rfl rfl rfl rfl rfl
    split at h
    · rw [bal_setFees n t h, hb]
    · split at h
      · cases h
      · split at h
        · cases h
        · split at h
          · cases h
          · rw [bal_setFees n t h, hb]

theorem bal_addLink {env : Env} {s s' : St} {link : String} (h : addLink c env s link = some s') (n : String) : bal s' n = bal s n := by
  unfold addLink at h
  split at h
  · cases h
  · split at h
    · cases h
    · split at h
      · cases h
      · split at h
        · cases h
        · rename_i net _ _ _ s1 h1
          simp only at h
          split at h
          · cases h
          · rename_i s3 h3
            cases h
            rw [bal_sendInternal h3, ← bal_propagate n _ h1]
            have := bal_log s1 (.start link) n
            simp only [evFee] at this
            refine (Eq.trans ?_ this).trans (Int.sub_zero _)
            exact bal_congr n rfl rfl rfl rfl rfl rfl rfl rfl rfl

theorem bal_removeLink {env : Env} {s s' : St} {link : String} (h : removeLink c env s link = some s') (n : String) : bal s' n = bal s n := by
  unfold removeLink at h
  split at h
  · cases h
  · split at h
    · cases h
    · split at h
      · cases h
      · split at h
        · cases h
        · simp only at h
          rw [bal_propagate n _ h]
          unfold unbind
          split <;> exact bal_congr n rfl rfl rfl rfl rfl rfl rfl rfl rfl

theorem bal_setBTPLink {s s' : St} {link : String} {id off : Nat} (h : setBTPLink s link id off = some s') (n : String) : bal s' n = bal s n := by
  unfold setBTPLink at h
  split at h
  · cases h
  · split at h
    · cases h
    · cases h
      have := bal_log s (.bind id link) n
      simp only [evFee] at this
      refine (Eq.trans ?_ this).trans (Int.sub_zero _)
      exact bal_congr n rfl rfl rfl rfl rfl rfl rfl rfl rfl

theorem bal_conf {env : Env} {s s' : St} {caller : Nat} {k : Conf} (h : conf c env s caller k = some s') (n : String) : bal s' n = bal s n := by
  have hown : ∀ (x : Option JavaOwners.St), x.map (fun o => { s with own := o }) = some s' → bal s' n = bal s n := by
    intro x hx
    cases x with
    | none => cases hx
    | some o => cases hx; exact bal_congr n rfl rfl rfl rfl rfl rfl rfl rfl rfl
  unfold conf at h
  split at h
  · exact hown _ h
  · exact hown _ h
  · exact hown _ h
  · split at h
    · cases h
    · split at h
      · split at h
        · cases h
        · cases h; exact bal_congr n rfl rfl rfl rfl rfl rfl rfl rfl rfl
      · split at h
        · cases h
        · cases h; exact bal_congr n rfl rfl rfl rfl rfl rfl rfl rfl rfl
      · split at h
        · cases h
        · cases h; exact bal_congr n rfl rfl rfl rfl rfl rfl rfl rfl rfl
      · split at h
        · cases h
        · cases h; exact bal_congr n rfl rfl rfl rfl rfl rfl rfl rfl rfl
      · exact bal_addLink h n
      · exact bal_removeLink h n
      · split at h
        · cases h
        · cases h; exact bal_congr n rfl rfl rfl rfl rfl rfl rfl rfl rfl
      · split at h
        · cases h
        · cases h; exact bal_congr n rfl rfl rfl rfl rfl rfl rfl rfl rfl
      · exact bal_setFees n _ h
      · cases h; exact bal_congr n rfl rfl rfl rfl rfl rfl rfl rfl rfl
      · split at h
        · cases h
        · cases h; exact bal_congr n rfl rfl rfl rfl rfl rfl rfl rfl rfl
      · rename_i link a _ _ _
        split at h
        · cases h
        · cases hx : eraseRelay (s.relays link) a with
          | none => rw [hx] at h; cases h
          | some l => rw [hx] at h; cases h; exact bal_congr n rfl rfl rfl rfl rfl rfl rfl rfl rfl
      · split at h
        · cases h
        · rename_i s1 h1
          rw [bal_addLink h, bal_setBTPLink h1]
      · split at h
        · cases h
        · exact bal_setBTPLink h n
      · cases h

theorem bal_openRelay {s s1 : St} {caller : Nat} {prev : String} {msgs : List Msg} {l : Link}
    (h : openRelay c s caller prev msgs = some (l, s1)) (n : String) : bal s1 n = bal s n := by
  unfold openRelay at h
  split at h
  · cases h
  · split at h
    · cases h
    · split at h
      · simp only [Option.some.injEq, Prod.mk.injEq] at h
        obtain ⟨rfl, rfl⟩ := h
        rw [← bal_putLink (c := c) s _ n]
        exact bal_congr n rfl rfl rfl rfl rfl rfl rfl rfl rfl
      · cases h

mutual
theorem exec_bal (o : Op) (s s' : St) (n : String) (hr : ReqInv s) (h : exec c o s = some s') : bal s' n = bal s n := by
  cases o with
  | relay caller prev items =>
    simp only [exec] at h
    split at h
    · cases h
    · rename_i l s1 h1
      cases h
      rw [← bal_openRelay h1 n]
      exact execItems_bal items caller prev l.gen (l.rx + 1) s1 n ((Tr.openRelay (b := false) (P := []) h1 (by simp)).reqInv hr)
  | send env caller value to svc sn body => simp only [exec] at h; exact bal_sendMessage h n
  | claim env acts caller value net receiver =>
    simp only [exec] at h
    exact bal_claimReward n hr (fun x hx => execOps_bal acts x n hx) h
  | drop env caller src seq svc sn nsn fn fv => simp only [exec] at h; exact bal_dropMessage h n
  | conf env caller k => simp only [exec] at h; exact bal_conf h n
theorem execItems_bal (items : Items) (caller : Nat) (prev : String) (gen seq : Nat) (s : St) (n : String) (hr : ReqInv s) :
    bal (execItems c items caller prev gen seq s) n = bal s n := by
  cases items with
  | nil => simp only [execItems]
  | cons m env out acts t =>
    simp only [execItems]
    have hi := (Tr.item (c := c) (b := false) (P := []) env out (fun x => execOps c acts x) caller prev gen seq s m (fun x => execOps_tr acts x _)).reqInv hr
    rw [execItems_bal t caller prev gen (seq + 1) _ n hi]
    exact bal_item env out _ caller prev gen seq s m n hr (fun x hx => execOps_bal acts x n hx)
theorem execOps_bal (acts : Ops) (s : St) (n : String) (hr : ReqInv s) : bal (execOps c acts s) n = bal s n := by
  cases acts with
  | nil => simp only [execOps]
  | cons o t =>
    simp only [execOps]
    cases h : exec c o s with
    | none => exact execOps_bal t s n hr
    | some s1 =>
      have := (exec_tr o s s1 [] h).reqInv hr
      rw [← exec_bal o s s1 n hr h]
      exact execOps_bal t s1 n this
end

theorem foldl_bal (n : String) : ∀ (ops : List Op) (s : St), ReqInv s → bal (ops.foldl (fun s o => (exec c o s).getD s) s) n = bal s n
  | [], _, _ => rfl
  | o :: t, s, hr => by
    rw [List.foldl_cons]
    cases h : exec c o s with
    | none => exact foldl_bal n t s hr
    | some s1 =>
      rw [← exec_bal o s s1 n hr h]
      exact foldl_bal n t s1 ((exec_tr o s s1 [] h).reqInv hr)

theorem bal_run (creator : Nat) (ops : List Op) (n : String) : bal (run c creator ops) n = 0 := by
  refine (foldl_bal n ops (initSt creator) ⟨Int.le_refl _, (by intro _ _ h; cases h), (by intro _ h; cases h), List.nodup_nil⟩).trans ?_
  rfl

end Verif.JavaBmc
