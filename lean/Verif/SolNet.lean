import Verif.SolBmcLemmas
/-!
A network of EVM message centers (the BMC of SolBmc), and the fees and rewards of all of them together.

* Every network has one message center; all of them use the same encoding of messages to the message centers.
* `pool` are the messages emitted and not yet delivered. A relay call delivers messages of the pool, each once (C41); which chain
  gets which message, and when, is open. That verifiers release only emitted messages is C40, C50, C135, C142.
* While a service handles a message it may send, claim and cause management messages, in any number and order, but makes no relay
  calls (see C41 for what those can do).
* The name `bmc` belongs to the message center's own service (BMCManagement does not give it away), and the management contract's
  own messages are Link, Unlink and Init.
* An owner who drops a message tells its contents truly (`C156_drop_false` is about the rest); numbers of links are not cleared.
-/
namespace Verif.SolNet
open Verif Verif.SolBmc

/-- Messages of emitted events. -/
def msgsOf (l : List Event) : List Msg := l.filterMap fun e => match e with | .message _ _ m => some m | _ => none

/-- Calls that deliver no message. -/
def Quiet (c : Cfg) : Op → Prop
  | .send env _ _ _ _ _ _ => env.service "bmc" = some c.service
  | .claim _ _ _ _ _ => True
  | .internal _ _ body => c.decInner body = some .mgmt
  | _ => False

def QuietOps (c : Cfg) : Ops → Prop
  | .nil => True
  | .cons o t => Quiet c o ∧ QuietOps c t

def QuietItems (c : Cfg) : Items → Prop
  | .nil => True
  | .cons _ _ _ acts t => QuietOps c acts ∧ QuietItems c t

/-- All message centers and the messages under way. -/
structure Sys where
  st : String → St
  pool : List Msg

/-- The state after the chain `n` went to `s'`, the messages `rest` still being under way. -/
def Sys.next (σ : Sys) (n : String) (s' : St) (rest : List Msg) : Sys :=
  ⟨upd σ.st n s', rest ++ msgsOf (s'.log.drop (σ.st n).log.length)⟩

/-- One call on one of the chains. -/
inductive Step (cfg : String → Cfg) (nets : List String) : Sys → Sys → Prop where
  | call (σ : Sys) (n : String) (o : Op) (s' : St) : n ∈ nets → Quiet (cfg n) o → exec (cfg n) o (σ.st n) = some s' →
      Step cfg nets σ (σ.next n s' σ.pool)
  | relay (σ : Sys) (n : String) (env : Env) (caller : Nat) (prev : String) (items : Items) (rest : List Msg) (s' : St) : n ∈ nets →
      QuietItems (cfg n) items → σ.pool.Perm (items.msgs ++ rest) → exec (cfg n) (.relay env caller prev items) (σ.st n) = some s' →
      Step cfg nets σ (σ.next n s' rest)
  | drop (σ : Sys) (n : String) (env : Env) (seq : Nat) (m : Msg) (rest : List Msg) (s' : St) : n ∈ nets → σ.pool.Perm (m :: rest) →
      exec (cfg n) (.drop env m.src seq m.svc m.sn m.nsn m.fee) (σ.st n) = some s' → Step cfg nets σ (σ.next n s' rest)

/-- The states reached from the beginning. -/
inductive Reach (cfg : String → Cfg) (nets : List String) : Sys → Prop where
  | init : Reach cfg nets ⟨fun _ => SolBmc.init, []⟩
  | step {σ σ' : Sys} : Reach cfg nets σ → Step cfg nets σ σ' → Reach cfg nets σ'

/-! ### Local effects -/

theorem msgsOf_append (a b : List Event) : msgsOf (a ++ b) = msgsOf a ++ msgsOf b := by unfold msgsOf; exact List.filterMap_append ..

variable (nets : List String) (dec : Bytes → Option Inner)

/-- The open request of a chain of the network. -/
def reqOf (σ : String → St) (a : String) (k : Int) : Req := if a ∈ nets then (σ a).req.get Req.empty k else Req.empty

/-- What a message under way may still cause to be credited or given back in the currency of `N`. -/
def tok (σ : String → St) (N : String) (m : Msg) : Nat :=
  if m.svc ≠ "bmc" then 0
  else if m.sn < 0 then cur (reqOf nets σ m.dst (-m.nsn)).dst (reqOf nets σ m.dst (-m.nsn)).amount N
  else match dec m.body with
    | some (.claim x _) => cur m.dst x N
    | _ => 0

def toks (σ : String → St) (N : String) (l : List Msg) : Nat := (l.map (tok nets dec σ N)).sum

/-- Messages between message centers that are under way. -/
structure Good (σ : String → St) (m : Msg) : Prop where
  pos : m.svc = "bmc" → 0 < m.sn → ∃ x r, dec m.body = some (.claim x r) ∧
    (m.src ∈ nets → m.nsn ≤ (σ m.src).nsn ∧
      (reqOf nets σ m.src m.nsn = Req.empty ∨ ((reqOf nets σ m.src m.nsn).dst = m.dst ∧ (reqOf nets σ m.src m.nsn).amount = x)))
  zero : m.svc = "bmc" → m.sn = 0 → dec m.body = some .mgmt ∨ dec m.body = some (.response 0)
  neg : m.svc = "bmc" → m.sn < 0 → m.dst ∈ nets → -m.nsn ≤ (σ m.dst).nsn

/-- Requests of a chain are closed, not changed, and new ones have new numbers. -/
structure Mono (s s' : St) : Prop where
  nsn : s.nsn ≤ s'.nsn
  req : ∀ k, k ≤ s.nsn → s'.req.get Req.empty k = s.req.get Req.empty k ∨ s'.req.get Req.empty k = Req.empty

theorem Mono.refl (s : St) : Mono s s := ⟨Int.le_refl _, fun _ _ => .inl rfl⟩

theorem Mono.trans {a b d : St} (h1 : Mono a b) (h2 : Mono b d) : Mono a d := by
  refine ⟨Int.le_trans h1.nsn h2.nsn, fun k hk => ?_⟩
  rcases h2.req k (Int.le_trans hk h1.nsn) with h | h
  · rw [h]; exact h1.req k hk
  · exact .inr h

theorem Mono.of_eq {s s' : St} (h1 : s'.req = s.req) (h2 : s'.nsn = s.nsn) : Mono s s' :=
  ⟨by rw [h2]; exact Int.le_refl _, fun k _ => .inl (by rw [h1])⟩

theorem upd_same {V : Type} (f : String → V) (k : String) (v : V) : upd f k v k = v := by unfold upd; rw [if_pos rfl]
theorem upd_other {V : Type} (f : String → V) (k : String) (v : V) (x : String) (h : x ≠ k) : upd f k v x = f x := by
  unfold upd; rw [if_neg h]

variable {nets dec}

/-- The open request after a step is the one before, or closed. -/
theorem reqOf_mono (σ : String → St) (c : String) {s s' : St} (h : Mono s s') (a : String) (k : Int)
    (hk : a ∈ nets → k ≤ (upd σ c s a).nsn) :
    reqOf nets (upd σ c s') a k = reqOf nets (upd σ c s) a k ∨ reqOf nets (upd σ c s') a k = Req.empty := by
  unfold reqOf
  by_cases ha : a ∈ nets
  · rw [if_pos ha, if_pos ha]
    by_cases hc : a = c
    · subst hc
      have := hk ha
      rw [upd_same] at this ⊢
      rw [upd_same]
      exact h.req k this
    · rw [upd_other _ _ _ _ hc, upd_other _ _ _ _ hc]; exact .inl rfl
  · rw [if_neg ha, if_neg ha]; exact .inl rfl

theorem nsn_mono (σ : String → St) (c : String) {s s' : St} (h : Mono s s') (a : String) : (upd σ c s a).nsn ≤ (upd σ c s' a).nsn := by
  by_cases hc : a = c
  · subst hc; rw [upd_same, upd_same]; exact h.nsn
  · rw [upd_other _ _ _ _ hc, upd_other _ _ _ _ hc]; exact Int.le_refl _

theorem Good.mono {σ : String → St} {c : String} {s s' : St} (h : Mono s s') {m : Msg} (g : Good nets dec (upd σ c s) m) :
    Good nets dec (upd σ c s') m := by
  refine ⟨fun h1 h2 => ?_, g.zero, fun h1 h2 h3 => ?_⟩
  · obtain ⟨x, r, hx, hq⟩ := g.pos h1 h2
    refine ⟨x, r, hx, fun hs => ?_⟩
    have hq := hq hs
    refine ⟨Int.le_trans hq.1 (nsn_mono σ c h m.src), ?_⟩
    rcases reqOf_mono σ c h m.src m.nsn (fun _ => hq.1) with e | e
    · rw [e]; exact hq.2
    · exact .inl e
  · exact Int.le_trans (g.neg h1 h2 h3) (nsn_mono σ c h m.dst)

theorem tok_mono {σ : String → St} {c : String} {s s' : St} (h : Mono s s') {m : Msg} (g : Good nets dec (upd σ c s) m) (N : String) :
    tok nets dec (upd σ c s') N m ≤ tok nets dec (upd σ c s) N m := by
  unfold tok
  by_cases hb : m.svc ≠ "bmc"
  · rw [if_pos hb]; exact Nat.zero_le _
  · rw [if_neg hb, if_neg hb]
    by_cases hs : m.sn < 0
    · rw [if_pos hs, if_pos hs]
      rcases reqOf_mono σ c h m.dst (-m.nsn) (fun hd => g.neg (Classical.not_not.1 hb) hs hd) with e | e
      · rw [e]; exact Nat.le_refl _
      · rw [e]
        have : cur Req.empty.dst Req.empty.amount N = 0 := cur_zero _ _
        rw [this]; exact Nat.zero_le _
    · rw [if_neg hs, if_neg hs]; exact Nat.le_refl _

theorem toks_mono {σ : String → St} {c : String} {s s' : St} (h : Mono s s') (N : String) : ∀ (l : List Msg),
    (∀ m ∈ l, Good nets dec (upd σ c s) m) → toks nets dec (upd σ c s') N l ≤ toks nets dec (upd σ c s) N l
  | [], _ => Nat.le_refl _
  | m :: t, g => by
    have h1 := tok_mono h (g m (List.mem_cons_self ..)) N
    have h2 := toks_mono h N t (fun x hx => g x (List.mem_cons_of_mem _ hx))
    unfold toks at h2 ⊢
    simp only [List.map_cons, List.sum_cons]
    omega

theorem toks_append (σ : String → St) (N : String) (a b : List Msg) :
    toks nets dec σ N (a ++ b) = toks nets dec σ N a + toks nets dec σ N b := by
  unfold toks; rw [List.map_append, List.sum_append]

/-- Claims to `N` not answered, or answered well. -/
def ps (s : St) (N : String) : Nat := pending s N + s.settled N

variable (nets dec)

/-- The effect of a step of the chain `c`: `x` are the fees that came in with messages, `t` what the messages delivered may cause. -/
structure Loc (σ : String → St) (c : Cfg) (s s' : St) (x t : String → Nat) (evs : List Event) : Prop where
  log : s'.log = s.log ++ evs
  acc : ∀ n, s'.inflow n + cur c.net (s.coins + s.credited) n = s.inflow n + cur c.net (s'.coins + s'.credited) n + x n
  mono : Mono s s'
  good : ∀ m ∈ msgsOf evs, Good nets dec (upd σ c.net s') m
  tok : ∀ N, cur c.net s'.credited N + toks nets dec (upd σ c.net s') N (msgsOf evs) + ps s N ≤ cur c.net s.credited N + t N + ps s' N
  inv : ReqInv s → ReqInv s'

variable {nets dec}

def zero : String → Nat := fun _ => 0

theorem Loc.trans {σ : String → St} {c : Cfg} {a b d : St} {x y t u : String → Nat} {e f : List Event}
    (h1 : Loc nets dec σ c a b x t e) (h2 : Loc nets dec σ c b d y u f) :
    Loc nets dec σ c a d (fun n => x n + y n) (fun n => t n + u n) (e ++ f) := by
  refine ⟨by rw [h2.log, h1.log, List.append_assoc], fun n => ?_, h1.mono.trans h2.mono, fun m hm => ?_, fun N => ?_, fun i => h2.inv (h1.inv i)⟩
  · have := h1.acc n; have := h2.acc n; omega
  · rw [msgsOf_append] at hm
    rcases List.mem_append.1 hm with hm | hm
    · exact (h1.good m hm).mono h2.mono
    · exact h2.good m hm
  · rw [msgsOf_append, toks_append]
    have h3 := toks_mono h2.mono N _ h1.good
    have := h1.tok N; have := h2.tok N
    omega

theorem Loc.weaken {σ : String → St} {c : Cfg} {a b : St} {x y t u : String → Nat} {e : List Event}
    (h : Loc nets dec σ c a b x t e) (hx : ∀ n, x n = y n) (ht : ∀ n, t n ≤ u n) : Loc nets dec σ c a b y u e :=
  ⟨h.log, fun n => by rw [← hx n]; exact h.acc n, h.mono, h.good, fun N => by have := h.tok N; have := ht N; omega, h.inv⟩

/-- A step that changes rewards and stored fees only. -/
structure Same (s s' : St) : Prop where
  log : s'.log = s.log
  inflow : s'.inflow = s.inflow
  coins : s'.coins = s.coins
  credited : s'.credited = s.credited
  settled : s'.settled = s.settled
  same : SameReq s s'

theorem Same.refl (s : St) : Same s s := ⟨rfl, rfl, rfl, rfl, rfl, SameReq.refl s⟩
theorem Same.trans {a b d : St} (h1 : Same a b) (h2 : Same b d) : Same a d :=
  ⟨h2.log.trans h1.log, h2.inflow.trans h1.inflow, h2.coins.trans h1.coins, h2.credited.trans h1.credited, h2.settled.trans h1.settled,
    h1.same.trans h2.same⟩

theorem Same.ps {s s' : St} (h : Same s s') (N : String) : SolNet.ps s' N = SolNet.ps s N := by
  unfold SolNet.ps pending; rw [h.settled, h.same.1]

theorem Same.loc {s s' : St} (h : Same s s') (σ : String → St) (c : Cfg) : Loc nets dec σ c s s' zero zero [] := by
  refine ⟨by rw [h.log, List.append_nil], fun n => by rw [h.inflow, h.coins, h.credited]; rfl, Mono.of_eq h.same.1 h.same.2.1,
    fun m hm => (nomatch hm), fun N => ?_, fun i => i.of_same h.same⟩
  rw [h.credited, h.ps N]
  show _ + 0 + _ ≤ _ + 0 + _
  omega

theorem addReward_same (s : St) (k : String) (a v : Nat) : Same s (addReward s k a v) := by
  unfold addReward
  split
  · exact ⟨rfl, rfl, rfl, rfl, rfl, rfl, rfl, rfl⟩
  · exact Same.refl s

theorem collectRemain_same (c : Cfg) (s : St) (f : FeeInfo) : Same s (collectRemain c s f).1 := addReward_same _ _ _ _

theorem accumulate_same (s : St) (a : Nat) (f : FeeInfo) : Same s (accumulate s a f).1 := by
  unfold accumulate
  split
  · exact Same.refl s
  · exact addReward_same _ _ _ _

theorem handleFee_same (c : Cfg) (s : St) (a : Nat) (m : Msg) : Same s (handleFee c s a m).1 ∧ (handleFee c s a m).2.dst = m.dst ∧
    (handleFee c s a m).2.sn = m.sn ∧ (handleFee c s a m).2.src = m.src ∧ (handleFee c s a m).2.svc = m.svc ∧
    (handleFee c s a m).2.nsn = m.nsn ∧ (handleFee c s a m).2.body = m.body := by
  have h := accumulate_same s a m.fee
  have hl := handleFee_ledger c s a m ""
  dsimp only at hl
  refine ⟨?_, hl.2.2.2.1, hl.2.2.2.2.1, hl.2.2.2.2.2.1, hl.2.2.2.2.2.2.1, hl.2.2.2.2.2.2.2.1, hl.2.2.2.2.2.2.2.2.1⟩
  clear hl
  unfold handleFee
  dsimp only
  generalize accumulate s a m.fee = q at h
  obtain ⟨s1, f⟩ := q
  dsimp only at h ⊢
  split
  · split
    · have h2 := collectRemain_same c s1 (s1.resp.get Resp.empty (m.src, m.svc, m.sn)).fee
      exact h.trans (h2.trans ⟨rfl, rfl, rfl, rfl, rfl, rfl, rfl, rfl⟩)
    · exact h.trans (collectRemain_same c s1 _)
  · exact h

theorem handleErrorFee_same (c : Cfg) (env : Env) (s : St) (src : String) (sn : Int) (f : FeeInfo) :
    Same s (handleErrorFee c env s src sn f).1 := by
  unfold handleErrorFee
  split
  · dsimp only
    split <;> exact Same.refl s
  · exact collectRemain_same c s f

theorem removeResponse_same (s s' : St) (to svc : String) (sn : Int) (r : Resp) (h : removeResponse s to svc sn = some (s', r)) : Same s s' := by
  simp only [removeResponse] at h
  split at h
  · simp only [Option.some.injEq, Prod.mk.injEq] at h
    obtain ⟨rfl, -⟩ := h
    exact ⟨rfl, rfl, rfl, rfl, rfl, rfl, rfl, rfl⟩
  · cases h

/-- The value of a message does not depend on anything but the open requests. -/
theorem tok_req {σ : String → St} {c : String} {s s' : St} (h : s'.req = s.req) (N : String) (m : Msg) :
    tok nets dec (upd σ c s') N m = tok nets dec (upd σ c s) N m := by
  have : ∀ a k, reqOf nets (upd σ c s') a k = reqOf nets (upd σ c s) a k := by
    intro a k
    unfold reqOf
    by_cases hc : a = c
    · subst hc; rw [upd_same, upd_same, h]
    · rw [upd_other _ _ _ _ hc, upd_other _ _ _ _ hc]
  unfold tok
  rw [this]

theorem tok_fields (σ : String → St) (N : String) (m m' : Msg) (h1 : m'.dst = m.dst) (h2 : m'.sn = m.sn) (h4 : m'.svc = m.svc)
    (h5 : m'.nsn = m.nsn) (h6 : m'.body = m.body) : tok nets dec σ N m' = tok nets dec σ N m := by
  unfold tok; rw [h1, h2, h4, h5, h6]

theorem Good.fields {σ : String → St} {m m' : Msg} (g : Good nets dec σ m) (h1 : m'.dst = m.dst) (h2 : m'.sn = m.sn) (h3 : m'.src = m.src)
    (h4 : m'.svc = m.svc) (h5 : m'.nsn = m.nsn) (h6 : m'.body = m.body) : Good nets dec σ m' := by
  refine ⟨?_, ?_, ?_⟩
  · rw [h1, h2, h3, h4, h5, h6]; exact g.pos
  · rw [h2, h4, h6]; exact g.zero
  · rw [h1, h2, h4, h5]; exact g.neg

theorem toks_single (σ : String → St) (N : String) (m : Msg) : toks nets dec σ N [m] = tok nets dec σ N m := by unfold toks; simp

/-- Sending a message. -/
theorem sendMsg_loc (σ : String → St) (c : Cfg) (s : St) (next : String) (m : Msg) (g : Good nets dec (upd σ c.net s) m) :
    Loc nets dec σ c s (sendMsg s next m) zero (fun N => tok nets dec (upd σ c.net s) N m) [.message next (s.tx next + 1) m] := by
  have e : msgsOf [Event.message next (s.tx next + 1) m] = [m] := rfl
  have hm : Mono s (sendMsg s next m) := Mono.of_eq rfl rfl
  refine ⟨rfl, fun n => rfl, hm, fun m' hm' => ?_, fun N => ?_, fun i => i.of_same (show SameReq s (sendMsg s next m) from ⟨rfl, rfl, rfl⟩)⟩
  · rw [e] at hm'
    obtain rfl := List.mem_singleton.1 hm'
    exact g.mono hm
  · rw [e, toks_single, tok_req (s := s) (s' := sendMsg s next m) rfl]
    have : ps (sendMsg s next m) N = ps s N := rfl
    have h2 : (sendMsg s next m).credited = s.credited := rfl
    rw [this, h2]
    exact Nat.le_refl _

/-- An error answer to a message is worth no more than the message. -/
theorem sendError_loc (σ : String → St) (c : Cfg) (env : Env) (s : St) (prev : String) (seq : Nat) (m m' : Msg) (code : Nat)
    (g : Good nets dec (upd σ c.net s) m) (h1 : m'.src = m.src) (h2 : m'.svc = m.svc) (h3 : m'.sn = m.sn) (h4 : m'.nsn = m.nsn) : ∃ evs,
    Loc nets dec σ c s (sendError c env s prev seq m' code) zero (fun N => tok nets dec (upd σ c.net s) N m) evs := by
  have h := handleErrorFee_same c env s m'.src m'.sn m'.fee
  unfold sendError
  dsimp only
  generalize handleErrorFee c env s m'.src m'.sn m'.fee = p at h
  obtain ⟨s1, f⟩ := p
  dsimp only at h ⊢
  have hl := h.loc (nets := nets) (dec := dec) σ c
  by_cases hs : m.sn > 0
  · rw [if_pos (by rw [h3]; exact hs), h1, h2, h3, h4]
    have g1 := g.mono hl.mono
    have ge : Good nets dec (upd σ c.net s1) ⟨c.net, m.src, m.svc, -m.sn, c.encResp code, -m.nsn, f⟩ := by
      refine ⟨fun _ h2 => ?_, fun _ h2 => ?_, fun h1 _ h3 => ?_⟩
      · dsimp only at h2; omega
      · dsimp only at h2; omega
      · obtain ⟨x, r, _, hq⟩ := g1.pos h1 hs
        have := (hq h3).1
        dsimp only
        omega
    have h2 := hl.trans (sendMsg_loc σ c s1 prev _ ge)
    refine ⟨_, h2.weaken (fun n => rfl) (fun N => ?_)⟩
    show 0 + tok nets dec (upd σ c.net s1) N _ ≤ _
    rw [Nat.zero_add, ← tok_req (s := s) (s' := s1) h.same.1]
    unfold tok
    by_cases hb : m.svc ≠ "bmc"
    · rw [if_pos hb]; exact Nat.zero_le _
    · dsimp only
      rw [if_neg hb, if_neg hb, if_pos (by omega), if_neg (by omega)]
      obtain ⟨x, r, hx, hq⟩ := g1.pos (Classical.not_not.1 hb) hs
      rw [hx, Int.neg_neg]
      dsimp only
      by_cases hm : m.src ∈ nets
      · rcases (hq hm).2 with e | e
        · rw [e]
          have : cur Req.empty.dst Req.empty.amount N = 0 := cur_zero _ _
          rw [this]; exact Nat.zero_le _
        · rw [e.1, e.2]; exact Nat.le_refl _
      · have : reqOf nets (upd σ c.net s1) m.src m.nsn = Req.empty := by unfold reqOf; rw [if_neg hm]
        rw [this]
        have : cur Req.empty.dst Req.empty.amount N = 0 := cur_zero _ _
        rw [this]; exact Nat.zero_le _
  · rw [if_neg (by rw [h3]; exact hs)]
    refine ⟨[.dropped prev seq { m' with fee := f } code], ?_, fun n => ?_, ?_, fun m' hm' => (nomatch hm'), fun N => ?_, fun i => ?_⟩
    · show s1.log ++ _ = _; rw [h.log]
    · have := hl.acc n; exact this
    · exact hl.mono.trans (Mono.of_eq rfl rfl)
    · show cur c.net s1.credited N + 0 + ps s N ≤ cur c.net s.credited N + _ + ps s1 N
      rw [h.credited, h.ps N]; omega
    · exact (hl.inv i).of_same (show SameReq s1 _ from ⟨rfl, rfl, rfl⟩)

/-- Two steps without messages in. -/
theorem Loc.trans0 {σ : String → St} {c : Cfg} {a b d : St} {t : String → Nat} {e f : List Event}
    (h1 : Loc nets dec σ c a b zero zero e) (h2 : Loc nets dec σ c b d zero t f) : Loc nets dec σ c a d zero t (e ++ f) :=
  (h1.trans h2).weaken (fun n => rfl) (fun n => by show 0 + t n ≤ t n; omega)

theorem pending_set (s : St) (k : Int) (q : Req) (N : String) :
    FM.total (fun (_ : Int) (r : Req) => cur r.dst r.amount N) (s.req.set k q) + cur (s.req.get Req.empty k).dst (s.req.get Req.empty k).amount N =
      pending s N + cur q.dst q.amount N :=
  FM.total_set (fun (_ : Int) (r : Req) => cur r.dst r.amount N) Req.empty s.req k q (cur_zero _ _)

/-- An answer to a claim. -/
theorem handleResponse_loc (σ : String → St) (c : Cfg) (s s' : St) (k : Int) (res : Nat) (h : handleResponse s k res = some s') (i : ReqInv s) :
    Loc nets dec σ c s s' zero
      (fun N => if res ≠ 0 then cur (s.req.get Req.empty k).dst (s.req.get Req.empty k).amount N else 0) [] := by
  unfold handleResponse at h
  dsimp only at h
  split at h
  case isFalse => cases h
  rename_i hp
  generalize hr : s.req.get Req.empty k = r at h hp
  have hk : r.nsn = k ∧ 0 < k ∧ k ≤ s.nsn := by
    rcases i.open_ k with h0 | h0
    · rw [hr] at h0; subst h0; exact absurd hp (by decide)
    · rw [hr] at h0; exact h0
  obtain ⟨hk, hk0, hk1⟩ := hk
  have hnotin : k ∉ s.settle.map Prod.fst := by
    intro hm
    obtain ⟨p, hp1, hp2⟩ := List.mem_map.1 hm
    have := (i.done p hp1).2
    rw [hp2, hr] at this
    subst this
    exact absurd hp (by decide)
  have hset := fun N => pending_set s k Req.empty N
  rw [hr] at hset
  have e0 : ∀ N, cur Req.empty.dst Req.empty.amount N = 0 := fun N => cur_zero _ _
  rw [hk] at h
  simp only [Option.some.injEq] at h
  subst h
  have hreq : ∀ s1 : St, s1.req = s.req.set k Req.empty → s1.nsn = s.nsn → s1.settle = s.settle ++ [(k, res)] → ReqInv s1 ∧ Mono s s1 := by
    intro s1 h1 h2 h3
    refine ⟨⟨?_, ?_, ?_, ?_⟩, ?_, ?_⟩
    · intro j
      rw [h1, h2, FM.get_set]
      split
      · exact Or.inl rfl
      · exact i.open_ j
    · rw [h2]; exact i.pos
    · rw [h3, List.map_append, List.nodup_append]
      refine ⟨i.once, by simp, ?_⟩
      intro a ha b hb
      simp only [List.map_cons, List.map_nil, List.mem_singleton] at hb
      subst hb
      exact fun e => hnotin (e ▸ ha)
    · intro p hp
      rw [h3] at hp
      rw [h1, h2, FM.get_set]
      rcases List.mem_append.1 hp with hp | hp
      · have := i.done p hp
        exact ⟨this.1, by split; rfl; exact this.2⟩
      · simp only [List.mem_singleton] at hp
        subst hp
        exact ⟨hk1, by rw [if_pos rfl]⟩
    · rw [h2]; exact Int.le_refl _
    · intro j _
      rw [h1, FM.get_set]
      split
      · exact .inr rfl
      · exact .inl rfl
  by_cases h0 : res ≠ 0
  · simp only [if_pos h0]
    have ha := addReward_same { s with req := s.req.set k Req.empty } r.dst r.caller r.amount
    generalize hs2 : addReward { s with req := s.req.set k Req.empty } r.dst r.caller r.amount = s2 at ha
    have hq := hreq { s2 with settle := s2.settle ++ [(k, res)] } ha.same.1 ha.same.2.1 (by show s2.settle ++ _ = _; rw [ha.same.2.2])
    refine ⟨by rw [List.append_nil]; exact ha.log, fun n => ?_, hq.2, fun m hm => (nomatch hm), fun N => ?_, fun _ => hq.1⟩
    · show s2.inflow n + _ = _ + cur c.net (s2.coins + s2.credited) n + 0
      rw [ha.inflow, ha.coins, ha.credited]; rfl
    · show cur c.net s2.credited N + 0 + ps s N ≤ cur c.net s.credited N + (cur r.dst r.amount N) + ps s2 N
      have h1 := ha.ps N
      have h2 := hset N
      have h3 := e0 N
      rw [ha.credited, h1]
      show cur c.net s.credited N + 0 + (pending s N + s.settled N) ≤ _ + _ + (FM.total _ (s.req.set k Req.empty) + s.settled N)
      omega
  · simp only [if_neg h0]
    have hq := hreq { s with req := s.req.set k Req.empty, settled := upd s.settled r.dst (s.settled r.dst + r.amount), settle := s.settle ++ [(k, res)] } rfl rfl rfl
    refine ⟨by rw [List.append_nil], fun n => rfl, hq.2, fun m hm => (nomatch hm), fun N => ?_, fun _ => hq.1⟩
    show cur c.net s.credited N + 0 + (pending s N + s.settled N) ≤
      cur c.net s.credited N + 0 + (FM.total _ (s.req.set k Req.empty) + upd s.settled r.dst (s.settled r.dst + r.amount) N)
    rw [upd_cur]
    have h2 := hset N
    have h3 := e0 N
    omega

/-- Coins that come with a call. -/
theorem coins_loc (σ : String → St) (c : Cfg) (s : St) (v : Nat) :
    Loc nets dec σ c s (addIn { s with coins := s.coins + v } c.net v) zero zero [] := by
  refine ⟨by rw [List.append_nil]; rfl, fun n => ?_, Mono.of_eq rfl rfl, fun m hm => (nomatch hm), fun N => ?_,
    fun i => i.of_same (show SameReq s _ from ⟨rfl, rfl, rfl⟩)⟩
  · show upd s.inflow c.net (s.inflow c.net + v) n + cur c.net (s.coins + s.credited) n = s.inflow n + cur c.net (s.coins + v + s.credited) n + 0
    rw [upd_cur]
    simp only [cur_add]
    omega
  · exact Nat.le_refl _

theorem bump_loc (σ : String → St) (c : Cfg) (s : St) : Loc nets dec σ c s { s with nsn := s.nsn + 1 } zero zero [] := by
  refine ⟨by rw [List.append_nil], fun n => rfl, ⟨?_, fun k _ => .inl rfl⟩, fun m hm => (nomatch hm), fun N => Nat.le_refl _,
    fun i => ReqInv.bump (s := s) rfl rfl rfl i⟩
  show s.nsn ≤ s.nsn + 1
  omega

/-- What sending does before the message goes out, and which message goes out. -/
theorem sendWithFee_eff (c : Cfg) (env : Env) (s s' : St) (sender value : Nat) (to svc : String) (sn : Int) (body : Bytes) (isR fill : Bool) (k : Int)
    (h : sendWithFee c env s sender value to svc sn body isR fill = some (s', k)) :
    ∃ s1 next m, s' = sendMsg s1 next m ∧ (∀ σ : String → St, Loc nets dec σ c s s1 zero zero []) ∧ s1.req = s.req ∧ s1.settle = s.settle ∧
      s1.settled = s.settled ∧ s1.credited = s.credited ∧
      m.src = c.net ∧ m.dst = to ∧ m.svc = svc ∧ m.body = body ∧
      ((isR = true ∧ m.sn = 0) ∨
        (isR = false ∧ m.sn = (if fill then s.nsn + 1 else sn) ∧ m.nsn = s.nsn + 1 ∧ s1.nsn = s.nsn + 1 ∧ k = s.nsn + 1)) := by
  unfold sendWithFee at h
  split at h
  · cases h
  rename_i next hn
  dsimp only at h
  have ha := fun σ : String → St => coins_loc (nets := nets) (dec := dec) σ c s value
  have hr0 : (addIn { s with coins := s.coins + value } c.net value).req = s.req := rfl
  have hn0 : (addIn { s with coins := s.coins + value } c.net value).nsn = s.nsn := rfl
  have ht0 : (addIn { s with coins := s.coins + value } c.net value).settle = s.settle := rfl
  have hd0 : (addIn { s with coins := s.coins + value } c.net value).settled = s.settled := rfl
  have hc0 : (addIn { s with coins := s.coins + value } c.net value).credited = s.credited := rfl
  generalize addIn { s with coins := s.coins + value } c.net value = s0 at h ha hr0 hn0 ht0 hd0 hc0
  cases isR
  · simp only [Bool.false_eq_true, if_false] at h
    split at h
    · split at h
      · simp only [Option.some.injEq, Prod.mk.injEq] at h
        obtain ⟨rfl, rfl⟩ := h
        generalize (getFee env to (decide (sn > 0))) = vs at *
        have h1 := addReward_same { s0 with nsn := s0.nsn + 1 } c.net c.periphery (value - vs.sum)
        refine ⟨_, next, _, rfl, fun σ => ((ha σ).trans0 (bump_loc σ c s0)).trans0 (h1.loc σ c), ?_, ?_, ?_, ?_, rfl, rfl, rfl, rfl, Or.inr ⟨rfl, ?_, ?_, ?_, ?_⟩⟩
        · rw [h1.same.1]; exact hr0
        · rw [h1.same.2.2]; exact ht0
        · rw [h1.settled]; exact hd0
        · rw [h1.credited]; exact hc0
        · rw [← hn0]
        · rw [← hn0]
        · rw [h1.same.2.1, ← hn0]
        · rw [← hn0]
      · cases h
    · simp only [Option.some.injEq, Prod.mk.injEq] at h
      obtain ⟨rfl, rfl⟩ := h
      refine ⟨_, next, _, rfl, fun σ => (ha σ).trans0 (bump_loc σ c s0), hr0, ht0, hd0, hc0, rfl, rfl, rfl, rfl, Or.inr ⟨rfl, ?_, ?_, ?_, ?_⟩⟩
      · rw [← hn0]
      · rw [← hn0]
      · show s0.nsn + 1 = _; rw [← hn0]
      · rw [← hn0]
  · simp only [if_true] at h
    split at h
    · cases h
    rename_i s1 r hr
    simp only [Option.some.injEq, Prod.mk.injEq] at h
    obtain ⟨rfl, rfl⟩ := h
    have h1 := (removeResponse_same s0 s1 to svc sn r hr).trans (addReward_same s1 c.net c.periphery value)
    refine ⟨_, next, _, rfl, fun σ => (ha σ).trans0 (h1.loc σ c), ?_, ?_, ?_, ?_, rfl, rfl, rfl, rfl, Or.inl ⟨rfl, rfl⟩⟩
    · rw [h1.same.1]; exact hr0
    · rw [h1.same.2.2]; exact ht0
    · rw [h1.settled]; exact hd0
    · rw [h1.credited]; exact hc0

/-- A message whose handling credits and gives back nothing. -/
def Plain (dec : Bytes → Option Inner) (m : Msg) : Prop :=
  m.svc ≠ "bmc" ∨ (m.sn = 0 ∧ (dec m.body = some .mgmt ∨ dec m.body = some (.response 0)))

theorem Plain.good {m : Msg} (h : Plain dec m) (σ : String → St) : Good nets dec σ m := by
  rcases h with h | ⟨h1, h2⟩
  · exact ⟨fun e => absurd e h, fun e => absurd e h, fun e => absurd e h⟩
  · exact ⟨fun _ e => by omega, fun _ _ => h2, fun _ e => by omega⟩

theorem Plain.tok {m : Msg} (h : Plain dec m) (σ : String → St) (N : String) : SolNet.tok nets dec σ N m = 0 := by
  unfold SolNet.tok
  by_cases hb : m.svc ≠ "bmc"
  · rw [if_pos hb]
  · rcases h with h | ⟨h1, h2⟩
    · exact absurd h hb
    · rw [if_neg hb, if_neg (by omega)]
      rcases h2 with h2 | h2 <;> rw [h2]

theorem sendMsg_plain (σ : String → St) (c : Cfg) (s : St) (next : String) (m : Msg) (h : Plain dec m) :
    Loc nets dec σ c s (sendMsg s next m) zero zero [.message next (s.tx next + 1) m] :=
  (sendMsg_loc σ c s next m (h.good _)).weaken (fun _ => rfl) (fun N => by rw [h.tok]; exact Nat.zero_le _)

theorem sendMessage_loc (σ : String → St) (c : Cfg) (env : Env) (s s' : St) (sender value : Nat) (to svc : String) (sn : Int) (body : Bytes)
    (h : sendMessage c env s sender value to svc sn body = some s')
    (hp : svc ≠ "bmc" ∨ (sn ≤ 0 ∧ (dec body = some .mgmt ∨ dec body = some (.response 0)))) :
    ∃ evs, Loc nets dec σ c s s' zero zero evs := by
  unfold sendMessage at h
  split at h
  · cases h
  dsimp only at h
  rw [Option.map_eq_some_iff] at h
  obtain ⟨⟨s1, k⟩, h, rfl⟩ := h
  obtain ⟨s2, next, m, rfl, hl, -, -, -, -, -, -, hsvc, hbody, hm⟩ := sendWithFee_eff (nets := nets) (dec := dec) c env s _ sender value to svc _ body _ _ k h
  refine ⟨_, (hl σ).trans0 (sendMsg_plain σ c s2 next m ?_)⟩
  rcases hp with hp | ⟨hp, hb⟩
  · exact Or.inl (by rw [hsvc]; exact hp)
  · refine Or.inr ⟨?_, by rw [hbody]; exact hb⟩
    rcases hm with hm | ⟨h1, h2, -⟩
    · exact hm.2
    · have h3 : ¬ sn < 0 := of_decide_eq_false h1
      rw [h2, if_neg h3]
      simp only [Bool.false_eq_true, if_false]
      omega

/-- A claim. -/
theorem claim_loc {c : Cfg} (hdec : ∀ x r, ∃ r', dec (c.encInner (.claim x r)) = some (.claim x r')) (σ : String → St) (env : Env) (s s' : St) (sender value : Nat)
    (net receiver : String) (h : claimReward c env s sender value net receiver = some s') (hc : c.net ∈ nets) (i : ReqInv s) :
    ∃ evs, Loc nets dec σ c s s' zero zero evs := by
  unfold claimReward at h
  dsimp only at h
  generalize (if sender = env.feeHandler then c.periphery else sender) = who at h
  split at h
  case isFalse => cases h
  rename_i hr
  generalize hrw : s.reward.get 0 (who, net) = r at h hr
  have hsame : Same s { s with reward := s.reward.set (who, net) 0 } := ⟨rfl, rfl, rfl, rfl, rfl, rfl, rfl, rfl⟩
  have h0 := hsame.loc (nets := nets) (dec := dec) σ c
  split at h
  · split at h
    · cases h
    simp only [Option.some.injEq] at h
    subst h
    have h1 := h0.trans0 (coins_loc σ c { s with reward := s.reward.set (who, net) 0 } value)
    refine ⟨_, h1.trans0 (Same.loc ?_ σ c)⟩
    exact ⟨rfl, rfl, rfl, rfl, rfl, rfl, rfl, rfl⟩
  · split at h
    · cases h
    rename_i s2 k hsend
    simp only [Option.some.injEq] at h
    have i0 := h0.inv i
    generalize ({ s with reward := s.reward.set (who, net) 0 } : St) = s0 at h0 hsend i0
    obtain ⟨s1, next, m, rfl, hl, hreq, hsettle, hsettled, hcred, hsrc, hdst, hsvc, hbody, hm⟩ :=
      sendWithFee_eff (nets := nets) (dec := dec) c env s0 _ sender value net "bmc" 0 _ _ _ k hsend
    rcases hm with hm | ⟨-, hmsn, hmnsn, hnsn, hk⟩
    · exact absurd hm.1 (by decide)
    rw [if_pos rfl] at hmsn
    have hl := hl σ
    have hpos := i0.pos
    have hfresh : s1.req.get Req.empty k = Req.empty := by
      rw [hreq]
      rcases i0.open_ k with h | h
      · exact h
      · exfalso; omega
    obtain ⟨r', hd'⟩ := hdec r receiver
    have hs' : s' = sendMsg { s1 with req := s1.req.set k ⟨k, net, who, r⟩ } next m := h.symm
    clear h hsend
    have hmono : Mono s0 s' := by
      subst hs'
      refine ⟨by show s0.nsn ≤ s1.nsn; omega, fun j hj => ?_⟩
      show (s1.req.set k _).get _ j = _ ∨ _
      rw [FM.get_set, if_neg (by omega), hreq]
      exact .inl rfl
    have hq : reqOf nets (upd σ c.net s') m.src m.nsn = ⟨k, net, who, r⟩ := by
      subst hs'
      unfold reqOf
      rw [hsrc, if_pos hc, upd_same, hmnsn, ← hk]
      show (s1.req.set k _).get _ k = _
      rw [FM.get_set, if_pos rfl]
    have hgood : Good nets dec (upd σ c.net s') m := by
      refine ⟨fun _ _ => ⟨r, r', by rw [hbody, hd'], fun _ => ⟨?_, .inr ?_⟩⟩, fun _ e => ?_, fun _ e => ?_⟩
      · subst hs'
        rw [hsrc, upd_same, hmnsn]
        show _ ≤ s1.nsn
        omega
      · rw [hq, hdst]; exact ⟨rfl, rfl⟩
      · omega
      · omega
    have hloc : Loc nets dec σ c s0 s' zero zero [.message next (s1.tx next + 1) m] := by
      refine ⟨?_, fun n => ?_, hmono, fun m' hm' => ?_, fun N => ?_, fun _ => ?_⟩
      · subst hs'
        show s1.log ++ _ = _
        rw [hl.log, List.append_nil]
      · subst hs'
        exact hl.acc n
      · obtain rfl := List.mem_singleton.1 (show m' ∈ [m] from hm')
        exact hgood
      · have e : msgsOf [Event.message next (s1.tx next + 1) m] = [m] := rfl
        rw [e, toks_single]
        have ht : tok nets dec (upd σ c.net s') N m = cur net r N := by
          unfold tok
          rw [if_neg (by rw [hsvc]; exact fun h => h rfl), if_neg (by omega), hbody, hd']
          dsimp only
          rw [hdst]
        rw [ht]
        subst hs'
        show cur c.net s1.credited N + _ + (pending s0 N + s0.settled N) ≤
          cur c.net s0.credited N + 0 + (FM.total _ (s1.req.set k ⟨k, net, who, r⟩) + s1.settled N)
        have h4 := pending_set s1 k ⟨k, net, who, r⟩ N
        rw [hfresh] at h4
        have e0 : cur Req.empty.dst Req.empty.amount N = 0 := cur_zero _ _
        have e1 : pending s1 N = pending s0 N := by unfold pending; rw [hreq]
        rw [hcred, hsettled]
        dsimp only at h4
        omega
      · subst hs'
        constructor
        · intro j
          show FM.get _ (s1.req.set k _) j = _ ∨ (FM.get _ (s1.req.set k _) j).nsn = j ∧ 0 < j ∧ j ≤ s1.nsn
          rw [FM.get_set, hreq, hnsn]
          split
          · rename_i e; subst e; exact Or.inr ⟨rfl, by omega, by omega⟩
          · rcases i0.open_ j with h | h
            · exact Or.inl h
            · exact Or.inr ⟨h.1, h.2.1, by omega⟩
        · show 0 ≤ s1.nsn; omega
        · show (s1.settle.map Prod.fst).Nodup; rw [hsettle]; exact i0.once
        · intro p hp
          have hp' : p ∈ s0.settle := by rw [← hsettle]; exact hp
          have := i0.done p hp'
          show p.1 ≤ s1.nsn ∧ FM.get _ (s1.req.set k _) p.1 = _
          rw [FM.get_set, hreq, hnsn]
          refine ⟨by omega, ?_⟩
          rw [if_neg (by omega)]
          exact this.2
    exact ⟨_, h0.trans0 hloc⟩

/-- The encodings all chains use. -/
structure Common (nets : List String) (dec : Bytes → Option Inner) (c : Cfg) : Prop where
  mem : c.net ∈ nets
  inner : c.decInner = dec
  claim : ∀ x r, ∃ r', dec (c.encInner (.claim x r)) = some (.claim x r')
  resp : dec (c.encInner (.response 0)) = some (.response 0)

/-- Crediting a claim of another network. -/
theorem credit_loc (σ : String → St) (c : Cfg) (s : St) (x : Nat) :
    Loc nets dec σ c s (addIn { s with credited := s.credited + x } c.net x) zero (fun N => cur c.net x N) [] := by
  refine ⟨by rw [List.append_nil]; rfl, fun n => ?_, Mono.of_eq rfl rfl, fun m hm => (nomatch hm), fun N => ?_,
    fun i => i.of_same (show SameReq s _ from ⟨rfl, rfl, rfl⟩)⟩
  · show upd s.inflow c.net (s.inflow c.net + x) n + cur c.net (s.coins + s.credited) n = s.inflow n + cur c.net (s.coins + (s.credited + x)) n + 0
    rw [upd_cur]
    simp only [cur_add]
    omega
  · show cur c.net (s.credited + x) N + 0 + ps s N ≤ cur c.net s.credited N + cur c.net x N + ps s N
    rw [cur_add]; omega

/-- Messages of the message centers, delivered. -/
theorem ownService_loc {c : Cfg} (hcm : Common nets dec c) (σ : String → St) (env : Env) (ok : Bool) (s s' : St) (m : Msg)
    (hsvc : m.svc = "bmc") (hdst : m.dst = c.net) (hsn : m.sn ≥ 0) (g : Good nets dec (upd σ c.net s) m)
    (h : ownService c env ok s m.src (if m.sn ≥ 0 ∧ m.nsn < 0 then -m.nsn else m.nsn) m.body = some s') (i : ReqInv s) :
    ∃ evs, Loc nets dec σ c s s' zero (fun N => tok nets dec (upd σ c.net s) N m) evs := by
  have hk : 0 ≤ (if m.sn ≥ 0 ∧ m.nsn < 0 then -m.nsn else m.nsn) := by split <;> omega
  generalize (if m.sn ≥ 0 ∧ m.nsn < 0 then -m.nsn else m.nsn) = k at h hk
  unfold ownService at h
  rw [hcm.inner] at h
  have htok : ∀ N, tok nets dec (upd σ c.net s) N m = match dec m.body with | some (.claim x _) => cur m.dst x N | _ => 0 := fun N => by
    unfold tok; rw [if_neg (by rw [hsvc]; exact fun h => h rfl), if_neg (by omega)]
  split at h
  · cases h
  · rename_i x r hb
    split at h
    · cases h
    rename_i a ha
    dsimp only at h
    have h1 := credit_loc (nets := nets) (dec := dec) σ c s x
    have h2 := (addReward_same (addIn { s with credited := s.credited + x } c.net x) c.net a x).loc (nets := nets) (dec := dec) σ c
    obtain ⟨evs, h3⟩ := sendMessage_loc (nets := nets) (dec := dec) σ c env _ s' _ _ _ _ _ _ h (.inr ⟨by omega, .inr hcm.resp⟩)
    refine ⟨_, ((h1.trans h2).trans h3).weaken (fun _ => rfl) (fun N => ?_)⟩
    rw [htok N, hb]
    dsimp only
    rw [hdst]
    show cur c.net x N + 0 + 0 ≤ _
    omega
  · rename_i code hb
    have hc : code = 0 := by
      by_cases hp : 0 < m.sn
      · obtain ⟨x, r, hx, -⟩ := g.pos hsvc hp
        rw [hx] at hb; cases hb
      · rcases g.zero hsvc (by omega) with hx | hx
        · rw [hx] at hb; cases hb
        · rw [hx] at hb; cases hb; rfl
    subst hc
    exact ⟨_, (handleResponse_loc σ c s s' _ _ h i).weaken (fun _ => rfl) (fun N => Nat.zero_le _)⟩
  · split at h
    · simp only [Option.some.injEq] at h
      subst h
      exact ⟨_, ((Same.refl s).loc σ c).weaken (fun _ => rfl) (fun N => Nat.zero_le _)⟩
    · cases h
  · cases h

theorem handleMessage_loc {c : Cfg} (hcm : Common nets dec c) (σ : String → St) (env : Env) (ok : Bool) (call : St → St)
    (hcall : ∀ s, ReqInv s → ∃ evs, Loc nets dec σ c s (call s) zero zero evs) (s : St) (m : Msg) (hdst : m.dst = c.net)
    (g : Good nets dec (upd σ c.net s) m) (i : ReqInv s) :
    (∃ evs, Loc nets dec σ c s (handleMessage c env ok call s m).2 zero (fun N => tok nets dec (upd σ c.net s) N m) evs) ∧
      ((handleMessage c env ok call s m).1 ≠ 0 → (handleMessage c env ok call s m).2 = s) := by
  have hstay : ∃ evs, Loc nets dec σ c s s zero (fun N => tok nets dec (upd σ c.net s) N m) evs :=
    ⟨_, ((Same.refl s).loc σ c).weaken (fun _ => rfl) (fun N => Nat.zero_le _)⟩
  have hc2 : ∃ evs, Loc nets dec σ c s (call s) zero (fun N => tok nets dec (upd σ c.net s) N m) evs := by
    obtain ⟨evs, h⟩ := hcall s i
    exact ⟨evs, h.weaken (fun _ => rfl) (fun N => Nat.zero_le _)⟩
  unfold handleMessage
  split
  · rename_i hsvc
    dsimp only
    split
    · rename_i hsn
      split
      · rename_i h; exact ⟨ownService_loc hcm σ env ok s _ m hsvc hdst hsn g h i, fun h0 => absurd rfl h0⟩
      · exact ⟨hstay, fun _ => rfl⟩
    · rename_i hsn
      split
      · exact ⟨hstay, fun _ => rfl⟩
      · split
        · rename_i h
          rw [if_neg (fun e => hsn e.1)] at h
          refine ⟨⟨_, (handleResponse_loc σ c s _ _ _ h i).weaken (fun _ => rfl) (fun N => ?_)⟩, fun h0 => absurd rfl h0⟩
          have : tok nets dec (upd σ c.net s) N m = cur (s.req.get Req.empty (-m.nsn)).dst (s.req.get Req.empty (-m.nsn)).amount N := by
            unfold tok reqOf
            rw [if_neg (by rw [hsvc]; exact fun h => h rfl), if_pos (by omega), hdst, if_pos hcm.mem, upd_same]
          rw [this]
          split
          · exact Nat.le_refl _
          · exact Nat.zero_le _
        · exact ⟨hstay, fun _ => rfl⟩
  · split
    · exact ⟨hstay, fun _ => rfl⟩
    · split
      · split
        · exact ⟨hc2, fun h0 => absurd rfl h0⟩
        · exact ⟨hstay, fun _ => rfl⟩
      · split
        · exact ⟨hstay, fun _ => rfl⟩
        · split
          · exact ⟨hc2, fun h0 => absurd rfl h0⟩
          · exact ⟨hstay, fun _ => rfl⟩

/-- The fees of a message come in. -/
theorem feeIn_loc (σ : String → St) (c : Cfg) (s s' : St) (f : FeeInfo) (h : Same (addIn s f.network f.values.sum) s') :
    Loc nets dec σ c s s' (feeOf f) zero [] := by
  have h1 : Loc nets dec σ c s (addIn s f.network f.values.sum) (feeOf f) zero [] := by
    refine ⟨by rw [List.append_nil]; rfl, fun n => ?_, Mono.of_eq rfl rfl, fun m hm => (nomatch hm), fun N => Nat.le_refl _,
      fun i => i.of_same (show SameReq s _ from ⟨rfl, rfl, rfl⟩)⟩
    show upd s.inflow f.network (s.inflow f.network + f.values.sum) n + cur c.net (s.coins + s.credited) n = s.inflow n + cur c.net (s.coins + s.credited) n + cur f.network f.values.sum n
    rw [upd_cur]; omega
  exact (h1.trans (h.loc σ c)).weaken (fun _ => rfl) (fun _ => Nat.le_refl _)

theorem item_loc {c : Cfg} (hcm : Common nets dec c) (σ : String → St) (env : Env) (ok : Bool) (call : St → St)
    (hcall : ∀ s, ReqInv s → ∃ evs, Loc nets dec σ c s (call s) zero zero evs) (caller : Nat) (prev : String) (seq : Nat) (s : St) (m0 : Msg)
    (s' : St) (h : item c env ok call caller prev seq s m0 = some s') (g : Good nets dec (upd σ c.net s) m0) (i : ReqInv s) :
    ∃ evs, Loc nets dec σ c s s' (feeOf m0.fee) (fun N => tok nets dec (upd σ c.net s) N m0) evs := by
  unfold item at h
  dsimp only at h
  have hs0 : Same (addIn s m0.fee.network m0.fee.values.sum) { addIn s m0.fee.network m0.fee.values.sum with
    disp := upd (addIn s m0.fee.network m0.fee.values.sum).disp prev ((addIn s m0.fee.network m0.fee.values.sum).disp prev ++ [some m0]) } :=
    ⟨rfl, rfl, rfl, rfl, rfl, rfl, rfl, rfl⟩
  generalize ({ addIn s m0.fee.network m0.fee.values.sum with
    disp := upd (addIn s m0.fee.network m0.fee.values.sum).disp prev ((addIn s m0.fee.network m0.fee.values.sum).disp prev ++ [some m0]) } : St) = s00 at h hs0
  have hf := handleFee_same c s00 caller m0
  generalize handleFee c s00 caller m0 = p at h hf
  obtain ⟨s1, m⟩ := p
  dsimp only at h hf
  obtain ⟨hf, hd, hsn, hsrc, hsvc, hnsn, hbody⟩ := hf
  have h1 := feeIn_loc (nets := nets) (dec := dec) σ c s s1 m0.fee (hs0.trans hf)
  have hreq : s1.req = s.req := hf.same.1.trans hs0.same.1
  have i1 := h1.inv i
  have g1 : Good nets dec (upd σ c.net s1) m := (g.mono h1.mono).fields hd hsn hsrc hsvc hnsn hbody
  have ht : ∀ N, tok nets dec (upd σ c.net s1) N m = tok nets dec (upd σ c.net s) N m0 := fun N => by
    rw [tok_req (s := s) hreq, tok_fields _ _ m0 m hd hsn hsvc hnsn hbody]
  have hfin : ∀ {b : St}, (∃ evs, Loc nets dec σ c s1 b zero (fun N => tok nets dec (upd σ c.net s1) N m) evs) →
      ∃ evs, Loc nets dec σ c s b (feeOf m0.fee) (fun N => tok nets dec (upd σ c.net s) N m0) evs := by
    intro b ⟨evs, hb⟩
    exact ⟨_, (h1.trans hb).weaken (fun _ => rfl) (fun N => by rw [← ht N]; show 0 + _ ≤ _; omega)⟩
  split at h
  · rename_i hdst
    have hm := handleMessage_loc hcm σ env ok call hcall s1 m hdst g1 i1
    generalize handleMessage c env ok call s1 m = q at h hm
    obtain ⟨e, s2⟩ := q
    dsimp only at h hm
    split at h
    · simp only [Option.some.injEq] at h; subst h; exact hfin hm.1
    rename_i he
    obtain rfl := hm.2 he
    split at h
    · split at h
      · cases h
      rename_i s3 r hr
      simp only [Option.some.injEq] at h
      subst h
      have h3 := removeResponse_same s2 s3 _ _ _ r hr
      obtain ⟨evs, h4⟩ := sendError_loc (nets := nets) (dec := dec) σ c env s3 prev seq m m e (g1.mono (h3.loc (nets := nets) (dec := dec) σ c).mono) rfl rfl rfl rfl
      refine hfin ⟨_, ((h3.loc σ c).trans0 h4).weaken (fun _ => rfl) (fun N => ?_)⟩
      rw [tok_req (s := s2) h3.same.1]
      exact Nat.le_refl _
    · simp only [Option.some.injEq] at h
      subst h
      exact hfin (sendError_loc σ c env s2 prev seq m m e g1 rfl rfl rfl rfl)
  · split at h
    · simp only [Option.some.injEq] at h
      subst h
      exact hfin ⟨_, sendMsg_loc σ c s1 _ m g1⟩
    · simp only [Option.some.injEq] at h
      subst h
      exact hfin (sendError_loc σ c env s1 prev seq m m 2 g1 rfl rfl rfl rfl)

/-- A call that delivers nothing. -/
theorem quiet_loc {c : Cfg} (hcm : Common nets dec c) (σ : String → St) (o : Op) (hq : Quiet c o) (s s' : St) (h : exec c o s = some s')
    (i : ReqInv s) : ∃ evs, Loc nets dec σ c s s' zero zero evs := by
  cases o with
  | send env sender value to svc sn body =>
    rw [exec] at h
    split at h
    · cases h
    rename_i hs
    refine sendMessage_loc σ c env s s' sender value to svc sn body h (.inl ?_)
    intro e
    subst e
    have hq : env.service "bmc" = some c.service := hq
    unfold sendMessage at h
    rw [if_pos ⟨hs, by rw [hq]; exact fun e => hs (Option.some.inj e).symm⟩] at h
    cases h
  | claim env sender value net receiver =>
    rw [exec] at h
    split at h
    · cases h
    exact claim_loc hcm.claim σ env s s' sender value net receiver h hcm.mem i
  | relay env caller prev items => exact hq.elim
  | drop env src seq svc sn nsn f => exact hq.elim
  | clear link => exact hq.elim
  | internal next to body =>
    rw [exec] at h
    simp only [Option.some.injEq] at h
    subst h
    have hq : c.decInner body = some .mgmt := hq
    rw [hcm.inner] at hq
    exact ⟨_, (bump_loc σ c s).trans0 (sendMsg_plain σ c _ next _ (.inr ⟨rfl, .inl hq⟩))⟩

theorem quietOps_loc {c : Cfg} (hcm : Common nets dec c) (σ : String → St) : ∀ (acts : Ops), QuietOps c acts → ∀ s, ReqInv s →
    ∃ evs, Loc nets dec σ c s (execOps c acts s) zero zero evs
  | .nil, _, s, _ => by rw [execOps]; exact ⟨_, (Same.refl s).loc σ c⟩
  | .cons o t, hq, s, i => by
    rw [execOps]
    have h1 : ∃ evs, Loc nets dec σ c s ((exec c o s).getD s) zero zero evs := by
      cases h : exec c o s with
      | none => exact ⟨_, (Same.refl s).loc σ c⟩
      | some s1 => exact quiet_loc hcm σ o hq.1 s s1 h i
    obtain ⟨e1, h1⟩ := h1
    obtain ⟨e2, h2⟩ := quietOps_loc hcm σ t hq.2 _ (h1.inv i)
    exact ⟨_, h1.trans0 h2⟩

/-- The fees of a list of messages. -/
def feesOf (l : List Msg) (n : String) : Nat := (l.map (fun m => feeOf m.fee n)).sum

/-- The messages of a relay call. -/
theorem items_loc {c : Cfg} (hcm : Common nets dec c) (σ : String → St) (caller : Nat) (prev : String) : ∀ (items : Items) (seq : Nat) (s s' : St),
    QuietItems c items → (∀ m ∈ items.msgs, Good nets dec (upd σ c.net s) m) → execItems c items caller prev seq s = some s' → ReqInv s →
    ∃ evs, Loc nets dec σ c s s' (feesOf items.msgs) (fun N => toks nets dec (upd σ c.net s) N items.msgs) evs
  | .nil, seq, s, s', _, _, h, _ => by
    rw [execItems] at h
    simp only [Option.some.injEq] at h
    subst h
    exact ⟨_, (Same.refl s).loc σ c⟩
  | .cons m env ok acts t, seq, s, s', hq, hg, h, i => by
    rw [execItems] at h
    split at h
    · cases h
    rename_i s1 h1
    obtain ⟨e1, h1⟩ := item_loc hcm σ env ok (execOps c acts) (quietOps_loc hcm σ acts hq.1) caller prev (seq + 1) s m s1 h1
      (hg m (List.mem_cons_self ..)) i
    have hg2 : ∀ x ∈ t.msgs, Good nets dec (upd σ c.net s) x := fun x hx => hg x (List.mem_cons_of_mem _ hx)
    obtain ⟨e2, h2⟩ := items_loc hcm σ caller prev t (seq + 1) s1 s' hq.2 (fun x hx => (hg2 x hx).mono h1.mono) h (h1.inv i)
    refine ⟨_, (h1.trans h2).weaken (fun n => ?_) (fun N => ?_)⟩
    · unfold feesOf; rw [Items.msgs, List.map_cons, List.sum_cons]
    · have := toks_mono h1.mono N _ hg2
      rw [Items.msgs]
      unfold toks at this ⊢
      rw [List.map_cons, List.sum_cons]
      omega

/-- An owner gives up a message that is under way. -/
theorem drop_loc {c : Cfg} (σ : String → St) (env : Env) (seq : Nat) (m : Msg) (s s' : St)
    (h : dropMessage c env s m.src seq m.svc m.sn m.nsn m.fee = some s') (g : Good nets dec (upd σ c.net s) m) :
    ∃ evs, Loc nets dec σ c s s' (feeOf m.fee) (fun N => tok nets dec (upd σ c.net s) N m) evs := by
  unfold dropMessage at h
  split at h
  case h_2 => cases h
  rename_i next a _ _
  split at h
  · cases h
  dsimp only at h
  have h2 := accumulate_same (addIn s m.fee.network m.fee.values.sum) c.periphery m.fee
  generalize accumulate (addIn s m.fee.network m.fee.values.sum) c.periphery m.fee = p at h h2
  obtain ⟨s1, f1⟩ := p
  dsimp only at h h2
  split at h
  case isFalse => cases h
  simp only [Option.some.injEq] at h
  subst h
  have h3 : Same s1 { s1 with rx := upd s1.rx next (s1.rx next + 1), disp := upd s1.disp next (s1.disp next ++ [none]) } :=
    ⟨rfl, rfl, rfl, rfl, rfl, rfl, rfl, rfl⟩
  generalize ({ s1 with rx := upd s1.rx next (s1.rx next + 1), disp := upd s1.disp next (s1.disp next ++ [none]) } : St) = s2 at h3
  have h4 := feeIn_loc (nets := nets) (dec := dec) σ c s s2 m.fee (h2.trans h3)
  obtain ⟨evs, h5⟩ := sendError_loc (nets := nets) (dec := dec) σ c env s2 next seq m ⟨m.src, "", m.svc, m.sn, [], m.nsn, f1⟩ 1 (g.mono h4.mono) rfl rfl rfl rfl
  refine ⟨_, (h4.trans h5).weaken (fun _ => rfl) (fun N => ?_)⟩
  have := tok_mono h4.mono g N
  show 0 + _ ≤ _
  omega

/-! ### The network -/

/-- Fees of messages given up with an event only. -/
def given (s : St) (n : String) : Nat := (s.log.map fun e => match e with
    | .dropped _ _ m _ => feeOf m.fee n
    | _ => 0).sum

/-- What a chain holds in a currency: rewards, fees kept for answers, claims, fees of given-up messages, and what was paid or left. -/
def held (s : St) (n : String) : Nat := rewards s n + stored s n + pending s n + s.settled n + s.paid n + s.lost n + given s n

theorem carried_split (n : String) : ∀ l : List Event, (l.map (evFee n)).sum = feesOf (msgsOf l) n + (l.map fun e => match e with
    | .dropped _ _ m _ => feeOf m.fee n
    | _ => 0).sum
  | [] => rfl
  | e :: t => by
    have ih := carried_split n t
    cases e with
    | message a b m =>
      have : msgsOf (.message a b m :: t) = m :: msgsOf t := rfl
      rw [this]
      unfold feesOf at ih ⊢
      simp only [List.map_cons, List.sum_cons, ih, evFee]
      omega
    | dropped a b m d =>
      have : msgsOf (.dropped a b m d :: t) = msgsOf t := rfl
      rw [this]
      simp only [List.map_cons, List.sum_cons, ih, evFee]
      omega
    | cleared l =>
      have : msgsOf (.cleared l :: t) = msgsOf t := rfl
      rw [this]
      simp only [List.map_cons, List.sum_cons, ih, evFee]
      omega

theorem ledger_held (s : St) (n : String) : ledger s n = held s n + feesOf (msgsOf s.log) n := by
  have := carried_split n s.log
  unfold ledger held carried given
  omega

theorem feesOf_append (a b : List Msg) (n : String) : feesOf (a ++ b) n = feesOf a n + feesOf b n := by
  unfold feesOf; rw [List.map_append, List.sum_append]

/-- Sum over the networks. -/
def over (nets : List String) (σ : String → St) (f : St → Nat) : Nat := (nets.map fun a => f (σ a)).sum

theorem over_cons (a : String) (l : List String) (σ : String → St) (f : St → Nat) : over (a :: l) σ f = f (σ a) + over l σ f := by
  unfold over; rw [List.map_cons, List.sum_cons]

theorem over_not (f : St → Nat) (σ : String → St) (c : String) (s' : St) : ∀ l : List String, c ∉ l → over l (upd σ c s') f = over l σ f
  | [], _ => rfl
  | a :: t, h => by
    rw [over_cons, over_cons, over_not f σ c s' t (fun e => h (List.mem_cons_of_mem _ e)),
      upd_other σ c s' a (fun e : a = c => h (by rw [← e]; exact List.mem_cons_self ..))]

theorem over_upd (f : St → Nat) (σ : String → St) (c : String) (s' : St) : ∀ l : List String, l.Nodup → c ∈ l →
    over l (upd σ c s') f + f (σ c) = over l σ f + f s'
  | [], _, h => nomatch h
  | a :: t, hn, h => by
    rw [over_cons, over_cons]
    rcases List.nodup_cons.1 hn with ⟨h1, h2⟩
    by_cases e : a = c
    · subst e
      rw [upd_same, over_not f σ a s' t h1]; omega
    · rcases List.mem_cons.1 h with h | h
      · exact absurd h.symm e
      · have := over_upd f σ c s' t h2 h
        rw [upd_other _ _ _ _ e]; omega

theorem upd_self (σ : String → St) (c : String) : upd σ c (σ c) = σ := by
  funext x
  by_cases h : x = c
  · subst h; rw [upd_same]
  · rw [upd_other _ _ _ _ h]

theorem perm_sum {α : Type} (f : α → Nat) {a b : List α} (h : a.Perm b) : (a.map f).sum = (b.map f).sum := by
  induction h with
  | nil => rfl
  | cons x _ ih => simp only [List.map_cons, List.sum_cons, ih]
  | swap x y l => simp only [List.map_cons, List.sum_cons]; omega
  | trans _ _ h1 h2 => exact h1.trans h2

/-- The invariant of the network. -/
structure Net (nets : List String) (dec : Bytes → Option Inner) (σ : String → St) (P : List Msg) : Prop where
  led : ∀ n, Led (σ n)
  bal : ∀ n ∈ nets, over nets σ (fun s => held s n) + feesOf P n = (σ n).coins + (σ n).credited
  tok : ∀ n ∈ nets, (σ n).credited + toks nets dec σ n P ≤ over nets σ (fun s => ps s n)
  good : ∀ m ∈ P, Good nets dec σ m

theorem cur_self (n : String) (v : Nat) : cur n v n = v := by unfold cur; rw [if_pos rfl]
theorem cur_ne {a n : String} (h : a ≠ n) (v : Nat) : cur a v n = 0 := by unfold cur; rw [if_neg h]

theorem Net.step {σ : String → St} {P D rest : List Msg} (hn : nets.Nodup) (g : Net nets dec σ P) (c : Cfg) (hc : c.net ∈ nets)
    (hp : P.Perm (D ++ rest)) (s' : St) (evs : List Event)
    (h : Loc nets dec σ c (σ c.net) s' (feesOf D) (fun N => toks nets dec σ N D) evs) (hl : Led s') :
    Net nets dec (upd σ c.net s') (rest ++ msgsOf evs) := by
  have hself := upd_self σ c.net
  have hgood : ∀ m ∈ D ++ rest, Good nets dec (upd σ c.net (σ c.net)) m := fun m hm => by
    rw [hself]; exact g.good m (hp.mem_iff.2 hm)
  refine ⟨fun n => ?_, fun n hm => ?_, fun n hm => ?_, fun m hm => ?_⟩
  · by_cases e : n = c.net
    · subst e; rw [upd_same]; exact hl
    · rw [upd_other _ _ _ _ e]; exact g.led n
  · have h1 := g.bal n hm
    have h2 := over_upd (fun s => held s n) σ c.net s' nets hn hc
    have h3 : feesOf P n = feesOf D n + feesOf rest n := by rw [← feesOf_append]; exact perm_sum _ hp
    have h4 := h.acc n
    rw [hl.bal n, (g.led c.net).bal n, ledger_held, ledger_held, h.log, msgsOf_append, feesOf_append] at h4
    rw [feesOf_append]
    by_cases e : c.net = n
    · subst e
      rw [upd_same]
      rw [cur_self, cur_self] at h4
      omega
    · rw [upd_other _ _ _ _ (fun h => e h.symm)]
      rw [cur_ne e, cur_ne e] at h4
      omega
  · have h1 := g.tok n hm
    have h2 := over_upd (fun s => ps s n) σ c.net s' nets hn hc
    have h3 : toks nets dec σ n P = toks nets dec σ n D + toks nets dec σ n rest := by rw [← toks_append]; exact perm_sum _ hp
    have h4 := h.tok n
    have h5 := toks_mono h.mono n rest (fun m hm => hgood m (List.mem_append_right _ hm))
    rw [hself] at h5
    rw [toks_append]
    by_cases e : c.net = n
    · subst e
      rw [upd_same]
      rw [cur_self, cur_self] at h4
      omega
    · rw [upd_other _ _ _ _ (fun h => e h.symm)]
      rw [cur_ne e, cur_ne e] at h4
      omega
  · rcases List.mem_append.1 hm with hm | hm
    · exact (hgood m (List.mem_append_right _ hm)).mono h.mono
    · exact h.good m hm

theorem over_zero (f : St → Nat) (h : f SolBmc.init = 0) : ∀ l : List String, over l (fun _ => SolBmc.init) f = 0
  | [] => rfl
  | a :: t => by rw [over_cons, over_zero f h t, h]

theorem net_init : Net nets dec (fun _ => SolBmc.init) [] := by
  refine ⟨fun _ => init_led, fun n _ => ?_, fun n _ => Nat.zero_le _, fun m hm => (nomatch hm)⟩
  rw [over_zero _ rfl]; rfl

/-- The networks: names, and one encoding. -/
structure Networks (nets : List String) (cfg : String → Cfg) (dec : Bytes → Option Inner) : Prop where
  nodup : nets.Nodup
  name : ∀ n ∈ nets, (cfg n).net = n
  common : ∀ n ∈ nets, Common nets dec (cfg n)

theorem drop_log (a b : List Event) : (a ++ b).drop a.length = b := by
  rw [List.drop_append_of_le_length (Nat.le_refl _), List.drop_length, List.nil_append]

theorem net_step {cfg : String → Cfg} (hN : Networks nets cfg dec) {σ σ' : Sys} (g : Net nets dec σ.st σ.pool) (h : Step cfg nets σ σ') :
    Net nets dec σ'.st σ'.pool := by
  have main : ∀ (n : String) (s' : St) (D rest : List Msg), n ∈ nets → σ.pool.Perm (D ++ rest) → Led s' →
      (∃ evs, Loc nets dec σ.st (cfg n) (σ.st n) s' (feesOf D) (fun N => toks nets dec σ.st N D) evs) →
      Net nets dec (σ.next n s' rest).st (σ.next n s' rest).pool := by
    intro n s' D rest hn hp hl ⟨evs, he⟩
    have hname := hN.name n hn
    have h1 := he.log
    unfold Sys.next
    dsimp only
    rw [h1, drop_log]
    have := Net.step hN.nodup g (cfg n) (hN.common n hn).mem hp s' evs (by rw [hname]; exact he) hl
    rw [hname] at this
    exact this
  have hself : ∀ n ∈ nets, upd σ.st (cfg n).net (σ.st n) = σ.st := fun n hn => by
    have := upd_self σ.st n
    rw [hN.name n hn]; exact this
  cases h with
  | call n o s' hn hq he =>
    refine main n s' [] σ.pool hn (.refl _) (exec_pres (cfg n) (led_pres (cfg n)) o _ _ he (g.led n)) ?_
    exact quiet_loc (hN.common n hn) σ.st o hq _ _ he (g.led n).reqs
  | relay n env caller prev items rest s' hn hq hp he =>
    refine main n s' items.msgs rest hn hp (exec_pres (cfg n) (led_pres (cfg n)) _ _ _ he (g.led n)) ?_
    rw [exec] at he
    split at he
    · split at he
      · cases he
      rename_i s1 h1
      simp only [Option.some.injEq] at he
      subst he
      obtain ⟨evs, h2⟩ := items_loc (hN.common n hn) σ.st caller prev items _ _ s1 hq (fun m hm => by
        rw [hself n hn]; exact g.good m (hp.mem_iff.2 (List.mem_append_left _ hm))) h1 (g.led n).reqs
      rw [hself n hn] at h2
      have h3 : Same s1 { s1 with rx := upd s1.rx prev (s1.rx prev + items.msgs.length) } := ⟨rfl, rfl, rfl, rfl, rfl, rfl, rfl, rfl⟩
      exact ⟨_, (h2.trans (h3.loc σ.st (cfg n))).weaken (fun _ => rfl) (fun _ => Nat.le_refl _)⟩
    · cases he
  | drop n env seq m rest s' hn hp he =>
    refine main n s' [m] rest hn hp (exec_pres (cfg n) (led_pres (cfg n)) _ _ _ he (g.led n)) ?_
    rw [exec] at he
    obtain ⟨evs, h2⟩ := drop_loc (nets := nets) (dec := dec) σ.st env seq m _ _ he (by
      rw [hself n hn]; exact g.good m (hp.mem_iff.2 (List.mem_cons_self ..)))
    rw [hself n hn] at h2
    refine ⟨_, h2.weaken (fun k => ?_) (fun k => ?_)⟩
    · unfold feesOf; simp
    · rw [toks_single]; exact Nat.le_refl _

theorem net_reach {cfg : String → Cfg} (hN : Networks nets cfg dec) {σ : Sys} (h : Reach cfg nets σ) : Net nets dec σ.st σ.pool := by
  induction h with
  | init => exact net_init
  | step _ hs ih => exact net_step hN ih hs

end Verif.SolNet
