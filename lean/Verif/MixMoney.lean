import Verif.SolNet
import Verif.MixNet
import Verif.JavaBmcLedger
/-!
Fees and rewards of a network of message centers of EVM chains (SolBmc) and of ICON (JavaBmc).

The accounts of an ICON message center are read as those of an EVM message center (`books`), so that the notions of SolNet (what a message
under way may still cause, the effect of a call) serve for both. What a call of the ICON message center does to them is shown function by
function below.

* Messages between the message centers are decoded the same way everywhere; what the ICON message center can decode it decodes as the
  EVM message centers do (a Link, Unlink or Init message is `mgmt` there).
* `books` counts a claim that was credited although handling it failed as coins of its own (`doubled`).
-/
namespace Verif.MixNet
open Verif
open Verif.SolBmc (FM FeeInfo upd cur)
open Verif.SolNet (msgsOf Loc Same Good Plain tok toks zero feesOf reqOf ps Mono)
open Verif.JavaBmc

/-! ### The accounts of the ICON message center -/

/-- An open request as the EVM message center stores it. -/
def bookReq (k : Int) : Option Req → SolBmc.Req
  | none => SolBmc.Req.empty
  | some r => ⟨k, r.dst, r.caller, r.amount⟩

def bookReqs (l : FM Int (Option Req)) : FM Int SolBmc.Req := l.map fun p => (p.1, bookReq p.1 p.2)

def bookLog (l : List Event) : List SolBmc.Event := (sentBy l).map fun m => .message "" 0 (tr m)

def books (s : St) : SolBmc.St where
  rx := fun _ => 0
  tx := fun _ => 0
  nsn := s.nsn
  reward := s.reward
  resp := trMap s.resp
  req := bookReqs s.req
  log := bookLog s.log
  disp := fun _ => []
  inflow := s.inflow
  settled := s.settled
  paid := s.paid
  lost := s.lost
  settle := s.settle
  coins := s.coins + s.doubled
  credited := s.credited

/-- Any configuration. -/
def anyCfg : Cfg := ⟨"", 0, fun _ => none, id, fun _ _ _ _ => true, fun _ => none, fun _ => none, fun _ => [], fun _ => [], fun _ => none, fun _ => true⟩

/-- Of the configuration only the name of the network matters. -/
def shell (net : String) : SolBmc.Cfg := ⟨net, 0, 0, fun _ _ _ => true, fun _ => none, fun _ => none, fun _ => [], fun _ => [], fun _ => none⟩

theorem bookReqs_get (l : FM Int (Option Req)) (k : Int) : (bookReqs l).get SolBmc.Req.empty k = bookReq k (l.get none k) := by
  induction l with
  | nil => rfl
  | cons p t ih =>
    obtain ⟨a, b⟩ := p
    simp only [bookReqs, List.map_cons, FM.get] at ih ⊢
    split
    · rename_i e; subst e; rfl
    · exact ih

theorem bookReqs_set (l : FM Int (Option Req)) (k : Int) (v : Option Req) : bookReqs (l.set k v) = (bookReqs l).set k (bookReq k v) := by
  induction l with
  | nil => rfl
  | cons p t ih =>
    obtain ⟨a, b⟩ := p
    simp only [bookReqs, List.map_cons, FM.set] at ih ⊢
    split
    · rename_i e; subst e; rfl
    · rw [List.map_cons, ih]

theorem msgsOf_book (l : List Event) : msgsOf (bookLog l) = (sentBy l).map tr := by
  unfold bookLog msgsOf
  rw [List.filterMap_map]
  exact List.filterMap_eq_map ▸ rfl

theorem bookLog_append (a b : List Event) : bookLog (a ++ b) = bookLog a ++ bookLog b := by
  unfold bookLog; rw [sentBy_append, List.map_append]

theorem fee_tr (m : Msg) (n : String) : SolBmc.feeOf (tr m).fee n = JavaBmc.feeOf m.fee n := by
  unfold tr
  cases m.fee with
  | none => exact SolBmc.cur_zero _ _
  | some f => rfl

theorem sum_map_eq {α β : Type} (f : β → Nat) (g : α → β) (h : α → Nat) : ∀ l : List α, (∀ a ∈ l, f (g a) = h a) → ((l.map g).map f).sum = (l.map h).sum
  | [], _ => rfl
  | a :: t, e => by
    simp only [List.map_cons, List.sum_cons, e a (List.mem_cons_self ..)]
    rw [sum_map_eq f g h t (fun x hx => e x (List.mem_cons_of_mem _ hx))]

/-- The ledgers agree: fees of messages that were given up are rewards of the message center itself on ICON. -/
theorem ledger_books (s : St) (n : String) : SolBmc.ledger (books s) n =
    JavaBmc.rewards s n + JavaBmc.stored s n + JavaBmc.pending s n + JavaBmc.carried s n + s.paid n + s.settled n + s.lost n := by
  have h1 : SolBmc.stored (books s) n = JavaBmc.stored s n := by
    unfold SolBmc.stored JavaBmc.stored FM.total
    refine sum_map_eq _ _ _ _ fun p _ => ?_
    obtain ⟨k, r⟩ := p
    cases r with
    | none => exact SolBmc.cur_zero _ _
    | some r => rfl
  have h2 : SolBmc.pending (books s) n = JavaBmc.pending s n := by
    unfold SolBmc.pending JavaBmc.pending FM.total
    refine sum_map_eq _ _ _ _ fun p _ => ?_
    obtain ⟨k, r⟩ := p
    cases r with
    | none => exact SolBmc.cur_zero _ _
    | some r => rfl
  have h3 : SolBmc.carried (books s) n = JavaBmc.carried s n := by
    show ((bookLog s.log).map (SolBmc.evFee n)).sum = (s.log.map (JavaBmc.evFee n)).sum
    induction s.log with
    | nil => rfl
    | cons e t ih =>
      have h : bookLog (e :: t) = bookLog [e] ++ bookLog t := bookLog_append [e] t
      rw [h, List.map_append, List.sum_append, ih, List.map_cons, List.sum_cons]
      congr 1
      cases e with
      | message a b m => show SolBmc.feeOf (tr m).fee n + 0 = JavaBmc.feeOf m.fee n; rw [fee_tr]; rfl
      | chain a b d m => show SolBmc.feeOf (tr m).fee n + 0 = JavaBmc.feeOf m.fee n; rw [fee_tr]; rfl
      | dropped a b m => rfl
      | start a => rfl
      | bind a b => rfl
  unfold SolBmc.ledger
  rw [h1, h2, h3]
  rfl

/-! ### Effects -/

variable {nets : List String} {dec : Bytes → Option SolBmc.Inner}

/-- What is needed of the state: no service is called `bmc`, and the open requests have the numbers given out. -/
structure Base (s : St) : Prop where
  bmc : s.services "bmc" = none
  reqs : JavaBmc.ReqInv s

theorem Base.books {s : St} (h : Base s) : SolBmc.ReqInv (books s) := by
  refine ⟨fun k => ?_, h.reqs.pos, h.reqs.once, fun p hp => ?_⟩
  · show (bookReqs s.req).get _ k = _ ∨ ((bookReqs s.req).get _ k).nsn = k ∧ _
    rw [bookReqs_get]
    cases hr : s.req.get none k with
    | none => exact .inl rfl
    | some r =>
      have := h.reqs.open_ k r hr
      exact .inr ⟨rfl, by omega, this.2⟩
  · have := h.reqs.done p hp
    refine ⟨this.2.1, ?_⟩
    show (bookReqs s.req).get _ p.1 = _
    rw [bookReqs_get, this.2.2]; rfl

variable (nets dec) in
/-- The effect of a stretch of a call of the ICON message center of `net` (see `SolNet.Loc`). -/
def JLoc (σ : String → SolBmc.St) (net : String) (s s' : St) (x t : String → Nat) : Prop :=
  Base s → Base s' ∧ ∃ evs, Loc nets dec σ (shell net) (books s) (books s') x t evs

theorem JLoc.trans {σ : String → SolBmc.St} {net : String} {a b d : St} {x y t u : String → Nat} (h1 : JLoc nets dec σ net a b x t)
    (h2 : JLoc nets dec σ net b d y u) : JLoc nets dec σ net a d (fun n => x n + y n) (fun n => t n + u n) := by
  intro hs
  obtain ⟨b1, e1, l1⟩ := h1 hs
  obtain ⟨b2, e2, l2⟩ := h2 b1
  exact ⟨b2, _, l1.trans l2⟩

theorem JLoc.weaken {σ : String → SolBmc.St} {net : String} {a b : St} {x y t u : String → Nat} (h : JLoc nets dec σ net a b x t)
    (hx : ∀ n, x n = y n) (ht : ∀ n, t n ≤ u n) : JLoc nets dec σ net a b y u := by
  intro hs
  obtain ⟨b1, e1, l1⟩ := h hs
  exact ⟨b1, e1, l1.weaken hx ht⟩

theorem JLoc.more {σ : String → SolBmc.St} {net : String} {a b : St} {t : String → Nat} (h : JLoc nets dec σ net a b zero zero) :
    JLoc nets dec σ net a b zero t := h.weaken (fun _ => rfl) (fun _ => Nat.zero_le _)

theorem JLoc.trans0 {σ : String → SolBmc.St} {net : String} {a b d : St} {t : String → Nat} (h1 : JLoc nets dec σ net a b zero zero)
    (h2 : JLoc nets dec σ net b d zero t) : JLoc nets dec σ net a d zero t :=
  (h1.trans h2).weaken (fun _ => rfl) (fun n => by show 0 + t n ≤ t n; omega)

theorem JLoc.trans1 {σ : String → SolBmc.St} {net : String} {a b d : St} {t : String → Nat} (h1 : JLoc nets dec σ net a b zero t)
    (h2 : JLoc nets dec σ net b d zero zero) : JLoc nets dec σ net a d zero t :=
  (h1.trans h2).weaken (fun _ => rfl) (fun _ => Nat.le_refl _)

/-- A stretch that changes rewards, stored fees and settings only. -/
structure JSame (s s' : St) : Prop where
  bmc : s.services "bmc" = none → s'.services "bmc" = none
  log : sentBy s'.log = sentBy s.log
  inflow : s'.inflow = s.inflow
  coins : s'.coins + s'.doubled = s.coins + s.doubled
  credited : s'.credited = s.credited
  settled : s'.settled = s.settled
  req : s'.req = s.req
  nsn : s'.nsn = s.nsn
  settle : s'.settle = s.settle

theorem JSame.refl (s : St) : JSame s s := ⟨id, rfl, rfl, rfl, rfl, rfl, rfl, rfl, rfl⟩

theorem JSame.trans {a b d : St} (h1 : JSame a b) (h2 : JSame b d) : JSame a d :=
  ⟨fun h => h2.bmc (h1.bmc h), h2.log.trans h1.log, h2.inflow.trans h1.inflow, h2.coins.trans h1.coins, h2.credited.trans h1.credited,
    h2.settled.trans h1.settled, h2.req.trans h1.req, h2.nsn.trans h1.nsn, h2.settle.trans h1.settle⟩

theorem JSame.base {s s' : St} (h : JSame s s') (b : Base s) : Base s' := ⟨h.bmc b.bmc, b.reqs.same h.req h.nsn h.settle⟩

theorem JSame.same {s s' : St} (h : JSame s s') : Same (books s) (books s') :=
  ⟨by show bookLog s'.log = bookLog s.log; unfold bookLog; rw [h.log], h.inflow, h.coins, h.credited, h.settled,
    by show bookReqs s'.req = _; rw [h.req]; rfl, h.nsn, h.settle⟩

theorem JSame.loc {s s' : St} (h : JSame s s') (σ : String → SolBmc.St) (net : String) : JLoc nets dec σ net s s' zero zero :=
  fun hs => ⟨h.base hs, _, h.same.loc σ (shell net)⟩

theorem addReward_same (s : St) (a : Nat) (k : String) (v : Nat) : JSame s (addReward s a k v) := by
  unfold addReward
  split
  · exact ⟨id, rfl, rfl, rfl, rfl, rfl, rfl, rfl, rfl⟩
  · exact JSame.refl s

theorem collect_same (c : Cfg) (s : St) (f : Option FeeInfo) : JSame s (collect c s f) := by
  cases f with
  | none => exact JSame.refl s
  | some f => exact addReward_same _ _ _ _

theorem accumulate_same (s : St) (a : Nat) (f : Option FeeInfo) : JSame s (accumulate s a f).1 := by
  unfold accumulate
  split
  · exact JSame.refl s
  · split
    · exact JSame.refl s
    · exact addReward_same _ _ _ _

theorem lostFee_same (s : St) (f : Option FeeInfo) : JSame s (lostFee s f) := by
  cases f <;> exact ⟨id, rfl, rfl, rfl, rfl, rfl, rfl, rfl, rfl⟩

theorem twiceFee_same (s : St) (f : Option FeeInfo) : JSame s (twiceFee s f) := by
  cases f <;> exact ⟨id, rfl, rfl, rfl, rfl, rfl, rfl, rfl, rfl⟩

theorem putLink_same (c : Cfg) (s : St) (l : Link) : JSame s (putLink c s l) := by
  unfold putLink
  split
  · exact JSame.refl s
  · exact ⟨id, rfl, rfl, rfl, rfl, rfl, rfl, rfl, rfl⟩

theorem storeFee_same (c : Cfg) (s : St) (m : Msg) : JSame s (storeFee c s m) := by
  unfold storeFee
  split
  · exact JSame.refl s
  · split
    · have h := collect_same c s ((s.resp.get none (m.src, m.svc, m.sn)).map (·.fee))
      exact h.trans ⟨id, rfl, rfl, rfl, rfl, rfl, rfl, rfl, rfl⟩
    · exact collect_same _ _ _

theorem unstoreFee_same (s : St) (m : Msg) : JSame s (unstoreFee s m) := by
  unfold unstoreFee
  split
  · exact JSame.refl s
  · split
    · have h : JSame s { s with resp := s.resp.set (m.src, m.svc, m.sn) none } := ⟨id, rfl, rfl, rfl, rfl, rfl, rfl, rfl, rfl⟩
      dsimp only
      split
      · exact h
      · exact (h.trans (lostFee_same _ _)).trans (twiceFee_same _ _)
    · exact JSame.refl s

theorem drop_same (s : St) (prev : String) (seq : Nat) (m : Msg) : JSame s { s with log := s.log ++ [.dropped prev seq m] } :=
  ⟨id, by show sentBy (s.log ++ _) = _; rw [sentBy_append]; exact List.append_nil _, rfl, rfl, rfl, rfl, rfl, rfl, rfl⟩

/-- The fees of a message come in. -/
theorem inFee_loc (σ : String → SolBmc.St) (net : String) (s : St) (f : Option FeeInfo) : JLoc nets dec σ net s (inFee s f) (JavaBmc.feeOf f) zero := by
  cases f with
  | none => exact (JSame.refl s).loc σ net
  | some f => exact fun hs => ⟨⟨hs.bmc, hs.reqs.same rfl rfl rfl⟩, _, SolNet.feeIn_loc σ (shell net) (books s) (books (inFee s (some f))) f (Same.refl _)⟩

/-- Coins that come with a call. -/
theorem coins_loc (σ : String → SolBmc.St) (net : String) (s : St) (v : Nat) :
    JLoc nets dec σ net s (addIn { s with coins := s.coins + v } net v) zero zero := by
  intro hs
  refine ⟨⟨hs.bmc, hs.reqs.same rfl rfl rfl⟩, _, (SolNet.coins_loc σ (shell net) (books s) v).trans0 (Same.loc ?_ σ (shell net))⟩
  exact ⟨rfl, rfl, by show s.coins + v + s.doubled = s.coins + s.doubled + v; omega, rfl, rfl, rfl, rfl, rfl⟩

theorem bump_loc (σ : String → SolBmc.St) (net : String) (s : St) : JLoc nets dec σ net s { s with nsn := s.nsn + 1 } zero zero :=
  fun hs => ⟨⟨hs.bmc, (Tr.bump (c := anyCfg) (strict := false) [] s).reqInv hs.reqs⟩, _, SolNet.bump_loc σ (shell net) (books s)⟩

/-- Sending a message: nothing changes, or the message is under way. -/
theorem sendMsg_cases {c : Cfg} {env : Env} {s s' : St} {next : String} {m : Msg} {r : Option Ex} (h : sendMsg c env s next m = (r, s')) :
    (r ≠ none ∧ s' = s) ∨ (r = none ∧ ∃ s1 ev, JSame s s1 ∧ s1.log = s.log ∧ sentEv ev = [m] ∧ s' = { s1 with log := s1.log ++ [ev] }) := by
  have hlog : ∀ l, (putLink c s l).log = s.log := fun l => (putLink_rest s l).1
  rcases Tr.sendMsg (c := c) (env := env) (s := s) (next := next) (m := m) with ⟨e1, e⟩ | ⟨e1, l, hl, ⟨hid, e⟩ | ⟨id, hid, _, e⟩⟩
  all_goals rw [h] at e e1; dsimp only at e e1; subst e
  · exact .inl ⟨e1, rfl⟩
  · exact .inr ⟨e1, _, .message next (l.tx + 1) m, putLink_same c s { l with tx := l.tx + 1 }, hlog _, rfl, by rw [hlog]⟩
  · exact .inr ⟨e1, _, .chain id next (l.tx + 1) m, putLink_same c s { l with tx := l.tx + 1 }, hlog _, rfl, by rw [hlog]⟩

theorem sent_loc {c : Cfg} {env : Env} {s s' : St} {next : String} {m : Msg} (h : sendMsg c env s next m = (none, s')) (σ : String → SolBmc.St) (net : String)
    (g : Good nets dec (upd σ net (books s)) (tr m)) :
    JLoc nets dec σ net s s' zero (fun N => tok nets dec (upd σ net (books s)) N (tr m)) := by
  rcases sendMsg_cases h with ⟨e, -⟩ | ⟨-, s1, ev, h1, -, h3, rfl⟩
  · exact absurd rfl e
  intro hs
  have hb : (books { s1 with log := s1.log ++ [ev] }).log = (books s1).log ++ [.message "" 0 (tr m)] := by
    show bookLog (s1.log ++ [ev]) = _
    rw [bookLog_append]
    congr 1
    show (sentEv ev ++ []).map _ = _
    rw [h3]; rfl
  have hl := h1.same.loc (nets := nets) (dec := dec) σ (shell net)
  have hm : Mono (books s1) (books { s1 with log := s1.log ++ [ev] }) := Mono.of_eq rfl rfl
  have g1 := g.mono hl.mono
  refine ⟨⟨h1.bmc hs.bmc, (h1.base hs).reqs.same rfl rfl rfl⟩, _, (hl.trans (y := zero) (u := fun N => tok nets dec (upd σ net (books s1)) N (tr m)) (f := [.message "" 0 (tr m)])
    ⟨hb, fun n => rfl, hm, fun m' hm' => ?_, fun N => ?_, fun i => i.of_same (show SolBmc.SameReq (books s1) _ from ⟨rfl, rfl, rfl⟩)⟩).weaken
    (fun _ => rfl) (fun N => ?_)⟩
  · obtain rfl := List.mem_singleton.1 (show m' ∈ [tr m] from hm')
    exact g1.mono hm
  · have e : msgsOf [SolBmc.Event.message "" 0 (tr m)] = [tr m] := rfl
    rw [e, SolNet.toks_single]
    show _ + tok nets dec (upd σ net (books { s1 with log := s1.log ++ [ev] })) N (tr m) + _ ≤ _
    rw [SolNet.tok_req (s := books s1) (s' := books { s1 with log := s1.log ++ [ev] }) rfl]
    exact Nat.le_refl _
  · have := SolNet.tok_mono hl.mono g N
    show 0 + _ ≤ _
    rw [Nat.zero_add]; exact this

theorem sent_plain {c : Cfg} {env : Env} {s s' : St} {next : String} {m : Msg} (h : sendMsg c env s next m = (none, s')) (σ : String → SolBmc.St) (net : String)
    (hp : Plain dec (tr m)) : JLoc nets dec σ net s s' zero zero :=
  (sent_loc h σ net (hp.good _)).weaken (fun _ => rfl) (fun N => by rw [hp.tok]; exact Nat.zero_le _)

/-- A reply: it is under way, or was not sent. -/
theorem sendReply_loc {c : Cfg} {env : Env} {s s' : St} {next to svc : String} {value : Nat} {sn : Int} {body : Bytes} {r : Except Ex Int}
    (h : sendReply c env s next value to svc sn body = (r, s')) (σ : String → SolBmc.St)
    (hp : svc ≠ "bmc" ∨ dec body = some .mgmt ∨ dec body = some (.response 0)) : JLoc nets dec σ c.net s s' zero zero := by
  unfold sendReply at h
  split at h
  · simp only [Prod.mk.injEq] at h
    rw [← h.2]; exact (JSame.refl s).loc σ c.net
  rename_i q hq
  dsimp only at h
  have h0 : JSame s { s with resp := s.resp.set (to, svc, sn) none } := ⟨id, rfl, rfl, rfl, rfl, rfl, rfl, rfl, rfl⟩
  have h1 := ((h0.loc (nets := nets) (dec := dec) σ c.net).trans0 (coins_loc σ c.net _ value)).trans0 ((addReward_same _ c.addr c.net value).loc σ c.net)
  dsimp only at h1
  split at h
  · rename_i e s3 h3
    simp only [Prod.mk.injEq] at h
    rw [← h.2]
    rcases sendMsg_cases h3 with ⟨-, rfl⟩ | ⟨e, -⟩
    · exact h1.trans0 ((lostFee_same _ _).loc σ c.net)
    · cases e
  · rename_i s3 h3
    simp only [Prod.mk.injEq] at h
    rw [← h.2]
    refine h1.trans0 (sent_plain h3 σ c.net ?_)
    rcases hp with hp | hp
    · exact .inl hp
    · exact .inr ⟨rfl, hp⟩

/-- A message that is not a reply, sent: what happens before it goes out, and which message it is. -/
theorem sendRequest_eff {c : Cfg} {env : Env} {s s' : St} {next to svc : String} {value : Nat} {sn k : Int} {body : Bytes}
    (h : sendRequest c env s next value to svc sn body = (.ok k, s')) (σ : String → SolBmc.St) : k = s.nsn + 1 ∧ ∃ s1 m,
      sendMsg c env s1 next m = (none, s') ∧ JLoc nets dec σ c.net s s1 zero zero ∧ s1.req = s.req ∧ s1.nsn = s.nsn + 1 ∧ s1.settle = s.settle ∧
      s1.settled = s.settled ∧ s1.credited = s.credited ∧ s1.log = s.log ∧
      m.src = c.net ∧ m.dst = to ∧ m.svc = svc ∧ m.body = body ∧ m.sn = sn ∧ m.nsn = s.nsn + 1 := by
  unfold sendRequest at h
  dsimp only at h
  split at h
  · cases h
  generalize (feeList { s with nsn := s.nsn + 1 } to (decide (sn > 0))) = vs at h
  have hr := addReward_same (addIn { s with nsn := s.nsn + 1, coins := s.coins + value } c.net value) c.addr c.net (value - vs.sum)
  have hl : (addReward (addIn { s with nsn := s.nsn + 1, coins := s.coins + value } c.net value) c.addr c.net (value - vs.sum)).log = s.log := by
    unfold addReward; split <;> rfl
  split at h
  · cases h
  rename_i s3 h3
  simp only [Prod.mk.injEq, Except.ok.injEq] at h
  obtain ⟨rfl, rfl⟩ := h
  exact ⟨rfl, _, _, h3, ((bump_loc σ c.net s).trans0 (coins_loc σ c.net _ value)).trans0 (hr.loc σ c.net), hr.req, hr.nsn, hr.settle, hr.settled, hr.credited,
    hl, rfl, rfl, rfl, rfl, rfl, rfl⟩

theorem sendMessage_loc {c : Cfg} {env : Env} {s s' : St} {caller value : Nat} {to svc : String} {sn : Int} {body : Bytes}
    (h : sendMessage c env s caller value to svc sn body = some s') (σ : String → SolBmc.St) : JLoc nets dec σ c.net s s' zero zero := by
  intro hs
  unfold sendMessage at h
  split at h
  · cases h
  rename_i a ha
  have hsvc : svc ≠ "bmc" := by rintro rfl; rw [hs.bmc] at ha; cases ha
  split at h
  · cases h
  split at h
  · cases h
  rename_i k s1 h1
  simp only [Option.some.injEq] at h
  subst h
  unfold sendWithFee at h1
  split at h1
  · cases h1
  split at h1
  · exact sendReply_loc h1 σ (.inl hsvc) hs
  · obtain ⟨-, s2, m, h3, h4, -, -, -, -, -, -, -, -, h5, -⟩ := sendRequest_eff (nets := nets) (dec := dec) h1 σ
    exact h4.trans0 (sent_plain h3 σ c.net (.inl (by show m.svc ≠ _; rw [h5]; exact hsvc))) hs

theorem sendInternal_loc {c : Cfg} {env : Env} {s s' : St} {next to : String} {body : Bytes} (h : sendInternal c env s next to body = (none, s'))
    (σ : String → SolBmc.St) (hb : dec body = some .mgmt) : JLoc nets dec σ c.net s s' zero zero := by
  unfold sendInternal at h
  exact (bump_loc σ c.net s).trans0 (sent_plain h σ c.net (.inr ⟨rfl, .inl hb⟩))

theorem propagate_loc {c : Cfg} {env : Env} {body : Bytes} (σ : String → SolBmc.St) (hb : dec body = some .mgmt) : ∀ (l : List (String × Link)) {s s' : St},
    propagate c env body l s = some s' → JLoc nets dec σ c.net s s' zero zero
  | [], s, s', h => by
    simp only [propagate, Option.some.injEq] at h
    subst h; exact (JSame.refl s).loc σ c.net
  | (_, l) :: t, s, s', h => by
    simp only [propagate] at h
    split at h
    · cases h
    · rename_i s1 h1
      exact (sendInternal_loc h1 σ hb).trans0 (propagate_loc σ hb t h)

/-- An answer to a claim. -/
theorem handleResponse_loc {s s' : St} {k : Int} {res : Nat} {r : Option Ex} (h : handleResponse s k res = (r, s')) (σ : String → SolBmc.St) (net : String) :
    (r = none → JLoc nets dec σ net s s' zero (fun N => if res ≠ 0 then cur (bookReq k (s.req.get none k)).dst (bookReq k (s.req.get none k)).amount N else 0)) ∧
      (r ≠ none → s' = s) := by
  unfold handleResponse at h
  split at h
  · simp only [Prod.mk.injEq] at h
    obtain ⟨rfl, rfl⟩ := h
    exact ⟨fun e => (nomatch e), fun _ => rfl⟩
  rename_i q hq
  simp only [Prod.mk.injEq] at h
  obtain ⟨rfl, rfl⟩ := h
  refine ⟨fun _ hs => ⟨⟨?_, ?_⟩, ?_⟩, fun e => absurd rfl e⟩
  · show (if res ≠ 0 then _ else _ : St).services "bmc" = none
    split
    · exact (addReward_same { s with req := s.req.set k none } _ _ _).bmc hs.bmc
    · exact hs.bmc
  · refine (Tr.handleResponse (c := anyCfg) (b := false) (P := []) (s := s) (nsn := k) (result := res) (r := none) ?_).reqInv hs.reqs
    unfold handleResponse
    rw [hq]
  have hget : (books s).req.get SolBmc.Req.empty k = ⟨k, q.dst, q.caller, q.amount⟩ := by
    show (bookReqs s.req).get _ k = _
    rw [bookReqs_get, hq]; rfl
  have hk : 0 < k := by have := (hs.reqs.open_ k q hq).1; omega
  obtain ⟨x, hx, hsame⟩ : ∃ x, SolBmc.handleResponse (books s) k res = some x ∧ Same x (books { (if res ≠ 0 then
      addReward { s with req := s.req.set k none } q.caller q.dst q.amount
      else { s with req := s.req.set k none, settled := upd s.settled q.dst (s.settled q.dst + q.amount) }) with
        settle := (if res ≠ 0 then addReward { s with req := s.req.set k none } q.caller q.dst q.amount
          else { s with req := s.req.set k none, settled := upd s.settled q.dst (s.settled q.dst + q.amount) }).settle ++ [(k, res)] }) := by
    unfold SolBmc.handleResponse
    dsimp only
    rw [hget, if_pos hk]
    refine ⟨_, rfl, ?_⟩
    have hb : bookReqs (s.req.set k none) = (bookReqs s.req).set k SolBmc.Req.empty := bookReqs_set _ _ _
    by_cases h0 : res ≠ 0
    · simp only [if_pos h0]
      unfold SolBmc.addReward JavaBmc.addReward
      by_cases hz : q.amount > 0
      · simp only [if_pos hz]
        exact ⟨rfl, rfl, rfl, rfl, rfl, hb, rfl, rfl⟩
      · simp only [if_neg hz]
        exact ⟨rfl, rfl, rfl, rfl, rfl, hb, rfl, rfl⟩
    · simp only [if_neg h0]
      exact ⟨rfl, rfl, rfl, rfl, rfl, hb, rfl, rfl⟩
  have h1 := SolNet.handleResponse_loc (nets := nets) (dec := dec) σ (shell net) (books s) x k res hx hs.books
  refine ⟨_, (h1.trans (hsame.loc σ (shell net))).weaken (fun _ => rfl) (fun N => ?_)⟩
  rw [hget, hq]
  exact Nat.le_refl _

/-! ### Receiving -/

/-- The encodings: those of the EVM chains, as far as the ICON message center reads them. -/
structure JCommon (nets : List String) (dec : Bytes → Option SolBmc.Inner) (c : Cfg) : Prop where
  mem : c.net ∈ nets
  inClaim : ∀ b x r, c.decInner b = some (.claim x r) → ∃ r', dec b = some (.claim x r')
  inResp : ∀ b x, c.decInner b = some (.response x) → dec b = some (.response x)
  claim : ∀ x r, ∃ r', dec (c.encInner (.claim x r)) = some (.claim x r')
  resp : dec (c.encInner (.response 0)) = some (.response 0)
  link : ∀ l, dec (c.encInner (.link l)) = some .mgmt
  unlink : ∀ l, dec (c.encInner (.unlink l)) = some .mgmt
  initial : ∀ l, dec (c.encInner (.initial l)) = some .mgmt

theorem addReach_same {c : Cfg} {s s' : St} {net : String} {rs : List String} {r : Option Ex} (h : addReach c s net rs = (r, s')) : JSame s s' := by
  unfold addReach at h
  split at h <;> simp only [Prod.mk.injEq] at h <;> rw [← h.2]
  · exact JSame.refl s
  · exact putLink_same _ _ _

theorem removeReach_same {c : Cfg} {s s' : St} {net x : String} {r : Option Ex} (h : removeReach c s net x = (r, s')) : JSame s s' := by
  unfold removeReach at h
  split at h <;> simp only [Prod.mk.injEq] at h <;> rw [← h.2]
  · exact JSame.refl s
  · exact putLink_same _ _ _

/-- After a stretch without messages in, the message `M` is dealt with. -/
theorem JLoc.after {σ : String → SolBmc.St} {net : String} {a b d : St} {x : String → Nat} {M : SolBmc.Msg} (h1 : JLoc nets dec σ net a b x zero)
    (g : Good nets dec (upd σ net (books a)) M)
    (h2 : Good nets dec (upd σ net (books b)) M → JLoc nets dec σ net b d zero (fun N => tok nets dec (upd σ net (books b)) N M)) :
    JLoc nets dec σ net a d x (fun N => tok nets dec (upd σ net (books a)) N M) := by
  intro hs
  obtain ⟨b1, e1, l1⟩ := h1 hs
  obtain ⟨b2, e2, l2⟩ := h2 (g.mono l1.mono) b1
  refine ⟨b2, _, (l1.trans l2).weaken (fun _ => rfl) (fun N => ?_)⟩
  have := SolNet.tok_mono l1.mono g N
  show 0 + _ ≤ _
  rw [Nat.zero_add]; exact this

/-- A claim of another network is credited. -/
theorem credit_loc (σ : String → SolBmc.St) (net : String) (s : St) (x : Nat) :
    JLoc nets dec σ net s (addIn { s with credited := s.credited + x } net x) zero (fun N => cur net x N) :=
  fun hs => ⟨⟨hs.bmc, hs.reqs.same rfl rfl rfl⟩, _, SolNet.credit_loc σ (shell net) (books s) x⟩

/-- A claim that is credited although handling it fails counts as coins. -/
theorem doubled_loc (σ : String → SolBmc.St) (net : String) (s : St) (x : Nat) :
    JLoc nets dec σ net s (addIn { s with doubled := s.doubled + x } net x) zero zero := by
  intro hs
  refine ⟨⟨hs.bmc, hs.reqs.same rfl rfl rfl⟩, _, (SolNet.coins_loc σ (shell net) (books s) x).trans0 (Same.loc ?_ σ (shell net))⟩
  exact ⟨rfl, rfl, by show s.coins + (s.doubled + x) = s.coins + s.doubled + x; omega, rfl, rfl, rfl, rfl, rfl⟩

theorem sendWithFee_reply {c : Cfg} {env : Env} {s s' : St} {value : Nat} {to svc : String} {sn : Int} {body : Bytes} {r : Except Ex Int} {fill : Bool}
    (h : sendWithFee c env s value to svc sn body true fill = (r, s')) :
    (∃ next, sendReply c env s next value to svc sn body = (r, s')) ∨ s' = s := by
  unfold sendWithFee at h
  split at h
  · simp only [Prod.mk.injEq] at h
    exact .inr h.2.symm
  · rw [if_pos rfl] at h
    exact .inl ⟨_, h⟩

theorem reply_loc {c : Cfg} {env : Env} {s s' : St} {value : Nat} {to svc : String} {sn : Int} {body : Bytes} {r : Except Ex Int} {fill : Bool}
    (h : sendWithFee c env s value to svc sn body true fill = (r, s')) (σ : String → SolBmc.St)
    (hp : svc ≠ "bmc" ∨ dec body = some .mgmt ∨ dec body = some (.response 0)) : JLoc nets dec σ c.net s s' zero zero := by
  rcases sendWithFee_reply h with ⟨next, h⟩ | rfl
  · exact sendReply_loc h σ hp
  · exact (JSame.refl _).loc σ c.net

/-- The effect does not depend on what was credited before. -/
theorem loc_shift {σ : String → SolBmc.St} {c : SolBmc.Cfg} {s s' : SolBmc.St} {x t : String → Nat} {e : List SolBmc.Event}
    (h : Loc nets dec σ c s s' x t e) (y z : Nat) :
    Loc nets dec σ c { s with credited := s.credited + y, coins := s.coins + z } { s' with credited := s'.credited + y, coins := s'.coins + z } x t e := by
  have hm : Mono s' { s' with credited := s'.credited + y, coins := s'.coins + z } := Mono.of_eq rfl rfl
  refine ⟨h.log, fun n => ?_, ⟨h.mono.nsn, h.mono.req⟩, fun m hm' => (h.good m hm').mono hm, fun N => ?_, fun i => ?_⟩
  · have := h.acc n
    show s'.inflow n + cur c.net (s.coins + z + (s.credited + y)) n = s.inflow n + cur c.net (s'.coins + z + (s'.credited + y)) n + x n
    simp only [SolBmc.cur_add] at this ⊢
    omega
  · have h1 := h.tok N
    have h2 := SolNet.toks_mono hm N _ h.good
    show cur c.net (s'.credited + y) N + _ + ps s N ≤ cur c.net (s.credited + y) N + t N + ps s' N
    simp only [SolBmc.cur_add] at h1 ⊢
    omega
  · have i1 : SolBmc.ReqInv s := ⟨i.1, i.2, i.3, i.4⟩
    have i2 := h.inv i1
    exact ⟨i2.1, i2.2, i2.3, i2.4⟩

theorem JLoc.shift {σ : String → SolBmc.St} {net : String} {s s' : St} {x t : String → Nat} (h : JLoc nets dec σ net s s' x t) (y z : Nat) :
    JLoc nets dec σ net { s with credited := s.credited + y, doubled := s.doubled + z }
      { s' with credited := s'.credited + y, doubled := s'.doubled + z } x t := by
  intro hs
  obtain ⟨b, e, l⟩ := h ⟨hs.bmc, hs.reqs.same rfl rfl rfl⟩
  have l := loc_shift l y z
  have h1 : Same (books { s with credited := s.credited + y, doubled := s.doubled + z })
      { books s with credited := s.credited + y, coins := s.coins + s.doubled + z } :=
    ⟨rfl, rfl, by show s.coins + s.doubled + z = s.coins + (s.doubled + z); omega, rfl, rfl, rfl, rfl, rfl⟩
  have h2 : Same { books s' with credited := s'.credited + y, coins := s'.coins + s'.doubled + z }
      (books { s' with credited := s'.credited + y, doubled := s'.doubled + z }) :=
    ⟨rfl, rfl, by show s'.coins + (s'.doubled + z) = s'.coins + s'.doubled + z; omega, rfl, rfl, rfl, rfl, rfl⟩
  exact ⟨⟨b.bmc, b.reqs.same rfl rfl rfl⟩, _, (((h1.loc σ (shell net)).trans l).trans (h2.loc σ (shell net))).weaken
    (fun _ => by show 0 + _ + 0 = _; omega) (fun _ => by show 0 + _ + 0 ≤ _; omega)⟩

/-- A message for the message center itself. -/
theorem internalHandle_loc {c : Cfg} (hcm : JCommon nets dec c) (σ : String → SolBmc.St) {env : Env} {s s' : St} {m : Msg} {r : Option Ex}
    (h : internalHandle c env s m.src m.nsn m.body = (r, s')) (hsvc : m.svc = "bmc") (hdst : m.dst = c.net) (hsn : m.sn ≥ 0)
    (g : Good nets dec (upd σ c.net (books s)) (tr m)) :
    (r = none → JLoc nets dec σ c.net s s' zero (fun N => tok nets dec (upd σ c.net (books s)) N (tr m))) ∧
      (r ≠ none → JLoc nets dec σ c.net s s' zero zero) := by
  have htok : ∀ N, tok nets dec (upd σ c.net (books s)) N (tr m) = match dec m.body with | some (.claim x _) => cur m.dst x N | _ => 0 := fun N => by
    unfold tok
    rw [if_neg (by show ¬ m.svc ≠ "bmc"; rw [hsvc]; exact fun h => h rfl), if_neg (by show ¬ m.sn < 0; omega)]
    rfl
  have hsame : ∀ {x : St}, JSame s x → (r = none → JLoc nets dec σ c.net s x zero (fun N => tok nets dec (upd σ c.net (books s)) N (tr m))) ∧
      (r ≠ none → JLoc nets dec σ c.net s x zero zero) := fun h => ⟨fun _ => (h.loc σ c.net).more, fun _ => h.loc σ c.net⟩
  unfold internalHandle at h
  split at h
  · simp only [Prod.mk.injEq] at h
    rw [← h.2]; exact hsame (JSame.refl s)
  · rename_i x rc hb
    split at h
    · simp only [Prod.mk.injEq] at h
      rw [← h.2]; exact hsame (JSame.refl s)
    rename_i a ha
    dsimp only at h
    split at h
    · rename_i e s2 h2
      simp only [Prod.mk.injEq] at h
      obtain ⟨rfl, rfl⟩ := h
      refine ⟨fun e => (nomatch e), fun _ => ?_⟩
      have h3 := ((addReward_same (addIn s c.net x) a c.net x).loc (nets := nets) (dec := dec) σ c.net).trans0
        (reply_loc h2 σ (.inr (.inr hcm.resp)))
      exact (doubled_loc σ c.net s x).trans0 (h3.shift 0 x)
    · rename_i k s2 h2
      simp only [Prod.mk.injEq] at h
      obtain ⟨rfl, rfl⟩ := h
      refine ⟨fun _ => ?_, fun e => absurd rfl e⟩
      have h3 := ((addReward_same (addIn s c.net x) a c.net x).loc (nets := nets) (dec := dec) σ c.net).trans0
        (reply_loc h2 σ (.inr (.inr hcm.resp)))
      refine ((credit_loc σ c.net s x).trans1 (h3.shift x 0)).weaken (fun _ => rfl) (fun N => ?_)
      obtain ⟨r', hd⟩ := hcm.inClaim _ _ _ hb
      rw [htok N, hd]
      dsimp only
      rw [hdst]; exact Nat.le_refl _
  · rename_i code hb
    have hd := hcm.inResp _ _ hb
    have hc : code = 0 := by
      by_cases hp : 0 < m.sn
      · obtain ⟨x, r, hx, -⟩ := g.pos hsvc hp
        rw [show (tr m).body = m.body from rfl, hd] at hx; cases hx
      · rcases g.zero hsvc (by show m.sn = 0; omega) with hx | hx
        · rw [show (tr m).body = m.body from rfl, hd] at hx; cases hx
        · rw [show (tr m).body = m.body from rfl, hd] at hx; cases hx; rfl
    subst hc
    have h1 := handleResponse_loc (nets := nets) (dec := dec) h σ c.net
    refine ⟨fun e => (h1.1 e).weaken (fun _ => rfl) (fun N => Nat.zero_le _), fun e => ?_⟩
    rw [h1.2 e]; exact (JSame.refl s).loc σ c.net
  · exact hsame (addReach_same h)
  · exact hsame (removeReach_same h)
  · exact hsame (addReach_same h)

theorem handleMessage_loc {c : Cfg} (hcm : JCommon nets dec c) (σ : String → SolBmc.St) {env : Env} {out : Out} {call : St → St}
    (hc : ∀ s, JLoc nets dec σ c.net s (call s) zero zero) {s s' : St} {m : Msg} {r : Option Ex} (hd : m.dst = c.net)
    (h : handleMessage c env out call s m = (r, s')) (g : Good nets dec (upd σ c.net (books s)) (tr m)) :
    (r = none → JLoc nets dec σ c.net s s' zero (fun N => tok nets dec (upd σ c.net (books s)) N (tr m))) ∧
      (r ≠ none → JLoc nets dec σ c.net s s' zero zero) := by
  unfold handleMessage at h
  split at h
  · rename_i hsn
    dsimp only at h
    have h0 := storeFee_same c s m
    generalize storeFee c s m = s1 at h h0
    have h0 := h0.loc (nets := nets) (dec := dec) σ c.net
    by_cases hsvc : m.svc = "bmc"
    · rw [if_pos hsvc] at h
      split at h
      · rename_i s2 hr
        simp only [Prod.mk.injEq] at h
        obtain ⟨rfl, rfl⟩ := h
        exact ⟨fun _ => h0.after g (fun g1 => (internalHandle_loc hcm σ hr hsvc hd hsn g1).1 rfl), fun e => absurd rfl e⟩
      · rename_i e s2 hr
        simp only [Prod.mk.injEq] at h
        obtain ⟨rfl, rfl⟩ := h
        refine ⟨fun e => (nomatch e), fun _ => ?_⟩
        intro hs
        obtain ⟨b1, e1, l1⟩ := h0 hs
        have h2 := (internalHandle_loc hcm σ hr hsvc hd hsn (g.mono l1.mono)).2 (nofun)
        exact (h0.trans0 h2).trans0 ((unstoreFee_same s2 m).loc σ c.net) hs
    · rw [if_neg hsvc] at h
      split at h
      · rename_i s2 hr
        simp only [Prod.mk.injEq] at h
        obtain ⟨rfl, rfl⟩ := h
        refine ⟨fun _ => ?_, fun e => absurd rfl e⟩
        split at hr
        · cases hr
        · split at hr
          · simp only [Prod.mk.injEq, true_and] at hr
            subst hr
            exact (h0.trans0 (hc s1)).more
          · cases hr
      · rename_i e s2 hr
        simp only [Prod.mk.injEq] at h
        obtain ⟨rfl, rfl⟩ := h
        refine ⟨fun e => (nomatch e), fun _ => ?_⟩
        have : s2 = s1 := by
          split at hr
          · simp only [Prod.mk.injEq] at hr; exact hr.2.symm
          · split at hr
            · cases hr
            · simp only [Prod.mk.injEq] at hr; exact hr.2.symm
        subst this
        exact h0.trans0 ((unstoreFee_same s2 m).loc σ c.net)
  · rename_i hn
    dsimp only at h
    have h0 := collect_same c s m.fee
    generalize collect c s m.fee = s1 at h h0
    have h0 := h0.loc (nets := nets) (dec := dec) σ c.net
    split at h
    · simp only [Prod.mk.injEq] at h
      obtain ⟨rfl, rfl⟩ := h
      exact ⟨fun e => (nomatch e), fun _ => h0⟩
    · rename_i code _
      by_cases hsvc : m.svc = "bmc"
      · rw [if_pos hsvc] at h
        have h1 := handleResponse_loc (nets := nets) (dec := dec) h σ c.net
        refine ⟨fun e => h0.after g (fun _ => (h1.1 e).weaken (fun _ => rfl) (fun N => ?_)), fun e => ?_⟩
        · have : tok nets dec (upd σ c.net (books s1)) N (tr m) =
              cur (bookReq (-m.nsn) (s1.req.get none (-m.nsn))).dst (bookReq (-m.nsn) (s1.req.get none (-m.nsn))).amount N := by
            unfold tok reqOf
            rw [if_neg (by show ¬ m.svc ≠ "bmc"; rw [hsvc]; exact fun h => h rfl), if_pos (by show m.sn < 0; omega),
              if_pos (by show m.dst ∈ nets; rw [hd]; exact hcm.mem), show (tr m).dst = c.net from hd, SolNet.upd_same]
            show cur ((bookReqs s1.req).get _ (-m.nsn)).dst ((bookReqs s1.req).get _ (-m.nsn)).amount N = _
            rw [bookReqs_get]
          rw [this]
          split
          · exact Nat.le_refl _
          · exact Nat.zero_le _
        · rw [h1.2 e]; exact h0
      · rw [if_neg hsvc] at h
        split at h
        · simp only [Prod.mk.injEq] at h
          obtain ⟨rfl, rfl⟩ := h
          exact ⟨fun e => (nomatch e), fun _ => h0⟩
        · split at h
          · simp only [Prod.mk.injEq] at h
            obtain ⟨rfl, rfl⟩ := h
            exact ⟨fun _ => (h0.trans0 (hc s1)).more, fun e => absurd rfl e⟩
          · simp only [Prod.mk.injEq] at h
            obtain ⟨rfl, rfl⟩ := h
            exact ⟨fun e => (nomatch e), fun _ => h0⟩

/-- An error answer to a message is worth no more than the message. -/
theorem error_tok {σ : String → SolBmc.St} {m : SolBmc.Msg} (g : Good nets dec σ m) (hs : 0 < m.sn) (net : String) (body : Bytes) (f : FeeInfo) :
    Good nets dec σ ⟨net, m.src, m.svc, -m.sn, body, -m.nsn, f⟩ ∧
      ∀ N, tok nets dec σ N ⟨net, m.src, m.svc, -m.sn, body, -m.nsn, f⟩ ≤ tok nets dec σ N m := by
  constructor
  · refine ⟨fun _ h2 => ?_, fun _ h2 => ?_, fun h1 _ h3 => ?_⟩
    · dsimp only at h2; omega
    · dsimp only at h2; omega
    · obtain ⟨x, r, _, hq⟩ := g.pos h1 hs
      have := (hq h3).1
      dsimp only
      omega
  · intro N
    unfold tok
    by_cases hb : m.svc ≠ "bmc"
    · rw [if_pos hb]; exact Nat.zero_le _
    · dsimp only
      rw [if_neg hb, if_neg hb, if_pos (by omega), if_neg (by omega)]
      obtain ⟨x, r, hx, hq⟩ := g.pos (Classical.not_not.1 hb) hs
      rw [hx, Int.neg_neg]
      dsimp only
      have e0 : cur SolBmc.Req.empty.dst SolBmc.Req.empty.amount N = 0 := SolBmc.cur_zero _ _
      by_cases hm : m.src ∈ nets
      · rcases (hq hm).2 with e | e
        · rw [e, e0]; exact Nat.zero_le _
        · rw [e.1, e.2]; exact Nat.le_refl _
      · have : reqOf nets σ m.src m.nsn = SolBmc.Req.empty := by unfold reqOf; rw [if_neg hm]
        rw [this, e0]; exact Nat.zero_le _

theorem sendError_loc {c : Cfg} {env : Env} {s s' : St} {prev : String} {m : Msg} {e : Ex} (h : sendError c env s prev m e = (none, s')) (hs : 0 < m.sn)
    (σ : String → SolBmc.St) {m0 : SolBmc.Msg} (g : Good nets dec (upd σ c.net (books s)) m0) (h1 : m.src = m0.src) (h2 : m.svc = m0.svc) (h3 : m.sn = m0.sn)
    (h4 : m.nsn = m0.nsn) : JLoc nets dec σ c.net s s' zero (fun N => tok nets dec (upd σ c.net (books s)) N m0) := by
  unfold sendError at h
  rw [h1, h2, h3, h4] at h
  have := error_tok g (by omega) c.net (c.encResp (toResp e)) ((swapFee s m0.src m.fee).getD ⟨"", []⟩)
  exact (sent_loc h σ c.net this.1).weaken (fun _ => rfl) this.2

theorem failed_loc {c : Cfg} (env : Env) (prev : String) (seq : Nat) (s : St) (m : Msg) (e : Ex) (σ : String → SolBmc.St)
    (g : Good nets dec (upd σ c.net (books s)) (tr m)) :
    JLoc nets dec σ c.net s (failed c env prev seq s m e) zero (fun N => tok nets dec (upd σ c.net (books s)) N (tr m)) := by
  unfold failed
  split
  · rename_i hp
    split
    · rename_i s' h
      exact sendError_loc h hp σ g rfl rfl rfl rfl
    · rename_i s' h
      unfold sendError at h
      rcases sendMsg_cases h with ⟨-, rfl⟩ | ⟨h2, -⟩
      · exact (((collect_same c _ _).trans (drop_same _ _ _ _)).loc σ c.net).more
      · cases h2
  · dsimp only
    refine (JSame.loc ?_ σ c.net).more
    refine JSame.trans ?_ (drop_same _ _ _ _)
    split
    · exact (collect_same _ _ _).trans (twiceFee_same _ _)
    · exact collect_same _ _ _

theorem deliver_loc {c : Cfg} (hcm : JCommon nets dec c) (σ : String → SolBmc.St) {env : Env} {out : Out} {call : St → St}
    (hc : ∀ s, JLoc nets dec σ c.net s (call s) zero zero) {s s' : St} {m : Msg} {r : Option Ex}
    (h : deliver c env out call s m = (r, s')) (g : Good nets dec (upd σ c.net (books s)) (tr m)) :
    (r = none → JLoc nets dec σ c.net s s' zero (fun N => tok nets dec (upd σ c.net (books s)) N (tr m))) ∧
      (r ≠ none → JLoc nets dec σ c.net s s' zero zero) := by
  unfold deliver at h
  split at h
  · rename_i hd; exact handleMessage_loc hcm σ hc hd h g
  · split at h
    · simp only [Prod.mk.injEq] at h
      obtain ⟨rfl, rfl⟩ := h
      exact ⟨fun e => (nomatch e), fun _ => (JSame.refl s).loc σ c.net⟩
    · cases r with
      | none => exact ⟨fun _ => sent_loc h σ c.net g, fun e => absurd rfl e⟩
      | some e =>
        rcases sendMsg_cases h with ⟨-, rfl⟩ | ⟨h2, -⟩
        · exact ⟨fun e => (nomatch e), fun _ => (JSame.refl _).loc σ c.net⟩
        · cases h2

/-- One message of a relay call. -/
theorem item_loc {c : Cfg} (hcm : JCommon nets dec c) (σ : String → SolBmc.St) {env : Env} {out : Out} {call : St → St}
    (hc : ∀ s, JLoc nets dec σ c.net s (call s) zero zero) (caller : Nat) (prev : String) (gen seq : Nat) (s : St) (m0 : Msg)
    (g : Good nets dec (upd σ c.net (books s)) (tr m0)) :
    JLoc nets dec σ c.net s (item c env out call caller prev gen seq s m0) (JavaBmc.feeOf m0.fee)
      (fun N => tok nets dec (upd σ c.net (books s)) N (tr m0)) := by
  unfold item
  dsimp only
  have h0 : JLoc nets dec σ c.net s { inFee s m0.fee with disp := (inFee s m0.fee).disp ++ [(gen, seq, some m0)] } (JavaBmc.feeOf m0.fee) zero := by
    have h1 : JSame (inFee s m0.fee) { inFee s m0.fee with disp := (inFee s m0.fee).disp ++ [(gen, seq, some m0)] } :=
      ⟨id, rfl, rfl, rfl, rfl, rfl, rfl, rfl, rfl⟩
    exact ((inFee_loc σ c.net s m0.fee).trans (h1.loc σ c.net)).weaken (fun _ => rfl) (fun _ => Nat.le_refl _)
  generalize ({ inFee s m0.fee with disp := (inFee s m0.fee).disp ++ [(gen, seq, some m0)] } : St) = s0 at h0
  have h1 := (h0.trans ((accumulate_same s0 caller m0.fee).loc σ c.net)).weaken (y := JavaBmc.feeOf m0.fee) (u := zero) (fun _ => rfl) (fun _ => Nat.le_refl _)
  generalize accumulate s0 caller m0.fee = q at h1
  obtain ⟨s1, f⟩ := q
  dsimp only at h1 ⊢
  refine h1.after g (fun g1 => ?_)
  have g2 : Good nets dec (upd σ c.net (books s1)) (tr { m0 with fee := f }) := g1.fields rfl rfl rfl rfl rfl rfl
  refine JLoc.weaken (x := zero) (t := fun N => tok nets dec (upd σ c.net (books s1)) N (tr { m0 with fee := f })) ?_ (fun _ => rfl)
    (fun N => by rw [SolNet.tok_fields _ _ (tr m0) (tr { m0 with fee := f }) rfl rfl rfl rfl rfl]; exact Nat.le_refl _)
  split
  · rename_i s2 h
    exact (deliver_loc hcm σ hc h g2).1 rfl
  · rename_i e s2 h
    exact ((deliver_loc hcm σ hc h g2).2 (nofun)).after g2 (fun g3 => failed_loc env prev seq s2 _ e σ g3)

/-! ### Calls -/

theorem claim_loc {c : Cfg} (hcm : JCommon nets dec c) (σ : String → SolBmc.St) {env : Env} {call : St → St}
    (hc : ∀ s, JLoc nets dec σ c.net s (call s) zero zero) {s s' : St} {sender value : Nat} {net receiver : String}
    (h : claimReward c env call s sender value net receiver = some s') : JLoc nets dec σ c.net s s' zero zero := by
  unfold claimReward at h
  dsimp only at h
  generalize claimer c s sender = who at h
  split at h
  · cases h
  have h0 : JSame s { s with reward := s.reward.set (who, net) 0 } := ⟨id, rfl, rfl, rfl, rfl, rfl, rfl, rfl, rfl⟩
  generalize s.reward.get 0 (who, net) = r at h
  split at h
  · split at h
    · cases h
    split at h
    · simp only [Option.some.injEq] at h
      subst h
      have h1 := (h0.loc (nets := nets) (dec := dec) σ c.net).trans0 (coins_loc σ c.net _ value)
      refine (h1.trans0 (JSame.loc ?_ σ c.net)).trans0 (hc _)
      exact ⟨id, rfl, rfl, rfl, rfl, rfl, rfl, rfl, rfl⟩
    · cases h
  · split at h
    · cases h
    rename_i k s2 hsend
    simp only [Option.some.injEq] at h
    refine (h0.loc σ c.net).trans0 ?_
    generalize ({ s with reward := s.reward.set (who, net) 0 } : St) = s0 at hsend
    unfold sendWithFee at hsend
    split at hsend
    · cases hsend
    rename_i next hn
    rw [if_neg (by decide), if_pos rfl] at hsend
    obtain ⟨hk, s1, m, hm, hl, hreq, hnsn, hsettle, hsettled, hcred, hlog, hsrc, hdst, hsvc, hbody, hmsn, hmnsn⟩ :=
      sendRequest_eff (nets := nets) (dec := dec) hsend σ
    rcases sendMsg_cases hm with ⟨e, -⟩ | ⟨-, s3, ev, h3, h4, h5, rfl⟩
    · exact absurd rfl e
    intro hs
    have i0 := hs.reqs
    have i1 := hs.books
    obtain ⟨b1, e1, l1⟩ := hl hs
    obtain ⟨r', hd'⟩ := hcm.claim r receiver
    have hfresh : s0.req.get none k = none := by
      cases hr : s0.req.get none k with
      | none => rfl
      | some q => have := (i0.open_ k q hr).2; omega
    have hreq3 : s3.req = s0.req := h3.req.trans hreq
    have hb : Base s' := by
      subst h
      refine ⟨h3.bmc b1.bmc, ?_, ?_, ?_, ?_⟩
      · show 0 ≤ s3.nsn; rw [h3.nsn, hnsn]; have := i0.pos; omega
      · intro j q hq
        have hq : FM.get none (s3.req.set k (some ⟨net, who, r⟩)) j = some q := hq
        show 1 ≤ j ∧ j ≤ s3.nsn
        have hp := i0.pos
        rw [h3.nsn, hnsn]
        rw [FM.get_set] at hq
        split at hq
        · omega
        · rw [hreq3] at hq
          have := i0.open_ j q hq
          omega
      · intro p hp
        have hp : p ∈ s0.settle := by rw [← hsettle, ← h3.settle]; exact hp
        have := i0.done p hp
        show 1 ≤ p.1 ∧ p.1 ≤ s3.nsn ∧ FM.get none (s3.req.set k (some ⟨net, who, r⟩)) p.1 = none
        rw [h3.nsn, hnsn, FM.get_set, if_neg (by omega), hreq3]
        exact ⟨this.1, by omega, this.2.2⟩
      · show (s3.settle.map _).Nodup
        rw [h3.settle, hsettle]; exact i0.once
    have hbreq : (books s').req = (bookReqs s0.req).set k ⟨k, net, who, r⟩ := by
      subst h
      show bookReqs (s3.req.set k _) = _
      rw [bookReqs_set, hreq3]; rfl
    have hbn : (books s').nsn = s0.nsn + 1 := by subst h; show s3.nsn = _; rw [h3.nsn, hnsn]
    have hblog : (books s').log = (books s0).log ++ [.message "" 0 (tr m)] := by
      subst h
      show bookLog (s3.log ++ [ev]) = bookLog s0.log ++ _
      rw [bookLog_append, h4, hlog]
      congr 1
      show (sentEv ev ++ []).map _ = _
      rw [h5]; rfl
    have hbset : (books s').settled = (books s0).settled := by subst h; exact h3.settled.trans hsettled
    have hbcred : (books s').credited = (books s0).credited := by subst h; exact h3.credited.trans hcred
    have hbacc : ∀ n, (books s').inflow n + cur c.net ((books s0).coins + (books s0).credited) n =
        (books s0).inflow n + cur c.net ((books s').coins + (books s').credited) n := by
      intro n
      have h6 := l1.acc n
      have h7 : (books s').inflow = (books s1).inflow := by subst h; exact h3.inflow
      have h8 : (books s').coins = (books s1).coins := by subst h; exact h3.coins
      have h9 : (books s').credited = (books s1).credited := by subst h; exact h3.credited
      rw [h7, h8, h9]
      exact h6
    have hq : reqOf nets (upd σ c.net (books s')) (tr m).src (tr m).nsn = ⟨k, net, who, r⟩ := by
      unfold reqOf
      rw [if_pos (by show m.src ∈ nets; rw [hsrc]; exact hcm.mem), show (tr m).src = c.net from hsrc, SolNet.upd_same, hbreq,
        show (tr m).nsn = k by rw [hk]; exact hmnsn, FM.get_set, if_pos rfl]
    have hpos := i0.pos
    have e2 : (tr m).sn = s0.nsn + 1 := hmsn
    have e3 : (tr m).nsn = s0.nsn + 1 := hmnsn
    have e4 : (tr m).body = c.encInner (.claim r receiver) := hbody
    refine ⟨hb, [.message "" 0 (tr m)], hblog, hbacc, ⟨by rw [hbn]; show s0.nsn ≤ _; omega, fun j hj => ?_⟩, fun m' hm' => ?_, fun N => ?_, fun _ => hb.books⟩
    · rw [hbreq, FM.get_set, if_neg (by have : j ≤ s0.nsn := hj; omega)]; exact .inl rfl
    · obtain rfl := List.mem_singleton.1 (show m' ∈ [tr m] from hm')
      show Good nets dec (upd σ c.net (books s')) (tr m)
      refine ⟨fun _ _ => ⟨r, r', by rw [e4, hd'], fun _ => ⟨?_, .inr ?_⟩⟩, fun _ e => by omega, fun _ e => by omega⟩
      · rw [show (tr m).src = c.net from hsrc, SolNet.upd_same, e3, hbn]; exact Int.le_refl _
      · rw [hq, show (tr m).dst = net from hdst]; exact ⟨rfl, rfl⟩
    · have e : msgsOf [SolBmc.Event.message "" 0 (tr m)] = [tr m] := rfl
      rw [e, SolNet.toks_single]
      show cur c.net (books s').credited N + tok nets dec (upd σ c.net (books s')) N (tr m) + ps (books s0) N ≤ cur c.net (books s0).credited N + 0 + ps (books s') N
      have ht : tok nets dec (upd σ c.net (books s')) N (tr m) = cur net r N := by
        unfold tok
        rw [if_neg (by show ¬ m.svc ≠ "bmc"; rw [hsvc]; exact fun h => h rfl), if_neg (by omega), e4, hd']
        dsimp only
        rw [show (tr m).dst = net from hdst]
      rw [ht, hbcred]
      have h6 := SolNet.pending_set (books s0) k ⟨k, net, who, r⟩ N
      have h7 : (books s0).req.get SolBmc.Req.empty k = SolBmc.Req.empty := by
        show (bookReqs s0.req).get _ k = _
        rw [bookReqs_get, hfresh]; rfl
      have e0 : cur SolBmc.Req.empty.dst SolBmc.Req.empty.amount N = 0 := SolBmc.cur_zero _ _
      rw [h7] at h6
      have h8 : SolBmc.pending (books s') N = FM.total (fun (_ : Int) (q : SolBmc.Req) => cur q.dst q.amount N) ((books s0).req.set k ⟨k, net, who, r⟩) := by
        unfold SolBmc.pending; rw [hbreq]; rfl
      unfold ps
      rw [h8, hbset]
      dsimp only at h6
      omega

theorem addLink_loc {c : Cfg} (hcm : JCommon nets dec c) (σ : String → SolBmc.St) {env : Env} {s s' : St} {link : String}
    (h : addLink c env s link = some s') : JLoc nets dec σ c.net s s' zero zero := by
  unfold addLink at h
  split at h
  · cases h
  split at h
  · cases h
  split at h
  · cases h
  split at h
  · cases h
  rename_i s1 h1
  simp only at h
  split at h
  · cases h
  rename_i s3 h3
  cases h
  refine (propagate_loc σ (hcm.link _) _ h1).trans0 (JLoc.trans0 ?_ (sendInternal_loc h3 σ (hcm.initial _)))
  apply JSame.loc
  refine ⟨id, ?_, rfl, rfl, rfl, rfl, rfl, rfl, rfl⟩
  show sentBy (s1.log ++ [.start link]) = _
  rw [sentBy_append]; exact List.append_nil _

theorem removeLink_loc {c : Cfg} (hcm : JCommon nets dec c) (σ : String → SolBmc.St) {env : Env} {s s' : St} {link : String}
    (h : removeLink c env s link = some s') : JLoc nets dec σ c.net s s' zero zero := by
  unfold removeLink at h
  split at h
  · cases h
  split at h
  · cases h
  split at h
  · cases h
  split at h
  · cases h
  simp only at h
  refine JLoc.trans0 (JSame.loc ?_ σ c.net) (propagate_loc σ (hcm.unlink _) _ h)
  unfold unbind
  split <;> exact ⟨id, rfl, rfl, rfl, rfl, rfl, rfl, rfl, rfl⟩

theorem setBTPLink_same {s s' : St} {link : String} {id off : Nat} (h : setBTPLink s link id off = some s') : JSame s s' := by
  unfold setBTPLink at h
  split at h
  · cases h
  split at h
  · cases h
  simp only [Option.some.injEq] at h
  subst h
  exact ⟨fun h => h, by show sentBy (s.log ++ _) = _; rw [sentBy_append]; exact List.append_nil _, rfl, rfl, rfl, rfl, rfl, rfl, rfl⟩

theorem setFees_same {c : Cfg} : ∀ (l : List (String × List Nat)) {s s' : St}, setFees c s l = some s' → JSame s s'
  | [], s, s', h => by simp only [setFees, Option.some.injEq] at h; subst h; exact JSame.refl s
  | (d, v) :: t, s, s', h => by
    simp only [setFees] at h
    have h1 : ∀ x, JSame s { s with fees := SolBmc.upd s.fees d x } := fun _ => ⟨id, rfl, rfl, rfl, rfl, rfl, rfl, rfl, rfl⟩
    split at h
    · exact (h1 _).trans (setFees_same t h)
    · split at h
      · cases h
      · split at h
        · cases h
        · split at h
          · cases h
          · exact (h1 _).trans (setFees_same t h)

theorem services_same {s : St} {svc : String} {a : Option Nat} (h : svc = "bmc" → a = none) : JSame s { s with services := SolBmc.upd s.services svc a } := by
  refine ⟨fun hb => ?_, rfl, rfl, rfl, rfl, rfl, rfl, rfl, rfl⟩
  show (if "bmc" = svc then a else s.services "bmc") = none
  split
  · rename_i e; exact h e.symm
  · exact hb

theorem conf_loc {c : Cfg} (hcm : JCommon nets dec c) (σ : String → SolBmc.St) {env : Env} {s s' : St} {caller : Nat} {k : Conf}
    (h : conf c env s caller k = some s') : JLoc nets dec σ c.net s s' zero zero := by
  have hown : ∀ (x : Option JavaOwners.St), x.map (fun o => { s with own := o }) = some s' → JLoc nets dec σ c.net s s' zero zero := by
    intro x hx
    cases x with
    | none => cases hx
    | some o => cases hx; (apply JSame.loc; exact ⟨id, rfl, rfl, rfl, rfl, rfl, rfl, rfl, rfl⟩)
  unfold conf at h
  split at h
  · exact hown _ h
  · exact hown _ h
  · exact hown _ h
  · split at h
    · cases h
    · split at h
      · split at h
        · cases h
        · cases h; (apply JSame.loc; exact ⟨id, rfl, rfl, rfl, rfl, rfl, rfl, rfl, rfl⟩)
      · split at h
        · cases h
        · cases h; (apply JSame.loc; exact ⟨id, rfl, rfl, rfl, rfl, rfl, rfl, rfl, rfl⟩)
      · split at h
        · cases h
        · rename_i hn
          cases h
          exact (services_same (fun e => absurd (.inr (.inr e)) hn)).loc σ c.net
      · split at h
        · cases h
        · cases h; exact (services_same (fun _ => rfl)).loc σ c.net
      · exact addLink_loc hcm σ h
      · exact removeLink_loc hcm σ h
      · split at h
        · cases h
        · cases h; (apply JSame.loc; exact ⟨id, rfl, rfl, rfl, rfl, rfl, rfl, rfl, rfl⟩)
      · split at h
        · cases h
        · cases h; (apply JSame.loc; exact ⟨id, rfl, rfl, rfl, rfl, rfl, rfl, rfl, rfl⟩)
      · exact (setFees_same _ h).loc σ c.net
      · cases h; (apply JSame.loc; exact ⟨id, rfl, rfl, rfl, rfl, rfl, rfl, rfl, rfl⟩)
      · split at h
        · cases h
        · cases h; (apply JSame.loc; exact ⟨id, rfl, rfl, rfl, rfl, rfl, rfl, rfl, rfl⟩)
      · rename_i link a _ _ _
        split at h
        · cases h
        · cases hx : eraseRelay (s.relays link) a with
          | none => rw [hx] at h; cases h
          | some l => rw [hx] at h; cases h; (apply JSame.loc; exact ⟨id, rfl, rfl, rfl, rfl, rfl, rfl, rfl, rfl⟩)
      · split at h
        · cases h
        · rename_i s1 h1
          exact ((setBTPLink_same h1).loc σ c.net).trans0 (addLink_loc hcm σ h)
      · split at h
        · cases h
        · exact (setBTPLink_same h).loc σ c.net
      · cases h

mutual
theorem quiet_loc {c : Cfg} (hcm : JCommon nets dec c) (σ : String → SolBmc.St) (o : Op) (s s' : St) (hq : o.quiet = true)
    (h : exec c o s = some s') : JLoc nets dec σ c.net s s' zero zero := by
  cases o with
  | relay caller prev items => simp [Op.quiet] at hq
  | send env caller value to svc sn body => simp only [exec] at h; exact sendMessage_loc h σ
  | claim env acts caller value net receiver =>
    simp only [exec] at h
    simp only [Op.quiet] at hq
    exact claim_loc hcm σ (fun x => quietOps_loc hcm σ acts x hq) h
  | drop env caller src seq svc sn nsn fn fv => simp [Op.quiet] at hq
  | conf env caller k => simp only [exec] at h; exact conf_loc hcm σ h
theorem quietOps_loc {c : Cfg} (hcm : JCommon nets dec c) (σ : String → SolBmc.St) (acts : Ops) (s : St) (hq : acts.quiet = true) :
    JLoc nets dec σ c.net s (execOps c acts s) zero zero := by
  cases acts with
  | nil => simp only [execOps]; exact (JSame.refl s).loc σ c.net
  | cons o t =>
    simp only [execOps]
    simp only [Ops.quiet, Bool.and_eq_true] at hq
    refine JLoc.trans0 ?_ (quietOps_loc hcm σ t _ hq.2)
    cases h : exec c o s with
    | none => exact (JSame.refl s).loc σ c.net
    | some s1 => exact quiet_loc hcm σ o s s1 hq.1 h
end

theorem items_loc {c : Cfg} (hcm : JCommon nets dec c) (σ : String → SolBmc.St) (caller : Nat) (prev : String) (gen : Nat) : ∀ (items : Items)
    (seq : Nat) (s : St), items.flat = true → (∀ m ∈ items.msgs, Good nets dec (upd σ c.net (books s)) (tr m)) →
    JLoc nets dec σ c.net s (execItems c items caller prev gen seq s) (feesOf (items.msgs.map tr))
      (fun N => toks nets dec (upd σ c.net (books s)) N (items.msgs.map tr))
  | .nil, seq, s, _, _ => by simp only [execItems, Items.msgs]; exact (JSame.refl s).loc σ c.net
  | .cons m env out acts t, seq, s, hq, hg => by
    simp only [Items.flat, Bool.and_eq_true] at hq
    simp only [execItems, Items.msgs]
    have hg2 : ∀ x ∈ t.msgs, Good nets dec (upd σ c.net (books s)) (tr x) := fun x hx => hg x (List.mem_cons_of_mem _ hx)
    have h1 := item_loc hcm σ (env := env) (out := out) (fun x => quietOps_loc hcm σ acts x hq.1) caller prev gen seq s m (hg m (List.mem_cons_self ..))
    intro hs
    obtain ⟨b1, e1, l1⟩ := h1 hs
    obtain ⟨b2, e2, l2⟩ := items_loc hcm σ caller prev gen t (seq + 1) _ hq.2 (fun x hx => (hg2 x hx).mono l1.mono) b1
    refine ⟨b2, _, (l1.trans l2).weaken (fun n => ?_) (fun N => ?_)⟩
    · unfold feesOf; rw [List.map_cons, List.map_cons, List.sum_cons, fee_tr]
    · have := SolNet.toks_mono l1.mono N (t.msgs.map tr) (fun x hx => by
        obtain ⟨y, hy, rfl⟩ := List.mem_map.1 hx; exact hg2 y hy)
      unfold toks at this ⊢
      rw [List.map_cons, List.map_cons, List.sum_cons]
      exact Nat.add_le_add_left this _

theorem relay_loc {c : Cfg} (hcm : JCommon nets dec c) (σ : String → SolBmc.St) {caller : Nat} {prev : String} {items : Items} (hq : items.flat = true) {s s' : St}
    (h : exec c (.relay caller prev items) s = some s') (hg : ∀ m ∈ items.msgs, Good nets dec (upd σ c.net (books s)) (tr m)) :
    JLoc nets dec σ c.net s s' (feesOf (items.msgs.map tr)) (fun N => toks nets dec (upd σ c.net (books s)) N (items.msgs.map tr)) := by
  simp only [exec] at h
  split at h
  · cases h
  rename_i l s1 h1
  simp only [Option.some.injEq] at h
  subst h
  have h0 : JSame s s1 := by
    unfold openRelay at h1
    split at h1
    · cases h1
    · split at h1
      · cases h1
      · split at h1
        · simp only [Option.some.injEq, Prod.mk.injEq] at h1
          rw [← h1.2]
          rename_i l' _ _ _ _ _
          have := putLink_same c s { l' with rx := l'.rx + items.msgs.length }
          exact this.trans ⟨id, rfl, rfl, rfl, rfl, rfl, rfl, rfl, rfl⟩
        · cases h1
  intro hs
  have hm := (h0.same.loc (nets := nets) (dec := dec) σ (shell c.net)).mono
  obtain ⟨b1, e1, l1⟩ := items_loc hcm σ caller prev l.gen items (l.rx + 1) s1 hq (fun m hm' => (hg m hm').mono hm) (h0.base hs)
  refine ⟨b1, _, ((h0.same.loc σ (shell c.net)).trans l1).weaken (fun n => by show 0 + _ = _; omega) (fun N => ?_)⟩
  have := SolNet.toks_mono hm N (items.msgs.map tr) (fun x hx => by obtain ⟨y, hy, rfl⟩ := List.mem_map.1 hx; exact hg y hy)
  show 0 + _ ≤ _
  rw [Nat.zero_add]
  exact this

/-- An owner gives up a message that is under way, and tells its fee. -/
theorem drop_loc {c : Cfg} (σ : String → SolBmc.St) {env : Env} {caller seq : Nat} {m : Msg} {fn : String} {fv : List Nat}
    (hf : ∀ n, JavaBmc.feeOf (dropFee fn fv) n = JavaBmc.feeOf m.fee n) {s s' : St}
    (h : exec c (.drop env caller m.src seq m.svc m.sn m.nsn fn fv) s = some s') (g : Good nets dec (upd σ c.net (books s)) (tr m)) :
    JLoc nets dec σ c.net s s' (feesOf [tr m]) (fun N => tok nets dec (upd σ c.net (books s)) N (tr m)) := by
  simp only [exec] at h
  unfold dropMessage at h
  split at h
  · cases h
  split at h
  · cases h
  rename_i prev hr
  split at h
  · cases h
  rename_i l hl
  split at h
  · cases h
  split at h
  · cases h
  split at h
  · cases h
  dsimp only at h
  have h0 : JSame s { putLink c s { l with rx := seq } with
      taken := SolBmc.upd (putLink c s { l with rx := seq }).taken l.gen seq
      disp := (putLink c s { l with rx := seq }).disp ++ [(l.gen, seq, none)] } :=
    (putLink_same c s { l with rx := seq }).trans ⟨id, rfl, rfl, rfl, rfl, rfl, rfl, rfl, rfl⟩
  generalize ({ putLink c s { l with rx := seq } with
      taken := SolBmc.upd (putLink c s { l with rx := seq }).taken l.gen seq
      disp := (putLink c s { l with rx := seq }).disp ++ [(l.gen, seq, none)] } : St) = s1 at h h0
  have h1 := ((h0.loc (nets := nets) (dec := dec) σ c.net).trans (inFee_loc σ c.net s1 (dropFee fn fv))).trans
    ((accumulate_same (inFee s1 (dropFee fn fv)) c.addr (dropFee fn fv)).loc σ c.net)
  generalize accumulate (inFee s1 (dropFee fn fv)) c.addr (dropFee fn fv) = q at h h1
  obtain ⟨s2, f⟩ := q
  dsimp only at h h1
  have h2 := h1.weaken (y := feesOf [tr m]) (u := zero) (fun n => by
    show 0 + JavaBmc.feeOf (dropFee fn fv) n + 0 = ([tr m].map _).sum
    rw [hf n]
    simp [fee_tr]) (fun _ => Nat.le_refl _)
  refine h2.after g (fun g1 => ?_)
  split at h
  · rename_i hp
    split at h
    · rename_i s3 hs
      simp only [Option.some.injEq] at h
      subst h
      exact sendError_loc hs hp σ g1 rfl rfl rfl rfl
    · cases h
  · rename_i hp
    simp only [Option.some.injEq] at h
    subst h
    exact (((lostFee_same s2 f).trans (drop_same _ _ _ _)).loc σ c.net).more

end Verif.MixNet
