import Verif.NcsFail
/-!
The native coin service on the message center of ICON (C176): the two models, JavaBmc and Ncs, joined on two chains.

* A node is a message center and the service on it. The message center hands a message to the service as in JavaBmc `item`; the service
  sends by calling the message center (NativeCoinService.java:296-305), without coins for fees, and an exception there undoes the call.
* On the way between the two chains are the messages of the service that the message centers sent; each is handed to the message center
  at the other end once (C41, C42, C162). Nothing else is asked of the message centers: between the steps they may change in any way.
* A request may also fail on the way, on a chain between; then an error made there goes back.
* Not covered, see C174: answers that fail on the way, and errors for which the link back is closed. As in `Verif.NcsSys` the
  services send to each other only.
-/
namespace Verif.NcsEnd
open Verif Verif.JavaBmc Verif.MixNet

/-- A chain: what is fixed of its message center and its service, the address and name of the service at the message center, how messages
are written and read (NCSMessage, TransferRequest, TransferResponse), and the two forms of a network name. -/
structure Node where
  c : JavaBmc.Cfg
  n : Ncs.Cfg
  addr : Nat
  svc : String
  enc : Ncs.Msg → Bytes
  dec : Bytes → Ncs.Msg
  str : Bytes → String
  net : String → Bytes

/-- The state of a node. -/
structure J where
  b : JavaBmc.St
  x : Ncs.S

/-- NativeCoinService.java:296-305 `sendMessage`, for all messages of a call. -/
def sendAll (nd : Node) (env : Env) : List Ncs.Out → St → Option St
  | [], s => some s
  | o :: t, s => (sendMessage nd.c env s nd.addr 0 (nd.str o.net) nd.svc o.sn (nd.enc o.msg)).bind (sendAll nd env t)

/-- How a message between message centers is read as a packet of `Verif.NcsSys`: BTPMessageCenter.java:586-637. -/
def pktOf (nd : Node) (m : JavaBmc.Msg) : Ncs.Pkt := if 0 ≤ m.sn then .msg m.sn (nd.dec m.body) else .err (-m.sn)

/-- BTPMessageCenter.java:596-612, 619-637: the call of the service. -/
def handle (nd : Node) (x : Ncs.S) (m : JavaBmc.Msg) : Option (Ncs.S × List Ncs.Out) :=
  if 0 ≤ m.sn then Ncs.handleMessage nd.n x nd.n.bmc (nd.net m.src) m.sn (nd.dec m.body)
  else (Ncs.handleError nd.n x nd.n.bmc (-m.sn)).map fun x' => (x', [])

/-- The message center when it calls the service (see JavaBmc `item`, `handleMessage`). -/
def before (c : JavaBmc.Cfg) (caller gen seq : Nat) (s : St) (m0 : JavaBmc.Msg) : St :=
  let s := inFee s m0.fee
  let s := { s with disp := s.disp ++ [(gen, seq, some m0)] }
  let p := accumulate s caller m0.fee
  if m0.sn ≥ 0 then storeFee c p.1 { m0 with fee := p.2 } else collect c p.1 p.2

/-- BTPMessageCenter.java:540-582: one message for the service; an exception of the service, also one from the message center when the
service answers, undoes what the service did. `code` is the code of the exception. -/
def take (nd : Node) (env : Env) (code caller : Nat) (prev : String) (gen seq : Nat) (j : J) (m : JavaBmc.Msg) : J :=
  match handle nd j.x m with
  | none => ⟨item nd.c env (some code) id caller prev gen seq j.b m, j.x⟩
  | some (x', outs) =>
    match sendAll nd env outs (before nd.c caller gen seq j.b m) with
    | none => ⟨item nd.c env (some code) id caller prev gen seq j.b m, j.x⟩
    | some s' => ⟨item nd.c env none (fun _ => s') caller prev gen seq j.b m, x'⟩

/-- Two chains and the messages of the service on the way. -/
structure Two where
  a : J
  b : J
  ab : List JavaBmc.Msg
  ba : List JavaBmc.Msg

def Two.swap (y : Two) : Two := ⟨y.b, y.a, y.ba, y.ab⟩

/-- A step in which the chain A calls or the chain B receives. -/
inductive Half (A B : Node) : Two → Two → Prop where
  /-- A call at A, not by the message center; it fails, and is no step, if the message center does not take what it sends. -/
  | user (y : Two) (env : Env) (o : Ncs.Op) (x' : Ncs.S) (outs : List Ncs.Out) (s' : St) (evs : List Event) :
      Ncs.userOp A.n o = true → Ncs.step A.n y.a.x o = some (x', outs) → sendAll A env outs y.a.b = some s' → s'.log = y.a.b.log ++ evs →
      Half A B y ⟨⟨s', x'⟩, y.b, y.ab ++ sentBy evs, y.ba⟩
  /-- A message arrives at B, where the service is registered; errors that B makes for requests are taken by the link back. -/
  | arrive (y : Two) (i : Nat) (m : JavaBmc.Msg) (env : Env) (code caller a : Nat) (prev : String) (gen seq : Nat) (evs : List Event) :
      y.ab[i]? = some m → y.b.b.services B.svc = some a →
      (take B env code caller prev gen seq y.b m).b.log = y.b.b.log ++ evs → (∀ x, Event.dropped prev seq x ∈ evs → x.sn ≤ 0) →
      Half A B y ⟨y.a, take B env code caller prev gen seq y.b m, y.ab.eraseIdx i, y.ba ++ sentBy evs⟩
  /-- A request fails on a chain between, which sends an error back. -/
  | fail (y : Two) (i : Nat) (m e : JavaBmc.Msg) (sn : Int) (f t : Bytes) (l : List Ncs.Asset) :
      y.ab[i]? = some m → pktOf B m = .msg sn (.request f t l) → 0 < sn → e.dst = m.src → e.svc = m.svc → e.sn = -sn →
      (A.c.decResp e.body).isSome = true → Half A B y ⟨y.a, y.b, y.ab.eraseIdx i, y.ba ++ [e]⟩
  /-- Anything else at the message center of A. -/
  | other (y : Two) (s' : St) : Half A B y ⟨⟨s', y.a.x⟩, y.b, y.ab, y.ba⟩

def Step (A B : Node) (y z : Two) : Prop := Half A B y z ∨ Half B A y.swap z.swap

/-- Two new chains, and all that may follow. -/
inductive Reached (A B : Node) : Two → Prop where
  | init (s t : St) (x z : Tab Bytes Int) : Ncs.at0 x A.n.self = 0 → Ncs.at0 z B.n.self = 0 → (∀ p ∈ x, 0 ≤ p.2) → (∀ p ∈ z, 0 ≤ p.2) →
      Reached A B ⟨⟨s, Ncs.init x⟩, ⟨t, Ncs.init z⟩, [], []⟩
  | step {y z : Two} : Reached A B y → Step A B y z → Reached A B z

/-- The messages that the services send. -/
def Written : Ncs.Msg → Prop
  | .request _ _ _ => True
  | .response _ => True
  | _ => False

/-- What is assumed of the two chains: that of C98, one name for the service, names of networks in their two forms, and that each reads
what the other wrote (C153 for the classes, C139 for the responses of the message center). -/
structure Setup (A B : Node) (n : Ncs.Net) : Prop where
  ok : n.Ok
  nA : A.n = n.A
  nB : B.n = n.B
  svc : A.svc = B.svc
  bmc : A.svc ≠ "bmc"
  strA : A.str n.netB = B.c.net
  strB : B.str n.netA = A.c.net
  netA : B.net A.c.net = n.netA
  netB : A.net B.c.net = n.netB
  codeA : ∀ q, Written q → B.dec (A.enc q) = q
  codeB : ∀ q, Written q → A.dec (B.enc q) = q
  respA : ∀ k, (B.c.decResp (A.c.encResp k)).isSome = true
  respB : ∀ k, (A.c.decResp (B.c.encResp k)).isSome = true

theorem Setup.swap {A B : Node} {n : Ncs.Net} (h : Setup A B n) : Setup B A n.swap :=
  ⟨h.ok.swap, h.nB, h.nA, h.svc.symm, h.svc ▸ h.bmc, h.strB, h.strA, h.netB, h.netA, h.codeB, h.codeA, h.respB, h.respA⟩

/-! ### What the message center does -/

theorem before_quiet (c : JavaBmc.Cfg) (caller gen seq : Nat) (s : St) (m : JavaBmc.Msg) :
    (before c caller gen seq s m).log = s.log ∧ (before c caller gen seq s m).services = s.services := by
  unfold before
  dsimp only
  have h1 := inFee_calm s m.fee
  have h2 := accumulate_calm { inFee s m.fee with disp := (inFee s m.fee).disp ++ [(gen, seq, some m)] } caller m.fee
  by_cases q : m.sn ≥ 0
  · rw [if_pos q]
    obtain ⟨e1, e2⟩ := storeFee_quiet c (accumulate { inFee s m.fee with disp := (inFee s m.fee).disp ++ [(gen, seq, some m)] } caller m.fee).1
      { m with fee := (accumulate { inFee s m.fee with disp := (inFee s m.fee).disp ++ [(gen, seq, some m)] } caller m.fee).2 }
    exact ⟨by rw [e2, h2.log]; exact h1.log, by rw [e1, h2.services]; exact h1.services⟩
  · rw [if_neg q]
    have h3 := collect_calm c (accumulate { inFee s m.fee with disp := (inFee s m.fee).disp ++ [(gen, seq, some m)] } caller m.fee).1
      (accumulate { inFee s m.fee with disp := (inFee s m.fee).disp ++ [(gen, seq, some m)] } caller m.fee).2
    exact ⟨by rw [h3.log, h2.log]; exact h1.log, by rw [h3.services, h2.services]; exact h1.services⟩

/-- A message for a registered service that takes it. -/
theorem item_ok (c : JavaBmc.Cfg) (env : Env) (caller : Nat) (prev : String) (gen seq : Nat) (s s' : St) (m : JavaBmc.Msg) (a : Nat)
    (hd : m.dst = c.net) (hv : m.svc ≠ "bmc") (hr : s.services m.svc = some a) (hx : m.sn < 0 → (c.decResp m.body).isSome = true) :
    item c env none (fun _ => s') caller prev gen seq s m = s' := by
  have hb := (before_quiet c caller gen seq s m).2
  unfold before at hb
  dsimp only at hb
  unfold item JavaBmc.deliver JavaBmc.handleMessage
  dsimp only
  rw [if_pos hd]
  by_cases q : m.sn ≥ 0
  · rw [if_pos q] at hb
    rw [if_pos q, if_neg hv, hb, hr]
  · rw [if_neg q] at hb
    obtain ⟨k, hk⟩ := Option.isSome_iff_exists.mp (hx (by omega))
    rw [if_neg q, hk]
    dsimp only
    rw [if_neg hv, hb, hr]

/-- A message for a registered service that throws: an error goes back if the number is positive. -/
theorem item_err (c : JavaBmc.Cfg) (env : Env) (code : Nat) (caller : Nat) (prev : String) (gen seq : Nat) (s : St) (m : JavaBmc.Msg) (a : Nat)
    (hd : m.dst = c.net) (hv : m.svc ≠ "bmc") (hr : s.services m.svc = some a) (hx : m.sn < 0 → (c.decResp m.body).isSome = true)
    (evs : List Event) (he : (item c env (some code) id caller prev gen seq s m).log = s.log ++ evs)
    (hn : ∀ x, Event.dropped prev seq x ∈ evs → x.sn ≤ 0) :
    (0 < m.sn ∧ ∃ x k, sentBy evs = [x] ∧ x.dst = m.src ∧ x.svc = m.svc ∧ x.sn = -m.sn ∧ x.body = c.encResp k) ∨ (m.sn ≤ 0 ∧ sentBy evs = []) := by
  obtain ⟨hl, hb⟩ := before_quiet c caller gen seq s m
  unfold before at hb hl
  dsimp only at hb hl
  unfold item JavaBmc.deliver JavaBmc.handleMessage at he
  dsimp only at he
  rw [if_pos hd] at he
  -- the state in which the failure is handled has the same log
  have go : ∀ (s2 : St) (m2 : JavaBmc.Msg), m2.src = m.src → m2.svc = m.svc → m2.sn = m.sn → s2.log = s.log →
      (failed c env prev seq s2 m2 ⟨true, code⟩).log = s.log ++ evs →
      (0 < m.sn ∧ ∃ x k, sentBy evs = [x] ∧ x.dst = m.src ∧ x.svc = m.svc ∧ x.sn = -m.sn ∧ x.body = c.encResp k) ∨ (m.sn ≤ 0 ∧ sentBy evs = []) := by
    intro s2 m2 e1 e2 e3 e4 e5
    by_cases p : 0 < m.sn
    · rcases C174_center_answers c env prev seq s2 m2 ⟨true, code⟩ (by rw [e3]; exact p) with ⟨ev, h1, x, h2, h3, h4, h5, h6, h7, h8⟩ | ⟨x, h1, h2⟩
      · rw [e5, e4] at h1
        have h1 := List.append_cancel_left h1
        refine .inl ⟨p, x, _, ?_, by rw [h4, e1], by rw [h5, e2], by rw [h6, e3], h8⟩
        rw [h1]
        simp [sentBy, h2]
      · rw [e5, e4] at h1
        have h1 := List.append_cancel_left h1
        have := hn x (by rw [h1]; exact List.mem_cons_self)
        omega
    · have h1 := C174_center_gives_up c env prev seq s2 m2 ⟨true, code⟩ (by rw [e3]; omega)
      rw [e5, e4] at h1
      have h1 := List.append_cancel_left h1
      exact .inr ⟨by omega, by rw [h1]; rfl⟩
  by_cases q : m.sn ≥ 0
  · rw [if_pos q] at hb hl
    rw [if_pos q, if_neg hv, hb, hr] at he
    dsimp only at he
    refine go _ _ ?_ ?_ ?_ ?_ he
    · rfl
    · rfl
    · rfl
    · rw [unstoreFee_quiet]; exact hl
  · rw [if_neg q] at hb hl
    obtain ⟨k, hk⟩ := Option.isSome_iff_exists.mp (hx (by omega))
    rw [if_neg q, hk] at he
    dsimp only at he
    rw [if_neg hv, hb, hr] at he
    dsimp only at he
    refine go _ _ ?_ ?_ ?_ ?_ he
    · rfl
    · rfl
    · rfl
    · exact hl

/-- `sendMessage` of a service with a positive number. -/
theorem send_one {c : JavaBmc.Cfg} {env : Env} {s s' : St} {caller value : Nat} {to svc : String} {sn : Int} {body : Bytes} (hp : 0 < sn)
    (h : sendMessage c env s caller value to svc sn body = some s') :
    ∃ ev x, s'.log = s.log ++ [ev] ∧ sentEv ev = [x] ∧ x.src = c.net ∧ x.dst = to ∧ x.svc = svc ∧ x.sn = sn ∧ x.body = body := by
  unfold sendMessage at h
  split at h
  · cases h
  split at h
  · cases h
  split at h
  · cases h
  rename_i k s1 hs
  simp only [Option.some.injEq] at h
  subst h
  rw [if_neg (by omega : ¬ sn < 0)] at hs
  unfold sendWithFee at hs
  split at hs
  · cases hs
  rw [show decide (sn < 0) = false from decide_eq_false (by omega)] at hs
  simp only [Bool.false_eq_true, if_false] at hs
  unfold JavaBmc.sendRequest at hs
  dsimp only at hs
  split at hs
  · cases hs
  split at hs
  · cases hs
  rename_i s3 h3
  simp only [Prod.mk.injEq] at hs
  obtain ⟨-, rfl⟩ := hs
  rcases sendMsg_out h3 with ⟨h1, _⟩ | ⟨_, _, _, _, ev, k, h4, _, h6⟩
  · exact absurd rfl h1
  · refine ⟨ev, _, ?_, h6, rfl, rfl, rfl, rfl, rfl⟩
    rw [h4, ((addIn_calm { s with nsn := s.nsn + 1, coins := s.coins + value } c.net value).trans (addReward_calm _ c.addr c.net
      (value - (feeList { s with nsn := s.nsn + 1 } to (decide (sn > 0))).sum))).log]

/-- What the service sends, as the message center sends it. -/
theorem sendAll_out (nd : Node) (env : Env) (outs : List Ncs.Out) (hp : ∀ o ∈ outs, 0 < o.sn) (s s' : St) (h : sendAll nd env outs s = some s')
    (evs : List Event) (he : s'.log = s.log ++ evs) :
    (sentBy evs).map (fun x => (x.src, x.dst, x.svc, x.sn, x.body)) = outs.map fun o => (nd.c.net, nd.str o.net, nd.svc, o.sn, nd.enc o.msg) := by
  induction outs generalizing s evs with
  | nil =>
    cases h
    have : evs = [] := by
      have := congrArg List.length he
      simp at this
      exact this
    subst this
    rfl
  | cons o t ih =>
    obtain ⟨s1, h1, h2⟩ := Option.bind_eq_some_iff.mp h
    obtain ⟨ev, x, e1, e2, e3, e4, e5, e6, e7⟩ := send_one (hp o List.mem_cons_self) h1
    have grow : ∀ (l : List Ncs.Out) (a b : St), (∀ o ∈ l, 0 < o.sn) → sendAll nd env l a = some b → ∃ r, b.log = a.log ++ r := by
      intro l
      induction l with
      | nil => intro a b _ hab; cases hab; exact ⟨[], by simp⟩
      | cons q l ih2 =>
        intro a b hq hab
        obtain ⟨c1, g1, g2⟩ := Option.bind_eq_some_iff.mp hab
        obtain ⟨ev', _, k1, _⟩ := send_one (hq q List.mem_cons_self) g1
        obtain ⟨r, hr⟩ := ih2 c1 b (fun o ho => hq o (List.mem_cons_of_mem _ ho)) g2
        exact ⟨ev' :: r, by rw [hr, k1, List.append_assoc]; rfl⟩
    obtain ⟨r, hr⟩ := grow t s1 s' (fun o ho => hp o (List.mem_cons_of_mem _ ho)) h2
    have hev : evs = ev :: r := by
      rw [hr, e1, List.append_assoc] at he
      exact (List.append_cancel_left he).symm
    subst hev
    have i := ih (fun o ho => hp o (List.mem_cons_of_mem _ ho)) s1 h2 r hr
    show List.map _ (sentEv ev ++ sentBy r) = _
    rw [e2, List.map_append, i]
    simp [e3, e4, e5, e6, e7]

/-! ### The services send to each other only -/

theorem sendRequest_net (cfg : Ncs.Cfg) (s : Ncs.S) (o net a : Bytes) (l : List (Bytes × Int)) (x : Ncs.S × List Ncs.Out)
    (h : Ncs.sendRequest cfg s o net a l = some x) : ∀ q ∈ x.2, cfg.sends q.net = true := by
  unfold Ncs.sendRequest at h
  obtain ⟨w, _, h2⟩ := Option.bind_eq_some_iff.mp h
  dsimp only at h2
  by_cases c : cfg.sends net = true
  · rw [if_pos c] at h2
    cases h2
    intro q hq
    rw [List.mem_singleton.mp hq]
    exact c
  · rw [if_neg c] at h2; cases h2

theorem step_net (cfg : Ncs.Cfg) (s : Ncs.S) (o : Ncs.Op) (hu : Ncs.userOp cfg o = true) (x : Ncs.S × List Ncs.Out) (h : Ncs.step cfg s o = some x) :
    ∀ q ∈ x.2, cfg.sends q.net = true := by
  have none_sent : ∀ {w : Option Ncs.S}, w.map (fun s => (s, ([] : List Ncs.Out))) = some x → ∀ q ∈ x.2, cfg.sends q.net = true := by
    intro w hw
    obtain ⟨s1, _, rfl⟩ := Option.map_eq_some_iff.mp hw
    intro q hq
    cases hq
  cases o with
  | transferNative c v n a =>
    dsimp only [Ncs.step] at h
    unfold Ncs.transferNative at h
    split at h
    · obtain ⟨w, _, h2⟩ := Option.bind_eq_some_iff.mp h
      exact sendRequest_net cfg _ _ _ _ _ x h2
    · cases h
  | transfer c coin v n a =>
    dsimp only [Ncs.step] at h
    split at h
    · cases h
    unfold Ncs.transfer at h
    split at h
    · obtain ⟨w, _, h2⟩ := Option.bind_eq_some_iff.mp h
      exact sendRequest_net cfg _ _ _ _ _ x h2
    · cases h
  | transferBatch c l v n a =>
    dsimp only [Ncs.step] at h
    unfold Ncs.transferBatch at h
    obtain ⟨w, _, h2⟩ := Option.bind_eq_some_iff.mp h
    split at h2
    · obtain ⟨w, _, h3⟩ := Option.bind_eq_some_iff.mp h2
      exact sendRequest_net cfg _ _ _ _ _ x h3
    · cases h2
  | reclaim c coin v =>
    dsimp only [Ncs.step] at h
    split at h
    · cases h
    · exact none_sent h
  | message c n sn m =>
    dsimp only [Ncs.step] at h
    unfold Ncs.handleMessage at h
    have : c ≠ cfg.bmc := by simpa [Ncs.userOp] using hu
    rw [if_neg this] at h
    cases h
  | error c sn => exact none_sent h
  | register a coin => exact none_sent h
  | setFeeRatio a v => exact none_sent h
  | coinSend frm to v =>
    dsimp only [Ncs.step] at h
    split at h
    · cases h; intro q hq; cases hq
    · cases h
  | tokenSend frm to id v =>
    dsimp only [Ncs.step] at h
    split at h
    · cases h; intro q hq; cases hq
    · cases h

/-! ### Refinement -/

/-- The two services and the packets between them. -/
def abs (A B : Node) (y : Two) : Ncs.Sys := ⟨y.a.x, y.b.x, y.ab.map (pktOf B), y.ba.map (pktOf A)⟩

/-- A message of the service on the way from A to B. -/
structure Fly (A B : Node) (m : JavaBmc.Msg) : Prop where
  dst : m.dst = B.c.net
  svc : m.svc = B.svc
  src : 0 ≤ m.sn → m.src = A.c.net
  resp : m.sn < 0 → (B.c.decResp m.body).isSome = true

structure Good (A B : Node) (y : Two) : Prop where
  ab : ∀ m ∈ y.ab, Fly A B m
  ba : ∀ m ∈ y.ba, Fly B A m

/-- What the service at A sends is read at B as what was sent. -/
theorem sent_good {A B : Node} {n : Ncs.Net} (U : Setup A B n) (outs : List Ncs.Out) (hp : ∀ o ∈ outs, 0 < o.sn) (hn : ∀ o ∈ outs, o.net = n.netB)
    (hw : ∀ o ∈ outs, Written o.msg)
    (xs : List JavaBmc.Msg)
    (h : xs.map (fun x => (x.src, x.dst, x.svc, x.sn, x.body)) = outs.map fun o => (A.c.net, A.str o.net, A.svc, o.sn, A.enc o.msg)) :
    xs.map (pktOf B) = Ncs.packets outs ∧ ∀ x ∈ xs, Fly A B x := by
  induction xs generalizing outs with
  | nil =>
    cases outs with
    | nil => exact ⟨rfl, fun x hx => by cases hx⟩
    | cons _ _ => simp at h
  | cons x xs ih =>
    cases outs with
    | nil => simp at h
    | cons o t =>
      simp only [List.map_cons, List.cons.injEq, Prod.mk.injEq] at h
      obtain ⟨⟨h1, h2, h3, h4, h5⟩, h6⟩ := h
      obtain ⟨i1, i2⟩ := ih t (fun o ho => hp o (List.mem_cons_of_mem _ ho)) (fun o ho => hn o (List.mem_cons_of_mem _ ho))
        (fun o ho => hw o (List.mem_cons_of_mem _ ho)) h6
      have ho := hp o List.mem_cons_self
      refine ⟨?_, fun y hy => ?_⟩
      · show pktOf B x :: xs.map (pktOf B) = Ncs.Pkt.msg o.sn o.msg :: Ncs.packets t
        rw [i1]
        congr 1
        unfold pktOf
        rw [if_pos (by omega), h4, h5, U.codeA _ (hw o List.mem_cons_self)]
      · rcases List.mem_cons.mp hy with hy | hy
        · subst hy
          exact ⟨by rw [h2, hn o List.mem_cons_self, U.strA], by rw [h3, U.svc], fun _ => h1, fun q => by omega⟩
        · exact i2 y hy

theorem map_eraseIdx {α β : Type} (f : α → β) (l : List α) (i : Nat) : (l.eraseIdx i).map f = (l.map f).eraseIdx i := by
  induction l generalizing i with
  | nil => rfl
  | cons a l ih =>
    cases i with
    | zero => rfl
    | succ i => simp [List.eraseIdx, ih]

/-- Each step is a step of the model of two services, or none. -/
theorem half_sim {A B : Node} {n : Ncs.Net} (U : Setup A B n) {y z : Two} (hr : Ncs.SysInv False n (abs A B y)) (g : Good A B y) (h : Half A B y z) :
    Good A B z ∧ (abs A B z = abs A B y ∨ ∃ e, abs A B z = (abs A B y).next n e) := by
  cases h with
  | other s' => exact ⟨⟨g.ab, g.ba⟩, .inl rfl⟩
  | user env o x' outs s' evs hu hs hsend hl =>
    have hs' : Ncs.step n.A (abs A B y).a o = some (x', outs) := by rw [← U.nA]; exact hs
    have e1 : Ncs.user n.A (abs A B y).a o = (x', Ncs.packets outs) := by
      unfold Ncs.user
      rw [if_pos (by rw [← U.nA]; exact hu), hs']
    have hi := Ncs.next_inv False n U.ok _ hr (.userA o) (fun x => x.elim)
    have e2 : (abs A B y).next n (.userA o) = { abs A B y with a := x', ab := (abs A B y).ab ++ Ncs.packets outs } := by
      unfold Ncs.Sys.next
      dsimp only
      rw [e1]
    rw [e2] at hi
    have hp : ∀ o ∈ outs, 0 < o.sn := by
      intro o ho
      have := hi.ab.fine (.msg o.sn o.msg) (List.mem_append_right _ (List.mem_map.mpr ⟨o, ho, rfl⟩))
      cases q : o.msg <;> rw [q] at this <;> first | exact this | exact this.elim
    have hn : ∀ o ∈ outs, o.net = n.netB := fun q hq => (U.ok.sendsA _).mp (by
      have := step_net A.n _ o hu _ hs q hq
      rw [U.nA] at this
      exact this)
    have hw : ∀ o ∈ outs, Written o.msg := by
      intro o ho
      have := hi.ab.fine (.msg o.sn o.msg) (List.mem_append_right _ (List.mem_map.mpr ⟨o, ho, rfl⟩))
      cases q : o.msg <;> rw [q] at this <;> first | exact this.elim | exact True.intro
    obtain ⟨k1, k2⟩ := sent_good U outs hp hn hw _ (sendAll_out A env outs hp _ _ hsend evs hl)
    refine ⟨⟨fun m hm => ?_, g.ba⟩, .inr ⟨.userA o, ?_⟩⟩
    · rcases List.mem_append.mp hm with hm | hm
      · exact g.ab m hm
      · exact k2 m hm
    · rw [e2]
      unfold abs
      simp only [List.map_append, k1]
  | fail i m e sn f t l hm hq hsn h1 h2 h3 h4 =>
    have fl := g.ab m (List.mem_of_getElem? hm)
    have hi : (abs A B y).ab[i]? = some (.msg sn (.request f t l)) := by
      show (y.ab.map (pktOf B))[i]? = _
      rw [List.getElem?_map, hm, ← hq]
      rfl
    have hms : 0 ≤ m.sn := by
      unfold pktOf at hq
      by_cases c : 0 ≤ m.sn
      · exact c
      · rw [if_neg c] at hq; cases hq
    refine ⟨⟨fun m hm => g.ab m (List.mem_of_mem_eraseIdx hm), fun x hx => ?_⟩, .inr ⟨.failB i, ?_⟩⟩
    · rcases List.mem_append.mp hx with hx | hx
      · exact g.ba x hx
      · rw [List.mem_singleton.mp hx]
        exact ⟨by rw [h1, fl.src hms], by rw [h2, fl.svc, U.svc], fun c => by omega, fun _ => h4⟩
    · have e2 : pktOf A e = .err sn := by
        unfold pktOf
        rw [if_neg (by omega), h3, Int.neg_neg]
      unfold Ncs.Sys.next
      simp only [hi, Option.bind_some, Ncs.refused, if_pos hsn]
      unfold abs
      simp only [List.map_append, List.map_cons, List.map_nil, e2, map_eraseIdx]
  | arrive i m env code caller a prev gen seq evs hm hreg hl hdrop =>
    have fl := g.ab m (List.mem_of_getElem? hm)
    have hi : (abs A B y).ab[i]? = some (pktOf B m) := by
      show (y.ab.map (pktOf B))[i]? = _
      rw [List.getElem?_map, hm]
      rfl
    have hfine := hr.ab.fine _ (List.mem_of_getElem? hi)
    have hbmc : m.svc ≠ "bmc" := by rw [fl.svc, ← U.svc]; exact U.bmc
    have hreg' : y.b.b.services m.svc = some a := by rw [fl.svc]; exact hreg
    have erase : ∀ m ∈ y.ab.eraseIdx i, Fly A B m := fun m hm => g.ab m (List.mem_of_mem_eraseIdx hm)
    -- it is enough to find the packets that go back and the event
    have fin : ∀ (x' : Ncs.S) (ps : List Ncs.Pkt) (e : Ncs.Ev),
        (take B env code caller prev gen seq y.b m).x = x' → (sentBy evs).map (pktOf A) = ps → (∀ x ∈ sentBy evs, Fly B A x) →
        (abs A B y).next n e = ⟨y.a.x, x', (abs A B y).ab.eraseIdx i, (abs A B y).ba ++ ps⟩ →
        Good A B ⟨y.a, take B env code caller prev gen seq y.b m, y.ab.eraseIdx i, y.ba ++ sentBy evs⟩ ∧
          (abs A B ⟨y.a, take B env code caller prev gen seq y.b m, y.ab.eraseIdx i, y.ba ++ sentBy evs⟩ = abs A B y ∨
            ∃ e, abs A B ⟨y.a, take B env code caller prev gen seq y.b m, y.ab.eraseIdx i, y.ba ++ sentBy evs⟩ = (abs A B y).next n e) := by
      intro x' ps e e1 e2 e3 e4
      refine ⟨⟨erase, fun x hx => ?_⟩, .inr ⟨e, ?_⟩⟩
      · rcases List.mem_append.mp hx with hx | hx
        · exact g.ba x hx
        · exact e3 x hx
      · rw [e4]
        unfold abs
        simp only [List.map_append, map_eraseIdx, e1, e2]
    -- an exception of the service
    have thrown : take B env code caller prev gen seq y.b m = ⟨item B.c env (some code) id caller prev gen seq y.b.b m, y.b.x⟩ →
        (sentBy evs).map (pktOf A) = (if 0 < m.sn then [.err m.sn] else []) ∧ ∀ x ∈ sentBy evs, Fly B A x := by
      intro e
      rw [e] at hl
      rcases item_err B.c env code caller prev gen seq y.b.b m a fl.dst hbmc hreg' fl.resp evs hl hdrop with ⟨p, x, k, e1, e2, e3, e4, e5⟩ | ⟨p, e1⟩
      · rw [e1, if_pos p]
        refine ⟨?_, fun z hz => ?_⟩
        · simp only [List.map_cons, List.map_nil]
          unfold pktOf
          rw [if_neg (by omega), e4, Int.neg_neg]
        · rw [List.mem_singleton.mp hz]
          exact ⟨by rw [e2, fl.src (by omega)], by rw [e3, fl.svc, U.svc], fun c => by omega, fun _ => by rw [e5]; exact U.respB k⟩
      · rw [e1, if_neg (by omega)]
        exact ⟨rfl, fun x hx => by cases hx⟩
    -- the service takes it
    have taken : ∀ (x' : Ncs.S) (outs : List Ncs.Out) (s' : St), handle B y.b.x m = some (x', outs) → (∀ o ∈ outs, 0 < o.sn ∧ o.net = n.netA ∧ Written o.msg) →
        sendAll B env outs (before B.c caller gen seq y.b.b m) = some s' →
        (take B env code caller prev gen seq y.b m).x = x' ∧ (sentBy evs).map (pktOf A) = Ncs.packets outs ∧ ∀ x ∈ sentBy evs, Fly B A x := by
      intro x' outs s' e1 e2 e3
      have e4 : take B env code caller prev gen seq y.b m = ⟨s', x'⟩ := by
        unfold take
        rw [e1]
        dsimp only
        rw [e3]
        dsimp only
        rw [item_ok B.c env caller prev gen seq y.b.b s' m a fl.dst hbmc hreg' fl.resp]
      rw [e4] at hl
      have hl' : s'.log = (before B.c caller gen seq y.b.b m).log ++ evs := by
        rw [(before_quiet B.c caller gen seq y.b.b m).1]; exact hl
      have e5 := sendAll_out B env outs (fun o ho => (e2 o ho).1) _ _ e3 evs hl'
      obtain ⟨k1, k2⟩ := sent_good U.swap outs (fun o ho => (e2 o ho).1) (fun o ho => (e2 o ho).2.1) (fun o ho => (e2 o ho).2.2) _ e5
      exact ⟨by rw [e4], k1, k2⟩
    have toB : ∀ (x' : Ncs.S) (ps : List Ncs.Pkt), Ncs.deliver n.B y.b.x n.netA (pktOf B m) = (x', ps) →
        (abs A B y).next n (.toB i) = ⟨y.a.x, x', (abs A B y).ab.eraseIdx i, (abs A B y).ba ++ ps⟩ := by
      intro x' ps e
      have e' : Ncs.deliver n.B (abs A B y).b n.netA (pktOf B m) = (x', ps) := e
      unfold Ncs.Sys.next
      simp only [hi]
      rw [e']
      rfl
    by_cases c : 0 ≤ m.sn
    · have hpk : pktOf B m = .msg m.sn (B.dec m.body) := by unfold pktOf; rw [if_pos c]
      have hh : handle B y.b.x m = Ncs.handleMessage n.B y.b.x n.B.bmc n.netA m.sn (B.dec m.body) := by
        unfold handle
        rw [if_pos c, fl.src c, U.netA, U.nB]
      have hpos : 0 < m.sn := by
        rw [hpk] at hfine
        cases q : B.dec m.body <;> rw [q] at hfine <;> first | exact hfine | exact hfine.elim
      cases hq : handle B y.b.x m with
      | none =>
        have e : take B env code caller prev gen seq y.b m = ⟨item B.c env (some code) id caller prev gen seq y.b.b m, y.b.x⟩ := by
          unfold take
          rw [hq]
        obtain ⟨t1, t2⟩ := thrown e
        refine fin y.b.x _ (.toB i) (by rw [e]) t1 t2 (toB _ _ ?_)
        rw [hpk]
        unfold Ncs.deliver
        dsimp only
        rw [← hh, hq]
      | some r =>
        obtain ⟨x', outs⟩ := r
        have ho : ∀ o ∈ outs, 0 < o.sn ∧ o.net = n.netA ∧ Written o.msg := by
          rw [hh] at hq
          unfold Ncs.handleMessage at hq
          rw [if_pos rfl] at hq
          cases hd : B.dec m.body with
          | request f t l =>
            rw [hd] at hq
            dsimp only at hq
            obtain ⟨_, _, _, e, _⟩ := Ncs.handleRequest_ok n.B y.b.x x' t l n.netA m.sn outs hr.invB.icx hr.invB.irc hq
            intro o hO
            rw [e] at hO
            rw [List.mem_singleton.mp hO]
            exact ⟨hpos, rfl, True.intro⟩
          | response k =>
            rw [hd] at hq
            dsimp only at hq
            obtain ⟨_, _, e⟩ := Option.map_eq_some_iff.mp hq
            cases e
            intro o hO
            cases hO
          | unknown => rw [hpk, hd] at hfine; exact hfine.elim
          | other => rw [hpk, hd] at hfine; exact hfine.elim
          | bad => rw [hpk, hd] at hfine; exact hfine.elim
        cases hs : sendAll B env outs (before B.c caller gen seq y.b.b m) with
        | some s' =>
          obtain ⟨t0, t1, t2⟩ := taken x' outs s' hq ho hs
          refine fin x' _ (.toB i) t0 t1 t2 (toB _ _ ?_)
          rw [hpk]
          unfold Ncs.deliver
          dsimp only
          rw [← hh, hq]
        | none =>
          have e : take B env code caller prev gen seq y.b m = ⟨item B.c env (some code) id caller prev gen seq y.b.b m, y.b.x⟩ := by
            unfold take
            rw [hq]
            dsimp only
            rw [hs]
          obtain ⟨t1, t2⟩ := thrown e
          rw [if_pos hpos] at t1
          refine fin y.b.x _ (.failB i) (by rw [e]) t1 t2 ?_
          -- only requests are answered
          cases hd : B.dec m.body with
          | request f t l =>
            unfold Ncs.Sys.next
            simp only [hi, Option.bind_some, hpk, hd, Ncs.refused, if_pos hpos]
            rfl
          | response k =>
            rw [hh, hd] at hq
            unfold Ncs.handleMessage at hq
            rw [if_pos rfl] at hq
            dsimp only at hq
            obtain ⟨_, _, e⟩ := Option.map_eq_some_iff.mp hq
            cases e
            cases hs
          | unknown => rw [hpk, hd] at hfine; exact hfine.elim
          | other => rw [hpk, hd] at hfine; exact hfine.elim
          | bad => rw [hpk, hd] at hfine; exact hfine.elim
    · have hpk : pktOf B m = .err (-m.sn) := by unfold pktOf; rw [if_neg c]
      have hh : handle B y.b.x m = (Ncs.handleError n.B y.b.x n.B.bmc (-m.sn)).map fun x' => (x', []) := by
        unfold handle
        rw [if_neg c, U.nB]
      cases hq : Ncs.handleError n.B y.b.x n.B.bmc (-m.sn) with
      | none =>
        rw [hq] at hh
        have e : take B env code caller prev gen seq y.b m = ⟨item B.c env (some code) id caller prev gen seq y.b.b m, y.b.x⟩ := by
          unfold take
          rw [hh]
          rfl
        obtain ⟨t1, t2⟩ := thrown e
        rw [if_neg (by omega)] at t1
        refine fin y.b.x _ (.toB i) (by rw [e]) t1 t2 (toB _ _ ?_)
        rw [hpk]
        unfold Ncs.deliver
        dsimp only
        rw [hq]
      | some x' =>
        rw [hq] at hh
        obtain ⟨t0, t1, t2⟩ := taken x' [] _ hh (fun o ho => by cases ho) rfl
        refine fin x' _ (.toB i) t0 t1 t2 (toB _ _ ?_)
        rw [hpk]
        unfold Ncs.deliver
        dsimp only
        rw [hq]
        rfl

/-- Events of the two chains exchanged. -/
def swapEv : Ncs.Ev → Ncs.Ev
  | .userA o => .userB o
  | .userB o => .userA o
  | .toA i => .toB i
  | .toB i => .toA i
  | .failA i => .failB i
  | .failB i => .failA i

theorem next_swap (n : Ncs.Net) (y : Ncs.Sys) (e : Ncs.Ev) : (y.swap.next n.swap e).swap = y.next n (swapEv e) := by
  cases e with
  | userA o => rfl
  | userB o => rfl
  | toA i =>
    show (match y.ab[i]? with | none => y.swap | some p => _).swap = (match y.ab[i]? with | none => y | some p => _)
    cases y.ab[i]? <;> rfl
  | toB i =>
    show (match y.ba[i]? with | none => y.swap | some p => _).swap = (match y.ba[i]? with | none => y | some p => _)
    cases y.ba[i]? <;> rfl
  | failA i =>
    show (match y.ab[i]?.bind Ncs.refused with | none => y.swap | some p => _).swap = (match y.ab[i]?.bind Ncs.refused with | none => y | some p => _)
    cases y.ab[i]?.bind Ncs.refused <;> rfl
  | failB i =>
    show (match y.ba[i]?.bind Ncs.refused with | none => y.swap | some p => _).swap = (match y.ba[i]?.bind Ncs.refused with | none => y | some p => _)
    cases y.ba[i]?.bind Ncs.refused <;> rfl

theorem reached_good {A B : Node} {n : Ncs.Net} (U : Setup A B n) {y : Two} (h : Reached A B y) :
    Good A B y ∧ Ncs.Reach n (abs A B y) := by
  induction h with
  | init s t x z h1 h2 h3 h4 =>
    refine ⟨⟨fun m hm => (by cases hm), fun m hm => (by cases hm)⟩, U.ok, x, z, [], ?_, ?_, h3, h4, rfl⟩
    · rw [← U.nA]; exact h1
    · rw [← U.nB]; exact h2
  | @step y z _ hs ih =>
    obtain ⟨g, r⟩ := ih
    -- one more event
    have more : ∀ w : Ncs.Sys, (w = abs A B y ∨ ∃ e, w = (abs A B y).next n e) → Ncs.Reach n w := by
      intro w hw
      rcases hw with hw | ⟨e, hw⟩
      · rw [hw]; exact r
      · obtain ⟨x0, z0, l, h1, h2, h3, h4, h5⟩ := r.run
        refine ⟨U.ok, x0, z0, l ++ [e], h1, h2, h3, h4, ?_⟩
        rw [Ncs.run_append, ← h5, hw]
        rfl
    rcases hs with hs | hs
    · obtain ⟨g2, e⟩ := half_sim U r.inv g hs
      exact ⟨g2, more _ e⟩
    · obtain ⟨g2, e⟩ := half_sim U.swap (y := y.swap) (z := z.swap) r.inv.swap ⟨g.ba, g.ab⟩ hs
      refine ⟨⟨g2.ba, g2.ab⟩, more _ ?_⟩
      rcases e with e | ⟨e, he⟩
      · exact .inl (congrArg Ncs.Sys.swap e)
      · refine .inr ⟨swapEv e, ?_⟩
        rw [← next_swap]
        exact congrArg Ncs.Sys.swap he

/-! ### C176 -/

/-- Two chains with message centers and services, in all histories, do what the model of two services does. -/
theorem C176_refines_partial {A B : Node} {n : Ncs.Net} (U : Setup A B n) {y : Two} (h : Reached A B y) :
    Ncs.Reach n ⟨y.a.x, y.b.x, y.ab.map (pktOf B), y.ba.map (pktOf A)⟩ := (reached_good U h).2

/-- The coins of the service at A cover, all at once, every refund and fee due there and all tokens for them at B. -/
theorem C176_backed_partial {A B : Node} {n : Ncs.Net} (U : Setup A B n) {y : Two} (h : Reached A B y) :
    Ncs.rsum y.a.x n.A.name + Ncs.at0 y.a.x.fees n.A.name + Ncs.asked n.A.name (y.ba.map (pktOf A)) ≤ Ncs.at0 y.a.x.icx n.A.self ∧
      Ncs.rsum y.b.x n.B.name + Ncs.at0 y.b.x.fees n.B.name + Ncs.asked n.B.name (y.ab.map (pktOf B)) ≤ Ncs.at0 y.b.x.icx n.B.self :=
  Ncs.C98_coins_cover_claims n _ (C176_refines_partial U h)

/-- Each pending transfer of A has exactly one message on the way: its request, or the answer or error for it. -/
theorem C176_one_message_partial {A B : Node} {n : Ncs.Net} (U : Setup A B n) {y : Two} (h : Reached A B y) (sn : Int) :
    (∃ tx, y.a.x.txs.get? sn = some tx) ↔
      (∃ m ∈ y.ab, 0 ≤ m.sn ∧ m.sn = sn ∧ ∃ f t l, B.dec m.body = .request f t l) ∨
      (∃ m ∈ y.ba, (m.sn = sn ∧ 0 ≤ m.sn ∧ ∃ k, A.dec m.body = .response k) ∨ (m.sn < 0 ∧ m.sn = -sn)) := by
  have r := (C176_refines_partial U h).inv.ab.pend sn
  rw [Option.isSome_iff_exists] at r
  rw [← r, List.mem_append]
  dsimp only
  constructor
  · rintro (hx | hx)
    · obtain ⟨p, hp, e⟩ := List.mem_filterMap.mp hx
      obtain ⟨m, hm, rfl⟩ := List.mem_map.mp hp
      refine .inl ⟨m, hm, ?_⟩
      unfold pktOf at e
      by_cases c : 0 ≤ m.sn
      · rw [if_pos c] at e
        cases q : B.dec m.body with
        | request f t l => rw [q] at e; exact ⟨c, Option.some.inj e, f, t, l, rfl⟩
        | response _ => rw [q] at e; cases e
        | unknown => rw [q] at e; cases e
        | other => rw [q] at e; cases e
        | bad => rw [q] at e; cases e
      · rw [if_neg c] at e; cases e
    · obtain ⟨p, hp, e⟩ := List.mem_filterMap.mp hx
      obtain ⟨m, hm, rfl⟩ := List.mem_map.mp hp
      refine .inr ⟨m, hm, ?_⟩
      unfold pktOf at e
      by_cases c : 0 ≤ m.sn
      · rw [if_pos c] at e
        cases q : A.dec m.body with
        | response k => rw [q] at e; exact .inl ⟨Option.some.inj e, c, k, rfl⟩
        | request _ _ _ => rw [q] at e; cases e
        | unknown => rw [q] at e; cases e
        | other => rw [q] at e; cases e
        | bad => rw [q] at e; cases e
      · rw [if_neg c] at e
        have := Option.some.inj e
        exact .inr ⟨by omega, by omega⟩
  · rintro (⟨m, hm, c, e, f, t, l, q⟩ | ⟨m, hm, ⟨e, c, k, q⟩ | ⟨c, e⟩⟩)
    · exact .inl (List.mem_filterMap.mpr ⟨_, List.mem_map_of_mem hm, by unfold pktOf; rw [if_pos c, q, e]; rfl⟩)
    · exact .inr (List.mem_filterMap.mpr ⟨_, List.mem_map_of_mem hm, by unfold pktOf; rw [if_pos c, q, e]; rfl⟩)
    · exact .inr (List.mem_filterMap.mpr ⟨_, List.mem_map_of_mem hm, by
        unfold pktOf; rw [if_neg (by omega), e, Int.neg_neg]; rfl⟩)

/-- No more is paid out or minted at B than A settled or has successes for on the way, and for the coins that are not native at B exactly
that. -/
theorem C176_paid_partial {A B : Node} {n : Ncs.Net} (U : Setup A B n) {y : Two} (h : Reached A B y) (c : Bytes) :
    Ncs.at0 y.b.x.paid c ≤ Ncs.at0 y.a.x.settled c + Ncs.okSum y.a.x.txs c (y.ba.map (pktOf A)) ∧
      (c ≠ n.B.name → Ncs.at0 y.b.x.paid c = Ncs.at0 y.a.x.settled c + Ncs.okSum y.a.x.txs c (y.ba.map (pktOf A))) :=
  Ncs.C99_paid_is_settled_partial n _ (C176_refines_partial U h) c

/-- Every message of the service on the way is for the other network and the service there; requests and answers come from the network
of the sender. -/
theorem C176_addressed {A B : Node} {n : Ncs.Net} (U : Setup A B n) {y : Two} (h : Reached A B y) (m : JavaBmc.Msg) (hm : m ∈ y.ab) :
    m.dst = B.c.net ∧ m.svc = B.svc ∧ (0 ≤ m.sn → m.src = A.c.net) :=
  have f := (reached_good U h).1.ab m hm
  ⟨f.dst, f.svc, f.src⟩

/-! ### An example -/

namespace Demo

/-! A simple way to write messages: a number n as n bytes 1 and a byte 0, lists with their length first. -/

def wNat : Nat → Bytes
  | 0 => [0]
  | n + 1 => 1 :: wNat n

def rNat : Bytes → Option (Nat × Bytes)
  | [] => none
  | b :: t => if b = 0 then some (0, t) else (rNat t).map fun p => (p.1 + 1, p.2)

theorem rNat_w (n : Nat) (r : Bytes) : rNat (wNat n ++ r) = some (n, r) := by
  induction n with
  | zero => rfl
  | succ n ih =>
    show (if (1 : UInt8) = 0 then _ else (rNat (wNat n ++ r)).map _) = _
    rw [if_neg (by decide), ih]
    rfl

def wBytes (b : Bytes) : Bytes := wNat b.length ++ b

def rBytes (b : Bytes) : Option (Bytes × Bytes) := (rNat b).map fun p => (p.2.take p.1, p.2.drop p.1)

theorem rBytes_w (b r : Bytes) : rBytes (wBytes b ++ r) = some (b, r) := by
  unfold rBytes wBytes
  rw [List.append_assoc, rNat_w]
  simp

def wInt (i : Int) : Bytes := (if i < 0 then 1 else 0) :: wNat i.natAbs

def rInt : Bytes → Option (Int × Bytes)
  | [] => none
  | b :: t => (rNat t).map fun p => (if b = 1 then -(p.1 : Int) else p.1, p.2)

theorem rInt_w (i : Int) (r : Bytes) : rInt (wInt i ++ r) = some (i, r) := by
  show (rNat (wNat i.natAbs ++ r)).map _ = _
  rw [rNat_w]
  by_cases c : i < 0
  · simp only [c, if_true, Option.map_some]
    rw [show -(i.natAbs : Int) = i by omega]
  · simp only [c, if_false, Option.map_some]
    rw [if_neg (by decide), show (i.natAbs : Int) = i by omega]

def wAmount : Option Int → Bytes
  | none => [0]
  | some i => 1 :: wInt i

def rAmount : Bytes → Option (Option Int × Bytes)
  | [] => none
  | b :: t => if b = 0 then some (none, t) else (rInt t).map fun p => (some p.1, p.2)

theorem rAmount_w (a : Option Int) (r : Bytes) : rAmount (wAmount a ++ r) = some (a, r) := by
  cases a with
  | none => rfl
  | some i =>
    show (if (1 : UInt8) = 0 then some (none, wInt i ++ r) else (rInt (wInt i ++ r)).map fun p => (some p.1, p.2)) = _
    rw [if_neg (by decide), rInt_w]
    rfl

def wAssets : List Ncs.Asset → Bytes
  | [] => []
  | a :: t => wBytes a.coin ++ (wAmount a.amount ++ wAssets t)

def rAssets : Nat → Bytes → Option (List Ncs.Asset)
  | 0, _ => some []
  | n + 1, b => (rBytes b).bind fun c => (rAmount c.2).bind fun a => (rAssets n a.2).map (⟨c.1, a.1⟩ :: ·)

theorem rAssets_w (l : List Ncs.Asset) : rAssets l.length (wAssets l) = some l := by
  induction l with
  | nil => rfl
  | cons a t ih =>
    show (rBytes (wBytes a.coin ++ (wAmount a.amount ++ wAssets t))).bind _ = _
    rw [rBytes_w, Option.bind_some, rAmount_w, Option.bind_some, ih]
    rfl

def enc : Ncs.Msg → Bytes
  | .request f t l => 0 :: (wBytes f ++ (wBytes t ++ (wNat l.length ++ wAssets l)))
  | .response k => 1 :: wInt k
  | .unknown => [2]
  | .other => [3]
  | .bad => []

def dec : Bytes → Ncs.Msg
  | [] => .bad
  | b :: r =>
    if b = 0 then
      ((rBytes r).bind fun f => (rBytes f.2).bind fun t => (rNat t.2).bind fun n => (rAssets n.1 n.2).map (Ncs.Msg.request f.1 t.1)).getD .bad
    else if b = 1 then ((rInt r).map fun p => Ncs.Msg.response p.1).getD .bad
    else .bad

theorem dec_enc (q : Ncs.Msg) (h : Written q) : dec (enc q) = q := by
  cases q with
  | request f t l =>
    show ((rBytes (wBytes f ++ (wBytes t ++ (wNat l.length ++ wAssets l)))).bind _).getD _ = _
    rw [rBytes_w, Option.bind_some, rBytes_w, Option.bind_some, rNat_w, Option.bind_some, rAssets_w]
    rfl
  | response k =>
    show ((rInt (wInt k)).map _).getD _ = _
    have := rInt_w k []
    rw [List.append_nil] at this
    rw [this]
    rfl
  | unknown => exact h.elim
  | other => exact h.elim
  | bad => exact h.elim

/-- The message center of network `me` with a link to the network `you`. -/
def bmc (me you : String) : JavaBmc.Cfg where
  net := me
  addr := 0
  netOf := fun a => if a = you then some you else none
  reachNet := fun a => a
  verify := fun _ _ _ _ => true
  decInner := fun _ => none
  decResp := fun _ => some 1
  encInner := fun _ => []
  encResp := fun n => [n.toUInt8]
  parseAddr := fun _ => none
  alnum := fun _ => true

def env : Env := ⟨fun _ _ => true, true⟩

def st (me you : String) : St := JavaBmc.run (bmc me you) 1 [.conf env 1 (.addVerifier you 30), .conf env 1 (.addService "ncs" 5),
  .conf env 1 (.addLink you), .conf env 1 (.addRelay you 9)]

def A : Node := ⟨bmc "a" "b", Ncs.exNet.A, 5, "ncs", enc, dec, fun b => if b = [200] then "b" else "", fun s => if s = "b" then [200] else []⟩
def B : Node := ⟨bmc "b" "a", Ncs.exNet.B, 5, "ncs", enc, dec, fun b => if b = [100] then "a" else "", fun s => if s = "a" then [100] else []⟩

theorem setup : Setup A B Ncs.exNet where
  ok := ⟨by decide, Ncs.num_inj, Ncs.num_inj, rfl, rfl, fun m => by simp [Ncs.exNet], fun m => by simp [Ncs.exNet]⟩
  nA := rfl
  nB := rfl
  svc := rfl
  bmc := by decide
  strA := rfl
  strB := rfl
  netA := rfl
  netB := rfl
  codeA := dec_enc
  codeB := dec_enc
  respA := fun _ => rfl
  respB := fun _ => rfl

def start : Two := ⟨⟨st "a" "b", Ncs.init [([31], 1000)]⟩, ⟨st "b" "a", Ncs.init [([41], 500)]⟩, [], []⟩

/-- A call at A as a function. -/
def call (A : Node) (j : J) (o : Ncs.Op) : J × List JavaBmc.Msg :=
  match Ncs.step A.n j.x o with
  | none => (j, [])
  | some (x', outs) =>
    match sendAll A env outs j.b with
    | none => (j, [])
    | some s' => (⟨s', x'⟩, sentBy (s'.log.drop j.b.log.length))

/-- [31] on A sends 300 to [41] on B. -/
def one : J × List JavaBmc.Msg := call A start.a (.transferNative [31] 300 [200] [41])

/-- It arrives at B, where the coin is not known; the error goes back. -/
def two : J := take B env 7 9 "a" 0 1 start.b (one.2[0]?.getD ⟨"", "", "", 0, [], 0, none⟩)

def back : List JavaBmc.Msg := sentBy (two.b.log.drop start.b.b.log.length)

/-- The error arrives at A. -/
def three : J := take A env 7 9 "b" 0 1 one.1 (back[0]?.getD ⟨"", "", "", 0, [], 0, none⟩)

example : (one.2.map fun m => (m.src, m.dst, m.svc, m.sn)) = [("a", "b", "ncs", 1)] ∧
    (one.2.map (pktOf B)) = [.msg 1 (.request [31] [41] [⟨[1], some 299⟩])] ∧
    (back.map fun m => (m.src, m.dst, m.svc, m.sn)) = [("b", "a", "ncs", -1)] ∧ back.map (pktOf A) = [.err 1] ∧
    Ncs.at0 one.1.x.icx [11] = 300 ∧ one.1.x.txs.length = 1 ∧ three.x.txs.length = 0 ∧ Ncs.rsum three.x [1] = 300 := by decide +kernel

/-- What a call gives is reached. -/
theorem call_reached {A B : Node} {y : Two} (h : Reached A B y) (o : Ncs.Op) (hu : Ncs.userOp A.n o = true)
    (hp : ∀ r, Ncs.step A.n y.a.x o = some r → ∀ q ∈ r.2, 0 < q.sn) :
    Reached A B ⟨(call A y.a o).1, y.b, y.ab ++ (call A y.a o).2, y.ba⟩ := by
  unfold call
  cases e1 : Ncs.step A.n y.a.x o with
  | none => rw [List.append_nil]; exact h
  | some r =>
    obtain ⟨x', outs⟩ := r
    dsimp only
    cases e2 : sendAll A env outs y.a.b with
    | none => dsimp only; rw [List.append_nil]; exact h
    | some s' =>
      have grow : ∀ (l : List Ncs.Out) (a b : St), (∀ o ∈ l, 0 < o.sn) → sendAll A env l a = some b → ∃ r, b.log = a.log ++ r := by
        intro l
        induction l with
        | nil => intro a b _ hab; cases hab; exact ⟨[], by simp⟩
        | cons q l ih2 =>
          intro a b hq hab
          obtain ⟨c1, g1, g2⟩ := Option.bind_eq_some_iff.mp hab
          obtain ⟨ev', _, k1, _⟩ := send_one (hq q List.mem_cons_self) g1
          obtain ⟨r, hr⟩ := ih2 c1 b (fun o ho => hq o (List.mem_cons_of_mem _ ho)) g2
          exact ⟨ev' :: r, by rw [hr, k1, List.append_assoc]; rfl⟩
      obtain ⟨r, hr⟩ := grow outs _ _ (hp _ e1) e2
      exact .step h (.inl (.user y env o x' outs s' _ hu e1 e2 (by rw [hr, List.drop_left])))

/-- The first state is reached, so the theorems speak of it: the request on the way, and no other message, carries the transfer. -/
example : Reached A B ⟨one.1, start.b, one.2, []⟩ := by
  have h : Reached A B start := .init _ _ _ _ (by decide) (by decide) (by decide) (by decide)
  refine call_reached h (.transferNative [31] 300 [200] [41]) (by decide) (fun r hr => ?_)
  have e : (Ncs.step A.n start.a.x (.transferNative [31] 300 [200] [41])).map (fun r => r.2.all fun q => decide (0 < q.sn)) = some true := by
    decide +kernel
  rw [hr] at e
  intro q hq
  have := List.all_eq_true.mp (Option.some.inj e) q hq
  exact of_decide_eq_true this

end Demo

end Verif.NcsEnd
