import Verif.XMixInv
import Verif.XMixLive
import Verif.MixNetProps
import Verif.XCallNetProps
/-!
C161: calls between contracts of different chains, over a network of message centers of EVM chains and of ICON.

* `Reach nd nets bal S T`: the state `S` is reached; `S.sys` are the message centers with the messages under way, `S.x` the call services,
  `T n` are the messages the chain `n` has taken.
* The services log what they do: `sent` a call, `received` a request, `executed` it with a code, got a `response`, ran the rollback (`undo`).
-/
namespace Verif.XMix
open Verif
open Verif.SolBmc (upd)
open Verif.SolNet (Abs Mv Mvs SameMsg owed msgsOf)
open Verif.MixNet
open Verif.JavaBmc
open Verif.XNet (X)

/-- A message center of ICON takes an answer it owes, if the chain does. -/
theorem sendMessage_ok (c : Cfg) (env : Env) (s : St) (sender value : Nat) (to svc next : String) (sn : Int) (body : Bytes) (hn : sn < 0)
    (h1 : s.services svc = some sender) (h2 : resolve c s to = .ok next) (hl : (getLinkA c s next).isSome = true) (hok : ∀ id m, env.chainOk id m = true)
    (h3 : owed (absJ s) (to, svc, -sn) ≠ 0) : ∃ s', sendMessage c env s sender value to svc sn body = some s' := by
  unfold sendMessage
  rw [h1]
  dsimp only
  rw [if_neg (fun h => h rfl)]
  unfold sendWithFee
  rw [h2]
  dsimp only
  rw [if_pos (decide_eq_true hn), if_pos hn]
  unfold sendReply
  rw [owedJ] at h3
  cases hr : s.resp.get none (to, svc, -sn) with
  | none => rw [hr] at h3; exact absurd rfl h3
  | some r =>
    dsimp only
    generalize hs2 : addReward (addIn { s with resp := s.resp.set (to, svc, -sn) none, coins := s.coins + value } c.net value) c.addr c.net value = s2
    have hl2 : s2.links = s.links := by
      rw [← hs2]; unfold addReward; split <;> rfl
    have hl3 : (getLinkA c s2 next).isSome = true := by
      unfold getLinkA at hl ⊢; rw [hl2]; exact hl
    generalize (⟨c.net, to, svc, 0, body, -r.nsn, some r.fee⟩ : Msg) = m
    have : ∃ s3, sendMsg c env s2 next m = (none, s3) := by
      unfold sendMsg
      cases hg : getLinkA c s2 next with
      | none => rw [hg] at hl3; cases hl3
      | some l =>
        dsimp only
        cases s2.netIds next with
        | none => exact ⟨_, rfl⟩
        | some id => dsimp only; rw [hok id m]; exact ⟨_, rfl⟩
    obtain ⟨s3, h4⟩ := this
    rw [h4]
    exact ⟨_, rfl⟩

/-- A request that waits on ICON, and for which the message center owes the answer, can be executed; the contract called
    calls what it likes, but the owners' methods of the message center. -/
theorem iexec_answers (nd : INode) (env : Env) (b : St) (x : XCall.St) (id : Int) (r : XCall.Req) (y a : BtpAddress.Str) (next : String) (inner : IOps)
    (out : XCall.Outcome) (hi : XCall.committed out = true → IFineAll nd inner ∧ inner.plain ∧ x.sn + inner.size < 2 ^ 255) (fit : Fit nd b)
    (hone : ∀ id' r' net' a', x.proxy id' = some r' → r'.rb = true → XCall.parse nd.x.lang r'.src = some (net', a') →
      XCall.negSn nd.x.lang r'.sn = some (-r.sn) → net' = y → id' = id) (he : b.services X = some nd.addr)
    (hr : resolve nd.c b (String.ofList y) = .ok next) (hl : (getLinkA nd.c b next).isSome = true) (hok : ∀ id m, env.chainOk id m = true)
    (hp : x.proxy id = some r) (hrb : r.rb = true) (hsn : 0 < r.sn) (hlt : r.sn < 2 ^ 255) (hpar : XCall.parse nd.x.lang r.src = some (y, a))
    (how : owed (absJ b) (String.ofList y, X, r.sn) ≠ 0) :
    ∃ j', iexec nd (.exec env id inner out) ⟨b, x⟩ = some j' ∧ owed (absJ j'.b) (String.ofList y, X, r.sn) = 0 ∧
      XCall.Ev.executed id (XCall.respCode nd.x.lang out) ∈ j'.x.log ∧
      ∃ m ∈ sentBy j'.b.log, m.dst = String.ofList y ∧ m.svc = X ∧ m.nsn = -owed (absJ b) (String.ofList y, X, r.sn) := by
  rw [iexec]
  have h1 : XCall.execStart nd.x x id = some (r, y, { x with proxy := fun k => if k = id then none else x.proxy k, log := x.log ++ [.call id r] }) := by
    unfold XCall.execStart
    rw [hp]
    dsimp only
    rw [hpar]
  rw [h1]
  dsimp only
  generalize hx1 : ({ x with proxy := fun k => if k = id then none else x.proxy k, log := x.log ++ [.call id r] } : XCall.St) = x1
  have hw1 : XNet.NoWait nd.side x1 y r.sn := by
    intro id' r' net' a' hp' hrb' hpar' hneg' hy
    rw [← hx1] at hp'
    dsimp only at hp'
    split at hp'
    · exact nomatch hp'
    · rename_i hne
      exact hne (hone id' r' net' a' hp' hrb' hpar' hneg' hy)
  have e1 : x1.sn = x.sn := by rw [← hx1]
  have h2 : ∀ j2 : IJ, (if XCall.committed out = true then irun nd inner ⟨b, x1⟩ else ⟨b, x1⟩ : IJ) = j2 → Rest none
      { b with resp := j2.b.resp } j2.b ∧ owed (absJ j2.b) (String.ofList y, X, r.sn) = owed (absJ b) (String.ofList y, X, r.sn) := by
    rintro j2 rfl
    split
    · rename_i hc
      obtain ⟨h3, h4, h5⟩ := hi hc
      obtain ⟨⟨g1, g2, g3⟩, -, g4⟩ := irun_due nd inner ⟨b, x1⟩ h3 h4 fit
      exact ⟨⟨g1, g2, g3, fun _ _ => rfl⟩, (g4 (by dsimp only; omega) y r.sn hw1).2⟩
    · exact ⟨.refl _ _, rfl⟩
  generalize (if XCall.committed out = true then irun nd inner ⟨b, x1⟩ else ⟨b, x1⟩ : IJ) = j2 at h2
  obtain ⟨h3, h4⟩ := h2 j2 rfl
  have hneg : XCall.negSn nd.x.lang r.sn = some (-r.sn) := by
    unfold XCall.negSn XCall.toInt256
    cases nd.x.lang
    · rfl
    · dsimp only
      rw [if_pos hlt, if_neg (by omega)]
  have h5 : XCall.execEnd nd.x j2.x id r y out (some 0) = some { j2.x with
      log := j2.x.log ++ [.executed id (XCall.respCode nd.x.lang out), .out y (-r.sn) (.res r.sn (XCall.respCode nd.x.lang out)) 0] } := by
    unfold XCall.execEnd
    rw [if_pos hrb, hneg]
    dsimp only [Option.bind_some]
    unfold XCall.sendBTP
    dsimp only
    rw [if_neg (Nat.not_lt_zero _)]
    simp
  rw [h5]
  dsimp only
  rw [List.drop_left]
  obtain ⟨s', hs'⟩ := sendMessage_ok nd.c env j2.b nd.addr 0 (String.ofList y) X next (-r.sn) (nd.enc (.res r.sn (XCall.respCode nd.x.lang out))) (by omega)
    (by rw [h3.services]; exact he) (by rw [h3.resolve]; exact hr) (by rw [h3.link]; exact hl) hok (by rw [Int.neg_neg, h4]; exact how)
  have h6 : sendOuts nd env [.executed id (XCall.respCode nd.x.lang out), .out y (-r.sn) (.res r.sn (XCall.respCode nd.x.lang out)) 0] j2.b = some s' := by
    have h7 : sendOut nd env j2.b (.out y (-r.sn) (.res r.sn (XCall.respCode nd.x.lang out)) 0) = some s' := by
      rw [sendOut, exec, hs']
    show ((sendOut nd env j2.b _).bind fun z => some z) = _
    rw [h7]
    rfl
  rw [h6]
  refine ⟨_, rfl, ?_, List.mem_append_right _ (List.mem_cons_self ..), ?_⟩
  · have := sendMessage_zero (by omega) hs'
    rwa [Int.neg_neg] at this
  · obtain ⟨-, -, ev, next', k, m, h7, -, h8, -, h9, h10, -, -, h11⟩ := sendMessage_out hs'
    obtain ⟨-, ⟨r1, h12, h13⟩, -⟩ := h11 (by omega)
    rw [Int.neg_neg] at h12
    refine ⟨m, ?_, h9, h10, ?_⟩
    · show m ∈ sentBy s'.log
      rw [h7, sentBy_append]
      refine List.mem_append_right _ ?_
      unfold sentBy
      rw [List.flatMap_cons, h8]
      exact List.mem_append_left _ (List.mem_singleton.2 rfl)
    · rw [← h4, owedJ, h12, h13]; rfl

section
variable (nd : String → Chain) (nets : List String) (bal : String → Nat) (hnd : nets.Nodup) (hname : ∀ n ∈ nets, (nd n).kind.net = n)
  (hsl : ∀ n ∈ nets, '/' ∉ n.toList)
include hnd hname hsl

/-- C161: the message centers are a network as in C160, whatever the call services do. -/
theorem C161_network (S : Net) (T : String → List Msg) (h : Reach nd nets bal S T) : MixNet.Reach (fun n => (nd n).kind) nets S.sys T :=
  reach_mix hnd hname hsl h

/-- The call services are a system as in C76. -/
theorem C161_calls (S : Net) (T : String → List Msg) (h : Reach nd nets bal S T) :
    ∃ done, XCall.Reach (fun s => (nd (String.ofList s)).x) (fun s => bal (String.ofList s)) ⟨fun s => S.x (String.ofList s), done⟩ := by
  obtain ⟨G, done, hk⟩ := (reach_xinv hnd hname hsl h).all.k
  have e : XNet.N (fun n => (nd n).side) = fun s => (nd (String.ofList s)).x := by
    funext s; exact side_x _
  have := hk.reach
  rw [e] at this
  exact ⟨done, this⟩

/-- C161: if the rollback of a call is run, the call was not executed with success anywhere, then or later. -/
theorem C161_atomic (S : Net) (T : String → List Msg) (h : Reach nd nets bal S T) (a b : String) (sn : Int) (dst : BtpAddress.Str) (data : Option Bytes)
    (hu : XCall.Ev.undo sn dst data ∈ (S.x a).log) (id : Nat) (q : XCall.Req) (hr : XCall.Ev.received id a.toList q ∈ (S.x b).log) (hq : q.sn = sn)
    (c : Int) (he : XCall.Ev.executed id c ∈ (S.x b).log) : c ≠ 0 := by
  obtain ⟨done, hd⟩ := C161_calls nd nets bal hnd hname hsl S T h
  exact XCall.C76_atomic _ _ _ hd a.toList b.toList sn dst data (by dsimp only; rw [String.ofList_toList]; exact hu) id q
    (by dsimp only; rw [String.ofList_toList]; exact hr) hq c (by dsimp only; rw [String.ofList_toList]; exact he)

/-- C161: a success reported to a call is the success of its execution, on the chain and contract called, with the data sent. -/
theorem C161_success (S : Net) (T : String → List Msg) (h : Reach nd nets bal S T) (a : String) (sn : Int)
    (hc : XCall.Ev.response sn 0 ∈ (S.x a).log) :
    ∃ (k : Nat) (caller : BtpAddress.Str) (b : String) (acct : BtpAddress.Str) (data : Bytes) (rb : Option Bytes) (id : Nat) (q : XCall.Req), sn = k ∧
      XCall.Ev.sent k caller b.toList acct data rb ∈ (S.x a).log ∧ XCall.Ev.received id a.toList q ∈ (S.x b).log ∧ q.sn = sn ∧
      q.src = caller ∧ q.dst = acct ∧ q.data = data ∧ XCall.Ev.executed id 0 ∈ (S.x b).log := by
  obtain ⟨done, hd⟩ := C161_calls nd nets bal hnd hname hsl S T h
  obtain ⟨k, caller, net, acct, data, rb, id, q, h1, h2, h3, h4⟩ := XCall.C76_success _ _ _ hd a.toList sn (by dsimp only; rw [String.ofList_toList]; exact hc)
  dsimp only at h2 h3 h4
  rw [String.ofList_toList] at h2
  exact ⟨k, caller, String.ofList net, acct, data, rb, id, q, h1, by rw [String.toList_ofList]; exact h2, h3, h4⟩

/-- C161: what a service runs was sent to it, by the contract the target is told, to the target, with the data. -/
theorem C161_integrity (S : Net) (T : String → List Msg) (h : Reach nd nets bal S T) (b : String) (id : Int) (r : XCall.Req)
    (hc : XCall.Ev.call id r ∈ (S.x b).log) :
    ∃ (a : String) (k : Nat) (caller : BtpAddress.Str) (rb : Option Bytes), r.src = BtpAddress.solCompose a.toList caller ∧ r.sn = k ∧
      XCall.Ev.sent k caller b.toList r.dst r.data rb ∈ (S.x a).log := by
  obtain ⟨done, hd⟩ := C161_calls nd nets bal hnd hname hsl S T h
  obtain ⟨a, k, caller, rb, -, h2, h3, h4⟩ := XCall.C76_integrity _ _ _ hd b.toList id r (by dsimp only; rw [String.ofList_toList]; exact hc)
  exact ⟨String.ofList a, k, caller, rb, by rw [String.toList_ofList]; exact h2, h3, h4⟩

/-- C161: no call is received twice, on any chains. -/
theorem C161_once (S : Net) (T : String → List Msg) (h : Reach nd nets bal S T) (a b b' : String) (id id' : Nat) (q q' : XCall.Req)
    (h1 : XCall.Ev.received id a.toList q ∈ (S.x b).log) (h2 : XCall.Ev.received id' a.toList q' ∈ (S.x b').log) (hs : q.sn = q'.sn) : b = b' ∧ id = id' := by
  obtain ⟨done, hd⟩ := C161_calls nd nets bal hnd hname hsl S T h
  obtain ⟨h3, h4⟩ := XCall.C76_once _ _ _ hd a.toList b.toList b'.toList id id' q q' (by dsimp only; rw [String.ofList_toList]; exact h1)
    (by dsimp only; rw [String.ofList_toList]; exact h2) hs
  exact ⟨XNet.toList_inj' h3, h4⟩

/-- C161: a call is settled with the code of its execution on the chain it was sent to, or with -2. -/
theorem C161_settled (S : Net) (T : String → List Msg) (h : Reach nd nets bal S T) (a : String) (sn code : Int)
    (hc : XCall.Ev.response sn code ∈ (S.x a).log) :
    ∃ (k : Nat) (caller : BtpAddress.Str) (b : String) (acct : BtpAddress.Str) (data : Bytes) (rb : Option Bytes), sn = k ∧
      XCall.Ev.sent k caller b.toList acct data rb ∈ (S.x a).log ∧
      ((∃ (id : Nat) (q : XCall.Req), XCall.Ev.received id a.toList q ∈ (S.x b).log ∧ q.sn = sn ∧ XCall.Ev.executed id code ∈ (S.x b).log) ∨ code = -2) := by
  obtain ⟨done, hd⟩ := C161_calls nd nets bal hnd hname hsl S T h
  obtain ⟨k, caller, net, acct, data, rb, h1, h2, h3⟩ := XCall.C55_honest_partial _ _ _ hd a.toList sn code (by dsimp only; rw [String.ofList_toList]; exact hc)
  dsimp only at h2 h3
  rw [String.ofList_toList] at h2
  exact ⟨k, caller, String.ofList net, acct, data, rb, h1, by rw [String.toList_ofList]; exact h2, h3⟩

/-- C161: a call that wants an answer is always somewhere. Its message `m0` is under way, or the request waits to be executed on the chain called,
    or the answer is under way, or it is recorded; unless an answer was given up by a message center, or ICON gave up the request when its
    chain refused the error sent back. -/
theorem C161_accounted (S : Net) (T : String → List Msg) (h : Reach nd nets bal S T) (n : String) (hn : n ∈ nets) (k : Nat) (caller : BtpAddress.Str) (b : String)
    (acct : BtpAddress.Str) (data : Bytes) (rb : Option Bytes) (hs : XCall.Ev.sent k caller b.toList acct data rb ∈ (S.x n).log)
    (hp : XCall.present (nd n).x.lang rb = true) :
    ∃ m0 ∈ (S.sys.st n).sent, m0.src = n ∧ m0.dst = b ∧ m0.svc = X ∧ m0.sn = k ∧ 0 < m0.nsn ∧
      ((∃ m ∈ S.sys.pool, m.src = n ∧ m.nsn = m0.nsn) ∨
       (b ∈ nets ∧ (S.sys.st b).owes n X k = m0.nsn ∧
          ∃ id r a, (S.x b).proxy id = some r ∧ r.rb = true ∧ r.sn = k ∧ r.src = BtpAddress.solCompose n.toList a) ∨
       (∃ m ∈ S.sys.pool, m.dst = n ∧ m.nsn = -m0.nsn) ∨
       (∃ code, XCall.Ev.response k code ∈ (S.x n).log) ∨
       (∃ a ∈ nets, ∃ m' ∈ (S.sys.st a).given, m'.nsn = -m0.nsn) ∨
       (∃ a ∈ nets, ∃ s, S.sys.st a = .icon s ∧ ∃ m' ∈ (S.sys.st a).given, m'.src = n ∧ m'.nsn = m0.nsn)) := by
  have hall := (reach_xinv hnd hname hsl h).all
  obtain ⟨m0, h1, h2, h3, h4, h5, h6, hc⟩ := hall.accounted (fun n hn => (side_net _).trans (hname n hn)) hn hs (by rw [side_x]; exact hp)
  obtain ⟨m1, h7, rfl⟩ := log_sent h1
  refine ⟨m1, h7, h2, h3, h4, h5, h6, ?_⟩
  rcases hc with ⟨m, g1, g2, g3⟩ | ⟨g1, g2, g3⟩ | ⟨m, g1, g2, g3⟩ | hc | ⟨a, ha, p, q, m', code, g1, g2⟩ | ⟨a, ha, hic, p, q, m', code, g1, g2, g3⟩
  · obtain ⟨x, hx, rfl⟩ := List.mem_map.1 g1
    exact .inl ⟨x, hx, g2, g3⟩
  · exact .inr (.inl ⟨g1, by rw [owes_abs]; exact g2, g3⟩)
  · obtain ⟨x, hx, rfl⟩ := List.mem_map.1 g1
    exact .inr (.inr (.inl ⟨x, hx, g2, g3⟩))
  · exact .inr (.inr (.inr (.inl hc)))
  · obtain ⟨x, hx, rfl⟩ := given_of_log g1
    exact .inr (.inr (.inr (.inr (.inl ⟨a, ha, x, hx, g2⟩))))
  · obtain ⟨x, hx, rfl⟩ := given_of_log g1
    refine .inr (.inr (.inr (.inr (.inr ⟨a, ha, ?_⟩))))
    cases hst : S.sys.st a with
    | evm s => rw [hst] at hic; exact nomatch hic
    | icon s => rw [hst] at hx; exact ⟨s, rfl, x, hx, g2, g3⟩

/-- C161: an answer an EVM chain owes for a call can be given, as in C159_answerable. -/
theorem C161_answerable_evm (S : Net) (T : String → List Msg) (h : Reach nd nets bal S T) (n : String) (hn : n ∈ nets) (v : XNet.Node) (hv : nd n = .evm v)
    (s : SolBmc.St) (hst : S.sys.st n = .evm s) (y : String) (sn : Int) (how : (s.resp.get SolBmc.Resp.empty (y, X, sn)).nsn ≠ 0) (hy : y ≠ "")
    (hcaller : ∀ k caller net acct data rb, XCall.Ev.sent k caller net acct data rb ∈ (S.x y).log → caller ≠ [])
    (env : SolBmc.Env) (next : String) (hs : v.addr ≠ v.bmc.service) (he : env.service X = some v.addr) (hr : env.resolve y = some next) :
    ∃ id, ∀ inner out, XNet.FineAll v inner → (S.x n).sn + inner.size < 2 ^ 255 →
      ∃ j', XNet.jexec v (.exec env id inner out) ⟨s, S.x n⟩ = some j' ∧ (j'.b.resp.get SolBmc.Resp.empty (y, X, sn)).nsn = 0 ∧
        XCall.Ev.executed id (XCall.respCode v.x.lang out) ∈ j'.x.log ∧
        ∃ next' seq m, SolBmc.Event.message next' seq m ∈ j'.b.log ∧ m.dst = y ∧ m.svc = X ∧ m.nsn = -(s.resp.get SolBmc.Resp.empty (y, X, sn)).nsn := by
  have hall := (reach_xinv hnd hname hsl h).all
  obtain ⟨id, r, a, h1, h2, h3, h4, h5, hparse, hpos, hone⟩ := hall.waiting hsl hn (y := y) (sn := sn) (by rw [hst]; exact how) hy hcaller
  rw [hv] at hparse hone
  rw [hst] at hpos
  refine ⟨id, fun inner out hf hz => ?_⟩
  obtain ⟨j', h7, h8, h9, next', seq, m, h10, h11, h12, h13⟩ := XNet.exec_answers v env s (S.x n) id r y.toList a next inner out hs he
    (by rw [String.ofList_toList]; exact hr) hf h1 h2 (by omega) (by omega) hparse hz (by rw [String.ofList_toList, h3]; exact hpos)
    (by rw [h3]; exact hone)
  rw [String.ofList_toList, h3] at h8 h13
  rw [String.ofList_toList] at h11
  exact ⟨j', h7, h8, h9, next', seq, m, h10, h11, h12, h13⟩

/-- C161: an answer ICON owes for a call can be given: anyone can have the request executed, if the call service is registered, there is a
    route back and the chain takes the message. The contract called may do what it likes (`inner`, `out`), but call the owners' methods of the
    message center, which could take the route away. -/
theorem C161_answerable_icon (S : Net) (T : String → List Msg) (h : Reach nd nets bal S T) (n : String) (hn : n ∈ nets) (v : INode) (hv : nd n = .icon v)
    (s : St) (hst : S.sys.st n = .icon s) (y : String) (sn : Int) (how : (S.sys.st n).owes y X sn ≠ 0) (hy : y ≠ "")
    (hcaller : ∀ k caller net acct data rb, XCall.Ev.sent k caller net acct data rb ∈ (S.x y).log → caller ≠ [])
    (env : Env) (next : String) (he : (s.services X).isSome = true) (hr : resolve v.c s y = .ok next) (hl : (getLinkA v.c s next).isSome = true)
    (hok : ∀ id m, env.chainOk id m = true) :
    ∃ id, ∀ inner out, (XCall.committed out = true → IFineAll v inner ∧ inner.plain ∧ (S.x n).sn + inner.size < 2 ^ 255) →
      ∃ j', iexec v (.exec env id inner out) ⟨s, S.x n⟩ = some j' ∧ (Node.icon j'.b).owes y X sn = 0 ∧
        XCall.Ev.executed id (XCall.respCode v.x.lang out) ∈ j'.x.log ∧
        ∃ m ∈ (Node.icon j'.b).sent, m.dst = y ∧ m.svc = X ∧ m.nsn = -(S.sys.st n).owes y X sn := by
  have g := reach_xinv hnd hname hsl h
  rw [owes_abs] at how ⊢
  obtain ⟨id, r, a, h1, h2, h3, h4, h5, hparse, hpos, hone⟩ := g.all.waiting hsl hn how hy hcaller
  rw [hv] at hparse hone
  rw [hst] at how ⊢
  have he' : s.services X = some v.addr := by
    obtain ⟨w, hw⟩ := Option.isSome_iff_exists.1 he
    rw [hw, g.reg n v s hv hst w hw]
  refine ⟨id, fun inner out hi => ?_⟩
  obtain ⟨j', h7, h8, h9, m, h10, h11, h12, h13⟩ := iexec_answers v env s (S.x n) id r y.toList a next inner out hi (g.fit hn hv hst)
    (by rw [h3]; exact hone) he' (by rw [String.ofList_toList]; exact hr) hl hok h1 h2 (by omega) (by omega) hparse (by rw [String.ofList_toList, h3]; exact how)
  rw [String.ofList_toList, h3] at h8 h13
  rw [String.ofList_toList] at h11
  exact ⟨j', h7, by rw [owes_abs]; exact h8, h9, m, h10, h11, h12, h13⟩

end

/-! ### Histories -/
namespace Demo

/-- The messages of the histories; they are encoded by their place. -/
def table : List XCall.Msg :=
  [.req ⟨['a'], ['b'], 1, true, [7]⟩, .res 1 (-1), .req ⟨['a'], ['b'], 2, true, [8]⟩, .res 2 0, .req ⟨['b'], ['a'], 1, true, [6]⟩, .res 1 0,
   .req ⟨['a'], ['b'], 1, true, [0x72, 0x65, 0x76, 0x65, 0x72, 0x74, 0x4d, 0x65, 0x73, 0x73, 0x61, 0x67, 0x65]⟩]

def enc (m : XCall.Msg) : Bytes := List.replicate (table.idxOf m) 0
def dec (b : Bytes) : XCall.Msg := table.getD b.length .unknown

/-- A is an EVM chain, B is ICON. -/
def evm (n : String) : XNet.Node := ⟨SolNet.Demo.cfg n, ⟨.sol, ['m'], ['o']⟩, 50, enc, dec⟩
def icon : INode := ⟨MixNet.Demo.jcfg, 1, ⟨.java, ['m'], ['o']⟩, 50, enc, dec⟩
def chain (n : String) : Chain := if n = "B" then .icon icon else .evm (evm n)

abbrev nets : List String := ["A", "B"]
abbrev env := SolNet.Demo.env
abbrev jenv := MixNet.Demo.jenv

inductive Act where
  | onA (o : XNet.JOp)
  | onB (o : IOp)
  /-- the first message of the pool -/
  | toA
  | toB (env : Env)

abbrev W := Net × (String → List Msg)

def Act.run (w : W) : Act → W
  | .onA o => match w.1.sys.st "A" with
    | .evm s => match XNet.jexec (evm "A") o ⟨s, w.1.x "A"⟩ with
      | some j => (w.1.next "A" (.evm j.b) j.x w.1.sys.pool, upd w.2 "A" (w.2 "A" ++ []))
      | none => w
    | _ => w
  | .onB o => match w.1.sys.st "B" with
    | .icon s => match iexec icon o ⟨s, w.1.x "B"⟩ with
      | some j => (w.1.next "B" (.icon j.b) j.x w.1.sys.pool, upd w.2 "B" (w.2 "B" ++ []))
      | none => w
    | _ => w
  | .toA => match w.1.sys.st "A", w.1.sys.pool with
    | .evm s, m :: rest => match XNet.jrelay (evm "A") env 70 "B" (.cons (tr m) env true .nil .nil) ⟨s, w.1.x "A"⟩ with
      | some j => (w.1.next "A" (.evm j.b) j.x rest, upd w.2 "A" (w.2 "A" ++ [m]))
      | none => w
    | _, _ => w
  | .toB e => match w.1.sys.st "B", w.1.sys.pool with
    | .icon s, m :: rest => match irelay icon 9 "A" (.cons m e none .nil .nil) ⟨s, w.1.x "B"⟩ with
      | some j => (w.1.next "B" (.icon j.b) j.x rest, upd w.2 "B" (w.2 "B" ++ [m]))
      | none => w
    | _, _ => w

def Act.Fine : Act → Prop
  | .onA o => XNet.Fine (evm "A") o
  | .onB o => IFine icon o
  | _ => True

def evOk : XCall.Ev → Bool
  | .out _ _ m _ => decide (m ∈ table)
  | _ => true

/-- The services of the two chains are as `Sane` wants. -/
def check (w : W) : Bool := nets.all (fun n => decide ((w.1.x n).sn < 2 ^ 255) && (w.1.x n).log.all evOk)

def start : W := (⟨⟨fun n => (chain n).kind.init, []⟩, fun _ => XCall.init 0⟩, fun _ => [])

/-- Reached, and nothing happened on other chains. -/
def Good (w : W) : Prop := Reach chain nets (fun _ => 0) w.1 w.2 ∧ ∀ n, n ∉ nets → w.1.x n = XCall.init 0

theorem legible : ∀ m ∈ table, ∀ n n' : String, (chain n').dec ((chain n).enc m) = m := by
  have h : ∀ m ∈ table, dec (enc m) = m := by
    intro m hm
    show table.getD (List.replicate (table.idxOf m) (0 : UInt8)).length .unknown = m
    rw [List.length_replicate]
    revert m
    decide +kernel
  intro m hm n n'
  have e1 : (chain n').dec = dec := by unfold chain; split <;> rfl
  have e2 : (chain n).enc = enc := by unfold chain; split <;> rfl
  rw [e1, e2]
  exact h m hm

theorem sane {w : W} (hc : check w = true) (ho : ∀ n, n ∉ nets → w.1.x n = XCall.init 0) : Sane chain w.1 := by
  have h : ∀ n, (w.1.x n).sn < 2 ^ 255 ∧ ∀ e ∈ (w.1.x n).log, evOk e = true := by
    intro n
    by_cases hn : n ∈ nets
    · have := List.all_eq_true.1 hc n hn
      rw [Bool.and_eq_true, decide_eq_true_eq, List.all_eq_true] at this
      exact this
    · rw [ho n hn]
      exact ⟨by show (0 : Nat) < _; decide +kernel, fun e he => nomatch he⟩
  exact ⟨fun n => (h n).1, fun n n' net sn m v hm => legible m (of_decide_eq_true ((h n).2 _ hm)) n n'⟩

theorem next_other {S : Net} {n : String} {b : MixNet.Node} {x : XCall.St} {rest : List Msg} (hn : n ∈ nets) (ho : ∀ n, n ∉ nets → S.x n = XCall.init 0) :
    ∀ n', n' ∉ nets → (S.next n b x rest).x n' = XCall.init 0 := by
  intro n' hn'
  have : n' ≠ n := fun e => hn' (e ▸ hn)
  show upd S.x n x n' = _
  rw [show upd S.x n x n' = S.x n' from if_neg this]
  exact ho n' hn'

theorem act_good (w : W) (a : Act) (h : Good w) (ha : a.Fine) (hc : check (a.run w) = true) : Good (a.run w) := by
  cases a with
  | onA o =>
    simp only [Act.run] at hc ⊢
    split
    · rename_i s hs
      rw [hs] at hc
      dsimp only at hc
      split
      · rename_i j he
        rw [he] at hc
        exact ⟨.step h.1 (.evmCall "A" (evm "A") s o j (by decide) rfl hs ha he) (sane hc (next_other (by decide) h.2)), next_other (by decide) h.2⟩
      · exact h
    · exact h
  | onB o =>
    simp only [Act.run] at hc ⊢
    split
    · rename_i s hs
      rw [hs] at hc
      dsimp only at hc
      split
      · rename_i j he
        rw [he] at hc
        exact ⟨.step h.1 (.iconCall "B" icon s o j (by decide) rfl hs ha he) (sane hc (next_other (by decide) h.2)), next_other (by decide) h.2⟩
      · exact h
    · exact h
  | toA =>
    simp only [Act.run] at hc ⊢
    split
    · rename_i s m rest hs hp
      rw [hs, hp] at hc
      dsimp only at hc
      split
      · rename_i j he
        rw [he] at hc
        exact ⟨.step h.1 (.evmRelay "A" (evm "A") s env 70 "B" (.cons (tr m) env true .nil .nil) [m] rest j (by decide) rfl hs ⟨trivial, trivial⟩ rfl
          (by rw [hp]; exact .refl _) he) (sane hc (next_other (by decide) h.2)), next_other (by decide) h.2⟩
      · exact h
    · exact h
  | toB e =>
    simp only [Act.run] at hc ⊢
    split
    · rename_i s m rest hs hp
      rw [hs, hp] at hc
      dsimp only at hc
      split
      · rename_i j he
        rw [he] at hc
        exact ⟨.step h.1 (.iconRelay "B" icon s 9 "A" (.cons m e none .nil .nil) rest j (by decide) rfl hs ⟨trivial, trivial⟩
          (by rw [hp]; exact .refl _) he) (sane hc (next_other (by decide) h.2)), next_other (by decide) h.2⟩
      · exact h
    · exact h

theorem acts_good : ∀ (l : List Act) (w : W), Good w → (∀ a ∈ l, a.Fine) → (∀ i, i < l.length → check ((l.take (i + 1)).foldl Act.run w) = true) →
    Good (l.foldl Act.run w)
  | [], _, h, _, _ => h
  | a :: t, w, h, hf, hc => acts_good t (a.run w) (act_good w a h (hf a (List.mem_cons_self ..)) (hc 0 (Nat.zero_lt_succ _)))
      (fun b hb => hf b (List.mem_cons_of_mem _ hb)) (fun i hi => hc (i + 1) (Nat.succ_lt_succ hi))

/-- B gets a verifier, the call service, a link with fees (which sends an Init message to A) and a relay. -/
def setup (reg : List Act) : List Act := [.onB (.conf jenv 1 (.addVerifier "A" 30))] ++ reg ++ [.onB (.conf jenv 1 (.addBTPLink "A" 1)),
  .onB (.conf jenv 1 (.addRelay "A" 9)), .onB (.conf jenv 1 (.setFees [("A", [1, 1])])), .toA]
def reg : List Act := [.onB (.conf jenv 1 (.addService X 50))]

/-- Contract a of A calls contract b of B. -/
def ask (data : Bytes) : Act := .onA (.send env ['a'] true ("btp://B/b".toList) data (some [9]) 10 (some 4))

def upToB : List Act := setup reg ++ [ask [7], .toB jenv]
/-- The first call fails and is rolled back, the second has success; then b of B calls a of A. -/
def history : List Act := upToB ++ [.onB (.exec jenv 1 .nil .failed), .toA, .onA (.undo 1 .nil .ok), ask [8], .toB jenv, .onB (.exec jenv 2 .nil .ok), .toA,
  .onB (.send jenv ['b'] true ("btp://A/a".toList) [6] (some [9]) 2 (some 2)), .toA, .onA (.exec env 1 .nil .ok), .toB jenv]

def V := upToB.foldl Act.run start
def W1 := history.foldl Act.run start

theorem ask_fine (data : Bytes) : (ask data).Fine := rfl

theorem reg_fine (e : Env) (a : Nat) : IFine icon (.conf e a (.addService X 50)) := by
  intro b hb
  cases hb
  rfl

theorem plain_fine (e : Env) (a : Nat) (k : Conf) (h : ∀ n b, k ≠ .addService n b) : IFine icon (.conf e a k) := fun _ hb => absurd hb (h _ _)

theorem setup_fine (l : List Act) (h : ∀ a ∈ l, a.Fine) : ∀ a ∈ setup l, a.Fine := by
  intro a ha
  simp only [setup, List.mem_append, List.mem_cons, List.not_mem_nil, or_false] at ha
  rcases ha with (rfl | ha) | rfl | rfl | rfl | rfl
  · exact plain_fine jenv 1 _ (fun _ _ e => nomatch e)
  · exact h a ha
  · exact plain_fine jenv 1 _ (fun _ _ e => nomatch e)
  · exact plain_fine jenv 1 _ (fun _ _ e => nomatch e)
  · exact plain_fine jenv 1 _ (fun _ _ e => nomatch e)
  · exact trivial

theorem upToB_fine : ∀ a ∈ upToB, a.Fine := by
  intro a ha
  rcases List.mem_append.1 ha with ha | ha
  · refine setup_fine _ (fun a ha => ?_) a ha
    rw [List.mem_singleton.1 ha]
    exact reg_fine jenv 1
  · simp only [List.mem_cons, List.not_mem_nil, or_false] at ha
    rcases ha with rfl | rfl
    · exact ask_fine _
    · exact trivial

theorem history_fine : ∀ a ∈ history, a.Fine := by
  intro a ha
  rcases List.mem_append.1 ha with ha | ha
  · exact upToB_fine a ha
  · simp only [List.mem_cons, List.not_mem_nil, or_false] at ha
    rcases ha with rfl | rfl | rfl | rfl | rfl | rfl | rfl | rfl | rfl | rfl | rfl
    · exact trivial
    · exact trivial
    · exact trivial
    · exact ask_fine _
    · exact trivial
    · exact trivial
    · exact trivial
    · exact trivial
    · exact trivial
    · exact ⟨rfl, trivial⟩
    · exact trivial

theorem start_good : Good start := ⟨.init, fun _ _ => rfl⟩
theorem V_good : Good V := acts_good upToB start start_good upToB_fine (by decide +kernel)
theorem W1_good : Good W1 := acts_good history start start_good history_fine (by decide +kernel)

theorem named : ∀ n ∈ nets, (chain n).kind.net = n := by decide +kernel
theorem slash : ∀ n ∈ nets, '/' ∉ n.toList := by decide +kernel

/-- The logs of the services at the end. -/
example : (W1.1.x "A").log =
    [.out ['B'] 1 (.req ⟨['a'], ['b'], 1, true, [7]⟩) 10, .sent 1 ['a'] ['B'] ['b'] [7] (some [9]), .response 1 (-1), .undo 1 ['a'] (some [9]), .undone 1 0,
     .out ['B'] 2 (.req ⟨['a'], ['b'], 2, true, [8]⟩) 10, .sent 2 ['a'] ['B'] ['b'] [8] (some [9]), .response 2 0,
     .received 1 ['B'] ⟨['b'], ['a'], 1, true, [6]⟩, .call 1 ⟨"btp://B/b".toList, ['a'], 1, true, [6]⟩, .executed 1 0, .out ['B'] (-1) (.res 1 0) 0] := by
  decide +kernel
example : (W1.1.x "B").log =
    [.received 1 ['A'] ⟨['a'], ['b'], 1, true, [7]⟩, .call 1 ⟨"btp://A/a".toList, ['b'], 1, true, [7]⟩, .executed 1 (-1), .out ['A'] (-1) (.res 1 (-1)) 0,
     .received 2 ['A'] ⟨['a'], ['b'], 2, true, [8]⟩, .call 2 ⟨"btp://A/a".toList, ['b'], 2, true, [8]⟩, .executed 2 0, .out ['A'] (-2) (.res 2 0) 0,
     .out ['A'] 1 (.req ⟨['b'], ['a'], 1, true, [6]⟩) 2, .sent 1 ['b'] ['A'] ['a'] [6] (some [9]), .response 1 0] := by decide +kernel

-- The theorems apply to it.
example : ∃ (k : Nat) (caller : BtpAddress.Str) (b : String) (acct : BtpAddress.Str) (data : Bytes) (rb : Option Bytes) (id : Nat) (q : XCall.Req), (1 : Int) = k ∧
      XCall.Ev.sent k caller b.toList acct data rb ∈ (W1.1.x "B").log ∧ XCall.Ev.received id "B".toList q ∈ (W1.1.x b).log ∧ q.sn = 1 ∧
      q.src = caller ∧ q.dst = acct ∧ q.data = data ∧ XCall.Ev.executed id 0 ∈ (W1.1.x b).log :=
  C161_success chain nets _ (by decide) named slash _ _ W1_good.1 "B" 1 (by decide +kernel)
example (id : Nat) (q : XCall.Req) (hr : XCall.Ev.received id "A".toList q ∈ (W1.1.x "B").log) (hq : q.sn = 1) (c : Int)
    (he : XCall.Ev.executed id c ∈ (W1.1.x "B").log) : c ≠ 0 :=
  C161_atomic chain nets _ (by decide) named slash _ _ W1_good.1 "A" "B" 1 ['a'] (some [9]) (by decide +kernel) id q hr hq c he

/-- The message center of B. -/
def jst (w : W) : St := match w.1.sys.st "B" with
  | .icon s => s
  | .evm _ => initSt 0

def isIcon : MixNet.Node → Bool
  | .icon _ => true
  | .evm _ => false
theorem jst_eq (w : W) (h : isIcon (w.1.sys.st "B") = true) : w.1.sys.st "B" = .icon (jst w) := by
  unfold jst
  cases hx : w.1.sys.st "B" with
  | icon s => rfl
  | evm s => rw [hx] at h; cases h

def goes (r : Except Ex String) (a : String) : Bool := match r with
  | .ok b => decide (b = a)
  | .error _ => false
theorem goes_eq {r : Except Ex String} {a : String} (h : goes r a = true) : r = .ok a := by
  cases r with
  | error e => cases h
  | ok b => exact congrArg _ (of_decide_eq_true h)

theorem V_route : goes (resolve icon.c (jst V) "A") "A" = true := by decide +kernel
theorem V_icon : isIcon (V.1.sys.st "B") = true := by decide +kernel
theorem V_owes : (V.1.sys.st "B").owes "A" X 1 = 1 := by decide +kernel
theorem V_link : (getLinkA icon.c (jst V) "A").isSome = true := by decide +kernel
theorem V_reg : ((jst V).services X).isSome = true := by decide +kernel
theorem V_log : (V.1.x "A").log = [.out ['B'] 1 (.req ⟨['a'], ['b'], 1, true, [7]⟩) 10, .sent 1 ['a'] ['B'] ['b'] [7] (some [9])] := by decide +kernel

-- While the first call waits on B, it can be executed.
example : ∃ id, ∀ inner out, (XCall.committed out = true → IFineAll icon inner ∧ inner.plain ∧ (V.1.x "B").sn + inner.size < 2 ^ 255) →
      ∃ j', iexec icon (.exec jenv id inner out) ⟨jst V, V.1.x "B"⟩ = some j' ∧ (Node.icon j'.b).owes "A" X 1 = 0 ∧
        XCall.Ev.executed id (XCall.respCode icon.x.lang out) ∈ j'.x.log ∧
        ∃ m ∈ (Node.icon j'.b).sent, m.dst = "A" ∧ m.svc = X ∧ m.nsn = -(V.1.sys.st "B").owes "A" X 1 :=
  C161_answerable_icon chain nets _ (by decide) named slash _ _ V_good.1 "B" (by decide) icon rfl (jst V)
    (jst_eq V V_icon) "A" 1 (by rw [V_owes]; decide) (by decide)
    (fun k caller net acct data rb hm => by
      rw [V_log] at hm
      simp only [List.mem_cons, List.not_mem_nil, or_false, reduceCtorEq, XCall.Ev.sent.injEq, false_or] at hm
      rw [hm.2.1]; decide)
    jenv "A" V_reg (goes_eq V_route) V_link (fun _ _ => rfl)

/-- The contract called calls back over the network before it returns. -/
def back : IOps := .cons (.send jenv ['b'] true ("btp://A/a".toList) [6] (some [9]) 2 (some 2)) .nil

theorem back_fine : IFineAll icon back ∧ back.plain := by
  unfold back
  rw [IFineAll, IFine, IFineAll, IOps.plain, IOp.plain, IOps.plain]
  exact ⟨⟨trivial, trivial⟩, trivial, trivial⟩

-- Such a contract meets the hypotheses, and its call back is sent before the answer.
example : IFineAll icon back ∧ back.plain ∧ (V.1.x "B").sn + back.size < 2 ^ 255 := ⟨back_fine.1, back_fine.2, by decide +kernel⟩
example : ((iexec icon (.exec jenv 1 back .ok) ⟨jst V, V.1.x "B"⟩).map fun j => (sentBy (j.b.log.drop (jst V).log.length)).map fun m => (m.svc, m.sn)) =
    some [(X, 1), (X, 0)] := by decide +kernel

/-- C161: an owner of the message center who is called can take the answer away: while the call runs, they remove the call service, and then the
    call as a whole throws. -/
theorem C161_answerable_owner_false : Reach chain nets (fun _ => 0) V.1 V.2 ∧ V.1.sys.st "B" = .icon (jst V) ∧ (V.1.sys.st "B").owes "A" X 1 ≠ 0 ∧
    (iexec icon (.exec jenv 1 (.cons (.conf jenv 1 (.removeService X)) .nil) .ok) ⟨jst V, V.1.x "B"⟩).isNone = true ∧
    (iexec icon (.exec jenv 1 .nil .ok) ⟨jst V, V.1.x "B"⟩).isSome = true :=
  ⟨V_good.1, jst_eq V V_icon, by rw [V_owes]; decide, by decide +kernel, by decide +kernel⟩

/-- The call service of B is not registered, and the chain of B refuses the error sent back. -/
def lost : List Act := setup [] ++ [ask [7], .toB MixNet.Demo.refuse]
def L1 := lost.foldl Act.run start

theorem lost_fine : ∀ a ∈ lost, a.Fine := by
  intro a ha
  rcases List.mem_append.1 ha with ha | ha
  · exact setup_fine [] (fun a ha => absurd ha List.not_mem_nil) a ha
  · simp only [List.mem_cons, List.not_mem_nil, or_false] at ha
    rcases ha with rfl | rfl
    · exact ask_fine _
    · exact trivial

theorem L1_good : Good L1 := acts_good lost start start_good lost_fine (by decide +kernel)

/-- C161: not every call with a rollback is answered or answerable. The call 1 of A was sent and is nowhere any more, and it never gets an
    answer from the message center, whatever happens. -/
theorem C161_lost_false : Reach chain nets (fun _ => 0) L1.1 L1.2 ∧ XCall.Ev.sent 1 ['a'] ['B'] ['b'] [7] (some [9]) ∈ (L1.1.x "A").log ∧
    L1.1.sys.pool = [] ∧ (L1.1.sys.st "B").owes "A" X 1 = 0 ∧ (∀ code, XCall.Ev.response 1 code ∉ (L1.1.x "A").log) ∧
    ∀ σ' T', MixNet.Steps (fun n => (chain n).kind) nets L1.1.sys L1.2 σ' T' → ∀ m ∈ T' "A", ¬ (m.dst = "A" ∧ m.nsn = -1) := by
  have e : (L1.1.x "A").log = [.out ['B'] 1 (.req ⟨['a'], ['b'], 1, true, [7]⟩) 10, .sent 1 ['a'] ['B'] ['b'] [7] (some [9])] := by decide +kernel
  refine ⟨L1_good.1, by decide +kernel, by decide +kernel, by decide +kernel, fun code hm => ?_, fun σ' T' h => ?_⟩
  · rw [e] at hm
    simp at hm
  · refine C160_never nets _ (by decide) named _ _ (C161_network chain nets _ (by decide) named slash _ _ L1_good.1) "A" 1 (by decide) ?_ ?_ ?_ ?_ σ' T' h
    · decide +kernel
    · decide +kernel
    · decide +kernel
    · decide +kernel

end Demo

end Verif.XMix
