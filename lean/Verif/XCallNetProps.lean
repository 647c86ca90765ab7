import Verif.XCallNetProj
import Verif.XCallNetLive
/-!
C159: calls between contracts of different chains, over a network of EVM message centers.

* `JReach nd nets bal S T`: the state `S` is reached; `S.sys` are the message centers with the messages under way, `S.x` the call services,
  `T n` are the messages the chain `n` has taken.
* The services log what they do: `sent` a call, `received` a request, `executed` it with a code, got a `response`, ran the rollback (`undo`).
-/
namespace Verif.XNet
open Verif Verif.SolBmc Verif.SolNet

section
variable (nd : String → Node) (nets : List String) (bal : String → Nat) (hnd : nets.Nodup) (hname : ∀ n ∈ nets, (nd n).bmc.net = n)
  (hsl : ∀ n ∈ nets, '/' ∉ n.toList)
include hnd hname

/-- C159: the message centers are a network as in C156-C158, whatever the call services do. -/
theorem C159_network (S : Net) (T : String → List Msg) (h : JReach nd nets bal S T) : TReach (fun n => (nd n).bmc) nets S.sys T := jreach_treach hnd hname h

/-- C159: with C156, no message center owes more than it got, also when call services use it. -/
theorem C159_solvent (dec : Bytes → Option Inner) (hN : Networks nets (fun n => (nd n).bmc) dec) (S : Net) (T : String → List Msg)
    (h : JReach nd nets bal S T) (n : String) (hn : n ∈ nets) (who : Nat) :
    (S.sys.st n).reward.get 0 (who, n) + (S.sys.st n).paid n ≤ (S.sys.st n).coins :=
  C156_claim_covered nets _ dec hN S.sys (jreach_treach hnd hname h).reach n hn who

include hsl

/-- The call services are a system as in C76. -/
theorem C159_calls (S : Net) (T : String → List Msg) (h : JReach nd nets bal S T) :
    ∃ done, XCall.Reach (fun s => (nd (String.ofList s)).x) (fun s => bal (String.ofList s)) ⟨fun s => S.x (String.ofList s), done⟩ := by
  obtain ⟨G, done, hk⟩ := (jreach_all hnd hname hsl h).k
  exact ⟨done, hk.reach⟩

/-- C159: if the rollback of a call is run, the call was not executed with success anywhere, then or later. -/
theorem C159_atomic (S : Net) (T : String → List Msg) (h : JReach nd nets bal S T) (a b : String) (sn : Int) (dst : BtpAddress.Str) (data : Option Bytes)
    (hu : XCall.Ev.undo sn dst data ∈ (S.x a).log) (id : Nat) (q : XCall.Req) (hr : XCall.Ev.received id a.toList q ∈ (S.x b).log) (hq : q.sn = sn)
    (c : Int) (he : XCall.Ev.executed id c ∈ (S.x b).log) : c ≠ 0 := by
  obtain ⟨done, hd⟩ := C159_calls nd nets bal hnd hname hsl S T h
  exact XCall.C76_atomic _ _ _ hd a.toList b.toList sn dst data (by dsimp only; rw [String.ofList_toList]; exact hu) id q
    (by dsimp only; rw [String.ofList_toList]; exact hr) hq c (by dsimp only; rw [String.ofList_toList]; exact he)

/-- C159: a success reported to a call is the success of its execution, on the chain and contract called, with the data sent. -/
theorem C159_success (S : Net) (T : String → List Msg) (h : JReach nd nets bal S T) (a : String) (sn : Int)
    (hc : XCall.Ev.response sn 0 ∈ (S.x a).log) :
    ∃ (k : Nat) (caller : BtpAddress.Str) (b : String) (acct : BtpAddress.Str) (data : Bytes) (rb : Option Bytes) (id : Nat) (q : XCall.Req), sn = k ∧
      XCall.Ev.sent k caller b.toList acct data rb ∈ (S.x a).log ∧ XCall.Ev.received id a.toList q ∈ (S.x b).log ∧ q.sn = sn ∧
      q.src = caller ∧ q.dst = acct ∧ q.data = data ∧ XCall.Ev.executed id 0 ∈ (S.x b).log := by
  obtain ⟨done, hd⟩ := C159_calls nd nets bal hnd hname hsl S T h
  obtain ⟨k, caller, net, acct, data, rb, id, q, h1, h2, h3, h4⟩ := XCall.C76_success _ _ _ hd a.toList sn (by dsimp only; rw [String.ofList_toList]; exact hc)
  dsimp only at h2 h3 h4
  rw [String.ofList_toList] at h2
  exact ⟨k, caller, String.ofList net, acct, data, rb, id, q, h1, by rw [String.toList_ofList]; exact h2, h3, h4⟩

/-- C159: what a service runs was sent to it, by the contract the target is told, to the target, with the data. -/
theorem C159_integrity (S : Net) (T : String → List Msg) (h : JReach nd nets bal S T) (b : String) (id : Int) (r : XCall.Req)
    (hc : XCall.Ev.call id r ∈ (S.x b).log) :
    ∃ (a : String) (k : Nat) (caller : BtpAddress.Str) (rb : Option Bytes), r.src = BtpAddress.solCompose a.toList caller ∧ r.sn = k ∧
      XCall.Ev.sent k caller b.toList r.dst r.data rb ∈ (S.x a).log := by
  obtain ⟨done, hd⟩ := C159_calls nd nets bal hnd hname hsl S T h
  obtain ⟨a, k, caller, rb, -, h2, h3, h4⟩ := XCall.C76_integrity _ _ _ hd b.toList id r (by dsimp only; rw [String.ofList_toList]; exact hc)
  exact ⟨String.ofList a, k, caller, rb, by rw [String.toList_ofList]; exact h2, h3, h4⟩

/-- C159: no call is received twice, on any chains. -/
theorem C159_once (S : Net) (T : String → List Msg) (h : JReach nd nets bal S T) (a b b' : String) (id id' : Nat) (q q' : XCall.Req)
    (h1 : XCall.Ev.received id a.toList q ∈ (S.x b).log) (h2 : XCall.Ev.received id' a.toList q' ∈ (S.x b').log) (hs : q.sn = q'.sn) : b = b' ∧ id = id' := by
  obtain ⟨done, hd⟩ := C159_calls nd nets bal hnd hname hsl S T h
  obtain ⟨h3, h4⟩ := XCall.C76_once _ _ _ hd a.toList b.toList b'.toList id id' q q' (by dsimp only; rw [String.ofList_toList]; exact h1)
    (by dsimp only; rw [String.ofList_toList]; exact h2) hs
  exact ⟨toList_inj' h3, h4⟩

/-- C159: a call is settled with the code of its execution on the chain it was sent to, or with -2. -/
theorem C159_settled (S : Net) (T : String → List Msg) (h : JReach nd nets bal S T) (a : String) (sn code : Int)
    (hc : XCall.Ev.response sn code ∈ (S.x a).log) :
    ∃ (k : Nat) (caller : BtpAddress.Str) (b : String) (acct : BtpAddress.Str) (data : Bytes) (rb : Option Bytes), sn = k ∧
      XCall.Ev.sent k caller b.toList acct data rb ∈ (S.x a).log ∧
      ((∃ (id : Nat) (q : XCall.Req), XCall.Ev.received id a.toList q ∈ (S.x b).log ∧ q.sn = sn ∧ XCall.Ev.executed id code ∈ (S.x b).log) ∨ code = -2) := by
  obtain ⟨done, hd⟩ := C159_calls nd nets bal hnd hname hsl S T h
  obtain ⟨k, caller, net, acct, data, rb, h1, h2, h3⟩ := XCall.C55_honest_partial _ _ _ hd a.toList sn code (by dsimp only; rw [String.ofList_toList]; exact hc)
  dsimp only at h2 h3
  rw [String.ofList_toList] at h2
  exact ⟨k, caller, String.ofList net, acct, data, rb, h1, by rw [String.toList_ofList]; exact h2, h3⟩

/-- C159: a call that wants an answer is always somewhere. Its message `m0` is under way, or the request waits to be executed on the chain called,
    or the answer is under way, or it is recorded; unless an answer was given up by a message center. -/
theorem C159_accounted (S : Net) (T : String → List Msg) (h : JReach nd nets bal S T) (n : String) (hn : n ∈ nets) (k : Nat) (caller : BtpAddress.Str) (b : String)
    (acct : BtpAddress.Str) (data : Bytes) (rb : Option Bytes) (hs : XCall.Ev.sent k caller b.toList acct data rb ∈ (S.x n).log)
    (hp : XCall.present (nd n).x.lang rb = true) :
    ∃ m0 ∈ msgsOf (S.sys.st n).log, m0.src = n ∧ m0.dst = b ∧ m0.svc = X ∧ m0.sn = k ∧ 0 < m0.nsn ∧
      ((∃ m ∈ S.sys.pool, m.src = n ∧ m.nsn = m0.nsn) ∨
       (b ∈ nets ∧ ((S.sys.st b).resp.get Resp.empty (n, X, k)).nsn = m0.nsn ∧
          ∃ id r a, (S.x b).proxy id = some r ∧ r.rb = true ∧ r.sn = k ∧ r.src = BtpAddress.solCompose n.toList a) ∨
       (∃ m ∈ S.sys.pool, m.dst = n ∧ m.nsn = -m0.nsn) ∨
       (∃ code, XCall.Ev.response k code ∈ (S.x n).log) ∨
       (∃ a ∈ nets, ∃ p q m' code, Event.dropped p q m' code ∈ (S.sys.st a).log ∧ m'.nsn = -m0.nsn)) := by
  have hall := jreach_all hnd hname hsl h
  obtain ⟨m0, h1, h2, h3, h4, h5, h6, hc⟩ := hall.accounted hname hn hs hp
  refine ⟨m0, h1, h2, h3, h4, h5, h6, ?_⟩
  rcases hc with hc | hc | hc | hc | hc | ⟨a, -, hic, -⟩
  · exact .inl hc
  · exact .inr (.inl hc)
  · exact .inr (.inr (.inl hc))
  · exact .inr (.inr (.inr (.inl hc)))
  · exact .inr (.inr (.inr (.inr hc)))
  · exact nomatch hic

/-- C159: an answer owed for a call can be given: anyone can have the request executed, if the call service is registered and there is a
    route back, and whatever the contract called does (`inner`, `out`) the answer is then sent to the caller's chain. -/
theorem C159_answerable (S : Net) (T : String → List Msg) (h : JReach nd nets bal S T) (n : String) (hn : n ∈ nets) (y : String) (sn : Int)
    (how : ((S.sys.st n).resp.get Resp.empty (y, X, sn)).nsn ≠ 0) (hy : y ≠ "")
    (hcaller : ∀ k caller net acct data rb, XCall.Ev.sent k caller net acct data rb ∈ (S.x y).log → caller ≠ [])
    (env : Env) (next : String) (hs : (nd n).addr ≠ (nd n).bmc.service) (he : env.service X = some (nd n).addr) (hr : env.resolve y = some next) :
    ∃ id, ∀ inner out, FineAll (nd n) inner → (S.x n).sn + inner.size < 2 ^ 255 →
      ∃ j', jexec (nd n) (.exec env id inner out) ⟨S.sys.st n, S.x n⟩ = some j' ∧ (j'.b.resp.get Resp.empty (y, X, sn)).nsn = 0 ∧
        XCall.Ev.executed id (XCall.respCode (nd n).x.lang out) ∈ j'.x.log ∧
        ∃ next' seq m, Event.message next' seq m ∈ j'.b.log ∧ m.dst = y ∧ m.svc = X ∧ m.nsn = -((S.sys.st n).resp.get Resp.empty (y, X, sn)).nsn := by
  have hall := jreach_all hnd hname hsl h
  obtain ⟨id, r, a, h1, h2, h3, h4, h5, hparse, hpos, hone⟩ := hall.waiting hsl hn how hy hcaller
  refine ⟨id, fun inner out hf hz => ?_⟩
  obtain ⟨j', h7, h8, h9, next', seq, m, h10, h11, h12, h13⟩ := exec_answers (nd n) env (S.sys.st n) (S.x n) id r y.toList a next inner out hs he
    (by rw [String.ofList_toList]; exact hr) hf h1 h2 (by omega) (by omega) hparse hz (by rw [String.ofList_toList, h3]; exact hpos)
    (by rw [h3]; exact hone)
  rw [String.ofList_toList, h3] at h8 h13
  rw [String.ofList_toList] at h11
  exact ⟨j', h7, h8, h9, next', seq, m, h10, h11, h12, h13⟩

end

/-! ### A history -/
namespace Demo

/-- The messages of the history; they are encoded by their place. -/
def table : List XCall.Msg :=
  [.req ⟨['a'], ['b'], 1, true, [7]⟩, .res 1 (-1), .req ⟨['a'], ['b'], 2, true, [8]⟩, .res 2 0]

def node (n : String) : Node where
  bmc := SolNet.Demo.cfg n
  x := ⟨.sol, ['m'], ['o']⟩
  addr := 50
  enc := fun m => List.replicate (table.idxOf m) 0
  dec := fun b => table.getD b.length .unknown

abbrev nets : List String := ["A", "B"]
abbrev env := SolNet.Demo.env

inductive Act where
  | call (n : String) (o : JOp)
  | deliver (n : String) (caller : Nat) (i : Nat) (prev : String)

abbrev W := Net × (String → List Msg)

def Act.run (w : W) : Act → W
  | .call n o => match jexec (node n) o ⟨w.1.sys.st n, w.1.x n⟩ with
    | some j => (w.1.next n j w.1.sys.pool, upd w.2 n (w.2 n ++ []))
    | none => w
  | .deliver n caller i prev => match w.1.sys.pool[i]? with
    | some m => match jrelay (node n) env caller prev (.cons m env true .nil .nil) ⟨w.1.sys.st n, w.1.x n⟩ with
      | some j => (w.1.next n j (w.1.sys.pool.eraseIdx i), upd w.2 n (w.2 n ++ [m]))
      | none => w
    | none => w

def Act.Fine : Act → Prop
  | .call n o => n ∈ nets ∧ XNet.Fine (node n) o
  | .deliver n _ _ _ => n ∈ nets

def evOk : XCall.Ev → Bool
  | .out _ _ m _ => decide (m ∈ table)
  | _ => true

/-- The services of the two chains are as `Sane` wants. -/
def check (w : W) : Bool := nets.all (fun n => decide ((w.1.x n).sn < 2 ^ 255) && (w.1.x n).log.all evOk)

def start : W := (⟨⟨fun _ => SolBmc.init, []⟩, fun _ => XCall.init 0⟩, fun _ => [])

/-- Reached, and nothing happened on other chains. -/
def Good (w : W) : Prop := JReach node nets (fun _ => 0) w.1 w.2 ∧ ∀ n, n ∉ nets → w.1.x n = XCall.init 0

theorem legible : ∀ m ∈ table, ∀ n n' : String, (node n').dec ((node n).enc m) = m := by
  intro m hm n n'
  show table.getD (List.replicate (table.idxOf m) (0 : UInt8)).length .unknown = m
  rw [List.length_replicate]
  revert m
  decide +kernel

theorem sane {w : W} (hc : check w = true) (ho : ∀ n, n ∉ nets → w.1.x n = XCall.init 0) : Sane node w.1 := by
  have h : ∀ n, (w.1.x n).sn < 2 ^ 255 ∧ ∀ e ∈ (w.1.x n).log, evOk e = true := by
    intro n
    by_cases hn : n ∈ nets
    · have := List.all_eq_true.1 hc n hn
      rw [Bool.and_eq_true, decide_eq_true_eq, List.all_eq_true] at this
      exact this
    · rw [ho n hn]
      exact ⟨by show (0 : Nat) < _; decide +kernel, fun e he => nomatch he⟩
  exact ⟨fun n => (h n).1, fun n n' net sn m v hm => legible m (of_decide_eq_true ((h n).2 _ hm)) n n'⟩

theorem next_other {S : Net} {n : String} {j : J} {rest : List Msg} (hn : n ∈ nets) (ho : ∀ n, n ∉ nets → S.x n = XCall.init 0) :
    ∀ n', n' ∉ nets → (S.next n j rest).x n' = XCall.init 0 := by
  intro n' hn'
  have : n' ≠ n := fun e => hn' (e ▸ hn)
  show upd S.x n j.x n' = _
  rw [show upd S.x n j.x n' = S.x n' from if_neg this]
  exact ho n' hn'

theorem act_good (w : W) (a : Act) (h : Good w) (ha : a.Fine) (hc : check (a.run w) = true) : Good (a.run w) := by
  cases a with
  | call n o =>
    cases he : jexec (node n) o ⟨w.1.sys.st n, w.1.x n⟩ with
    | none => simp only [Act.run, he]; exact h
    | some j =>
      simp only [Act.run, he] at hc ⊢
      have ho := next_other (j := j) (rest := w.1.sys.pool) ha.1 h.2
      exact ⟨.step h.1 (.call n o j ha.1 ha.2 he) (sane hc ho), ho⟩
  | deliver n caller i prev =>
    cases hi : w.1.sys.pool[i]? with
    | none => simp only [Act.run, hi]; exact h
    | some m =>
      cases he : jrelay (node n) env caller prev (.cons m env true .nil .nil) ⟨w.1.sys.st n, w.1.x n⟩ with
      | none => simp only [Act.run, hi, he]; exact h
      | some j =>
        simp only [Act.run, hi, he] at hc ⊢
        have ho := next_other (j := j) (rest := w.1.sys.pool.eraseIdx i) ha h.2
        exact ⟨.step h.1 (.relay n env caller prev (.cons m env true .nil .nil) _ j ha ⟨trivial, trivial⟩
          (SolNet.Demo.perm_eraseIdx m _ i hi) he) (sane hc ho), ho⟩

/-- Contract a of chain A calls contract b of chain B. -/
def ask (data : Bytes) : Act := .call "A" (.send env ['a'] true ("btp://B/b".toList) data (some [9]) 10 (some 4))
/-- Anyone has the request executed on B; the contract called reverts or not. -/
def answer (id : Int) (out : XCall.Outcome) : Act := .call "B" (.exec env id .nil out)
def undo : Act := .call "A" (.undo 1 .nil .ok)

theorem ask_fine (data : Bytes) : (ask data).Fine := ⟨by decide, rfl⟩
theorem answer_fine (id : Int) (out : XCall.Outcome) : (answer id out).Fine := ⟨by decide, rfl, trivial⟩
theorem undo_fine : undo.Fine := ⟨by decide, trivial⟩
theorem deliver_fine {n : String} (h : n ∈ nets) (caller i : Nat) (prev : String) : (Act.deliver n caller i prev).Fine := h

def W1 := (ask [7]).run start
def W2 := (Act.deliver "B" 70 0 "A").run W1
def W3 := (answer 1 .failed).run W2
def W4 := (Act.deliver "A" 70 0 "B").run W3
def W5 := undo.run W4
def W6 := (ask [8]).run W5
def W7 := (Act.deliver "B" 70 0 "A").run W6
def W8 := (answer 2 .ok).run W7
def W9 := (Act.deliver "A" 70 0 "B").run W8

theorem good1 : Good W1 := act_good start _ ⟨.init, fun _ _ => rfl⟩ (ask_fine _) (by decide +kernel)
theorem good2 : Good W2 := act_good _ _ good1 (deliver_fine (by decide) ..) (by decide +kernel)
theorem good3 : Good W3 := act_good _ _ good2 (answer_fine ..) (by decide +kernel)
theorem good4 : Good W4 := act_good _ _ good3 (deliver_fine (by decide) ..) (by decide +kernel)
theorem good5 : Good W5 := act_good _ _ good4 undo_fine (by decide +kernel)
theorem good6 : Good W6 := act_good _ _ good5 (ask_fine _) (by decide +kernel)
theorem good7 : Good W7 := act_good _ _ good6 (deliver_fine (by decide) ..) (by decide +kernel)
theorem good8 : Good W8 := act_good _ _ good7 (answer_fine ..) (by decide +kernel)
theorem good9 : Good W9 := act_good _ _ good8 (deliver_fine (by decide) ..) (by decide +kernel)

theorem names : ∀ n ∈ nets, (node n).bmc.net = n := fun _ _ => rfl
theorem slash : ∀ n ∈ nets, '/' ∉ n.toList := by decide +kernel

-- The logs of both services at the end: one call failed and was rolled back, the other one had success.
example : (W9.1.x "A").log =
    [.out ['B'] 1 (.req ⟨['a'], ['b'], 1, true, [7]⟩) 10, .sent 1 ['a'] ['B'] ['b'] [7] (some [9]), .response 1 (-1), .undo 1 ['a'] (some [9]), .undone 1 0,
     .out ['B'] 2 (.req ⟨['a'], ['b'], 2, true, [8]⟩) 10, .sent 2 ['a'] ['B'] ['b'] [8] (some [9]), .response 2 0] := by decide +kernel
example : (W9.1.x "B").log =
    [.received 1 ['A'] ⟨['a'], ['b'], 1, true, [7]⟩, .call 1 ⟨"btp://A/a".toList, ['b'], 1, true, [7]⟩, .executed 1 (-1), .out ['A'] (-1) (.res 1 (-1)) 0,
     .received 2 ['A'] ⟨['a'], ['b'], 2, true, [8]⟩, .call 2 ⟨"btp://A/a".toList, ['b'], 2, true, [8]⟩, .executed 2 0, .out ['A'] (-2) (.res 2 0) 0] := by
  decide +kernel

-- The theorems apply to it.
example : ∃ (k : Nat) (caller : BtpAddress.Str) (b : String) (acct : BtpAddress.Str) (data : Bytes) (rb : Option Bytes) (id : Nat) (q : XCall.Req), (2 : Int) = k ∧
      XCall.Ev.sent k caller b.toList acct data rb ∈ (W9.1.x "A").log ∧ XCall.Ev.received id "A".toList q ∈ (W9.1.x b).log ∧ q.sn = 2 ∧
      q.src = caller ∧ q.dst = acct ∧ q.data = data ∧ XCall.Ev.executed id 0 ∈ (W9.1.x b).log :=
  C159_success node nets _ (by decide) names slash _ _ good9.1 "A" 2 (by decide +kernel)
example (id : Nat) (q : XCall.Req) (hr : XCall.Ev.received id "A".toList q ∈ (W9.1.x "B").log) (hq : q.sn = 1) (c : Int)
    (he : XCall.Ev.executed id c ∈ (W9.1.x "B").log) : c ≠ 0 :=
  C159_atomic node nets _ (by decide) names slash _ _ good9.1 "A" "B" 1 ['a'] (some [9]) (by decide +kernel) id q hr hq c he
-- Where the first call is: on the way, waiting, the answer on the way, answered.
example : (W1.1.sys.pool.map (·.nsn), W2.1.sys.pool.map (·.nsn), W3.1.sys.pool.map (·.nsn), W4.1.sys.pool.map (·.nsn)) = ([1], [], [-1], []) := by
  decide +kernel
example : ((W2.1.sys.st "B").resp.get Resp.empty ("A", X, 1)).nsn = 1 ∧ ((W3.1.sys.st "B").resp.get Resp.empty ("A", X, 1)).nsn = 0 := by decide +kernel
-- While it waits, it can be executed.
example : ∃ id, ∀ inner out, FineAll (node "B") inner → (W2.1.x "B").sn + inner.size < 2 ^ 255 →
      ∃ j', jexec (node "B") (.exec env id inner out) ⟨W2.1.sys.st "B", W2.1.x "B"⟩ = some j' ∧ (j'.b.resp.get Resp.empty ("A", X, 1)).nsn = 0 ∧
        XCall.Ev.executed id (XCall.respCode (node "B").x.lang out) ∈ j'.x.log ∧
        ∃ next' seq m, Event.message next' seq m ∈ j'.b.log ∧ m.dst = "A" ∧ m.svc = X ∧ m.nsn = -((W2.1.sys.st "B").resp.get Resp.empty ("A", X, 1)).nsn :=
  C159_answerable node nets _ (by decide) names slash _ _ good2.1 "B" (by decide) "A" 1 (by decide +kernel) (by decide)
    (fun k caller net acct data rb hm => by
      have e : (W2.1.x "A").log = [.out ['B'] 1 (.req ⟨['a'], ['b'], 1, true, [7]⟩) 10, .sent 1 ['a'] ['B'] ['b'] [7] (some [9])] := by decide +kernel
      rw [e] at hm
      simp only [List.mem_cons, List.not_mem_nil, or_false, reduceCtorEq, XCall.Ev.sent.injEq, false_or] at hm
      rw [hm.2.1]; decide) env "A" (by decide) rfl rfl
-- The message centers can pay what they owe.
example : (W9.1.sys.st "B").reward.get 0 (70, "B") + (W9.1.sys.st "B").paid "B" ≤ (W9.1.sys.st "B").coins :=
  C159_solvent node nets _ (by decide) names SolNet.Demo.dec SolNet.Demo.networks _ _ good9.1 "B" (by decide) 70

end Demo

end Verif.XNet
