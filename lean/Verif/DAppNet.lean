import Verif.DAppProps
import Verif.XCallOpen
import Verif.XMixVerifiedProps
/-!
C172: the sample application (`DApp`) on the chains of a network of EVM chains and of ICON (`XMix`), whose relay calls go through the verifiers
of the links (C164). C141 looks at one chain and wants that no call delivered claims to come from the call service of this chain; here that is
proved of the network, and what the application reports on one chain is compared with what it or another contract does on the other chains.
-/
namespace Verif.DApp
open Verif Verif.BtpAddress
open Verif.XMix (LNet VReach Chain)
open Verif.XCall (FromNet Failed)

/-- The application with configuration `C` is on chain `a` of the network and went through `ops`: the call service it uses is the one there. The
call service (CallServiceImpl.java, CallService.sol) has no code that calls its own `sendCallMessage`. -/
structure On (L : LNet) (a : String) (C : Cfg) (b : Nat) (ops : Ops) : Prop where
  ok : Ok C
  net : C.net = a.toList
  log : (run C ops (init b)).x.log = (L.x a).log
  svc : ∀ k net acct d rb, XCall.Ev.sent k C.svc net acct d rb ∉ (L.x a).log

section
variable (dec : Bytes → Option JavaBmc.Msg) (addr : String → String) (nd : String → Chain) (nets : List String) (bal : String → Nat) (hnd : nets.Nodup)
  (hname : ∀ n ∈ nets, (nd n).kind.net = n) (hsl : ∀ n ∈ nets, '/' ∉ n.toList) (hinj : ∀ a ∈ nets, ∀ b ∈ nets, addr a = addr b → a = b)
include hnd hname hsl hinj

theorem calls (L : LNet) (h : VReach dec addr nd nets bal L) :
    ∃ done, XCall.Reach (fun s => (nd (String.ofList s)).x) (fun s => bal (String.ofList s)) ⟨fun s => L.x (String.ofList s), done⟩ := by
  obtain ⟨P, T, g⟩ := XMix.lreach_inv hnd hname hsl hinj (XMix.vreach_lreach hnd hname hsl hinj h)
  exact XMix.C161_calls nd nets bal hnd hname hsl _ T g.reach

/-- Every request received was sent to this chain, by the contract named. -/
theorem received_from (L : LNet) (h : VReach dec addr nd nets bal L) (b : String) (id : Nat) (net : Str) (q : XCall.Req)
    (hr : XCall.Ev.received id net q ∈ (L.x b).log) :
    '/' ∉ net ∧ ∃ (k : Nat) (rb : Option Bytes), q.sn = k ∧ XCall.Ev.sent k q.src b.toList q.dst q.data rb ∈ (L.x (String.ofList net)).log := by
  obtain ⟨done, hd⟩ := calls dec addr nd nets bal hnd hname hsl hinj L h
  exact XCall.received_sent _ _ _ hd b.toList id net q (by dsimp only; rw [String.ofList_toList]; exact hr)

theorem failed_ran (L : LNet) (h : VReach dec addr nd nets bal L) (a b : String) (sn code : Int) (hc : XCall.Ev.response sn code ∈ (L.x a).log)
    (id : Nat) (q : XCall.Req) (hr : XCall.Ev.received id a.toList q ∈ (L.x b).log) (hq : q.sn = sn) : XCall.Ev.executed id code ∈ (L.x b).log := by
  obtain ⟨done, hd⟩ := calls dec addr nd nets bal hnd hname hsl hinj L h
  have := XCall.failed_executed _ _ _ hd a.toList b.toList sn code (by dsimp only; rw [String.ofList_toList]; exact hc) id q
    (by dsimp only; rw [String.ofList_toList]; exact hr) hq
  dsimp only at this
  rwa [String.ofList_toList] at this

theorem failed_not_ok (L : LNet) (h : VReach dec addr nd nets bal L) (a b : String) (sn code : Int) (h0 : code ≠ 0)
    (hc : XCall.Ev.response sn code ∈ (L.x a).log) (id : Nat) (q : XCall.Req) (hr : XCall.Ev.received id a.toList q ∈ (L.x b).log) (hq : q.sn = sn)
    (c : Int) (he : XCall.Ev.executed id c ∈ (L.x b).log) : c ≠ 0 := by
  obtain ⟨done, hd⟩ := calls dec addr nd nets bal hnd hname hsl hinj L h
  exact XCall.failed_exec _ _ _ hd a.toList b.toList sn code h0 (by dsimp only; rw [String.ofList_toList]; exact hc) id q
    (by dsimp only; rw [String.ofList_toList]; exact hr) hq c (by dsimp only; rw [String.ofList_toList]; exact he)

/-- C172: in the network no call delivered claims to come from the call service of the chain: the condition of C141 is met. -/
theorem C172_foreign (L : LNet) (h : VReach dec addr nd nets bal L) (a : String) (C : Cfg) (b : Nat) (ops : Ops) (o : On L a C b ops) :
    Foreign C (run C ops (init b)).x := by
  intro id net q hr he
  rw [o.log] at hr
  obtain ⟨hs, k, rb, -, hk⟩ := received_from dec addr nd nets bal hnd hname hsl hinj L h a id net q hr
  have hn : net = C.net := Classical.byContradiction fun hn => compose_ne o.ok hn _ he
  subst hn
  have hq : q.src = C.svc := by
    unfold own solCompose at he
    exact List.append_cancel_left he
  rw [hq, o.net, String.ofList_toList] at hk
  exact o.svc _ _ _ _ _ hk

theorem on_di (L : LNet) (h : VReach dec addr nd nets bal L) (a : String) (C : Cfg) (b : Nat) (ops : Ops) (o : On L a C b ops) :
    DI C (run C ops (init b)) :=
  reach_di C o.ok b ops (C172_foreign dec addr nd nets bal hnd hname hsl hinj L h a C b ops o)

/-- C172: a rollback the application reports on `a` is that of a call it made with this data. The call was sent to a chain `c`, where it was
    executed and failed, or a message center gave it back. It was not executed with success anywhere. -/
theorem C172_rollback (L : LNet) (h : VReach dec addr nd nets bal L) (a : String) (C : Cfg) (b : Nat) (ops : Ops) (o : On L a C b ops)
    (src : Str) (n : Nat) (d : Bytes) (hr : Ev.rollback src n d ∈ (run C ops (init b)).log) :
    (∃ id, Ev.sent id d n ∈ (run C ops (init b)).log) ∧
    (∃ (c : String) (acct : Str) (data rb : Bytes) (code : Int), XCall.Ev.sent n C.self c.toList acct data (some rb) ∈ (L.x a).log ∧ code ≠ 0 ∧
      ((∃ (id : Nat) (q : XCall.Req), XCall.Ev.received id a.toList q ∈ (L.x c).log ∧ q.sn = n ∧ XCall.Ev.executed id code ∈ (L.x c).log) ∨ code = -2)) ∧
    (∀ (c : String) (id : Nat) (q : XCall.Req) (code : Int), XCall.Ev.received id a.toList q ∈ (L.x c).log → q.sn = n →
      XCall.Ev.executed id code ∈ (L.x c).log → code ≠ 0) := by
  have i := on_di dec addr nd nets bal hnd hname hsl hinj L h a C b ops o
  obtain ⟨-, id, hs, hu⟩ := i.roll src n d hr
  obtain ⟨-, -, ⟨code, h0, hc⟩, -⟩ := i.x.undo _ _ _ hu
  rw [o.log] at hu hc
  refine ⟨⟨id, hs⟩, ?_, fun c id' q code' h1 h2 h3 => ?_⟩
  · obtain ⟨k, caller, c, acct, data, rb, hk, h1, h2⟩ := XMix.C164_settled dec addr nd nets bal hnd hname hsl hinj L h a n code hc
    have hk : n = k := by omega
    subst hk
    obtain ⟨net, acct', d', h3⟩ := (i.ssn id d n hs).2
    have h4 := h1
    rw [← o.log] at h4
    have hnd' : ((run C ops (init b)).x.log.filterMap XCall.sentSn).Nodup := by rw [i.x.sents]; exact XCall.upTo_nodup _
    obtain ⟨p, hp⟩ := List.getElem?_of_mem h3
    obtain ⟨p', hp'⟩ := List.getElem?_of_mem h4
    have := XCall.idx_unique XCall.sentSn n _ p p' _ _ hnd' hp hp' rfl rfl
    subst this
    rw [hp] at hp'
    cases hp'
    exact ⟨c, acct, data, _, code, h1, h0, h2⟩
  · exact XMix.C164_atomic dec addr nd nets bal hnd hname hsl hinj L h a c n _ _ hu id' q h1 h2 code' h3

/-- C172: each message the application reports on `a` is one call, sent to it from the chain and contract named with this data; no call is
    reported twice; and if it was a call of the application on another chain, the rollback of the call is not reported there. -/
theorem C172_messages (L : LNet) (h : VReach dec addr nd nets bal L) (a : String) (C : Cfg) (b : Nat) (ops : Ops) (o : On L a C b ops) :
    ∃ zs : List ((String × Nat) × (Str × Bytes)),
      zs.map (·.2) = (run C ops (init b)).log.filterMap (fun | .message src data => some (src, data) | _ => none) ∧ (zs.map (·.1)).Nodup ∧
      ∀ z ∈ zs, (∃ (caller dst : Str) (rb : Option Bytes), z.2.1 = solCompose z.1.1.toList caller ∧ C.isSelf dst = true ∧ z.2.2 ≠ revertText ∧
          XCall.Ev.sent z.1.2 caller a.toList dst z.2.2 rb ∈ (L.x z.1.1).log) ∧
        ∀ (C' : Cfg) (b' : Nat) (ops' : Ops), On L z.1.1 C' b' ops' → ∀ src d, Ev.rollback src z.1.2 d ∉ (run C' ops' (init b')).log := by
  have i := on_di dec addr nd nets bal hnd hname hsl hinj L h a C b ops o
  have hcalls := i.x.calls
  have hall : ∀ id r, XCall.Ev.call id r ∈ (run C ops (init b)).x.log → XCall.Ev.call id r ∈ (run C ops (init b)).x.log := fun _ _ h => h
  suffices H : ∀ l : List XCall.Ev, (∀ id r, XCall.Ev.call id r ∈ l → XCall.Ev.call id r ∈ (run C ops (init b)).x.log) →
      (l.filterMap XCall.callId).Nodup → ∃ zs : List ((String × Nat) × (Str × Bytes)),
      zs.map (·.2) = l.filterMap (callMine C) ∧
      (zs.map (·.1)).Nodup ∧
      ∀ z ∈ zs, ∃ (id : Nat) (q : XCall.Req), (id : Int) ∈ l.filterMap XCall.callId ∧ XCall.Ev.received id z.1.1.toList q ∈ (L.x a).log ∧ q.sn = z.1.2 ∧
        XCall.Ev.call id { q with src := solCompose z.1.1.toList q.src } ∈ (run C ops (init b)).x.log ∧
        z.2 = (solCompose z.1.1.toList q.src, q.data) ∧ C.isSelf q.dst = true ∧ q.data ≠ revertText by
    obtain ⟨zs, h1, h2, h3⟩ := H _ hall hcalls
    refine ⟨zs, (h1.trans i.msgs.symm).trans (by congr 1), h2, fun z hz => ?_⟩
    obtain ⟨id, q, -, hr, hq, hcall, hz2, hd, hdata⟩ := h3 z hz
    obtain ⟨-, k, rb, hk, hs⟩ := received_from dec addr nd nets bal hnd hname hsl hinj L h a id _ q hr
    rw [String.ofList_toList] at hs
    have : z.1.2 = k := by omega
    refine ⟨⟨q.src, q.dst, rb, by rw [hz2], hd, by rw [hz2]; exact hdata, by rw [this, hz2]; exact hs⟩, fun C' b' ops' o' src d hrb => ?_⟩
    have i' := on_di dec addr nd nets bal hnd hname hsl hinj L h z.1.1 C' b' ops' o'
    obtain ⟨-, id', -, hu⟩ := i'.roll src _ d hrb
    obtain ⟨-, -, ⟨code, h0, hc⟩, -⟩ := i'.x.undo _ _ _ hu
    rw [o'.log] at hc
    have he := failed_ran dec addr nd nets bal hnd hname hsl hinj L h z.1.1 a _ code hc id q hr hq
    rw [← o.log] at he
    exact h0 ((i.executed id _ code hcall hd he).2 hdata)
  intro l
  induction l with
  | nil => intro _ _; exact ⟨[], rfl, List.nodup_nil, fun z hz => nomatch hz⟩
  | cons e t ih =>
    intro hl hn
    have hn' : (t.filterMap XCall.callId).Nodup := by
      rw [List.filterMap_cons] at hn
      split at hn
      · exact hn
      · exact (List.nodup_cons.1 hn).2
    obtain ⟨zs, h1, h2, h3⟩ := ih (fun id r hm => hl id r (List.mem_cons_of_mem _ hm)) hn'
    have keep : ∀ z ∈ zs, ∃ (id : Nat) (q : XCall.Req), (id : Int) ∈ (e :: t).filterMap XCall.callId ∧ XCall.Ev.received id z.1.1.toList q ∈ (L.x a).log ∧
        q.sn = z.1.2 ∧ XCall.Ev.call id { q with src := solCompose z.1.1.toList q.src } ∈ (run C ops (init b)).x.log ∧
        z.2 = (solCompose z.1.1.toList q.src, q.data) ∧ C.isSelf q.dst = true ∧ q.data ≠ revertText := by
      intro z hz
      obtain ⟨id, q, g1, g2⟩ := h3 z hz
      obtain ⟨r, g1⟩ := XCall.mem_callId.1 g1
      exact ⟨id, q, XCall.mem_callId.2 ⟨r, List.mem_cons_of_mem _ g1⟩, g2⟩
    cases e with
    | call id r =>
      by_cases hm : C.isSelf r.dst = true ∧ r.data ≠ revertText
      · have hc := hl id r (List.mem_cons_self ..)
        obtain ⟨n, net, q, rfl, hr, hrq⟩ := i.x.call id r hc
        rw [o.log] at hr
        obtain ⟨-, k, rb, hk, hs⟩ := received_from dec addr nd nets bal hnd hname hsl hinj L h a n net q hr
        refine ⟨((String.ofList net, k), (r.src, r.data)) :: zs, ?_, ?_, ?_⟩
        · rw [List.map_cons, h1, List.filterMap_cons]
          simp only [callMine, if_pos hm]
        · rw [List.map_cons, List.nodup_cons]
          refine ⟨fun hmem => ?_, h2⟩
          obtain ⟨z, hz, hz1⟩ := List.mem_map.1 hmem
          obtain ⟨id', q', g1, g2, g3, -⟩ := h3 z hz
          dsimp only at hz1
          rw [hz1, String.toList_ofList] at g2
          rw [hz1] at g3
          have := (XMix.C164_once dec addr nd nets bal hnd hname hsl hinj L h (String.ofList net) a a id' n q' q
            (by rw [String.toList_ofList]; exact g2) (by rw [String.toList_ofList]; exact hr) (g3.trans hk.symm)).2
          subst this
          rw [List.filterMap_cons] at hn
          exact (List.nodup_cons.1 hn).1 g1
        · intro z hz
          rcases List.mem_cons.1 hz with rfl | hz
          · refine ⟨n, q, by simp [XCall.callId], ?_, hk, ?_, ?_, ?_, ?_⟩
            · rw [String.toList_ofList]; exact hr
            · rw [String.toList_ofList, ← hrq]; exact hc
            · rw [String.toList_ofList, hrq]
            · rw [hrq] at hm; exact hm.1
            · rw [hrq] at hm; exact hm.2
          · exact keep z hz
      · refine ⟨zs, ?_, h2, keep⟩
        rw [h1, List.filterMap_cons]
        simp only [callMine, if_neg hm]
    | _ => exact ⟨zs, by rw [h1]; rfl, h2, keep⟩

/-- C172: a call of the application to the application on another chain, if executed there, is rolled back only if its data is "revertMessage". -/
theorem C172_pair (L : LNet) (h : VReach dec addr nd nets bal L) (a c : String) (C C' : Cfg) (b b' : Nat) (ops ops' : Ops) (o : On L a C b ops)
    (o' : On L c C' b' ops') (src : Str) (n : Nat) (d : Bytes) (hrb : Ev.rollback src n d ∈ (run C ops (init b)).log)
    (id : Nat) (q : XCall.Req) (hr : XCall.Ev.received id a.toList q ∈ (L.x c).log) (hq : q.sn = n) (hd : C'.isSelf q.dst = true) :
    q.data = revertText := by
  have i := on_di dec addr nd nets bal hnd hname hsl hinj L h a C b ops o
  have i' := on_di dec addr nd nets bal hnd hname hsl hinj L h c C' b' ops' o'
  obtain ⟨-, id', -, hu⟩ := i.roll src n d hrb
  obtain ⟨-, -, ⟨code, h0, hc⟩, -⟩ := i.x.undo _ _ _ hu
  rw [o.log] at hc
  have he := failed_ran dec addr nd nets bal hnd hname hsl hinj L h a c n code hc id q hr hq
  rw [← o'.log] at he hr
  obtain ⟨r, hcall⟩ := i'.called id code he
  obtain ⟨m, net, q', hm, hr', hrq⟩ := i'.x.call id r hcall
  have hm : id = m := by omega
  subst hm
  have hnd' : ((run C' ops' (init b')).x.log.filterMap XCall.recvId).Nodup := by rw [i'.x.recv]; exact XCall.upTo_nodup _
  obtain ⟨p, hp⟩ := List.getElem?_of_mem hr
  obtain ⟨p', hp'⟩ := List.getElem?_of_mem hr'
  have := XCall.idx_unique XCall.recvId id _ p p' _ _ hnd' hp hp' rfl rfl
  subst this
  rw [hp] at hp'
  cases hp'
  refine Classical.byContradiction fun hne => h0 ((i'.executed id r code hcall ?_ he).2 ?_)
  · rw [hrq]; exact hd
  · rw [hrq]; exact hne

/-- C172: a call with rollback data whose failure is recorded is reported as rolled back, or anybody can have that reported now with the data
    and number of the call. -/
theorem C172_reported (L : LNet) (h : VReach dec addr nd nets bal L) (a : String) (C : Cfg) (b : Nat) (ops : Ops) (o : On L a C b ops)
    (id : Nat) (d : Bytes) (n : Nat) (hs : Ev.sent id d n ∈ (run C ops (init b)).log) (code : Int) (h0 : code ≠ 0)
    (hc : XCall.Ev.response n code ∈ (L.x a).log) :
    Ev.rollback (own C) n d ∈ (run C ops (init b)).log ∨
      ∀ inner out, ∃ s', step C (.undo n inner out) (run C ops (init b)) = some s' ∧
        s'.log = (run C ops (init b)).log ++ [.rollback (own C) n d] := by
  have f := C172_foreign dec addr nd nets bal hnd hname hsl hinj L h a C b ops o
  have i := on_di dec addr nd nets bal hnd hname hsl hinj L h a C b ops o
  have hop : XCall.Open C.X (run C ops (init b)).x := by
    obtain ⟨ops', e⟩ := run_sim C ops (init b)
    rw [← e]
    exact XCall.run_open C.X ops' _ (XCall.init_open C.X b) (XCall.init_inv C.X b)
  have huniq : ∀ {id' d'}, Ev.sent id' d' n ∈ (run C ops (init b)).log → d' = d := by
    intro id' d' hs'
    obtain ⟨p, hp⟩ := List.getElem?_of_mem hs
    obtain ⟨p', hp'⟩ := List.getElem?_of_mem hs'
    have := XCall.idx_unique sentSsn n _ p p' _ _ i.ssns hp hp' rfl rfl
    subst this
    rw [hp] at hp'
    cases hp'
    rfl
  have hself : ∀ {caller net acct data rb}, XCall.Ev.sent n caller net acct data rb ∈ (run C ops (init b)).x.log → caller = C.self := by
    intro caller net acct data rb h1
    obtain ⟨net', acct', d', h2⟩ := (i.ssn id d n hs).2
    obtain ⟨p, hp⟩ := List.getElem?_of_mem h1
    obtain ⟨p', hp'⟩ := List.getElem?_of_mem h2
    have hnd' : ((run C ops (init b)).x.log.filterMap XCall.sentSn).Nodup := by rw [i.x.sents]; exact XCall.upTo_nodup _
    have := XCall.idx_unique XCall.sentSn n _ p p' _ _ hnd' hp hp' rfl rfl
    subst this
    rw [hp] at hp'
    cases hp'
    rfl
  have hc' := hc
  rw [← o.log] at hc'
  rcases hop.failed n ⟨code, h0, hc'⟩ with ⟨q, hq, he⟩ | ⟨dst, x, hu⟩ | hsucc
  · right
    intro inner out
    obtain ⟨⟨m, net, acct, data, hm, h1⟩, -⟩ := i.x.reqs n q hq
    have hm : n = m := by omega
    subst hm
    obtain ⟨s', id', d', n', h2, h3, -, h5, h6⟩ := C141_possible_partial C o.ok b ops f n q hq he (hself h1) inner out
    have h3 : n = n' := by omega
    subst h3
    rw [huniq h5] at h6
    exact ⟨s', h2, h6⟩
  · left
    obtain ⟨⟨m, net, acct, data, hm, h1⟩, -⟩ := i.x.undo n dst x hu
    have hm : n = m := by omega
    subst hm
    have hdst := hself h1
    subst hdst
    have h2 : (n : Int) ∈ (run C ops (init b)).x.log.filterMap (undoMine C) := List.mem_filterMap.2 ⟨_, hu, by simp [undoMine]⟩
    rw [← i.rolls] at h2
    obtain ⟨e, he, h3⟩ := List.mem_filterMap.1 h2
    cases e with
    | rollback src m d' =>
      have h3 : m = n := by
        have : (m : Int) = n := by simpa [rollOf] using h3
        omega
      subst h3
      obtain ⟨h4, id', h5, -⟩ := i.roll src m d' he
      rw [huniq h5, h4] at he
      exact he
    | _ => exact nomatch h3
  · exfalso
    have hsucc : XCall.Ev.response n 0 ∈ (L.x a).log := by rw [← o.log]; exact hsucc
    obtain ⟨k, caller, c, acct, data, rb, id', q, -, -, h3, h4, -, -, -, h8⟩ := XMix.C164_success dec addr nd nets bal hnd hname hsl hinj L h a n hsucc
    exact failed_not_ok dec addr nd nets bal hnd hname hsl hinj L h a c n code h0 hc id' q h3 h4 0 h8 rfl

/-- C172: when all links are read to the end, and nothing was sent to an address outside, a call of the application with rollback data waits to be
    executed on the chain called, or was executed there with success, or is reported as rolled back, or anybody can have that reported now;
    unless one of its messages was given up. -/
theorem C172_drained (L : LNet) (h : VReach dec addr nd nets bal L)
    (hread : ∀ p ∈ nets, ∀ q ∈ nets, p ≠ q → (XMix.toLink (addr q) (XMix.outs (L.st p))).length ≤ (XMix.heard (L.st q) (addr p)).length)
    (hin : ∀ p ∈ nets, ∀ e ∈ XMix.outs (L.st p), ∃ q ∈ nets, q ≠ p ∧ addr q = e.1)
    (a : String) (ha : a ∈ nets) (C : Cfg) (b : Nat) (ops : Ops) (o : On L a C b ops)
    (id : Nat) (d : Bytes) (n : Nat) (hs : Ev.sent id d n ∈ (run C ops (init b)).log) :
    (∃ c ∈ nets, ∃ id' r x, (L.x c).proxy id' = some r ∧ r.sn = n ∧ r.src = solCompose a.toList x) ∨
    (∃ (c : String) (acct : Str) (data : Bytes) (rb : Option Bytes) (id' : Nat) (q : XCall.Req), XCall.Ev.sent n C.self c.toList acct data rb ∈ (L.x a).log ∧
      XCall.Ev.received id' a.toList q ∈ (L.x c).log ∧ q.sn = n ∧ q.dst = acct ∧ q.data = data ∧ XCall.Ev.executed id' 0 ∈ (L.x c).log) ∨
    Ev.rollback (own C) n d ∈ (run C ops (init b)).log ∨
    (∀ inner out, ∃ s', step C (.undo n inner out) (run C ops (init b)) = some s' ∧ s'.log = (run C ops (init b)).log ++ [.rollback (own C) n d]) ∨
    ∃ c ∈ nets, ∃ m' ∈ (L.st c).given, ∃ m0 ∈ (L.st a).sent, m0.sn = n ∧ (m'.nsn = -m0.nsn ∨ m'.nsn = m0.nsn) := by
  have i := on_di dec addr nd nets bal hnd hname hsl hinj L h a C b ops o
  obtain ⟨net, acct, data, h1⟩ := (i.ssn id d n hs).2
  rw [o.log] at h1
  have hp : XCall.present (nd a).x.lang (some (C.enc id d)) = true := by
    cases hl : (nd a).x.lang with
    | java => rfl
    | sol => simp [XCall.present, o.ok.ne]
  have h1' : XCall.Ev.sent n C.self (String.ofList net).toList acct data (some (C.enc id d)) ∈ (L.x a).log := by rw [String.toList_ofList]; exact h1
  rcases XMix.C162_drained addr nd nets bal hnd hname hsl hinj L (XMix.vreach_lreach hnd hname hsl hinj h) hread hin a ha n C.self (String.ofList net) acct data _ h1' hp with
    ⟨g1, -, id', r, x, g2, -, g3, g4⟩ | ⟨code, hc⟩ | ⟨c, hc, m', g1, m0, g2, g3, -, g4⟩
  · exact .inl ⟨_, g1, id', r, x, g2, g3, g4⟩
  · by_cases h0 : code = 0
    · subst h0
      obtain ⟨k, caller, c, acct', data', rb, id', q, g1, g2, g3, g4, -, g6, g7, g8⟩ := XMix.C164_success dec addr nd nets bal hnd hname hsl hinj L h a n hc
      have hk : n = k := by omega
      subst hk
      rw [← o.log] at g2 h1
      obtain ⟨p, hp1⟩ := List.getElem?_of_mem h1
      obtain ⟨p', hp'⟩ := List.getElem?_of_mem g2
      have hnd' : ((run C ops (init b)).x.log.filterMap XCall.sentSn).Nodup := by rw [i.x.sents]; exact XCall.upTo_nodup _
      have := XCall.idx_unique XCall.sentSn n _ p p' _ _ hnd' hp1 hp' rfl rfl
      subst this
      rw [hp1] at hp'
      cases hp'
      exact .inr (.inl ⟨c, acct, data, _, id', q, by rw [← o.log]; exact g2, g3, g4, g6, g7, g8⟩)
    · rcases C172_reported dec addr nd nets bal hnd hname hsl hinj L h a C b ops o id d n hs code h0 hc with g | g
      · exact .inr (.inr (.inl g))
      · exact .inr (.inr (.inr (.inl g)))
  · exact .inr (.inr (.inr (.inr ⟨c, hc, m', g1, m0, g2, g3, g4⟩)))
end

/-! ### Example: the application on both chains of the history of C164; the first call was dropped on B, the second executed -/
namespace NetDemo
open _root_.Verif.XMix.Demo (nets chain named slash)
open _root_.Verif.XMix.LDemo (ad ad_inj)
open _root_.Verif.XMix.VDemo (dec V3 V3_good)

/-- A form of rollback data: as many ones as the number says, a zero, the data. -/
def enc (id : Nat) (b : Bytes) : Bytes := List.replicate id 1 ++ 0 :: b
def dec' : Bytes → Option (Nat × Bytes)
  | [] => none
  | c :: t => if c = 0 then some (0, t) else (dec' t).map fun p => (p.1 + 1, p.2)

theorem dec_enc (id : Nat) (b : Bytes) : dec' (enc id b) = some (id, b) := by
  induction id with
  | zero => simp [enc, dec']
  | succ n ih =>
    unfold enc at ih ⊢
    rw [List.replicate_succ, List.cons_append, dec', ih]
    rfl

def cA : Cfg := ⟨⟨.sol, ['m'], ['o']⟩, ['a'], fun t => decide (t = ['a']), ['A'], ['x'], enc, dec'⟩
def cB : Cfg := ⟨⟨.java, ['m'], ['o']⟩, ['b'], fun t => decide (t = ['b']), ['B'], ['x'], enc, dec'⟩

theorem okA : Ok cA := ⟨by decide, by decide, fun id b _ _ => dec_enc id b, fun id b => by simp [cA, enc]⟩
theorem okB : Ok cB := ⟨by decide, by decide, fun id b _ _ => dec_enc id b, fun id b => by simp [cB, enc]⟩

def opsA : Ops := Demo.ops [.send "btp://B/b".toList [7] (some [9]) 10 (some 4) (some 1), .send "btp://B/b".toList [8] (some [9]) 10 (some 4) (some 2),
  .base (.error ['m'] ['B'] XCall.name 1 1), .base (.message ['m'] ['B'] XCall.name 0 (.res 2 0)), .undo 1 .nil .failed]
def opsB : Ops := Demo.ops [.base (.message ['m'] ['A'] XCall.name 2 (.req ⟨['a'], ['b'], 2, true, [8]⟩)), .exec 1 .nil .failed (some (-2))]

theorem notSvc {l : List XCall.Ev} {v : Str} (h : l.all (fun | .sent _ c _ _ _ _ => decide (c ≠ v) | _ => true) = true) (k : Nat) (net acct : Str)
    (d : Bytes) (rb : Option Bytes) : XCall.Ev.sent k v net acct d rb ∉ l := fun hm => by
  have := List.all_eq_true.1 h _ hm
  simp at this

theorem onA : On V3 "A" cA 0 opsA := ⟨okA, by decide, by decide +kernel, notSvc (by decide +kernel)⟩
theorem onB : On V3 "B" cB 0 opsB := ⟨okB, by decide, by decide +kernel, notSvc (by decide +kernel)⟩

example : (run cA opsA (init 0)).log = [.sent 1 [9] 1, .sent 2 [9] 2, .rollback "btp://A/x".toList 1 [9]] ∧
    (run cB opsB (init 0)).log = [.message "btp://A/a".toList [8]] := by decide +kernel

example := C172_foreign dec ad chain nets _ (by decide) named slash ad_inj _ V3_good.reach "A" cA 0 opsA onA
example := C172_rollback dec ad chain nets _ (by decide) named slash ad_inj _ V3_good.reach "A" cA 0 opsA onA "btp://A/x".toList 1 [9] (by decide +kernel)
example := C172_messages dec ad chain nets _ (by decide) named slash ad_inj _ V3_good.reach "B" cB 0 opsB onB
example := C172_reported dec ad chain nets _ (by decide) named slash ad_inj _ V3_good.reach "A" cA 0 opsA onA 1 [9] 1 (by decide +kernel) (-2) (by decide)
  (by decide +kernel)
-- All links are read to the end.
theorem read : ∀ p ∈ nets, ∀ q ∈ nets, p ≠ q → (XMix.toLink (ad q) (XMix.outs (V3.st p))).length ≤ (XMix.heard (V3.st q) (ad p)).length := by decide +kernel
theorem inside : ∀ p ∈ nets, ∀ e ∈ XMix.outs (V3.st p), ∃ q ∈ nets, q ≠ p ∧ ad q = e.1 := by decide +kernel
example := C172_drained dec ad chain nets _ (by decide) named slash ad_inj _ V3_good.reach read inside "A" (by decide) cA 0 opsA onA 2 [9] 2 (by decide +kernel)

/-! Another history: a call with the data "revertMessage" is executed on B and fails; the events of B are brought by a bridge verifier. -/
open _root_.Verif.XMix.Demo (evm icon env jenv plain_fine reg_fine)
open _root_.Verif.XMix.LDemo (Act start)
open _root_.Verif.XMix.VDemo (acts_good step_good act_good Fine Good sA sB b1 b4)

def before : List Act := [.onB (.conf jenv 1 (.addVerifier "A" 30)), .onB (.conf jenv 1 (.addService XNet.X 50)), .onB (.conf jenv 1 (.addLink "A")),
  .onB (.conf jenv 1 (.addRelay "A" 9)), .onB (.conf jenv 1 (.setFees [("A", [1, 1])])),
  .onA (.send env ['a'] true ("btp://B/b".toList) revertText (some [1, 0, 9]) 10 (some 4)), .toB jenv, .onB (.exec jenv 1 .nil .failed)]

def U1 := before.foldl Act.run start

theorem before_fine : ∀ a ∈ before, Fine a := by
  intro a ha
  simp only [before, List.mem_cons, List.not_mem_nil, or_false] at ha
  rcases ha with rfl | rfl | rfl | rfl | rfl | rfl | rfl | rfl
  · exact plain_fine jenv 1 _ (fun _ _ e => nomatch e)
  · exact reg_fine jenv 1
  · exact plain_fine jenv 1 _ (fun _ _ e => nomatch e)
  · exact plain_fine jenv 1 _ (fun _ _ e => nomatch e)
  · exact plain_fine jenv 1 _ (fun _ _ e => nomatch e)
  · exact rfl
  · exact trivial
  · exact trivial

theorem U1_good : Good U1 := acts_good before start ⟨.init, fun _ _ => rfl, fun _ _ => rfl⟩ before_fine (by decide +kernel)

theorem stA : U1.st "A" = .evm (sA U1) := by
  have : (match U1.st "A" with | .evm _ => true | .icon _ => false) = true := by decide +kernel
  unfold sA
  split
  · assumption
  · rename_i e; rw [e] at this; exact nomatch this
theorem stB : U1.st "B" = .icon (sB U1) := by
  have : (match U1.st "B" with | .evm _ => false | .icon _ => true) = true := by decide +kernel
  unfold sB
  split
  · assumption
  · rename_i e; rw [e] at this; exact nomatch this

def items : XNet.JItems := .cons (MixNet.tr b1) env true .nil (.cons (MixNet.tr b4) env true .nil .nil)
def j2 : XNet.J := (XNet.jrelay (evm "A") env 70 "B" items ⟨sA U1, U1.x "A"⟩).getD ⟨sA U1, U1.x "A"⟩
def U2 : LNet := U1.next "A" (.evm j2.b) j2.x
def U3 : LNet := (Act.onA (.undo 1 .nil .ok)).run U2

theorem j2_eq : XNet.jrelay (evm "A") env 70 "B" items ⟨sA U1, U1.x "A"⟩ = some j2 := by
  have hs : (XNet.jrelay (evm "A") env 70 "B" items ⟨sA U1, U1.x "A"⟩).isSome = true := by decide +kernel
  unfold j2
  cases he : XNet.jrelay (evm "A") env 70 "B" items ⟨sA U1, U1.x "A"⟩ with
  | none => rw [he] at hs; exact nomatch hs
  | some j => rfl

theorem no_chain : (sB U1).log.all (fun | .chain _ _ _ _ => false | _ => true) = true := by decide +kernel
theorem logged : XMix.Logged (U1.st "B") (ad "A") := by
  have h := no_chain
  rw [stB]
  generalize sB U1 = t at h
  intro s e id n m hm
  cases e
  have := List.all_eq_true.1 h _ hm
  simp at this

theorem reads : XMix.EvmReads (U1.st "B") (ad "A") ((sA U1).rx (ad "B")) items.msgs := by
  rw [show (sA U1).rx (ad "B") = 0 by decide +kernel]
  obtain ⟨rps, h', bs, h1, h2, h3⟩ := XMix.C164_bridge_evm dec ad chain nets _ (by decide) named slash ad_inj _ U1_good.reach "B" "A" (by decide) 0 5
    [b1, b4] [] (by decide +kernel) logged (by decide)
  exact .bridge 5 rps h' bs (fun _ => []) h1 h2 h3

theorem U2_good : Good U2 := step_good (by decide) U1_good (.evmRelay "A" "B" (evm "A") (sA U1) env 70 items j2 (by decide) (by decide) (by decide)
  rfl stA ⟨trivial, trivial, trivial⟩ reads j2_eq) (by decide +kernel)
theorem U3_good : Good U3 := act_good U2 _ U2_good trivial (by decide +kernel)

def opsA2 : Ops := Demo.ops [.send "btp://B/b".toList revertText (some [9]) 10 (some 4) (some 1),
  .base (.message ['m'] ['B'] XCall.name 0 (.res 1 (-1))), .undo 1 .nil .failed]
def opsB2 : Ops := Demo.ops [.base (.message ['m'] ['A'] XCall.name 1 (.req ⟨['a'], ['b'], 1, true, revertText⟩)), .exec 1 .nil .ok (some (-1))]

theorem onA2 : On U3 "A" cA 0 opsA2 := ⟨okA, by decide, by decide +kernel, notSvc (by decide +kernel)⟩
theorem onB2 : On U3 "B" cB 0 opsB2 := ⟨okB, by decide, by decide +kernel, notSvc (by decide +kernel)⟩

example : (run cA opsA2 (init 0)).log = [.sent 1 [9] 1, .rollback "btp://A/x".toList 1 [9]] ∧ (run cB opsB2 (init 0)).log = [] := by decide +kernel
example := C172_pair dec ad chain nets _ (by decide) named slash ad_inj _ U3_good.reach "A" "B" cA cB 0 0 opsA2 opsB2 onA2 onB2 "btp://A/x".toList 1 [9]
  (by decide +kernel) 1 ⟨['a'], ['b'], 1, true, revertText⟩ (by decide +kernel) rfl (by decide)
end NetDemo

end Verif.DApp
