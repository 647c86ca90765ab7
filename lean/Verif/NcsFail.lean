import Verif.NcsSysProps
import Verif.JavaMoves
/-!
Packets of the native coin service that the message centers cannot hand over (C174).

NativeCoinService answers with `bmc.sendMessage(to, SERVICE, sn, …)` and the positive serial number of the request
(NativeCoinService.java:296-319). The message center takes that for a request of its own: if the answer cannot be handed over, because a
chain between has no route or because the service is not registered at the end, the error goes back to the chain that answered, and
handleBTPError (NativeCoinService.java:346-353) applies it to the transfer which *that* chain has under the number.

Requests that fail are events of `Verif.NcsSys` (`failA`, `failB`), so all of C98 and C99 covers them. Here are the other packets.
-/
namespace Verif.Ncs
open Verif

/-- BTPMessageCenter.java:568-581: what goes back for a packet that cannot be handed over: an error if its number is positive, and
nothing for an error (those have negative numbers between message centers). -/
def bounced : Pkt → List Pkt
  | .msg sn _ => if 0 < sn then [.err sn] else []
  | .err _ => []

/-- The packet `i` on the way to A cannot be handed over. -/
def Sys.loseA (y : Sys) (i : Nat) : Sys :=
  match y.ba[i]? with
  | none => y
  | some p => { y with ba := y.ba.eraseIdx i, ab := y.ab ++ bounced p }

/-! ### C174 -/

/-- For requests this is the event of the network model. -/
theorem C174_requests_partial (n : Net) (y : Sys) (i : Nat) (sn : Int) (f t : Bytes) (l : List Asset) (h : Reach n y)
    (hi : y.ba[i]? = some (.msg sn (.request f t l))) : y.loseA i = y.next n (.failA i) ∧ Reach n (y.loseA i) := by
  have e : y.loseA i = y.next n (.failA i) := by
    unfold Sys.loseA Sys.next
    have hp : 0 < sn := h.inv.ba.fine _ (List.mem_of_getElem? hi)
    simp only [hi]
    simp only [bounced, Option.bind_some, refused, if_pos hp]
  refine ⟨e, h.ok, ?_⟩
  obtain ⟨x, z, es, h1, h2, h3, h4, e5⟩ := h.run
  refine ⟨x, z, es ++ [.failA i], h1, h2, h3, h4, ?_⟩
  rw [run_append, ← e5, e]
  rfl

/-- A request that cannot be handed over is not paid on the other chain, and its sender has all of it to claim once the error arrives. -/
theorem C174_failed_request_refunds (n : Net) (y : Sys) (h : Reach n y) (i : Nat) (sn : Int) (f t : Bytes) (l : List Asset)
    (hi : y.ab[i]? = some (.msg sn (.request f t l))) :
    ∃ tx, y.a.txs.get? sn = some tx ∧
      let z := (y.next n (.failB i)).next n (.toA y.ba.length)
      z.b = y.b ∧ z.ba = y.ba ∧ z.ab = y.ab.eraseIdx i ∧ z.a.txs.get? sn = none ∧
        ∀ c, (balance z.a c tx.frm).refundable = (balance y.a c tx.frm).refundable + dsum c tx.assets := by
  have hm := List.mem_of_getElem? hi
  have hp : 0 < sn := h.inv.ab.fine _ hm
  obtain ⟨tx, ht, _⟩ := h.inv.ab.same sn f t l hm
  obtain ⟨s', e1, _, e3, _, _, _, e7⟩ := handleResponse_ok n.A h.ok.idA y.a h.inv.invA sn 1 tx ht (fun x => absurd x (by omega))
  have z1 : y.next n (.failB i) = { y with ba := y.ba ++ [.err sn], ab := y.ab.eraseIdx i } := by
    unfold Sys.next
    simp only [hi, Option.bind_some, refused, if_pos hp]
  have z2 : (y.next n (.failB i)).next n (.toA y.ba.length) = { y with a := s', ab := y.ab.eraseIdx i } := by
    rw [z1]
    unfold Sys.next
    have q : (y.ba ++ [Pkt.err sn])[y.ba.length]? = some (.err sn) := by simp
    have q2 : (y.ba ++ [Pkt.err sn]).eraseIdx y.ba.length = y.ba := by
      rw [List.eraseIdx_append_of_length_le (Nat.le_refl _)]; simp
    have q3 : deliver n.A y.a n.netB (.err sn) = (s', []) := by
      unfold deliver handleError
      dsimp only
      rw [if_pos rfl, e1]
    dsimp only
    rw [q]
    dsimp only
    rw [q2, q3]
    simp
  refine ⟨tx, ht, ?_⟩
  dsimp only
  rw [z2]
  refine ⟨rfl, rfl, rfl, ?_, ?_⟩
  · dsimp only
    rw [e3]
    dsimp only
    rw [Tab.get?_del, if_pos rfl]
  · intro c
    dsimp only
    rw [e7, if_pos ⟨rfl, by omega⟩]

/-- An answer that cannot be handed over leaves the transfer it was for pending, with no packet on the way that could end it. -/
theorem C174_lost_answer_strands (n : Net) (y : Sys) (h : Reach n y) (i : Nat) (p : Pkt) (sn : Int) (hi : y.ba[i]? = some p)
    (ha : ansSn p = some sn) :
    ((y.loseA i).a.txs.get? sn).isSome = true ∧ sn ∉ (y.loseA i).ab.filterMap reqSn ∧ sn ∉ (y.loseA i).ba.filterMap ansSn := by
  have hm := List.mem_of_getElem? hi
  have hma : sn ∈ y.ba.filterMap ansSn := List.mem_filterMap.mpr ⟨p, hm, ha⟩
  obtain ⟨s1, s2⟩ := split_at y.ba i p hi
  have e : y.loseA i = { y with ba := y.ba.eraseIdx i, ab := y.ab ++ bounced p } := by
    unfold Sys.loseA
    rw [hi]
  rw [e]
  dsimp only
  refine ⟨(h.inv.ab.pend sn).mp (List.mem_append_right _ hma), ?_, ?_⟩
  · intro hx
    rw [List.filterMap_append] at hx
    rcases List.mem_append.mp hx with hx | hx
    · exact (List.nodup_append.mp h.inv.ab.nodup).2.2 sn hx sn hma rfl
    · obtain ⟨q, hq, hr⟩ := List.mem_filterMap.mp hx
      cases p with
      | err _ => simp [bounced] at hq
      | msg k m =>
        dsimp only [bounced] at hq
        by_cases c : 0 < k
        · rw [if_pos c] at hq
          rw [List.mem_singleton.mp hq] at hr
          cases hr
        · rw [if_neg c] at hq; cases hq
  · intro hx
    have hn := (List.nodup_append.mp h.inv.ab.nodup).2.1
    rw [s1, List.filterMap_append, List.filterMap_cons, ha] at hn
    rw [s2, List.filterMap_append] at hx
    have h3 := List.nodup_append.mp hn
    rcases List.mem_append.mp hx with hx | hx
    · exact h3.2.2 sn hx sn List.mem_cons_self rfl
    · exact (List.nodup_cons.mp h3.2.1).1 hx

/-- If the chain that answered has a transfer of its own under the number, the error for the lost answer refunds that one in full, though
its own request or the answer to it is still on the way. -/
theorem C174_lost_answer_refunds_another (n : Net) (y : Sys) (h : Reach n y) (i : Nat) (sn code : Int) (tx : Tx)
    (hi : y.ba[i]? = some (.msg sn (.response code))) (hs : 0 < sn) (ht : y.b.txs.get? sn = some tx) :
    let z := (y.loseA i).next n (.toB y.ab.length)
    z.b.txs.get? sn = none ∧ z.a = y.a ∧ z.ab = y.ab ∧ z.ba = y.ba.eraseIdx i ∧
      (sn ∈ z.ba.filterMap reqSn ∨ sn ∈ z.ab.filterMap ansSn) ∧
      ∀ c, (balance z.b c tx.frm).refundable = (balance y.b c tx.frm).refundable + dsum c tx.assets := by
  obtain ⟨s1, s2⟩ := split_at y.ba i _ hi
  obtain ⟨s', e1, _, e3, _, _, _, e7⟩ := handleResponse_ok n.B h.ok.idB y.b h.inv.invB sn 1 tx ht (fun x => absurd x (by omega))
  have z1 : y.loseA i = { y with ba := y.ba.eraseIdx i, ab := y.ab ++ [.err sn] } := by
    unfold Sys.loseA
    rw [hi]
    simp only [bounced, if_pos hs]
  have z2 : (y.loseA i).next n (.toB y.ab.length) = { y with b := s', ba := y.ba.eraseIdx i } := by
    rw [z1]
    unfold Sys.next
    have q : (y.ab ++ [Pkt.err sn])[y.ab.length]? = some (.err sn) := by simp
    have q2 : (y.ab ++ [Pkt.err sn]).eraseIdx y.ab.length = y.ab := by
      rw [List.eraseIdx_append_of_length_le (Nat.le_refl _)]; simp
    have q3 : deliver n.B y.b n.netA (.err sn) = (s', []) := by
      unfold deliver handleError
      dsimp only
      rw [if_pos rfl, e1]
    dsimp only
    rw [q]
    dsimp only
    rw [q2, q3]
    simp
  dsimp only
  rw [z2]
  refine ⟨?_, rfl, rfl, rfl, ?_, ?_⟩
  · dsimp only
    rw [e3]
    dsimp only
    rw [Tab.get?_del, if_pos rfl]
  · dsimp only
    have hx := (h.inv.ba.pend sn).mpr (by rw [ht]; rfl)
    rcases List.mem_append.mp hx with hx | hx
    · refine .inl ?_
      rw [s1, List.filterMap_append, List.filterMap_cons] at hx
      rw [s2, List.filterMap_append]
      exact hx
    · exact .inr hx
  · intro c
    dsimp only
    rw [e7, if_pos ⟨rfl, by omega⟩]

/-! ### Concrete histories -/

/-- [31] on A sends 10000 to [41] on B and [41] sends 20000 to [31]. Both transfers have number 1. B carries out the request of A. -/
def exBoth : List Ev :=
  [.userB (.register true [1]), .userA (.register true [2]), .userA (.transferNative [31] 10000 [200] [41]),
   .userB (.transferNative [41] 20000 [100] [31]), .toB 0]

/-- The answer of B is lost, and the error for it arrives at B. Then the request of B arrives at A, which carries it out, and the answer to
that arrives at B. -/
def exCross : Sys := (((exStart.run exNet exBoth).loseA 1).run exNet [.toB 0, .toA 0, .toB 0])

/-- C174 is false for answers: [41] has 20000 coins to claim back, and [31] has the tokens for them; the transfer of [31] was carried out
and its coins are still locked; nothing is on the way. -/
theorem C174_lost_answer_false :
    (exStart.run exNet exBoth).ba[1]? = some (.msg 1 (.response 0)) ∧
      balance exCross.b [2] [41] = ⟨0, 20000⟩ ∧ at0 exCross.a.irc.bals (num [2], [31]) = 19980 ∧ exCross.b.txs = [] ∧
      at0 exCross.b.irc.bals (num [1], [41]) = 9990 ∧ balance exCross.a [1] [31] = ⟨10000, 0⟩ ∧ (exCross.a.txs.get? 1).isSome = true ∧
      exCross.ab = [] ∧ exCross.ba = [] := by
  decide +kernel

/-- Once [41] has taken the 20000 coins back, no coins are left on B behind the 19980 tokens on A. -/
theorem C174_tokens_without_coins_false :
    (reclaim exNet.B exCross.b [41] [2] 20000).map (fun s => (at0 s.icx [41], at0 s.icx [21])) = some (50000, 0) ∧
      at0 exCross.a.irc.bals (num [2], [31]) = 19980 := by
  decide +kernel

/-- The same with a lost error: [31] sends to [99], which takes no payment; the error is lost. -/
def exErr : Sys := ((exStart.run exNet [.userB (.register true [1]), .userA (.transferNative [31] 10000 [200] [99]), .toB 0]).loseA 0)

theorem C174_lost_error_false :
    balance exErr.a [1] [31] = ⟨10000, 0⟩ ∧ exErr.ab = [] ∧ exErr.ba = [] ∧ (exErr.a.txs.get? 1).isSome = true ∧
      reclaim exNet.A exErr.a [31] [1] 1 = none := by
  decide +kernel

/-- A request that fails on the way to B, and the error: all is refunded. -/
example : balance (exStart.run exNet [.userA (.transferNative [31] 10000 [200] [41]), .failB 0, .toA 0]).a [1] [31] = ⟨0, 10000⟩ ∧
    (exStart.run exNet [.userA (.transferNative [31] 10000 [200] [41]), .failB 0, .toA 0]).a.txs = [] := by decide +kernel

end Verif.Ncs

namespace Verif.MixNet
open Verif Verif.JavaBmc

/-- The message center (JavaBmc) on a message with a positive number that was not handed over, whatever it carries: the error with the
negated number goes to the network the message came from, to the same service there; if the link back cannot take it, it is given up. -/
theorem C174_center_answers (c : Cfg) (env : Env) (prev : String) (seq : Nat) (s : St) (m : Msg) (e : Ex) (hp : 0 < m.sn) :
    (∃ ev, (failed c env prev seq s m e).log = s.log ++ [ev] ∧
      ∃ x, sentEv ev = [x] ∧ x.src = c.net ∧ x.dst = m.src ∧ x.svc = m.svc ∧ x.sn = -m.sn ∧ x.nsn = -m.nsn ∧ x.body = c.encResp (toResp e)) ∨
    (∃ x, (failed c env prev seq s m e).log = s.log ++ [.dropped prev seq x] ∧ x.sn = m.sn) := by
  unfold failed
  rw [if_pos hp]
  cases hs : sendError c env s prev m e with
  | mk r s' =>
    have hs2 := hs
    unfold sendError at hs2
    rcases sendMsg_out hs2 with ⟨h1, h2⟩ | ⟨h1, _, _, _, ev, k, h3, _, h5⟩
    · cases r with
      | none => exact absurd rfl h1
      | some e' =>
        refine .inr ⟨{ m with fee := swapFee s m.src m.fee }, ?_, rfl⟩
        dsimp only
        rw [h2, (collect_calm c s _).log]
    · subst h1
      exact .inl ⟨ev, h3, _, h5, rfl, rfl, rfl, rfl, rfl, rfl⟩

/-- A message with number 0 or below that was not handed over is given up. -/
theorem C174_center_gives_up (c : Cfg) (env : Env) (prev : String) (seq : Nat) (s : St) (m : Msg) (e : Ex) (hp : m.sn ≤ 0) :
    (failed c env prev seq s m e).log = s.log ++ [.dropped prev seq m] := by
  unfold failed
  rw [if_neg (by omega)]
  dsimp only
  split
  · show (twiceFee (collect c s m.fee) m.fee).log ++ _ = _
    rw [(twiceFee_calm _ _).log, (collect_calm c s _).log]
  · rw [(collect_calm c s _).log]

theorem storeFee_quiet (c : Cfg) (s : St) (m : Msg) : (storeFee c s m).services = s.services ∧ (storeFee c s m).log = s.log := by
  unfold storeFee
  cases m.fee with
  | none => exact ⟨rfl, rfl⟩
  | some f =>
    dsimp only
    by_cases q : m.sn > 0
    · rw [if_pos q]
      exact ⟨(collect_calm c s _).services, (collect_calm c s _).log⟩
    · rw [if_neg q]
      exact ⟨(collect_calm c s _).services, (collect_calm c s _).log⟩

theorem unstoreFee_quiet (s : St) (m : Msg) : (unstoreFee s m).log = s.log := by
  unfold unstoreFee
  cases m.fee with
  | none => rfl
  | some f =>
    dsimp only
    by_cases q : m.sn > 0
    · rw [if_pos q]
      split
      · rfl
      · rw [(twiceFee_calm _ _).log, (lostFee_calm _ _).log]
    · rw [if_neg q]

/-- A message for a service that is not registered, or to a network without route, is not handed over. -/
theorem C174_not_handed_over (c : Cfg) (env : Env) (out : Out) (call : St → St) (s : St) (m : Msg) (hp : 0 < m.sn)
    (h : (m.dst = c.net ∧ m.svc ≠ "bmc" ∧ s.services m.svc = none) ∨ (m.dst ≠ c.net ∧ ∃ e, resolve c s m.dst = .error e)) :
    ∃ e s', JavaBmc.deliver c env out call s m = (some e, s') ∧ s'.log = s.log := by
  unfold JavaBmc.deliver
  rcases h with ⟨h1, h2, h3⟩ | ⟨h1, e, h2⟩
  · rw [if_pos h1]
    unfold JavaBmc.handleMessage
    rw [if_pos (by omega : m.sn ≥ 0)]
    obtain ⟨q, ql⟩ := storeFee_quiet c s m
    dsimp only
    rw [if_neg h2, q, h3]
    exact ⟨exNoBSH, _, rfl, by rw [unstoreFee_quiet, ql]⟩
  · rw [if_neg h1, h2]
    exact ⟨e, s, rfl, rfl⟩

end Verif.MixNet
