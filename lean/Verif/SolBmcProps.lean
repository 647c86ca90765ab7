import Verif.SolBmcSeq
import Verif.BmvBridgeProps
/-!
Properties of the Solidity BMC: C41 (exactly-once delivery), C42 (consecutive numbers), C44 (fees are conserved), C45 (claims).
-/
namespace Verif.SolBmc
open Verif

variable (c : Cfg)

/-! ### C42 -/

/-- C42: after any history of calls, with services that call back in any way, the messages emitted for a link since its
    numbers were last cleared are numbered 1, 2, ..., `txSeq` in the order of emission. -/
theorem C42_consecutive (ops : List Op) (link : String) :
    (sentSince link (run c ops).log).map Prod.fst = List.range' 1 ((run c ops).tx link) :=
  run_pres c (num_pres c) (fun _ => rfl) ops link

theorem sentSince_all (link : String) (log : List Event) (h : Event.cleared link ∉ log) :
    sentSince link log = log.filterMap (fun e => match e with
      | .message next seq m => if next = link then some (seq, m) else none
      | _ => none) := by
  have key : ∀ (log : List Event), Event.cleared link ∉ log → ∀ acc : List (Nat × Msg),
      log.foldl (fun acc e => match e with
        | .message next seq m => if next = link then acc ++ [(seq, m)] else acc
        | .dropped _ _ _ _ => acc
        | .cleared l => if l = link then [] else acc) acc =
      acc ++ log.filterMap (fun e => match e with
        | .message next seq m => if next = link then some (seq, m) else none
        | _ => none) := by
    intro log
    induction log with
    | nil => intro _ acc; simp
    | cons e t ih =>
      intro hn acc
      have ht := ih (fun hm => hn (List.mem_cons_of_mem _ hm))
      rw [List.foldl_cons, List.filterMap_cons]
      cases e with
      | message next seq m =>
        by_cases hnx : next = link
        · simp only [if_pos hnx]; rw [ht]; simp
        · simp only [if_neg hnx]; rw [ht]
      | dropped => simp only; rw [ht]
      | cleared l =>
        have : l ≠ link := fun e => hn (e ▸ List.mem_cons_self ..)
        simp only [if_neg this]; rw [ht]
  exact (key log h []).trans (by simp)

/-- C42: as long as the link was not removed, the numbers of all events emitted for it are 1, 2, ..., `txSeq`. -/
theorem C42_all_events (ops : List Op) (link : String) (h : Event.cleared link ∉ (run c ops).log) :
    ((run c ops).log.filterMap (fun e => match e with
      | .message next seq m => if next = link then some (seq, m) else none
      | _ => none)).map Prod.fst = List.range' 1 ((run c ops).tx link) := by
  rw [← sentSince_all link _ h]
  exact C42_consecutive c ops link

/-! ### C41 -/

/-- C41: over any history in which no service re-enters the BMC for the link whose message it is just handling, the received
    number of every link is the number of messages handled for it (or given up by the owner), and the message at each place is
    the source chain's message of that number: none is skipped, none handled twice. -/
theorem C41_in_order_partial (src : String → Nat → Msg) (F : Faithful c src) (ops : List Op) (hc : ∀ o ∈ ops, o.calm []) (l : String) :
    ((run c ops).disp l).length = (run c ops).rx l ∧
      ∀ i m, ((run c ops).disp l)[i]? = some (some m) → m = src l (i + 1) := run_good c F ops hc l

/-- C41 with the bridge verifier: a link verified by the Solidity bridge BMV (with truthful receipts, C40) is faithful. -/
theorem C41_bridge_faithful (dec : Bytes → Option Msg) (srcb : String → Nat → Bytes) (src : String → Nat → Msg)
    (hdec : ∀ l n, dec (srcb l n) = some (src l n))
    (hv : ∀ l r ms, c.verify l r ms = true → ∃ (acc : Bool) (bmc : Bytes) (height h' : Nat) (rps : List (BmvBridge.Rp Nat)) (bs : List Bytes),
      BmvBridge.sHandle acc bmc height r rps = some (h', bs) ∧ bs.map dec = ms.map some ∧
      ∀ rp ∈ rps, ∀ ev ∈ rp.events, ev.next = bmc → ev.msg = srcb l ev.seq) : Faithful c src := by
  intro l r ms hms i m hi
  obtain ⟨acc, bmc, height, h', rps, bs, hh, hd, hs⟩ := hv l r ms hms
  have ht := BmvBridge.C40_truthful acc bmc height r rps h' bs (srcb l) hs hh
  have h1 : (bs.map dec)[i]? = some (some m) := by rw [hd, List.getElem?_map, hi]; rfl
  rw [ht, List.getElem?_map, List.getElem?_map] at h1
  cases hr : (List.range bs.length)[i]? with
  | none => rw [hr] at h1; simp at h1
  | some j =>
    rw [hr] at h1
    have hj : j = i := by
      rw [List.getElem?_eq_some_iff] at hr
      obtain ⟨hlt, hv⟩ := hr
      simpa using hv.symm
    subst hj
    simp only [Option.map_some, Option.some.injEq] at h1
    rw [show r + 1 + j = r + j + 1 by omega, hdec, Option.some.injEq] at h1
    exact h1.symm

/-! ### C44 -/

/-- C44: for every currency and after any history of calls (with services that call back in any way), the value that came in
    - message values, fees of relayed messages, incoming claims - is exactly the sum of: reward balances, fees stored for
    responses, claims not yet answered, fees carried by emitted events, rewards paid out, claims settled elsewhere, and the
    values sent along with claims of the own currency, which are lost. -/
theorem C44_conserved_partial (ops : List Op) (n : String) :
    (run c ops).inflow n = rewards (run c ops) n + stored (run c ops) n + pending (run c ops) n + carried (run c ops) n +
      (run c ops).paid n + (run c ops).settled n + (run c ops).lost n :=
  (run_pres c (led_pres c) init_led ops).bal n

/-- C44, one message: the fee list before is the relay's reward, plus what is carried on or stored, plus what the BMC collects. -/
theorem C44_handleFee (s : St) (relay : Nat) (m : Msg) (n : String) :
    rewards (handleFee c s relay m).1 n + stored (handleFee c s relay m).1 n + (if m.dst = c.net ∧ m.sn > 0 then 0 else feeOf (handleFee c s relay m).2.fee n) =
      rewards s n + stored s n + feeOf m.fee n := by
  have h := handleFee_ledger c s relay m n
  dsimp only at h
  obtain ⟨h1, -, hreq, -⟩ := h
  have e : ∀ s' : St, SameReq s s' → s'.log = s.log ∧ s'.paid = s.paid ∧ s'.settled = s.settled ∧ s'.lost = s.lost →
      ledger s' n = rewards s' n + stored s' n + (pending s n + carried s n + s.paid n + s.settled n + s.lost n) := by
    intro s' hs ⟨a, b, d, e⟩
    unfold ledger pending carried
    rw [hs.1, a, b, d, e]
    omega
  have hlog : (handleFee c s relay m).1.log = s.log ∧ (handleFee c s relay m).1.paid = s.paid ∧ (handleFee c s relay m).1.settled = s.settled ∧
      (handleFee c s relay m).1.lost = s.lost := by
    have ha : ∀ (s : St) k a v, (addReward s k a v).log = s.log ∧ (addReward s k a v).paid = s.paid ∧ (addReward s k a v).settled = s.settled ∧
        (addReward s k a v).lost = s.lost := by
      intro s k a v; unfold addReward; split <;> exact ⟨rfl, rfl, rfl, rfl⟩
    have hac : ∀ (s : St) a f, (accumulate s a f).1.log = s.log ∧ (accumulate s a f).1.paid = s.paid ∧ (accumulate s a f).1.settled = s.settled ∧
        (accumulate s a f).1.lost = s.lost := by
      intro s a f; unfold accumulate; split
      · exact ⟨rfl, rfl, rfl, rfl⟩
      · exact ha _ _ _ _
    have h0 := hac s relay m.fee
    unfold handleFee
    dsimp only
    generalize accumulate s relay m.fee = q at h0
    obtain ⟨s1, f⟩ := q
    dsimp only at h0 ⊢
    split
    · split
      · have := ha s1 (s1.resp.get Resp.empty (m.src, m.svc, m.sn)).fee.network c.periphery (s1.resp.get Resp.empty (m.src, m.svc, m.sn)).fee.values.sum
        unfold collectRemain
        exact ⟨this.1.trans h0.1, this.2.1.trans h0.2.1, this.2.2.1.trans h0.2.2.1, this.2.2.2.trans h0.2.2.2⟩
      · have := ha s1 f.network c.periphery f.values.sum
        unfold collectRemain
        exact ⟨this.1.trans h0.1, this.2.1.trans h0.2.1, this.2.2.1.trans h0.2.2.1, this.2.2.2.trans h0.2.2.2⟩
    · exact h0
  rw [e _ hreq hlog, e s (SameReq.refl s) ⟨rfl, rfl, rfl, rfl⟩] at h1
  omega

/-! ### C45 -/

/-- C45 at the origin: whatever responses arrive, every claim is settled at most once, and a settled claim is no longer open. -/
theorem C45_settled_once (ops : List Op) :
    ((run c ops).settle.map Prod.fst).Nodup ∧ ∀ p ∈ (run c ops).settle, (run c ops).req.get Req.empty p.1 = Req.empty := by
  have := (run_pres c (led_pres c) init_led ops).reqs
  exact ⟨this.once, fun p hp => (this.done p hp).2⟩

/-- C45 at the origin: a response to an open claim refunds the exact amount to the claimer if it reports a failure and nothing
    if it reports success; either way the claim is closed. -/
theorem C45_refund (s s' : St) (k : Int) (code : Nat) (i : ReqInv s) (h : handleResponse s k code = some s') :
    (s.req.get Req.empty k).nsn = k ∧ s'.req.get Req.empty k = Req.empty ∧
    (∀ j, j ≠ k → s'.req.get Req.empty j = s.req.get Req.empty j) ∧
    (∀ a net, s'.reward.get 0 (a, net) = s.reward.get 0 (a, net) +
      (if code ≠ 0 ∧ (s.req.get Req.empty k).caller = a ∧ (s.req.get Req.empty k).dst = net then (s.req.get Req.empty k).amount else 0)) := by
  unfold handleResponse at h
  dsimp only at h
  split at h
  case isFalse => cases h
  rename_i hp
  generalize hr : s.req.get Req.empty k = r at h hp
  have hk : r.nsn = k := by
    rcases i.open_ k with h0 | h0
    · rw [hr] at h0; subst h0; exact absurd hp (by decide)
    · rw [hr] at h0; exact h0.1
  simp only [Option.some.injEq] at h
  subst h
  refine ⟨hk, ?_⟩
  have hreq : ∀ (s1 : St) (a : Nat) (n : String) (v : Nat), (addReward s1 n a v).req = s1.req := by
    intro s1 a n v; unfold addReward; split <;> rfl
  by_cases h0 : code ≠ 0
  · simp only [if_pos h0, hreq]
    rw [hk]
    refine ⟨by rw [FM.get_set, if_pos rfl], fun j hj => by rw [FM.get_set, if_neg (fun e => hj e.symm)], ?_⟩
    intro a net
    unfold addReward
    by_cases hpos : r.amount > 0
    · simp only [if_pos hpos]
      rw [FM.get_set]
      by_cases hc : (r.caller, r.dst) = (a, net)
      · rw [if_pos hc]
        simp only [Prod.mk.injEq] at hc
        rw [if_pos ⟨h0, hc⟩, hc.1, hc.2]
      · rw [if_neg hc]
        simp only [Prod.mk.injEq] at hc
        rw [if_neg (fun h => hc h.2)]; rfl
    · simp only [if_neg hpos]
      have : r.amount = 0 := by omega
      rw [this]; simp
  · simp only [if_neg h0]
    rw [hk]
    refine ⟨by rw [FM.get_set, if_pos rfl], fun j hj => by rw [FM.get_set, if_neg (fun e => hj e.symm)], ?_⟩
    intro a net
    rw [if_neg (fun h => h0 h.1)]
    rfl

/-- C45 at the destination: a relayed claim is either credited in full to its receiver and answered with code 0, or nothing is
    credited and an error response with a nonzero code goes back to the claimer's network. Rewards are compared with those after
    the message's own fee is accounted for. -/
theorem C45_destination (env : Env) (ok : Bool) (call : St → St) (caller : Nat) (prev : String) (seq : Nat) (s : St) (m : Msg) (s' : St)
    (amount : Nat) (receiver : String) (hdst : m.dst = c.net) (hsvc : m.svc = "bmc") (hsn : m.sn > 0) (hnsn : m.nsn = m.sn)
    (hbody : c.decInner m.body = some (.claim amount receiver))
    (h : item c env ok call caller prev seq s m = some s') :
    (∃ a next q f, c.parseAddr receiver = some a ∧ env.resolve m.src = some next ∧
      (∀ k, s'.reward.get 0 k = (handleFee c s caller m).1.reward.get 0 k + (if k = (a, c.net) then amount else 0)) ∧
      s'.log = s.log ++ [.message next q ⟨c.net, m.src, "bmc", 0, c.encInner (.response 0), -m.nsn, f⟩]) ∨
    (∃ q f, (∀ k, s'.reward.get 0 k = (handleFee c s caller m).1.reward.get 0 k) ∧
      s'.log = s.log ++ [.message prev q ⟨c.net, m.src, "bmc", -m.sn, c.encResp 1, -m.nsn, f⟩]) := by
  unfold item at h
  dsimp only at h
  -- the ghost fields do not matter to handleFee
  have hghost : ∀ (s0 : St), s0.reward = s.reward → s0.resp = s.resp → s0.log = s.log →
      (handleFee c s0 caller m).2 = (handleFee c s caller m).2 ∧ (handleFee c s0 caller m).1.reward = (handleFee c s caller m).1.reward ∧
      (handleFee c s0 caller m).1.log = s.log := by
    intro s0 h1 h2 h3
    have hadd : ∀ (x y : St) k a v, x.reward = y.reward → (addReward x k a v).reward = (addReward y k a v).reward := by
      intro x y k a v e; unfold addReward; split <;> simp [e]
    have hac : (accumulate s0 caller m.fee).2 = (accumulate s caller m.fee).2 ∧ (accumulate s0 caller m.fee).1.reward = (accumulate s caller m.fee).1.reward ∧
        (accumulate s0 caller m.fee).1.resp = (accumulate s caller m.fee).1.resp ∧ (accumulate s0 caller m.fee).1.log = s.log := by
      unfold accumulate
      split
      · exact ⟨rfl, h1, h2, h3⟩
      · exact ⟨rfl, hadd _ _ _ _ _ h1, by rw [(addReward_log _ _ _ _).2.2.2.1, (addReward_log _ _ _ _).2.2.2.1, h2], by rw [(addReward_log _ _ _ _).1, h3]⟩
    unfold handleFee
    dsimp only
    generalize accumulate s0 caller m.fee = p0 at hac
    generalize accumulate s caller m.fee = p1 at hac
    obtain ⟨a0, f0⟩ := p0
    obtain ⟨a1, f1⟩ := p1
    dsimp only at hac ⊢
    obtain ⟨rfl, e1, e2, e3⟩ := hac
    rw [if_pos hdst, if_pos hsn, if_pos hdst, if_pos hsn]
    dsimp only [collectRemain]
    rw [e2]
    exact ⟨rfl, hadd _ _ _ _ _ e1, by rw [(addReward_log _ _ _ _).1, e3]⟩
  have hg := hghost { addIn s m.fee.network m.fee.values.sum with disp := upd (addIn s m.fee.network m.fee.values.sum).disp prev ((addIn s m.fee.network m.fee.values.sum).disp prev ++ [some m]) } rfl rfl rfl
  have hf := handleFee_ledger c { addIn s m.fee.network m.fee.values.sum with disp := upd (addIn s m.fee.network m.fee.values.sum).disp prev ((addIn s m.fee.network m.fee.values.sum).disp prev ++ [some m]) } caller m ""
  generalize handleFee c { addIn s m.fee.network m.fee.values.sum with disp := upd (addIn s m.fee.network m.fee.values.sum).disp prev ((addIn s m.fee.network m.fee.values.sum).disp prev ++ [some m]) } caller m = p at h hg hf
  obtain ⟨s1, m1⟩ := p
  generalize (handleFee c s caller m) = p2 at hg ⊢
  obtain ⟨sF, mF⟩ := p2
  dsimp only at h hg hf ⊢
  obtain ⟨-, -, -, hfd, hfs, hfsrc, hfsvc, hfnsn, hfbody, hfresp, -⟩ := hf
  obtain ⟨-, hrew, hlog⟩ := hg
  have hfresp := hfresp ⟨hdst, hsn⟩
  rw [hfd, if_pos hdst] at h
  -- the two outcomes of the own service
  have hadd : ∀ (x : St) (a v : Nat) k, (addReward x c.net a v).reward.get 0 k = x.reward.get 0 k + (if k = (a, c.net) then v else 0) := by
    intro x a v k
    unfold addReward
    by_cases hv : v > 0
    · rw [if_pos hv]
      show FM.get 0 (x.reward.set (a, c.net) _) k = _
      rw [FM.get_set]
      by_cases hk : k = (a, c.net)
      · subst hk; rw [if_pos rfl, if_pos rfl]
      · rw [if_neg (fun e => hk e.symm), if_neg hk]; rfl
    · rw [if_neg hv]
      have : v = 0 := by omega
      subst this; simp
  have herr : ∀ s3 : St, s3.reward = s1.reward → s3.log = s1.log → (sendError c env s3 prev seq m1 1).reward = s1.reward ∧
      ∃ q f, (sendError c env s3 prev seq m1 1).log = s1.log ++ [.message prev q ⟨c.net, m1.src, m1.svc, -m1.sn, c.encResp 1, -m1.nsn, f⟩] := by
    intro s3 h1 h2
    have hpos : m1.sn > 0 := by rw [hfs]; exact hsn
    have he : (handleErrorFee c env s3 m1.src m1.sn m1.fee).1 = s3 := by
      unfold handleErrorFee; rw [if_pos hpos]; dsimp only; split <;> rfl
    unfold sendError
    dsimp only
    generalize handleErrorFee c env s3 m1.src m1.sn m1.fee = q at he
    obtain ⟨s4, f⟩ := q
    dsimp only at he ⊢
    subst he
    rw [if_pos hpos]
    exact ⟨h1, _, f, by simp only [sendMsg]; rw [h2]⟩
  have hown : handleMessage c env ok call s1 m1 = (match ownService c env ok s1 m1.src m.nsn m1.body with | some s' => (0, s') | none => (1, s1)) := by
    unfold handleMessage
    rw [if_pos (hfsvc.trans hsvc)]
    dsimp only
    have hge : m1.sn ≥ 0 := by rw [hfs]; omega
    have hnn : ¬ (m1.sn ≥ 0 ∧ m1.nsn < 0) := by rw [hfnsn]; omega
    rw [if_neg hnn, if_pos hge, hfnsn]
    cases ownService c env ok s1 m1.src m.nsn m1.body <;> rfl
  rw [hown] at h
  cases ho : ownService c env ok s1 m1.src m.nsn m1.body with
  | none =>
    rw [ho] at h
    right
    dsimp only at h
    rw [if_neg (by decide), if_pos (by rw [hfs]; exact hsn)] at h
    split at h
    · cases h
    rename_i s3 r hr
    have hrr := removeResponse_ledger _ _ _ _ _ _ hr ""
    obtain ⟨-, -, -, -, -, r1, -, -, -, r2, -⟩ := hrr
    simp only [Option.some.injEq] at h
    subst h
    obtain ⟨e1, q, f, e2⟩ := herr s3 r2 r1
    refine ⟨q, f, fun k => by rw [e1, hrew], ?_⟩
    rw [e2, hlog, hfsrc, hfsvc, hsvc, hfs, hfnsn]
  | some s2 =>
    rw [ho] at h
    left
    simp only [if_true, Option.some.injEq] at h
    subst h
    unfold ownService at ho
    rw [hfbody, hbody] at ho
    dsimp only at ho
    split at ho
    · cases ho
    rename_i a hpa
    unfold sendMessage at ho
    split at ho
    · cases ho
    rename_i hx
    dsimp only at ho
    have hneg : -m.nsn < 0 := by omega
    rw [if_pos hneg, decide_eq_true hneg, Int.neg_neg] at ho
    unfold sendWithFee at ho
    rw [hfsrc] at ho
    split at ho
    · simp at ho
    rename_i next hn
    dsimp only at ho
    rw [if_pos rfl] at ho
    split at ho
    · simp at ho
    rename_i s4 r hr
    simp only [Option.map_some, Option.some.injEq] at ho
    subst ho
    have hrr := removeResponse_ledger _ _ _ _ _ _ hr ""
    obtain ⟨-, -, -, r0, -, r1, -, -, -, r2, -⟩ := hrr
    have hrn : r.nsn = m.nsn := by
      rw [r0]
      show ((addReward _ _ _ _).resp.get Resp.empty _).nsn = _
      rw [(addReward_log _ _ _ _).2.2.2.1]
      show (s1.resp.get Resp.empty (m.src, "bmc", m.nsn)).nsn = _
      rw [hnsn, ← hsvc, hfresp]
      exact hnsn
    refine ⟨a, next, s4.tx next + 1, r.fee, hpa, hn, ?_, ?_⟩
    · intro k
      show (addReward s4 c.net c.periphery 0).reward.get 0 k = _
      rw [hadd, r2]
      show (addReward _ _ _ _).reward.get 0 k + _ = _
      rw [hadd]
      show s1.reward.get 0 k + _ + _ = _
      rw [hrew]
      simp
    · show (addReward s4 c.net c.periphery 0).log ++ _ = _
      rw [(addReward_log _ _ _ _).1, r1]
      show (addReward _ _ _ _).log ++ _ = _
      rw [(addReward_log _ _ _ _).1]
      show s1.log ++ _ = _
      rw [hlog, hrn, (addReward_log _ _ _ _).2.1]

/-! ### Concrete histories -/

namespace Demo

/-- Message `n` of the demo source chain. -/
def src (l : String) (n : Nat) : Msg := ⟨l, "A", "svc", n, [UInt8.ofNat n], n, ⟨l, [5, 7]⟩⟩

/-- A verifier that returns one or two messages after the given number. -/
def cfg : Cfg where
  net := "A"
  periphery := 1
  service := 2
  verify := fun l r ms => decide (ms = (List.range ms.length).map (fun i => src l (r + i + 1))) ||
    decide (l = "C" ∧ ms = [⟨"C", "A", "bmc", 0, [2, 1], -1, ⟨"C", []⟩⟩])
  decInner := fun b => match b with
    | [1, n] => some (.claim n.toNat "0x64")
    | [2, n] => some (.response n.toNat)
    | _ => none
  decResp := fun b => match b with
    | [3, n] => some n.toNat
    | _ => none
  encInner := fun i => match i with
    | .claim n _ => [1, UInt8.ofNat n]
    | .response n => [2, UInt8.ofNat n]
    | _ => []
  encResp := fun n => [3, UInt8.ofNat n]
  parseAddr := fun _ => some 100

def env : Env where
  resolve := fun n => some n
  fees := fun _ => [2, 2]
  service := fun _ => some 50
  isRelay := fun _ a => a = 9 ∨ a = 50
  feeHandler := 8

theorem faithful : Faithful { cfg with verify := fun l r ms => decide (ms = (List.range ms.length).map (fun i => src l (r + i + 1))) } src := by
  intro l r ms h i m hi
  have h := of_decide_eq_true h
  rw [h, List.getElem?_map] at hi
  cases hr : (List.range ms.length)[i]? with
  | none => rw [hr] at hi; simp at hi
  | some j =>
    rw [List.getElem?_eq_some_iff] at hr
    obtain ⟨_, hv⟩ := hr
    have hj : j = i := by simpa using hv.symm
    rw [List.getElem?_eq_some_iff.2 ⟨‹_›, hv⟩] at hi
    subst hj
    simpa using hi.symm

/-- Two relay calls and a call by the service while it handles the second message. -/
def history : List Op :=
  [.relay env 9 "B" (.cons (src "B" 1) env true .nil (.cons (src "B" 2) env true
      (.cons (.send env 50 4 "B" "svc" (-1) [9]) .nil) .nil)),
   .relay env 9 "B" (.cons (src "B" 3) env false .nil .nil),
   .claim env 9 2 "B" "0x64",
   .claim env 1 0 "A" "0x64"]

example : (∀ o ∈ history, o.calm []) := by
  intro o ho
  simp only [history, List.mem_cons, List.not_mem_nil, or_false] at ho
  rcases ho with rfl | rfl | rfl | rfl <;> simp [Op.calm, Items.calm, Ops.calm]

example : ((run cfg history).rx "B" = 3) ∧ (run cfg history).disp "B" = [some (src "B" 1), some (src "B" 2), some (src "B" 3)] := by
  decide +kernel

/-- C42 example: a reply, an error response and a claim, numbered 1, 2, 3. -/
example : (sentSince "B" (run cfg history).log).map Prod.fst = [1, 2, 3] := by decide +kernel

/-- C44 example: 36 units of B came in; 7 are stored for the response still to be sent, 14 went back with the reply and the error
    and 15 are in the open claim. -/
example : (run cfg history).inflow "B" = 36 ∧ stored (run cfg history) "B" = 7 ∧ carried (run cfg history) "B" = 14 ∧
    pending (run cfg history) "B" = 15 ∧ (run cfg history).paid "A" = 4 := by decide +kernel

/-- C41 is false without the restriction on re-entrance: a service registered as relay of the link that relays the same message
    again while it handles it makes the BMC handle it twice and count it twice, because rxSeq is only stored after the loop
    (BMCPeriphery.sol:131). The verifier is the faithful one. -/
theorem C41_reentrance_witness :
    (run { cfg with verify := fun l r ms => decide (ms = (List.range ms.length).map (fun i => src l (r + i + 1))) }
      [.relay env 9 "B" (.cons (src "B" 1) env true (.cons (.relay env 50 "B" (.cons (src "B" 1) env true .nil .nil)) .nil) .nil)]).disp "B" =
        [some (src "B" 1), some (src "B" 1)] ∧
    (run { cfg with verify := fun l r ms => decide (ms = (List.range ms.length).map (fun i => src l (r + i + 1))) }
      [.relay env 9 "B" (.cons (src "B" 1) env true (.cons (.relay env 50 "B" (.cons (src "B" 1) env true .nil .nil)) .nil) .nil)]).rx "B" = 2 ∧
    src "B" 1 ≠ src "B" 2 := by decide +kernel

/-- C44 is false if value sent along with a claim of the own currency should be accounted for: it stays in the contract and
    belongs to no balance (BMCPeriphery.sol:430-459 is payable and looks at the value only on the other branch). -/
theorem C44_value_lost_witness :
    (run cfg [.send env 50 10 "B" "svc" 0 [], .claim env 8 6 "A" "0x64"]).lost "A" = 6 ∧
    (run cfg [.send env 50 10 "B" "svc" 0 [], .claim env 8 6 "A" "0x64"]).inflow "A" = 16 ∧
    (run cfg [.send env 50 10 "B" "svc" 0 [], .claim env 8 6 "A" "0x64"]).paid "A" = 8 ∧
    rewards (run cfg [.send env 50 10 "B" "svc" 0 [], .claim env 8 6 "A" "0x64"]) "A" = 0 := by decide +kernel

/-- The claim of 5 units of B that the destination receives. -/
def claimB : Msg := ⟨"A", "B", "bmc", 1, [1, 5], 1, ⟨"A", [2]⟩⟩

/-- C45 is false as stated: a response is not checked to come from the network of the claim. The relay claims 5 units of B; a third
    network C answers first with a failure, so the amount is returned at the origin; the claim message, still on its way, is
    credited at B all the same. -/
theorem C45_spoofed_response_witness :
    -- the origin A: after the claim nothing is left, the claim message is emitted, and the response from C brings the amount back
    (run cfg [.relay env 9 "B" (.cons (src "B" 1) env true .nil .nil), .claim env 9 2 "B" "0x64"]).reward.get 0 (9, "B") = 0 ∧
    Event.message "B" 1 claimB ∈ (run cfg [.relay env 9 "B" (.cons (src "B" 1) env true .nil .nil), .claim env 9 2 "B" "0x64"]).log ∧
    (run cfg [.relay env 9 "B" (.cons (src "B" 1) env true .nil .nil), .claim env 9 2 "B" "0x64",
      .relay env 9 "C" (.cons ⟨"C", "A", "bmc", 0, [2, 1], -1, ⟨"C", []⟩⟩ env true .nil .nil)]).reward.get 0 (9, "B") = 5 ∧
    -- the destination B credits the claim
    (run { cfg with net := "B", verify := fun l r ms => decide (l = "A" ∧ r = 0 ∧ ms = [claimB]) }
      [.relay env 9 "A" (.cons claimB env true .nil .nil)]).reward.get 0 (100, "B") = 5 := by decide +kernel

/-- C45_destination and C45_refund are about cases that occur. -/
example : (item { cfg with net := "B" } env true id 9 "A" 1 init claimB).elim false
    (fun s => decide (s.reward.get 0 (100, "B") = 5)) = true ∧
  (item { cfg with net := "B", parseAddr := fun _ => none } env true id 9 "A" 1 init claimB).elim false
    (fun s => decide (s.reward.get 0 (100, "B") = 0 ∧ s.log.length = 1)) = true := by decide +kernel

example : (run cfg [.relay env 9 "B" (.cons (src "B" 1) env true .nil .nil), .claim env 9 2 "B" "0x64",
      .relay env 9 "C" (.cons ⟨"C", "A", "bmc", 0, [2, 1], -1, ⟨"C", []⟩⟩ env true .nil .nil)]).settle = [(1, 1)] := by decide +kernel

end Demo

end Verif.SolBmc
