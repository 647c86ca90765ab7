import Verif.NcsSys
/-!
Properties of the native coin service: the ledger of one chain (C97), cross-chain backing (C98), delivery in full or refund (C99), the
origin of answers (C100), answers carried out and fees (C101).
-/
namespace Verif.Ncs
open Verif

/-! ### C97: the ledger of one chain -/

/-- A chain before the service is used: the contract holds no coins and no account is in debt. -/
structure Fresh (cfg : Cfg) (icx : Tab Bytes Int) : Prop where
  empty : at0 icx cfg.self = 0
  nonneg : ∀ p ∈ icx, 0 ≤ p.2
  id : ∀ a b, cfg.id a = cfg.id b → a = b

/-- After any history of calls: what is locked for an owner is the sum of amounts and fees of the owner's pending transfers, and nothing
else; nothing refundable and no fee is negative. -/
theorem C97_locked_is_pending (cfg : Cfg) (icx : Tab Bytes Int) (hf : Fresh cfg icx) (l : List Op) (c o : Bytes) :
    (balance (run cfg (init icx) l) c o).locked = pending (run cfg (init icx) l).txs c o ∧
      0 ≤ (balance (run cfg (init icx) l) c o).refundable ∧ 0 ≤ at0 (run cfg (init icx) l).fees c := by
  have h := run_inv cfg hf.id l _ (inv_init cfg icx hf.empty hf.nonneg)
  exact ⟨h.locked c o, h.refund c o, h.fees c⟩

/-- The coins of the contract are what is locked, refundable and taken as fees, plus what was delivered abroad less what was paid out. -/
theorem C97_coins_accounted (cfg : Cfg) (icx : Tab Bytes Int) (hf : Fresh cfg icx) (l : List Op) :
    at0 (run cfg (init icx) l).icx cfg.self = lsum (run cfg (init icx) l) cfg.name + rsum (run cfg (init icx) l) cfg.name +
      at0 (run cfg (init icx) l).fees cfg.name + at0 (run cfg (init icx) l).settled cfg.name - at0 (run cfg (init icx) l).paid cfg.name :=
  (run_inv cfg hf.id l _ (inv_init cfg icx hf.empty hf.nonneg)).coins

/-- The contract holds the tokens for all that is locked, refundable and taken as fees; a supply is the sum of all balances, and what
was minted less what was confirmed as delivered abroad. -/
theorem C97_tokens_accounted (cfg : Cfg) (icx : Tab Bytes Int) (hf : Fresh cfg icx) (l : List Op) (c : Bytes) (hc : c ≠ cfg.name) :
    lsum (run cfg (init icx) l) c + rsum (run cfg (init icx) l) c + at0 (run cfg (init icx) l).fees c ≤
        at0 (run cfg (init icx) l).irc.bals (cfg.id c, cfg.self) ∧
      at0 (run cfg (init icx) l).irc.supplies (cfg.id c) = tsum (run cfg (init icx) l).irc (cfg.id c) ∧
      tsum (run cfg (init icx) l).irc (cfg.id c) = at0 (run cfg (init icx) l).paid c - at0 (run cfg (init icx) l).settled c := by
  have h := run_inv cfg hf.id l _ (inv_init cfg icx hf.empty hf.nonneg)
  exact ⟨h.tokens c hc, h.irc.supply _, by rw [← h.irc.supply]; exact h.minted c hc⟩

/-- A transfer of one coin locks the whole value; the message asks for the value less the fee, which is the ratio of the value rounded
down, but at least 1. -/
theorem C97_native_transfer (cfg : Cfg) (icx : Tab Bytes Int) (hf : Fresh cfg icx) (l : List Op) (o net acc : Bytes) (v : Int) (s' : S) (out : List Out)
    (h : transferNative cfg (run cfg (init icx) l) o v net acc = some (s', out)) :
    ∃ fee, fee = max 1 (v * (run cfg (init icx) l).feeRatio / 10000) ∧ fee < v ∧
      s'.txs.get? s'.sn = some ⟨o, net, acc, [⟨cfg.name, v - fee, fee⟩]⟩ ∧
      out = [⟨net, s'.sn, .request o acc [⟨cfg.name, some (v - fee)⟩]⟩] ∧
      (balance s' cfg.name o).locked = (balance (run cfg (init icx) l) cfg.name o).locked + v ∧
      at0 s'.icx cfg.self = at0 (run cfg (init icx) l).icx cfg.self + v ∧ at0 s'.icx o = at0 (run cfg (init icx) l).icx o - v := by
  have hi := run_inv cfg hf.id l _ (inv_init cfg icx hf.empty hf.nonneg)
  generalize run cfg (init icx) l = s at hi h ⊢
  unfold transferNative at h
  by_cases c : 0 < v
  · rw [if_pos c] at h
    cases e : receive cfg s o v with
    | none => rw [e] at h; cases h
    | some s1 =>
      rw [e] at h
      dsimp only [Option.bind_some] at h
      obtain ⟨r1, r2, r3, r4, r5⟩ := receive_ok cfg s s1 o v e hi.icx
      have ro : at0 s1.icx o = at0 s.icx o - v := by
        unfold receive at e
        by_cases q : o ≠ cfg.self ∧ 0 ≤ v ∧ v ≤ at0 s.icx o
        · rw [if_pos q] at e
          cases e
          dsimp only
          rw [at0_add, at0_add, if_pos rfl, if_neg q.1]; omega
        · rw [if_neg q] at e; cases e
      have hr : 1 ≤ s1.feeRatio := by rw [r3]; exact hi.ratio.1
      unfold sendRequest lockAll at h
      rw [if_neg r1] at h
      cases e2 : detail cfg.name v s1.feeRatio with
      | none => rw [e2] at h; cases h
      | some d =>
        rw [e2] at h
        dsimp only [Option.bind_some] at h
        unfold lockAll at h
        dsimp only [Option.bind_some] at h
        have d1 := detail_ok cfg.name v s1.feeRatio d r2 (by omega) e2
        have d2 := detail_fee cfg.name v s1.feeRatio d r2 (by omega) e2
        by_cases q : cfg.sends net = true
        · rw [if_pos q] at h
          cases h
          have ed : d = ⟨cfg.name, v - d.fee, d.fee⟩ := by
            cases d
            dsimp only at d1 ⊢
            rw [d1.1, ← d1.2.1]
            congr 1
            omega
          refine ⟨d.fee, ?_, by omega, ?_, ?_, ?_, r4, ro⟩
          · rw [d2, r3]
          · dsimp only
            rw [Tab.get?_put_same, ← ed]
          · dsimp only
            rw [ed]; rfl
          · have m := (lock_moved s1 cfg.name o v).locked cfg.name o
            rw [if_pos ⟨rfl, rfl⟩] at m
            have b : balance s1 cfg.name o = balance s cfg.name o := by rw [r3]; rfl
            rw [b] at m
            exact m
        · rw [if_neg q] at h; cases h
  · rw [if_neg c] at h; cases h

theorem refundable_le (cfg : Cfg) (s : S) (hi : Inv cfg s) (c o : Bytes) : (balance s c o).refundable ≤ rsum s c := by
  unfold rsum
  have hn : ∀ p ∈ s.bals, 0 ≤ (fun k b => if k.1 = c then b.refundable else 0 : Bytes × Bytes → Balance → Int) p.1 p.2 := by
    intro p hp
    show 0 ≤ if p.1.1 = c then p.2.refundable else 0
    have e := Tab.get?_of_mem s.bals hi.bkeys p.1 p.2 hp
    have := hi.refund p.1.1 p.1.2
    unfold balance Tab.getD at this
    rw [show (p.1.1, p.1.2) = p.1 from rfl, e] at this
    split
    · exact this
    · omega
  unfold balance Tab.getD
  cases e : s.bals.get? (c, o) with
  | none => exact Tab.sum_nonneg _ _ hn
  | some b =>
    have := Tab.le_sum (fun k b => if k.1 = c then b.refundable else 0 : Bytes × Bytes → Balance → Int) s.bals hn _ (Tab.get?_mem _ _ _ e)
    dsimp only at this
    rw [if_pos rfl] at this
    exact this

/-- A refund of tokens is always paid: who has something refundable and takes tokens gets it on request. -/
theorem C97_reclaim_tokens (cfg : Cfg) (icx : Tab Bytes Int) (hf : Fresh cfg icx) (l : List Op) (o c : Bytes) (v : Int) (hc : c ≠ cfg.name)
    (ha : cfg.accepts o = true) (ho : o ≠ cfg.self) (h0 : 0 < v) (hv : v ≤ (balance (run cfg (init icx) l) c o).refundable) :
    ∃ s', reclaim cfg (run cfg (init icx) l) o c v = some s' ∧
      (balance s' c o).refundable = (balance (run cfg (init icx) l) c o).refundable - v ∧
      at0 s'.irc.bals (cfg.id c, o) = at0 (run cfg (init icx) l).irc.bals (cfg.id c, o) + v := by
  have hi := run_inv cfg hf.id l _ (inv_init cfg icx hf.empty hf.nonneg)
  generalize run cfg (init icx) l = s at hi hv ⊢
  have hr : (balance s c o).refundable ≤ rsum s c := refundable_le cfg s hi c o
  have ht : v ≤ at0 s.irc.bals (cfg.id c, cfg.self) := by
    have a := hi.tokens c hc
    have b := hi.lsum0 c
    have d := hi.fees c
    omega
  have e1 : s.irc.transferFrom cfg cfg.self o (cfg.id c) v =
      some { s.irc with bals := add (add s.irc.bals (cfg.id c, cfg.self) (-v)) (cfg.id c, o) v } := by
    unfold Irc31.transferFrom
    rw [if_pos ⟨Or.inl rfl, by omega, ht, ha⟩]
  refine ⟨{ setBalance s c o { balance s c o with refundable := (balance s c o).refundable - v } with
      irc := { s.irc with bals := add (add s.irc.bals (cfg.id c, cfg.self) (-v)) (cfg.id c, o) v } }, ?_, ?_, ?_⟩
  · unfold reclaim
    rw [if_pos ⟨h0, hv⟩]
    dsimp only
    rw [if_neg (Ne.symm hc)]
    show (s.irc.transferFrom cfg cfg.self o (cfg.id c) v).map _ = _
    rw [e1]
    rfl
  · show (balance (setBalance s c o _) c o).refundable = _
    rw [balance_set, if_pos rfl]
  · dsimp only
    rw [at0_add, at0_add, if_pos rfl, if_neg (fun x => ho (congrArg Prod.snd x))]; omega

/-! ### C98: backing across chains -/

/-- The state of two chains after any history. -/
structure Reach (n : Net) (y : Sys) : Prop where
  ok : n.Ok
  run : ∃ (x z : Tab Bytes Int) (l : List Ev), at0 x n.A.self = 0 ∧ at0 z n.B.self = 0 ∧ (∀ p ∈ x, 0 ≤ p.2) ∧ (∀ p ∈ z, 0 ≤ p.2) ∧ y = (Sys.init x z).run n l

theorem Reach.inv {n : Net} {y : Sys} (h : Reach n y) : SysInv False n y := by
  obtain ⟨x, z, l, h1, h2, h3, h4, e⟩ := h.run
  rw [e]
  exact sysRun_inv False n h.ok l (fun x => x.elim) _ (sysInv_init False n x z h1 h2 h3 h4)

/-- In every reachable state the coins of a chain cover, all at once: every refund and fee due there, and every request on the way that
asks for them. -/
theorem C98_coins_cover_claims (n : Net) (y : Sys) (h : Reach n y) :
    rsum y.a n.A.name + at0 y.a.fees n.A.name + asked n.A.name y.ba ≤ at0 y.a.icx n.A.self ∧
      rsum y.b n.B.name + at0 y.b.fees n.B.name + asked n.B.name y.ab ≤ at0 y.b.icx n.B.self := by
  have a := backed False n h.ok y h.inv
  have b := backed False n.swap h.ok.swap y.swap h.inv.swap
  refine ⟨by omega, ?_⟩
  have b1 : lsum y.b n.B.name - okSum y.b.txs n.B.name y.ab + rsum y.b n.B.name + at0 y.b.fees n.B.name +
      (at0 y.a.irc.supplies (n.A.id n.B.name) - okSum y.a.txs n.B.name y.ba) ≤ at0 y.b.icx n.B.self := b.1
  have b2 : asked n.B.name y.ab ≤ at0 y.a.irc.supplies (n.A.id n.B.name) - okSum y.a.txs n.B.name y.ba := b.2.1
  have b3 : 0 ≤ lsum y.b n.B.name - okSum y.b.txs n.B.name y.ab := b.2.2
  omega

/-- Every token of A's coin on B is backed by a coin that A holds, over and above what A owes at home, except tokens locked on B for
requests that A paid already. -/
theorem C98_tokens_backed_by_coins (n : Net) (y : Sys) (h : Reach n y) :
    tsum y.b.irc (n.B.id n.A.name) - okSum y.b.txs n.A.name y.ab + rsum y.a n.A.name + at0 y.a.fees n.A.name ≤ at0 y.a.icx n.A.self ∧
      okSum y.b.txs n.A.name y.ab ≤ lsum y.b n.A.name := by
  have a := backed False n h.ok y h.inv
  have b := h.inv.invB.irc.supply (n.B.id n.A.name)
  have c := flight_le n.B False n.A.name y.b y.a y.ba y.ab h.inv.invB h.inv.ba n.A.name
  exact ⟨by omega, by omega⟩

/-- So a refund of coins is always paid. -/
theorem C98_reclaim_coins (n : Net) (y : Sys) (h : Reach n y) (o : Bytes) (v : Int) (ho : o ≠ n.A.self) (ha : n.A.accepts o = true) (h0 : 0 < v)
    (hv : v ≤ (balance y.a n.A.name o).refundable) :
    ∃ s', reclaim n.A y.a o n.A.name v = some s' ∧ (balance s' n.A.name o).refundable = (balance y.a n.A.name o).refundable - v ∧
      at0 s'.icx o = at0 y.a.icx o + v := by
  have hi := h.inv.invA
  have hr : (balance y.a n.A.name o).refundable ≤ rsum y.a n.A.name := refundable_le n.A y.a hi n.A.name o
  have hc : v ≤ at0 y.a.icx n.A.self := by
    have a := (C98_coins_cover_claims n y h).1
    have b := hi.fees n.A.name
    have c := flight_le n.B False n.A.name y.b y.a y.ba y.ab h.inv.invB h.inv.ba n.A.name
    omega
  refine ⟨{ setBalance y.a n.A.name o { balance y.a n.A.name o with refundable := (balance y.a n.A.name o).refundable - v } with
      icx := add (add y.a.icx n.A.self (-v)) o v }, ?_, ?_, ?_⟩
  · unfold reclaim
    rw [if_pos ⟨h0, hv⟩]
    dsimp only
    rw [if_pos rfl]
    unfold pay
    rw [if_pos ⟨ho, ha, by omega, hc⟩]
    rfl
  · show (balance (setBalance y.a n.A.name o _) n.A.name o).refundable = _
    rw [balance_set, if_pos rfl]
  · dsimp only
    rw [at0_add, at0_add, if_pos rfl, if_neg ho]; omega

theorem mintBatch_some (cfg : Cfg) (to : Bytes) (hm : cfg.minter = true) (ha : cfg.accepts to = true) (l : List (Int × Int)) (i : Irc31) (hl : ∀ p ∈ l, 0 < p.2) :
    ∃ i', i.mintBatch cfg to l = some i' ∧ ∀ id, at0 i'.bals (id, to) = at0 i.bals (id, to) + isum id l := by
  induction l generalizing i with
  | nil => exact ⟨i, rfl, by simp [isum]⟩
  | cons p l ih =>
    obtain ⟨id, v⟩ := p
    obtain ⟨i', e1, e2⟩ := ih ⟨add i.supplies id v, add i.bals (id, to) v⟩ (fun p hp => hl p (List.mem_cons_of_mem _ hp))
    refine ⟨i', ?_, ?_⟩
    · unfold Irc31.mintBatch
      rw [if_pos ⟨hm, hl _ List.mem_cons_self, ha⟩]
      exact e1
    · intro j
      rw [e2]
      dsimp only [isum]
      rw [at0_add]
      by_cases q : id = j
      · rw [if_pos q, if_pos (by rw [q])]; omega
      · rw [if_neg q, if_neg (fun x => q (congrArg Prod.fst x).symm)]; omega

theorem sortAssets_some (cfg : Cfg) (coins : List Bytes) (l : List Detail) (hd : ∀ d ∈ l, 1 ≤ d.amount ∧ 0 ≤ d.fee)
    (hc : ∀ d ∈ l, d.coin = cfg.name ∨ d.coin ∈ coins) :
    ∃ x, sortAssets cfg coins (l.map fun d => ⟨d.coin, some d.amount⟩) = some x := by
  induction l with
  | nil => exact ⟨_, rfl⟩
  | cons d l ih =>
    obtain ⟨x, hx⟩ := ih (fun e he => hd e (List.mem_cons_of_mem _ he)) (fun e he => hc e (List.mem_cons_of_mem _ he))
    have h1 := hd d List.mem_cons_self
    rw [List.map_cons]
    unfold sortAssets
    dsimp only
    rw [if_neg (by omega), hx]
    dsimp only [Option.bind_some]
    by_cases c1 : d.coin ∈ coins
    · rw [if_pos c1]; exact ⟨_, rfl⟩
    · rw [if_neg c1, if_pos ((hc d List.mem_cons_self).resolve_right c1).symm]; exact ⟨_, rfl⟩

theorem asked_mem (c : Bytes) (x : S) (ps : List Pkt) (hd : ∀ p ∈ x.txs, ∀ d ∈ p.2.assets, 1 ≤ d.amount ∧ 0 ≤ d.fee)
    (h : ∀ sn f t l, Pkt.msg sn (.request f t l) ∈ ps → ∃ tx, x.txs.get? sn = some tx ∧ l = tx.assets.map fun d => ⟨d.coin, some d.amount⟩)
    (sn : Int) (f t : Bytes) (l : List Asset) (hm : Pkt.msg sn (.request f t l) ∈ ps) : amountOf x.txs c sn ≤ asked c ps := by
  rw [asked_eq c x ps h]
  have hs : sn ∈ ps.filterMap reqSn := List.mem_filterMap.mpr ⟨_, hm, rfl⟩
  generalize ps.filterMap reqSn = L at hs
  induction L with
  | nil => cases hs
  | cons s L ih =>
    have a := amountOf_nonneg x.txs hd c s
    have b := amounts_nonneg x.txs hd c L
    dsimp only [amounts]
    rcases List.mem_cons.mp hs with e | e
    · rw [e]; omega
    · have := ih e; omega

/-- A request on the way never fails for want of coins: if its receiver is an account that takes payments (not the contract itself) and
the coins are known, the arrival is answered by a success, whatever else is on the way or refundable. -/
theorem C98_request_is_paid (n : Net) (y : Sys) (h : Reach n y) (i : Nat) (sn : Int) (f t to : Bytes) (l : List Asset)
    (hp : y.ba[i]? = some (.msg sn (.request f t l))) (ht : n.A.parse t = some to) (ha : n.A.accepts to = true) (hto : to ≠ n.A.self)
    (hc : ∀ a ∈ l, a.coin = n.A.name ∨ a.coin ∈ y.a.coins) :
    (deliver n.A y.a n.netB (.msg sn (.request f t l))).2 = [.msg sn (.response 0)] := by
  have hmem : Pkt.msg sn (.request f t l) ∈ y.ba := List.mem_of_getElem? hp
  obtain ⟨tx, ht1, ht2⟩ := h.inv.ba.same sn f t l hmem
  have hd : ∀ p ∈ y.b.txs, ∀ d ∈ p.2.assets, 1 ≤ d.amount ∧ 0 ≤ d.fee := fun p hp => h.inv.invB.details p hp
  have hdt := hd (sn, tx) (Tab.get?_mem _ _ _ ht1)
  obtain ⟨x, hx⟩ := sortAssets_some n.A y.a.coins tx.assets hdt (fun d hd' => hc ⟨d.coin, some d.amount⟩ (by rw [ht2]; exact List.mem_map.mpr ⟨d, hd', rfl⟩))
  obtain ⟨_, _, w3, _⟩ := sortAssets_sum n.A y.a.coins h.inv.invA.name tx.assets hdt x hx
  obtain ⟨v1, v2⟩ := sortAssets_ok n.A y.a.coins _ x hx
  have hle : x.2.getD 0 ≤ at0 y.a.icx n.A.self := by
    have a := (C98_coins_cover_claims n y h).1
    have b := h.inv.invA.fees n.A.name
    have c := h.inv.invA.rsum n.A.name
    have d := asked_mem n.A.name y.b y.ba hd h.inv.ba.same sn f t l hmem
    have e : amountOf y.b.txs n.A.name sn = asum n.A.name tx.assets := by unfold amountOf; rw [ht1]
    omega
  have hpay : ∃ s1, payNative n.A y.a to x.2 = some s1 ∧ s1.irc = y.a.irc := by
    cases e : x.2 with
    | none => exact ⟨y.a, rfl, rfl⟩
    | some v =>
      have hv := v2 v e
      rw [e] at hle
      dsimp only [Option.getD] at hle
      unfold payNative pay
      dsimp only
      rw [if_pos ⟨hto, ha, by omega, hle⟩]
      exact ⟨_, rfl, rfl⟩
  obtain ⟨s1, e1, e2⟩ := hpay
  obtain ⟨i', m1, _⟩ := mintBatch_some n.A to h.ok.minterA ha (x.1.map fun p => (n.A.id p.1, p.2)) y.a.irc (by
    intro p hp
    obtain ⟨q, hq, e⟩ := List.mem_map.mp hp
    rw [← e]; exact (v1 q hq).2)
  have hr : handleRequest n.A y.a t l n.netB sn = some ({ s1 with irc := i', paid := count s1.paid x.1 }, [⟨n.netB, sn, .response 0⟩]) := by
    unfold handleRequest mintAll
    rw [ht]
    dsimp only
    rw [ht2, hx]
    dsimp only [Option.bind_some]
    rw [e1]
    dsimp only [Option.bind_some]
    rw [e2, m1]
    dsimp only [Option.map_some, Option.bind_some]
    rw [if_pos ((h.ok.sendsA n.netB).mpr rfl)]
  unfold deliver handleMessage
  dsimp only
  rw [if_pos rfl, hr]
  rfl

/-! ### C99: delivered in full or refunded -/

/-- Every transfer that is pending has exactly one packet on the way, its request or its answer, and every such packet belongs to a
pending transfer. -/
theorem C99_one_packet_per_transfer (n : Net) (y : Sys) (h : Reach n y) :
    (y.ab.filterMap reqSn ++ y.ba.filterMap ansSn).Nodup ∧
      (∀ sn, sn ∈ y.ab.filterMap reqSn ++ y.ba.filterMap ansSn ↔ ∃ tx, y.a.txs.get? sn = some tx) ∧
      (∀ sn f t l, Pkt.msg sn (.request f t l) ∈ y.ab → ∃ tx, y.a.txs.get? sn = some tx ∧ l = tx.assets.map fun d => ⟨d.coin, some d.amount⟩) := by
  refine ⟨h.inv.ab.nodup, ?_, h.inv.ab.same⟩
  intro sn
  rw [h.inv.ab.pend, Option.isSome_iff_exists]

/-- If no request names a coin twice, what was paid out and minted on the other chain is, for each coin, what the sender's chain settled
plus the successes on the way. -/
theorem C99_paid_is_settled (n : Net) (ok : n.Ok) (x z : Tab Bytes Int) (hx : at0 x n.A.self = 0) (hz : at0 z n.B.self = 0)
    (nx : ∀ p ∈ x, 0 ≤ p.2) (nz : ∀ p ∈ z, 0 ≤ p.2) (l : List Ev) (hl : ∀ e ∈ l, distinctEv e) (c : Bytes) :
    at0 ((Sys.init x z).run n l).b.paid c =
      at0 ((Sys.init x z).run n l).a.settled c + okSum ((Sys.init x z).run n l).a.txs c ((Sys.init x z).run n l).ba :=
  (sysRun_inv True n ok l (fun _ => hl) _ (sysInv_init True n x z hx hz nx nz)).ab.exact c (Or.inl trivial)

/-- Without that condition it is so for all coins but the native coin of the other chain, and there no more than that is paid. -/
theorem C99_paid_is_settled_partial (n : Net) (y : Sys) (h : Reach n y) (c : Bytes) :
    at0 y.b.paid c ≤ at0 y.a.settled c + okSum y.a.txs c y.ba ∧
      (c ≠ n.B.name → at0 y.b.paid c = at0 y.a.settled c + okSum y.a.txs c y.ba) :=
  ⟨h.inv.ab.paid c, fun hc => h.inv.ab.exact c (Or.inr hc)⟩

/-- A request that is accepted pays the receiver: each token in full, and of native coins the last amount. -/
theorem C99_accepted_pays (cfg : Cfg) (s s' : S) (to t : Bytes) (l : List Asset) (net : Bytes) (sn : Int) (out : List Out) (ht : cfg.parse t = some to)
    (hid : ∀ a b, cfg.id a = cfg.id b → a = b) (h : handleRequest cfg s t l net sn = some (s', out)) :
    ∃ x, sortAssets cfg s.coins l = some x ∧ (∀ c, at0 s'.irc.bals (cfg.id c, to) = at0 s.irc.bals (cfg.id c, to) + vsum c x.1) ∧
      at0 s'.icx to = at0 s.icx to + x.2.getD 0 := by
  unfold handleRequest mintAll at h
  rw [ht] at h
  dsimp only at h
  cases e2 : sortAssets cfg s.coins l with
  | none => rw [e2] at h; cases h
  | some x =>
    rw [e2] at h
    dsimp only [Option.bind_some] at h
    cases e3 : payNative cfg s to x.2 with
    | none => rw [e3] at h; cases h
    | some s1 =>
      rw [e3] at h
      dsimp only [Option.bind_some] at h
      cases e4 : s1.irc.mintBatch cfg to (x.1.map fun p => (cfg.id p.1, p.2)) with
      | none => rw [e4] at h; cases h
      | some i =>
        rw [e4] at h
        dsimp only [Option.map_some, Option.bind_some] at h
        by_cases c : cfg.sends net = true
        · rw [if_pos c] at h
          cases h
          have hi : s1.irc = s.irc ∧ at0 s1.icx to = at0 s.icx to + x.2.getD 0 := by
            cases e5 : x.2 with
            | none => rw [e5] at e3; cases e3; exact ⟨rfl, by simp⟩
            | some v =>
              rw [e5] at e3
              unfold payNative pay at e3
              dsimp only at e3
              by_cases q : to ≠ cfg.self ∧ cfg.accepts to = true ∧ 0 ≤ v ∧ v ≤ at0 s.icx cfg.self
              · rw [if_pos q] at e3
                cases e3
                refine ⟨rfl, ?_⟩
                dsimp only
                rw [at0_add, at0_add, if_pos rfl, if_neg q.1]
                simp
              · rw [if_neg q] at e3; cases e3
          refine ⟨x, rfl, ?_, hi.2⟩
          intro c'
          have mint : ∀ (l : List (Int × Int)) (i i' : Irc31), i.mintBatch cfg to l = some i' → ∀ id, at0 i'.bals (id, to) = at0 i.bals (id, to) + isum id l := by
            intro l
            induction l with
            | nil => intro i i' h id; cases h; simp [isum]
            | cons p l ih =>
              intro i i' h id
              obtain ⟨j, v⟩ := p
              unfold Irc31.mintBatch at h
              by_cases q : cfg.minter = true ∧ 0 < v ∧ cfg.accepts to = true
              · rw [if_pos q] at h
                rw [ih _ _ h id]
                dsimp only [isum]
                rw [at0_add]
                by_cases w : j = id
                · rw [if_pos w, if_pos (by rw [w])]; omega
                · rw [if_neg w, if_neg (fun x => w (congrArg Prod.fst x).symm)]; omega
              · rw [if_neg q] at h; cases h
          have := mint _ _ _ e4 (cfg.id c')
          rw [isum_map cfg.id hid, hi.1] at this
          exact this
        · rw [if_neg c] at h; cases h

/-! Delivering what is on the way ends. -/

def weight : List Pkt → Nat
  | [] => 0
  | .msg _ (.request _ _ _) :: l => 2 + weight l
  | _ :: l => 1 + weight l

theorem weight_append (l m : List Pkt) : weight (l ++ m) = weight l + weight m := by
  induction l with
  | nil => simp [weight]
  | cons p l ih =>
    rw [List.cons_append]
    cases p with
    | err sn => dsimp only [weight]; omega
    | msg sn m => cases m <;> dsimp only [weight] <;> omega

theorem deliver_weight (cfg : Cfg) (hid : ∀ a b, cfg.id a = cfg.id b → a = b) (hm : cfg.minter = true) (D : Prop) (ny nx : Bytes) (x y : S) (out inn : List Pkt)
    (hi : Inv cfg x) (h : Half D ny x y out inn) (h' : Half D nx y x inn out) (src : Bytes) (p : Pkt) (hp : p ∈ inn) :
    weight (deliver cfg x src p).2 < weight [p] := by
  have answer : ∀ (sn code : Int), ansSn p = some sn → ∃ x', handleResponse cfg x sn code = some x' := by
    intro sn code hp1
    have hsome : (x.txs.get? sn).isSome = true := by
      rw [← h.pend sn]
      exact List.mem_append_right _ (List.mem_filterMap.mpr ⟨p, hp, hp1⟩)
    obtain ⟨tx, htx⟩ := Option.isSome_iff_exists.mp hsome
    obtain ⟨x', e1, _⟩ := handleResponse_ok cfg hid x hi sn code tx htx (fun _ => Or.inl hm)
    exact ⟨x', e1⟩
  have hf := h'.fine p hp
  cases p with
  | err sn =>
    obtain ⟨x', e⟩ := answer sn 1 rfl
    unfold deliver handleError
    dsimp only
    rw [if_pos rfl, e]
    show 0 < 1
    omega
  | msg sn m =>
    cases m with
    | response code =>
      obtain ⟨x', e⟩ := answer sn code rfl
      unfold deliver handleMessage
      dsimp only
      rw [if_pos rfl, e]
      show 0 < 1
      omega
    | request f t l =>
      have hsn : 0 < sn := hf
      unfold deliver handleMessage
      dsimp only
      rw [if_pos rfl]
      cases e : handleRequest cfg x t l src sn with
      | none => dsimp only; rw [if_pos hsn]; show 1 < 2; omega
      | some r =>
        obtain ⟨x', outs⟩ := r
        obtain ⟨_, _, _, z3, _⟩ := handleRequest_ok cfg x x' t l src sn outs hi.icx hi.irc e
        dsimp only
        rw [z3]
        show 1 < 2
        omega
    | unknown => exact absurd hf (by simp [fine])
    | other => exact absurd hf (by simp [fine])
    | bad => exact absurd hf (by simp [fine])

/-- An event that only delivers. -/
def delivery : Ev → Prop
  | .toA _ => True
  | .toB _ => True
  | _ => False

theorem run_append (n : Net) (y : Sys) (l m : List Ev) : y.run n (l ++ m) = (y.run n l).run n m := by
  induction l generalizing y with
  | nil => rfl
  | cons e l ih => exact ih _

theorem drain (D : Prop) (n : Net) (ok : n.Ok) (k : Nat) (y : Sys) (h : SysInv D n y) (hk : weight y.ab + weight y.ba ≤ k) :
    ∃ l : List Ev, (∀ e ∈ l, delivery e) ∧ (y.run n l).ab = [] ∧ (y.run n l).ba = [] := by
  induction k generalizing y with
  | zero =>
    have w0 : ∀ l : List Pkt, weight l = 0 → l = [] := by
      intro l hl
      cases l with
      | nil => rfl
      | cons p l =>
        exfalso
        cases p with
        | err sn => dsimp only [weight] at hl; omega
        | msg sn m => cases m <;> dsimp only [weight] at hl <;> omega
    exact ⟨[], by simp, w0 y.ab (by omega), w0 y.ba (by omega)⟩
  | succ k ih =>
    have wc : ∀ (p : Pkt) (l : List Pkt), weight (p :: l) = weight [p] + weight l := fun p l => weight_append [p] l
    cases ea : y.ab with
    | cons p l =>
      have hd := deliver_weight n.B ok.idB ok.minterB D n.A.name n.B.name y.b y.a y.ba y.ab h.invB h.ba h.ab n.netA p (by rw [ea]; exact List.mem_cons_self)
      have hn : y.next n (.toB 0) = ⟨y.a, (deliver n.B y.b n.netA p).1, l, y.ba ++ (deliver n.B y.b n.netA p).2⟩ := by
        unfold Sys.next
        rw [ea]
        rfl
      obtain ⟨m, m1, m2, m3⟩ := ih (y.next n (.toB 0)) (next_inv D n ok y h _ (fun _ => trivial)) (by
        rw [hn]
        dsimp only
        rw [weight_append]
        rw [ea, wc] at hk
        omega)
      refine ⟨.toB 0 :: m, ?_, m2, m3⟩
      intro e he
      rcases List.mem_cons.mp he with q | q
      · rw [q]; trivial
      · exact m1 e q
    | nil =>
      cases eb : y.ba with
      | nil => exact ⟨[], by simp, ea, eb⟩
      | cons p l =>
        have hd := deliver_weight n.A ok.idA ok.minterA D n.B.name n.A.name y.a y.b y.ab y.ba h.invA h.ab h.ba n.netB p (by rw [eb]; exact List.mem_cons_self)
        have hn : y.next n (.toA 0) = ⟨(deliver n.A y.a n.netB p).1, y.b, y.ab ++ (deliver n.A y.a n.netB p).2, l⟩ := by
          unfold Sys.next
          rw [eb]
          rfl
        obtain ⟨m, m1, m2, m3⟩ := ih (y.next n (.toA 0)) (next_inv D n ok y h _ (fun _ => trivial)) (by
          rw [hn]
          dsimp only
          rw [weight_append]
          rw [eb, wc] at hk
          omega)
        refine ⟨.toA 0 :: m, ?_, m2, m3⟩
        intro e he
        rcases List.mem_cons.mp he with q | q
        · rw [q]; trivial
        · exact m1 e q

theorem quiet (D : Prop) (cfg : Cfg) (ny : Bytes) (x y : S) (hi : Inv cfg x) (h : Half D ny x y [] []) : x.txs = [] ∧ ∀ c o, (balance x c o).locked = 0 := by
  have e : x.txs = [] := by
    cases e : x.txs with
    | nil => rfl
    | cons p l =>
      have := (h.pend p.1).mpr (by rw [e]; unfold Tab.get?; rw [if_pos rfl]; rfl)
      cases this
  refine ⟨e, ?_⟩
  intro c o
  rw [hi.locked, e]
  rfl

/-- From every reachable state, when what is on the way has arrived, no transfer is pending, nothing is locked on either chain, and the
coins of each chain cover its refunds, its fees and all tokens of it on the other chain. -/
theorem C99_all_settled_when_delivered (n : Net) (y : Sys) (h : Reach n y) :
    ∃ l : List Ev, (∀ e ∈ l, delivery e) ∧ (y.run n l).ab = [] ∧ (y.run n l).ba = [] ∧ (y.run n l).a.txs = [] ∧ (y.run n l).b.txs = [] ∧
      (∀ c o, (balance (y.run n l).a c o).locked = 0 ∧ (balance (y.run n l).b c o).locked = 0) ∧
      rsum (y.run n l).a n.A.name + at0 (y.run n l).a.fees n.A.name + tsum (y.run n l).b.irc (n.B.id n.A.name) ≤ at0 (y.run n l).a.icx n.A.self := by
  obtain ⟨l, l1, l2, l3⟩ := drain False n h.ok _ y h.inv (Nat.le_refl _)
  have hi := sysRun_inv False n h.ok l (fun x => x.elim) y h.inv
  have qa := hi.ab
  have qb := hi.ba
  rw [l2, l3] at qa qb
  obtain ⟨a1, a2⟩ := quiet False n.A n.B.name _ _ hi.invA qa
  obtain ⟨b1, b2⟩ := quiet False n.B n.A.name _ _ hi.invB qb
  refine ⟨l, l1, l2, l3, a1, b1, fun c o => ⟨a2 c o, b2 c o⟩, ?_⟩
  have k := backed False n h.ok _ hi
  rw [l2, l3] at k
  dsimp only [okSum] at k
  have s := hi.invB.irc.supply (n.B.id n.A.name)
  omega

/-! ### C100: the origin of answers -/

/-- Calls that are not made by the message center change no pending transfer. -/
theorem C100_only_center_answers_partial (cfg : Cfg) (icx : Tab Bytes Int) (hf : Fresh cfg icx) (l : List Op) (o : Op) (hu : userOp cfg o = true) (sn : Int) (tx : Tx)
    (h : (run cfg (init icx) l).txs.get? sn = some tx) : (run cfg (run cfg (init icx) l) [o]).txs.get? sn = some tx := by
  have hi := run_inv cfg hf.id l _ (inv_init cfg icx hf.empty hf.nonneg)
  generalize run cfg (init icx) l = s at hi h ⊢
  unfold run
  cases e : step cfg s o with
  | none => exact h
  | some x =>
    obtain ⟨s', out⟩ := x
    show s'.txs.get? sn = some tx
    obtain ⟨_, _, q | ⟨tx', _, _, _, q, _⟩⟩ := user_step cfg s s' hi o out hu e
    · rw [q.1]; exact h
    · rw [q, Tab.get?_put, if_neg]
      · exact h
      · intro w
        have := txs_new hi
        rw [← w, h] at this
        cases this

/-- The network that an answer comes from is not looked at: an answer from any network settles or refunds the transfer. -/
theorem C100_answer_from_any_network (cfg : Cfg) (s : S) (net net' : Bytes) (sn code : Int) :
    handleMessage cfg s cfg.bmc net sn (.response code) = handleMessage cfg s cfg.bmc net' sn (.response code) := rfl

/-! ### C101: answers are carried out -/

/-- Every answer to a pending transfer is carried out, if the service may burn its tokens: the transfer is closed; on success amounts
count as delivered and the fees are booked, otherwise amounts and fees become refundable in full. -/
theorem C101_answer_carried_out (cfg : Cfg) (icx : Tab Bytes Int) (hf : Fresh cfg icx) (hm : cfg.minter = true) (l : List Op) (sn code : Int) (tx : Tx)
    (h : (run cfg (init icx) l).txs.get? sn = some tx) (net : Bytes) :
    ∃ s', handleMessage cfg (run cfg (init icx) l) cfg.bmc net sn (.response code) = some (s', []) ∧ s'.txs.get? sn = none ∧
      (∀ c, (balance s' c tx.frm).locked = (balance (run cfg (init icx) l) c tx.frm).locked - dsum c tx.assets) ∧
      (∀ c, (balance s' c tx.frm).refundable = (balance (run cfg (init icx) l) c tx.frm).refundable + if code = 0 then 0 else dsum c tx.assets) ∧
      (∀ c, at0 s'.fees c = at0 (run cfg (init icx) l).fees c + if code = 0 then dsum c tx.assets - asum c tx.assets else 0) := by
  have hi := run_inv cfg hf.id l _ (inv_init cfg icx hf.empty hf.nonneg)
  generalize run cfg (init icx) l = s at hi h ⊢
  obtain ⟨s', e1, _, e3, _, e5, e6, e7⟩ := handleResponse_ok cfg hf.id s hi sn code tx h (fun _ => Or.inl hm)
  refine ⟨s', ?_, ?_, ?_, ?_, e5⟩
  · unfold handleMessage
    rw [if_pos rfl]
    dsimp only
    rw [e1]
    rfl
  · rw [e3]
    dsimp only
    rw [Tab.get?_del, if_pos rfl]
  · intro c
    rw [e6, if_pos rfl]
  · intro c
    rw [e7]
    by_cases q : code = 0
    · rw [if_neg (fun x => x.2 q), if_pos q]
    · rw [if_pos ⟨rfl, q⟩, if_neg q]

/-- An error from the message center refunds in full, whether or not the service may burn. -/
theorem C101_error_refunds (cfg : Cfg) (icx : Tab Bytes Int) (hf : Fresh cfg icx) (l : List Op) (sn : Int) (tx : Tx)
    (h : (run cfg (init icx) l).txs.get? sn = some tx) :
    ∃ s', handleError cfg (run cfg (init icx) l) cfg.bmc sn = some s' ∧ s'.txs.get? sn = none ∧
      (∀ c, (balance s' c tx.frm).refundable = (balance (run cfg (init icx) l) c tx.frm).refundable + dsum c tx.assets) := by
  have hi := run_inv cfg hf.id l _ (inv_init cfg icx hf.empty hf.nonneg)
  generalize run cfg (init icx) l = s at hi h ⊢
  obtain ⟨s', e1, _, e3, _, _, _, e7⟩ := handleResponse_ok cfg hf.id s hi sn 1 tx h (fun x => absurd x (by omega))
  refine ⟨s', ?_, ?_, ?_⟩
  · unfold handleError
    rw [if_pos rfl, e1]
  · rw [e3]
    dsimp only
    rw [Tab.get?_del, if_pos rfl]
  · intro c
    rw [e7, if_pos ⟨rfl, by omega⟩]

/-- The reply to a message of unknown type changes nothing: the transfer stays pending and its coins locked. -/
theorem C101_unknown_reply_settles_nothing (cfg : Cfg) (s : S) (net : Bytes) (sn : Int) : handleMessage cfg s cfg.bmc net sn .unknown = some (s, []) := by
  unfold handleMessage
  rw [if_pos rfl]

theorem step_fees (cfg : Cfg) (hid : ∀ a b, cfg.id a = cfg.id b → a = b) (s s' : S) (h : Inv cfg s) (o : Op) (out : List Out) (hs : step cfg s o = some (s', out)) (c : Bytes) :
    at0 s.fees c ≤ at0 s'.fees c := by
  have resp : ∀ (sn code : Int) (s1 : S), handleResponse cfg s sn code = some s1 → at0 s.fees c ≤ at0 s1.fees c := by
    intro sn code s1 e
    cases ht : s.txs.get? sn with
    | none => unfold handleResponse at e; rw [ht] at e; cases e; exact Int.le_refl _
    | some tx =>
      by_cases q : code = 0
      · unfold handleResponse at e
        rw [ht] at e
        dsimp only at e
        rw [if_pos q] at e
        obtain ⟨s2, b, a1, a2, a3, a4, _⟩ := settleAll_ok cfg tx.frm tx.assets s (fun d hd => ((h.good (sn, tx) (Tab.get?_mem _ _ _ ht)).2 d hd).2.2)
        rw [a1] at e
        dsimp only [Option.bind_some] at e
        have hle := asum_le c tx.assets (h.details (sn, tx) (Tab.get?_mem _ _ _ ht))
        cases e2 : s2.irc.burnBatch cfg cfg.self (b.map fun p => (cfg.id p.1, p.2)) with
        | none => rw [e2] at e; cases e
        | some i =>
          rw [e2] at e
          cases e
          show _ ≤ at0 s2.fees c
          rw [a4]; omega
      · obtain ⟨s2, e1, _, _, _, e5, _⟩ := handleResponse_ok cfg hid s h sn code tx ht (fun x => absurd x q)
        rw [e1] at e
        cases e
        rw [e5, if_neg q]; omega
  have send : ∀ (s1 : S) (o n a : Bytes) (l : List (Bytes × Int)), s1.fees = s.fees → sendRequest cfg s1 o n a l = some (s', out) → at0 s.fees c ≤ at0 s'.fees c := by
    intro s1 o n a l e1 e2
    unfold sendRequest at e2
    have lk : ∀ (l : List (Bytes × Int)) (r : Int) (s s2 : S) (ds : List Detail), lockAll o r s l = some (s2, ds) → s2.fees = s.fees := by
      intro l r
      induction l with
      | nil => intro s s2 ds h; cases h; rfl
      | cons p l ih =>
        intro s s2 ds h
        obtain ⟨c, v⟩ := p
        unfold lockAll at h
        cases hd : detail c v r with
        | none => rw [hd] at h; cases h
        | some d =>
          rw [hd] at h
          dsimp only [Option.bind_some] at h
          cases hq : lockAll o r (lock s c o v) l with
          | none => rw [hq] at h; cases h
          | some x => rw [hq] at h; cases h; exact (ih (lock s c o v) _ _ hq)
    cases e3 : lockAll o (if o = cfg.self then 0 else s1.feeRatio) s1 l with
    | none => rw [e3] at e2; cases e2
    | some x =>
      rw [e3] at e2
      dsimp only [Option.bind_some] at e2
      by_cases q : cfg.sends n = true
      · rw [if_pos q] at e2
        cases e2
        have := lk _ _ _ _ _ e3
        show _ ≤ at0 x.1.fees c
        rw [this, e1]
        exact Int.le_refl _
      · rw [if_neg q] at e2; cases e2
  cases o with
  | transferNative c v n a =>
    have hs : transferNative cfg s c v n a = some (s', out) := hs
    unfold transferNative at hs
    by_cases q : 0 < v
    · rw [if_pos q] at hs
      cases e : receive cfg s c v with
      | none => rw [e] at hs; cases hs
      | some s1 =>
        rw [e] at hs
        obtain ⟨_, _, r3, _⟩ := receive_ok cfg s s1 c v e h.icx
        exact send s1 c n a _ (by rw [r3]) hs
    · rw [if_neg q] at hs; cases hs
  | transfer c coin v n a =>
    unfold step at hs
    dsimp only at hs
    by_cases q : c = cfg.self
    · rw [if_pos q] at hs; cases hs
    · rw [if_neg q] at hs
      unfold transfer at hs
      by_cases q1 : 0 < v ∧ cfg.name ≠ coin ∧ coin ∈ s.coins
      · rw [if_pos q1] at hs
        cases e : s.irc.transferFrom cfg c cfg.self (cfg.id coin) v with
        | none => rw [e] at hs; cases hs
        | some i => rw [e] at hs; exact send { s with irc := i } c n a _ rfl hs
      · rw [if_neg q1] at hs; cases hs
  | transferBatch c l v n a =>
    have hs : transferBatch cfg s c l v n a = some (s', out) := hs
    unfold transferBatch at hs
    cases e : receive cfg s c v with
    | none => rw [e] at hs; cases hs
    | some s1 =>
      rw [e] at hs
      dsimp only [Option.bind_some] at hs
      obtain ⟨r1, r2, r3, _⟩ := receive_ok cfg s s1 c v e h.icx
      by_cases q : ∀ p ∈ l, cfg.name ≠ p.1 ∧ p.1 ∈ s1.coins
      · rw [if_pos q] at hs
        cases e2 : s1.irc.transferFromBatch cfg c cfg.self (l.map fun p => (cfg.id p.1, p.2)) with
        | none => rw [e2] at hs; cases hs
        | some i => rw [e2] at hs; exact send { s1 with irc := i } c n a _ (by rw [r3]) hs
      · rw [if_neg q] at hs; cases hs
  | reclaim c' coin v =>
    unfold step at hs
    dsimp only at hs
    by_cases q : c' = cfg.self
    · rw [if_pos q] at hs; cases hs
    · rw [if_neg q] at hs
      cases e : reclaim cfg s c' coin v with
      | none => rw [e] at hs; cases hs
      | some s1 =>
        rw [e] at hs
        cases hs
        unfold reclaim at e
        by_cases q1 : 0 < v ∧ v ≤ (balance s coin c').refundable
        · rw [if_pos q1] at e
          dsimp only at e
          by_cases q2 : cfg.name = coin
          · rw [if_pos q2] at e
            obtain ⟨_, p2, _⟩ := pay_ok cfg _ _ c' v e h.icx
            rw [p2]
            exact Int.le_refl _
          · rw [if_neg q2] at e
            cases e2 : (setBalance s coin c' { balance s coin c' with refundable := (balance s coin c').refundable - v }).irc.transferFrom cfg cfg.self c' (cfg.id coin) v with
            | none => rw [e2] at e; cases e
            | some i => rw [e2] at e; cases e; exact Int.le_refl _
        · rw [if_neg q1] at e; cases e
  | message c' n sn m =>
    have hs : handleMessage cfg s c' n sn m = some (s', out) := hs
    unfold handleMessage at hs
    by_cases q : c' = cfg.bmc
    · rw [if_pos q] at hs
      cases m with
      | request f t l =>
        obtain ⟨_, _, x2, _⟩ := handleRequest_ok cfg s s' t l n sn out h.icx h.irc hs
        rw [x2]; exact Int.le_refl _
      | response code =>
        dsimp only at hs
        cases e : handleResponse cfg s sn code with
        | none => rw [e] at hs; cases hs
        | some s1 => rw [e] at hs; cases hs; exact resp sn code _ e
      | unknown => cases hs; exact Int.le_refl _
      | other =>
        dsimp only at hs
        by_cases w : cfg.sends n = true
        · rw [if_pos w] at hs; cases hs; exact Int.le_refl _
        · rw [if_neg w] at hs; cases hs
      | bad => cases hs
    · rw [if_neg q] at hs; cases hs
  | error c' sn =>
    have hs : (handleError cfg s c' sn).map (fun s => (s, [])) = some (s', out) := hs
    unfold handleError at hs
    by_cases q : c' = cfg.bmc
    · rw [if_pos q] at hs
      cases e : handleResponse cfg s sn 1 with
      | none => rw [e] at hs; cases hs
      | some s1 => rw [e] at hs; cases hs; exact resp sn 1 _ e
    · rw [if_neg q] at hs; cases hs
  | register a coin =>
    have hs : (register cfg s a coin).map (fun s => (s, [])) = some (s', out) := hs
    unfold register at hs
    by_cases q : a = true ∧ cfg.name ≠ coin ∧ coin ∉ s.coins
    · rw [if_pos q] at hs; cases hs; exact Int.le_refl _
    · rw [if_neg q] at hs; cases hs
  | setFeeRatio a v =>
    have hs : (setFeeRatio s a v).map (fun s => (s, [])) = some (s', out) := hs
    unfold setFeeRatio at hs
    by_cases q : a = true ∧ 1 ≤ v ∧ v < 10000
    · rw [if_pos q] at hs; cases hs; exact Int.le_refl _
    · rw [if_neg q] at hs; cases hs
  | coinSend f t v =>
    unfold step at hs
    dsimp only at hs
    by_cases q : f ≠ cfg.self ∧ t ≠ cfg.self ∧ 0 ≤ v ∧ v ≤ at0 s.icx f
    · rw [if_pos q] at hs; cases hs; exact Int.le_refl _
    · rw [if_neg q] at hs; cases hs
  | tokenSend f t id v =>
    unfold step at hs
    dsimp only at hs
    by_cases q : f ≠ cfg.self ∧ 0 ≤ v ∧ v ≤ at0 s.irc.bals (id, f)
    · rw [if_pos q] at hs; cases hs; exact Int.le_refl _
    · rw [if_neg q] at hs; cases hs

theorem run_fees (cfg : Cfg) (hid : ∀ a b, cfg.id a = cfg.id b → a = b) (l : List Op) (s : S) (h : Inv cfg s) (c : Bytes) :
    at0 s.fees c ≤ at0 (run cfg s l).fees c := by
  induction l generalizing s with
  | nil => exact Int.le_refl _
  | cons o l ih =>
    unfold run
    cases e : step cfg s o with
    | none => exact ih s h
    | some x =>
      have e' : step cfg s o = some (x.1, x.2) := by rw [e]
      exact Int.le_trans (step_fees cfg hid s x.1 h o x.2 e' c) (ih x.1 (step_inv cfg hid s x.1 h o x.2 e'))

/-- No call takes fees out: from any moment of any history on, what was taken as fees never becomes less. -/
theorem C101_fees_never_leave (cfg : Cfg) (icx : Tab Bytes Int) (hf : Fresh cfg icx) (l m : List Op) (c : Bytes) :
    at0 (run cfg (init icx) l).fees c ≤ at0 (run cfg (run cfg (init icx) l) m).fees c :=
  run_fees cfg hf.id m _ (run_inv cfg hf.id l _ (inv_init cfg icx hf.empty hf.nonneg)) c

/-! ### Examples -/

/-- Numbers for names. -/
def num : Bytes → Int
  | [] => 0
  | b :: l => num l * 257 + (b.toNat + 1)

theorem num_inj (a b : Bytes) (h : num a = num b) : a = b := by
  have pos : ∀ a, 0 ≤ num a := by
    intro a
    induction a with
    | nil => exact Int.le_refl 0
    | cons x a ih => dsimp only [num]; omega
  induction a generalizing b with
  | nil =>
    cases b with
    | nil => rfl
    | cons y b => dsimp only [num] at h; have := pos b; omega
  | cons x a ih =>
    cases b with
    | nil => dsimp only [num] at h; have := pos a; omega
    | cons y b =>
      dsimp only [num] at h
      have hx := x.toNat_lt
      have hy := y.toNat_lt
      have e1 : x.toNat = y.toNat := by omega
      have e2 : num a = num b := by omega
      rw [ih b e2, UInt8.toNat_inj.mp e1]

/-- Chain A has coin [1], chain B coin [2]. The message centers are [10] and [20], the services [11] and [21]. -/
def exNet : Net :=
  ⟨⟨[10], [11], [1], num, some, fun a => a ≠ [99], fun _ => true, true, fun m => m = [200]⟩,
   ⟨[20], [21], [2], num, some, fun a => a ≠ [99], fun _ => true, true, fun m => m = [100]⟩, [100], [200]⟩

example : exNet.Ok :=
  ⟨by decide, num_inj, num_inj, rfl, rfl, fun m => by simp [exNet], fun m => by simp [exNet]⟩

example : Fresh exNet.A [([31], 100000)] := ⟨by decide, by simp, num_inj⟩

def exStart : Sys := Sys.init [([31], 100000)] [([41], 50000)]

/-- [31] on A sends 10000 to [41] on B, where the coin is known; the answer arrives. -/
def exSend : List Ev := [.userB (.register true [1]), .userA (.transferNative [31] 10000 [200] [41]), .toB 0, .toA 0]

example : ((exStart.run exNet exSend).a.txs, at0 (exStart.run exNet exSend).a.fees [1], at0 (exStart.run exNet exSend).a.icx [11],
    at0 (exStart.run exNet exSend).b.irc.bals (num [1], [41])) = ([], 10, 10000, 9990) := by decide +kernel

/-- The same to [99], which takes no payment: an error comes back, all is refundable, and is taken back. -/
def exFail : List Ev := [.userB (.register true [1]), .userA (.transferNative [31] 10000 [200] [99]), .toB 0, .toA 0]

example : balance (exStart.run exNet exFail).a [1] [31] = ⟨0, 10000⟩ ∧ at0 (exStart.run exNet exFail).a.icx [11] = 10000 := by decide +kernel
example : ((reclaim exNet.A (exStart.run exNet exFail).a [31] [1] 10000).map fun s => (at0 s.icx [31], at0 s.icx [11])) = some (100000, 0) := by decide +kernel

/-- C99 is false for requests that name the native coin of the other chain twice: 2000 and 3000 go back to A, 2997 are paid, and B
burns the tokens for both. -/
def exTwice : List Ev := exSend ++ [.userB (.transferBatch [41] [([1], 2000), ([1], 3000)] 0 [100] [32]), .toA 0, .toB 0]

theorem C99_twice_loses :
    ∃ e ∈ exTwice, ¬ distinctEv e ∧ at0 (exStart.run exNet exTwice).a.paid [1] = 2997 ∧ at0 (exStart.run exNet exTwice).b.settled [1] = 4995 ∧
      at0 (exStart.run exNet exTwice).a.icx [32] = 2997 ∧ (exStart.run exNet exTwice).ab = [] ∧ (exStart.run exNet exTwice).ba = [] ∧
      (exStart.run exNet exTwice).b.txs = [] ∧ balance (exStart.run exNet exTwice).b [1] [41] = ⟨0, 0⟩ := by
  refine ⟨.userB (.transferBatch [41] [([1], 2000), ([1], 3000)] 0 [100] [32]), by decide, by simp [distinctEv, distinctOp], ?_⟩
  decide +kernel

/-- C100 is false: the transfer to network [200] is refunded by an answer from network [250], and the request on the way is still paid. -/
theorem C100_foreign_answer_refunds :
    let y := exStart.run exNet [.userB (.register true [1]), .userA (.transferNative [31] 10000 [200] [41])]
    (y.a.txs.get? 1).map (·.toNet) = some [200] ∧
      ((handleMessage exNet.A y.a [10] [250] 1 (.response 1)).map fun x => balance x.1 [1] [31]) = some ⟨0, 10000⟩ ∧
      (deliver exNet.B y.b [100] (.msg 1 (.request [31] [41] [⟨[1], some 9990⟩]))).2 = [.msg 1 (.response 0)] := by
  decide +kernel

/-- C101 is false for replies of unknown type: after one the coins are locked and no packet is left that could free them. -/
theorem C101_unknown_reply_locks :
    let s := run exNet.A (init [([31], 100000)]) [.transferNative [31] 10000 [200] [41], .message [10] [200] 1 .unknown]
    balance s [1] [31] = ⟨10000, 0⟩ ∧ (s.txs.get? 1).isSome = true ∧ reclaim exNet.A s [31] [1] 1 = none := by
  decide +kernel

end Verif.Ncs
