import Verif.NcsEnd
/-!
The fees of the native coin service (C177). NativeCoinService.java:355-385 `handleFeeGathering`, which paid them out, is commented out
("Removed FeeGathering feature"), `clearFee` (441-447) has no caller, and so `feeBalances` is only added to, by `addFee` (436-439).
-/
namespace Verif.Ncs
open Verif

/-- The fees for a coin in a transaction. -/
def feeSum (c : Bytes) (l : List Detail) : Int := (l.map fun d => if d.coin = c then d.fee else 0).sum

theorem feeSum_nonneg (c : Bytes) (l : List Detail) (h : ∀ d ∈ l, 0 ≤ d.fee) : 0 ≤ feeSum c l := by
  induction l with
  | nil => exact Int.le_refl 0
  | cons d l ih =>
    have := ih fun d hd => h d (List.mem_cons_of_mem _ hd)
    have h1 := h d List.mem_cons_self
    unfold feeSum at this ⊢
    rw [List.map_cons, List.sum_cons]
    split <;> omega

theorem lockAll_fees (o : Bytes) (r : Int) (l : List (Bytes × Int)) (s : S) (x : S × List Detail) (h : lockAll o r s l = some x) :
    x.1.fees = s.fees := by
  induction l generalizing s x with
  | nil => cases h; rfl
  | cons p l ih =>
    obtain ⟨d, _, h2⟩ := Option.bind_eq_some_iff.mp h
    obtain ⟨y, h3, h4⟩ := Option.bind_eq_some_iff.mp h2
    cases h4
    exact (ih _ _ h3).trans rfl

theorem sendRequest_fees (cfg : Cfg) (s : S) (o n a : Bytes) (l : List (Bytes × Int)) (x : S × List Out) (h : sendRequest cfg s o n a l = some x) :
    x.1.fees = s.fees := by
  obtain ⟨y, h1, h2⟩ := Option.bind_eq_some_iff.mp h
  dsimp only at h2
  split at h2
  · cases h2; exact lockAll_fees _ _ _ _ _ h1
  · cases h2

theorem receive_fees (cfg : Cfg) (s s' : S) (f : Bytes) (v : Int) (h : receive cfg s f v = some s') : s'.fees = s.fees := by
  unfold receive at h
  split at h
  · cases h; rfl
  · cases h

theorem pay_fees (cfg : Cfg) (s s' : S) (f : Bytes) (v : Int) (h : pay cfg s f v = some s') : s'.fees = s.fees := by
  unfold pay at h
  split at h
  · cases h; rfl
  · cases h

theorem refundAll_fees (cfg : Cfg) (o : Bytes) (l : List Detail) (s s' : S) (h : refundAll cfg o s l = some s') : s'.fees = s.fees := by
  induction l generalizing s with
  | nil => cases h; rfl
  | cons d l ih =>
    unfold refundAll at h
    split at h
    · exact (ih _ h).trans rfl
    · cases h

theorem settleAll_fees (cfg : Cfg) (o : Bytes) (l : List Detail) (s : S) (x : S × List (Bytes × Int)) (h : settleAll cfg o s l = some x) (c : Bytes) :
    at0 x.1.fees c = at0 s.fees c + feeSum c l := by
  induction l generalizing s x with
  | nil => cases h; exact (Int.add_zero _).symm
  | cons d l ih =>
    unfold settleAll at h
    split at h
    · obtain ⟨y, h3, h4⟩ := Option.bind_eq_some_iff.mp h
      cases h4
      have := ih _ _ h3
      dsimp only at this ⊢
      rw [this, at0_add]
      unfold feeSum
      rw [List.map_cons, List.sum_cons]
      by_cases q : c = d.coin
      · rw [if_pos q, if_pos q.symm]; show at0 s.fees c + d.fee + _ = _; omega
      · rw [if_neg q, if_neg (fun e => q e.symm)]; show at0 s.fees c + 0 + _ = _; omega
    · cases h

theorem handleRequest_fees (cfg : Cfg) (s : S) (to : Bytes) (l : List Asset) (net : Bytes) (sn : Int) (x : S × List Out)
    (h : handleRequest cfg s to l net sn = some x) : x.1.fees = s.fees := by
  unfold handleRequest at h
  split at h
  · cases h
  obtain ⟨w, _, h2⟩ := Option.bind_eq_some_iff.mp h
  obtain ⟨s1, h3, h4⟩ := Option.bind_eq_some_iff.mp h2
  obtain ⟨s2, h5, h6⟩ := Option.bind_eq_some_iff.mp h4
  split at h6
  · cases h6
    obtain ⟨i, _, e⟩ := Option.map_eq_some_iff.mp h5
    subst e
    show s1.fees = s.fees
    cases q : w.2 with
    | none => rw [q] at h3; cases h3; rfl
    | some v =>
      rw [q] at h3
      obtain ⟨s3, h7, e⟩ := Option.map_eq_some_iff.mp h3
      subst e
      exact pay_fees cfg s s3 _ _ h7
  · cases h6

theorem handleResponse_fees (cfg : Cfg) (s s' : S) (sn code : Int) (h : handleResponse cfg s sn code = some s') (c : Bytes) :
    (at0 s'.fees c = at0 s.fees c) ∨ (code = 0 ∧ ∃ tx, s.txs.get? sn = some tx ∧ at0 s'.fees c = at0 s.fees c + feeSum c tx.assets) := by
  unfold handleResponse at h
  cases q : s.txs.get? sn with
  | none => rw [q] at h; cases h; exact .inl rfl
  | some tx =>
    rw [q] at h
    dsimp only at h
    obtain ⟨s1, h1, e⟩ := Option.map_eq_some_iff.mp h
    subst e
    split at h1
    · rename_i hc
      obtain ⟨x, h2, h3⟩ := Option.bind_eq_some_iff.mp h1
      obtain ⟨i, _, e⟩ := Option.map_eq_some_iff.mp h3
      subst e
      exact .inr ⟨hc, tx, rfl, settleAll_fees cfg tx.frm tx.assets s x h2 c⟩
    · exact .inl (by show at0 s1.fees c = _; rw [refundAll_fees _ _ _ _ _ h1])

/-- A call changes the fees only if the message center hands over the success of a pending transfer; then its fees are added. -/
theorem C177_fees_change (cfg : Cfg) (s s' : S) (o : Op) (out : List Out) (h : step cfg s o = some (s', out)) (c : Bytes) :
    at0 s'.fees c = at0 s.fees c ∨
      ∃ net sn tx, o = .message cfg.bmc net sn (.response 0) ∧ s.txs.get? sn = some tx ∧ at0 s'.fees c = at0 s.fees c + feeSum c tx.assets := by
  have same : s'.fees = s.fees → at0 s'.fees c = at0 s.fees c := fun e => by rw [e]
  cases o with
  | transferNative k v n a =>
    refine .inl (same ?_)
    dsimp only [step] at h
    unfold transferNative at h
    split at h
    · obtain ⟨w, h1, h2⟩ := Option.bind_eq_some_iff.mp h
      rw [sendRequest_fees cfg _ _ _ _ _ _ h2, receive_fees cfg _ _ _ _ h1]
    · cases h
  | transfer k coin v n a =>
    refine .inl (same ?_)
    dsimp only [step] at h
    split at h
    · cases h
    unfold transfer at h
    split at h
    · obtain ⟨w, h1, h2⟩ := Option.bind_eq_some_iff.mp h
      rw [sendRequest_fees cfg _ _ _ _ _ _ h2]
    · cases h
  | transferBatch k l v n a =>
    refine .inl (same ?_)
    dsimp only [step] at h
    unfold transferBatch at h
    obtain ⟨w, h0, h2⟩ := Option.bind_eq_some_iff.mp h
    split at h2
    · obtain ⟨u, h1, h3⟩ := Option.bind_eq_some_iff.mp h2
      rw [sendRequest_fees cfg _ _ _ _ _ _ h3, receive_fees cfg _ _ _ _ h0]
    · cases h2
  | reclaim k coin v =>
    refine .inl (same ?_)
    dsimp only [step] at h
    split at h
    · cases h
    obtain ⟨w, h1, e⟩ := Option.map_eq_some_iff.mp h
    cases e
    unfold reclaim at h1
    split at h1
    · dsimp only at h1
      split at h1
      · exact (pay_fees cfg _ _ _ _ h1).trans rfl
      · obtain ⟨i, _, e⟩ := Option.map_eq_some_iff.mp h1
        subst e
        rfl
    · cases h1
  | message k n sn m =>
    dsimp only [step] at h
    unfold handleMessage at h
    split at h
    · rename_i hk
      cases m with
      | request f t l => exact .inl (same (handleRequest_fees cfg _ _ _ _ _ _ h))
      | response code =>
        obtain ⟨w, h1, e⟩ := Option.map_eq_some_iff.mp h
        cases e
        rcases handleResponse_fees cfg s s' sn code h1 c with e | ⟨hc, tx, e1, e2⟩
        · exact .inl e
        · subst hc; subst hk
          exact .inr ⟨n, sn, tx, rfl, e1, e2⟩
      | unknown => cases h; exact .inl rfl
      | other =>
        dsimp only at h
        split at h
        · cases h; exact .inl rfl
        · cases h
      | bad => cases h
    · cases h
  | error k sn =>
    obtain ⟨w, h1, e⟩ := Option.map_eq_some_iff.mp h
    cases e
    unfold handleError at h1
    split at h1
    · rcases handleResponse_fees cfg s s' sn 1 h1 c with e | ⟨hc, _⟩
      · exact .inl e
      · exact absurd hc (by decide)
    · cases h1
  | register a coin =>
    obtain ⟨w, h1, e⟩ := Option.map_eq_some_iff.mp h
    cases e
    unfold register at h1
    split at h1
    · cases h1; exact .inl rfl
    · cases h1
  | setFeeRatio a v =>
    obtain ⟨w, h1, e⟩ := Option.map_eq_some_iff.mp h
    cases e
    unfold setFeeRatio at h1
    split at h1
    · cases h1; exact .inl rfl
    · cases h1
  | coinSend f t v =>
    dsimp only [step] at h
    split at h
    · cases h; exact .inl rfl
    · cases h
  | tokenSend f t i v =>
    dsimp only [step] at h
    split at h
    · cases h; exact .inl rfl
    · cases h

theorem step_fees_le (cfg : Cfg) (s s' : S) (I : Inv cfg s) (o : Op) (out : List Out) (h : step cfg s o = some (s', out)) (c : Bytes) :
    at0 s.fees c ≤ at0 s'.fees c := by
  rcases C177_fees_change cfg s s' o out h c with e | ⟨_, sn, tx, _, e1, e2⟩
  · omega
  · have := feeSum_nonneg c tx.assets fun d hd => ((I.good _ (Tab.get?_mem _ _ _ e1)).2 d hd).2.1
    omega

theorem run_fees_le (cfg : Cfg) (hid : ∀ a b, cfg.id a = cfg.id b → a = b) (l : List Op) (s : S) (I : Inv cfg s) (c : Bytes) :
    at0 s.fees c ≤ at0 (run cfg s l).fees c := by
  induction l generalizing s with
  | nil => exact Int.le_refl _
  | cons o l ih =>
    unfold run
    cases e : step cfg s o with
    | none => exact ih s I
    | some x => exact Int.le_trans (step_fees_le cfg s x.1 I o x.2 e c) (ih x.1 (step_inv cfg hid s x.1 I o x.2 e))

theorem opsRun_append (cfg : Cfg) (l k : List Op) (s : S) : run cfg s (l ++ k) = run cfg (run cfg s l) k := by
  induction l generalizing s with
  | nil => rfl
  | cons o l ih =>
    have e : ∀ m, run cfg s (o :: m) = match step cfg s o with | some x => run cfg x.1 m | none => run cfg s m := fun _ => rfl
    rw [List.cons_append, e, e]
    cases step cfg s o with
    | none => exact ih s
    | some x => exact ih x.1

theorem claims_nonneg (cfg : Cfg) (s : S) (I : Inv cfg s) (c : Bytes) : 0 ≤ lsum s c ∧ 0 ≤ rsum s c := by
  refine ⟨?_, ?_⟩
  · rw [I.lsum c]
    exact Tab.sum_nonneg _ _ fun p hp => dsum_nonneg c _ fun d hd => ⟨((I.good p hp).2 d hd).1, ((I.good p hp).2 d hd).2.1⟩
  · have h1 := refundable_le cfg s I c []
    have h2 := I.refund c []
    omega

/-- Whatever messages arrive, with whatever contents: fees never get less, and so the tokens they were taken in stay with the
contract for good. -/
theorem C177_fees_stay (cfg : Cfg) (icx : Tab Bytes Int) (hf : Fresh cfg icx) (l k : List Op) (c : Bytes) :
    at0 (run cfg (init icx) l).fees c ≤ at0 (run cfg (init icx) (l ++ k)).fees c ∧
      (c ≠ cfg.name → at0 (run cfg (init icx) l).fees c ≤ at0 (run cfg (init icx) (l ++ k)).irc.bals (cfg.id c, cfg.self)) := by
  have I := run_inv cfg hf.id l _ (inv_init cfg icx hf.empty hf.nonneg)
  have J := run_inv cfg hf.id (l ++ k) _ (inv_init cfg icx hf.empty hf.nonneg)
  have h := run_fees_le cfg hf.id k _ I c
  rw [← opsRun_append] at h
  refine ⟨h, fun hc => ?_⟩
  have h1 := J.tokens c hc
  have h2 := claims_nonneg cfg _ J c
  omega

/-- If the message center hands over no success, no fee is taken, whatever else happens. -/
theorem C177_no_fee_without_success (cfg : Cfg) (l : List Op) (s : S) (c : Bytes)
    (h : ∀ o ∈ l, ∀ net sn, o ≠ .message cfg.bmc net sn (.response 0)) : at0 (run cfg s l).fees c = at0 s.fees c := by
  induction l generalizing s with
  | nil => rfl
  | cons o l ih =>
    unfold run
    have hl := fun s => ih s fun o ho => h o (List.mem_cons_of_mem _ ho)
    cases e : step cfg s o with
    | none => exact hl s
    | some x =>
      dsimp only
      rw [hl x.1]
      rcases C177_fees_change cfg s x.1 o x.2 e c with e1 | ⟨net, sn, tx, e1, _⟩
      · exact e1
      · exact absurd e1 (h o List.mem_cons_self net sn)

theorem next_fees_le (n : Net) (y : Sys) (I : SysInv False n y) (e : Ev) (c : Bytes) : at0 y.a.fees c ≤ at0 (y.next n e).a.fees c := by
  cases e with
  | userA o =>
    show _ ≤ at0 (user n.A y.a o).1.fees c
    unfold user
    split
    · cases q : step n.A y.a o with
      | none => exact Int.le_refl _
      | some x => exact step_fees_le n.A y.a x.1 I.invA o x.2 q c
    · exact Int.le_refl _
  | userB o => exact Int.le_refl _
  | toA i =>
    unfold Sys.next
    dsimp only
    cases q : y.ba[i]? with
    | none => exact Int.le_refl _
    | some p =>
      show _ ≤ at0 (deliver n.A y.a n.netB p).1.fees c
      unfold deliver
      cases p with
      | msg sn m =>
        dsimp only
        cases r : handleMessage n.A y.a n.A.bmc n.netB sn m with
        | none => exact Int.le_refl _
        | some x => exact step_fees_le n.A y.a x.1 I.invA (.message n.A.bmc n.netB sn m) x.2 r c
      | err sn =>
        dsimp only
        cases r : handleError n.A y.a n.A.bmc sn with
        | none => exact Int.le_refl _
        | some x => exact step_fees_le n.A y.a x I.invA (.error n.A.bmc sn) [] (by dsimp only [step]; rw [r]; rfl) c
  | toB i =>
    unfold Sys.next
    dsimp only
    cases y.ab[i]? <;> exact Int.le_refl _
  | failA i =>
    unfold Sys.next
    dsimp only
    cases y.ba[i]?.bind refused <;> exact Int.le_refl _
  | failB i =>
    unfold Sys.next
    dsimp only
    cases y.ab[i]?.bind refused <;> exact Int.le_refl _

/-- And for the coins of the chain, with a service at the other end: the coins taken as fees stay with the contract, whatever
follows. -/
theorem C177_coins_stay (n : Net) (y : Sys) (h : Reach n y) (l : List Ev) :
    at0 y.a.fees n.A.name ≤ at0 (y.run n l).a.fees n.A.name ∧ at0 y.a.fees n.A.name ≤ at0 (y.run n l).a.icx n.A.self := by
  have grow : ∀ (l : List Ev) (y : Sys), Reach n y → Reach n (y.run n l) ∧ at0 y.a.fees n.A.name ≤ at0 (y.run n l).a.fees n.A.name := by
    intro l
    induction l with
    | nil => exact fun y hy => ⟨hy, Int.le_refl _⟩
    | cons e l ih =>
      intro y hy
      have hn : Reach n (y.next n e) := by
        obtain ⟨x, z, k, h1, h2, h3, h4, h5⟩ := hy.run
        exact ⟨hy.ok, x, z, k ++ [e], h1, h2, h3, h4, by rw [run_append, ← h5]; rfl⟩
      exact ⟨(ih _ hn).1, Int.le_trans (next_fees_le n y hy.inv e _) (ih _ hn).2⟩
  obtain ⟨hz, hle⟩ := grow l y h
  refine ⟨hle, ?_⟩
  have h1 := (C98_coins_cover_claims n _ hz).1
  have h2 := (claims_nonneg n.A _ hz.inv.invA n.A.name).2
  have h3 := flight_le n.B False n.A.name _ _ _ _ hz.inv.invB hz.inv.ba n.A.name
  omega

/-- After the transfer of `exSend` a fee of 10 is with the contract at A. -/
example : at0 (exStart.run exNet exSend).a.fees [1] = 10 ∧ feeSum [1] [⟨[1], 9990, 10⟩, ⟨[2], 5, 7⟩] = 10 := by decide +kernel

end Verif.Ncs
