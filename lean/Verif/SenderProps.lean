import Verif.Sender
import Verif.FragmentProps
import Verif.ErrorsProps
/-!
C38: the send loop. C85: failing status queries. C86: reporting of failed relay transactions. C35, the end-to-end part.
-/
namespace Verif.Sender
open Verif.Errors

/-! ### replies -/

/-- The node's transaction pool is full. -/
def Overflow (r : Reply) : Prop := ∃ m, r = .fail (.rpc (-31001) m)

/-- A system error "E????..." whose four characters after the first read as the number `v`. -/
def System (r : Reply) (v : Int) : Prop :=
  ∃ m, r = .fail (.rpc (-31000) m) ∧ 5 ≤ m.length ∧ IntText.goParseInt ((m.drop 1).take 4) 32 = .ok v

/-- The node has the transaction already. -/
def Duplicate (r : Reply) : Prop := System r 2000
/-- The transaction's time stamp is too old. -/
def Expired (r : Reply) : Prop := System r 2002

theorem next_overflow (h : Overflow r) : next [] r = .resend := by
  obtain ⟨m, rfl⟩ := h; rfl

theorem subCode_ok {m : Str} (hl : 5 ≤ m.length) (hp : IntText.goParseInt ((m.drop 1).take 4) 32 = .ok v) :
    subCode m = some (some v) := by
  unfold subCode
  rw [if_neg (by omega), hp]

theorem next_expired (h : Expired r) : next [] r = .resign := by
  obtain ⟨m, rfl, hl, hp⟩ := h
  simp only [next, codeSystem, codeOverflow, subCode_ok hl hp]
  rfl

theorem next_duplicate (h : Duplicate r) (hash : Str) : next hash r = .done (.sent hash) := by
  obtain ⟨m, rfl, hl, hp⟩ := h
  simp only [next, codeSystem, codeOverflow, subCode_ok hl hp]
  rfl

theorem subCode_inv {m : Str} (h : subCode m = some (some v)) :
    5 ≤ m.length ∧ IntText.goParseInt ((m.drop 1).take 4) 32 = .ok v := by
  unfold subCode at h
  split at h
  · cases h
  · split at h
    · rename_i hl _ hv
      injection h with h; injection h with h; subst h
      exact ⟨by omega, hv⟩
    · cases h

theorem finish_cases (m : Mapped) : finish m = .done .panic ∨ ∃ x, finish m = .done (.err x) := by
  cases m <;> first | exact Or.inl rfl | exact Or.inr ⟨_, rfl⟩

/-- Every reply falls in one class. -/
theorem next_cases (r : Reply) :
    Overflow r ∨ Expired r ∨ ((∃ h, r = .ok h) ∧ ∃ h, r = .ok h ∧ next [] r = .done (.sent h)) ∨
    (Duplicate r ∧ next [] r = .done (.sent [])) ∨
    ((∃ e, r = .fail e) ∧ ¬ Duplicate r ∧ (next [] r = .done .panic ∨ ∃ m, next [] r = .done (.err m))) := by
  cases r with
  | ok h => exact Or.inr (Or.inr (Or.inl ⟨⟨h, rfl⟩, h, rfl, rfl⟩))
  | fail e =>
    cases e with
    | rpc code msg =>
      by_cases h1 : code = codeOverflow
      · subst h1; exact Or.inl ⟨msg, rfl⟩
      by_cases h2 : code = codeSystem
      · subst h2
        cases hs : subCode msg with
        | none =>
          refine Or.inr (Or.inr (Or.inr (Or.inr ⟨⟨_, rfl⟩, ?_, Or.inl ?_⟩)))
          · rintro ⟨m, hm, hl, hp⟩
            injection hm with hm; injection hm with _ hm; subst hm
            rw [subCode_ok hl hp] at hs; cases hs
          · simp [next, h1, hs]
        | some sub =>
          by_cases h3 : sub = some subDuplicate
          · subst h3
            have hd : Duplicate (.fail (.rpc codeSystem msg)) := ⟨msg, rfl, subCode_inv hs⟩
            exact Or.inr (Or.inr (Or.inr (Or.inl ⟨hd, next_duplicate hd []⟩)))
          by_cases h4 : sub = some subExpired
          · subst h4
            exact Or.inr (Or.inl ⟨msg, rfl, subCode_inv hs⟩)
          · refine Or.inr (Or.inr (Or.inr (Or.inr ⟨⟨_, rfl⟩, ?_, ?_⟩)))
            · rintro ⟨m, hm, hl, hp⟩
              injection hm with hm; injection hm with _ hm; subst hm
              rw [subCode_ok hl hp] at hs; injection hs with hs; exact h3 hs.symm
            · simp only [next, if_neg h1, if_true, hs, if_neg h3, if_neg h4]
              exact finish_cases _
      · refine Or.inr (Or.inr (Or.inr (Or.inr ⟨⟨_, rfl⟩, ?_, ?_⟩)))
        · rintro ⟨m, hm, -⟩
          injection hm with hm; injection hm with hm _; exact h2 hm
        · simp only [next, if_neg h1, if_neg h2]
          exact finish_cases _
    | rpcNil => exact Or.inr (Or.inr (Or.inr (Or.inr ⟨⟨_, rfl⟩, (by rintro ⟨m, hm, -⟩; cases hm), Or.inl rfl⟩)))
    | http => exact Or.inr (Or.inr (Or.inr (Or.inr ⟨⟨_, rfl⟩, (by rintro ⟨m, hm, -⟩; cases hm), Or.inr ⟨_, rfl⟩⟩)))
    | refused => exact Or.inr (Or.inr (Or.inr (Or.inr ⟨⟨_, rfl⟩, (by rintro ⟨m, hm, -⟩; cases hm), Or.inr ⟨_, rfl⟩⟩)))
    | other => exact Or.inr (Or.inr (Or.inr (Or.inr ⟨⟨_, rfl⟩, (by rintro ⟨m, hm, -⟩; cases hm), Or.inr ⟨_, rfl⟩⟩)))

/-! ### the send loop -/

noncomputable instance (r : Reply) : Decidable (Expired r) := Classical.propDecidable _

/-- How many of the replies `j, j+1, ..., j+n-1` are "expired". -/
noncomputable def expiredIn (r : Nat → Reply) (j : Nat) : Nat → Nat
  | 0 => 0
  | n + 1 => expiredIn r j n + (if Expired (r (j + n)) then 1 else 0)

theorem overflow_not_expired (h : Overflow r) : ¬ Expired r := by
  obtain ⟨m, rfl⟩ := h
  rintro ⟨m', hm, -⟩
  injection hm with hm; injection hm with hm _
  exact absurd hm (by decide)

theorem expiredIn_shift (r : Nat → Reply) (j n : Nat) :
    expiredIn r j (n + 1) = expiredIn r (j + 1) n + expiredIn r j 1 := by
  induction n with
  | zero => simp [expiredIn]
  | succ n ih =>
    have e1 : expiredIn r j (n + 1 + 1) = expiredIn r j (n + 1) + (if Expired (r (j + (n + 1))) then 1 else 0) := rfl
    have e2 : expiredIn r (j + 1) (n + 1) = expiredIn r (j + 1) n + (if Expired (r (j + 1 + n)) then 1 else 0) := rfl
    rw [e1, e2, ih, show j + (n + 1) = j + 1 + n by omega]
    omega

theorem sendFrom_run (signs : Nat → Bool) (hs : ∀ k, signs k = true) (r : Nat → Reply) (n : Nat) :
    ∀ fuel tx j o, n < fuel → (∀ i < n, Overflow (r (j + i)) ∨ Expired (r (j + i))) → next [] (r (j + n)) = .done o →
    sendFrom signs r fuel tx j = (o, (List.range (n + 1)).map (fun i => tx + expiredIn r j i)) := by
  induction n with
  | zero =>
    intro fuel tx j o hf _ ho
    obtain ⟨fuel, rfl⟩ : ∃ f, fuel = f + 1 := ⟨fuel - 1, by omega⟩
    simp only [Nat.add_zero] at ho
    simp [sendFrom, ho, expiredIn]
  | succ n ih =>
    intro fuel tx j o hf hw ho
    obtain ⟨fuel, rfl⟩ : ∃ f, fuel = f + 1 := ⟨fuel - 1, by omega⟩
    have hw' : ∀ i < n, Overflow (r (j + 1 + i)) ∨ Expired (r (j + 1 + i)) := by
      intro i hi
      have := hw (i + 1) (by omega)
      rwa [show j + (i + 1) = j + 1 + i by omega] at this
    have ho' : next [] (r (j + 1 + n)) = .done o := by rwa [show j + (n + 1) = j + 1 + n by omega] at ho
    have h0 := hw 0 (by omega)
    simp only [Nat.add_zero] at h0
    rcases h0 with h0 | h0
    · have e1 : expiredIn r j 1 = 0 := by
        show 0 + (if Expired (r (j + 0)) then 1 else 0) = 0
        rw [Nat.add_zero, if_neg (overflow_not_expired h0)]
      have := ih fuel tx (j + 1) o (by omega) hw' ho'
      simp only [sendFrom, next_overflow h0, this]
      rw [List.range_succ_eq_map (n := n + 1), List.map_cons, List.map_map]
      simp only [expiredIn, Nat.add_zero, Prod.mk.injEq, true_and, List.cons.injEq]
      apply List.map_congr_left
      intro i _
      show _ = tx + expiredIn r j (i + 1)
      rw [expiredIn_shift, e1]; omega
    · have e1 : expiredIn r j 1 = 1 := by
        show 0 + (if Expired (r (j + 0)) then 1 else 0) = 1
        rw [Nat.add_zero, if_pos h0]
      have := ih fuel (tx + 1) (j + 1) o (by omega) hw' ho'
      simp only [sendFrom, next_expired h0, hs, if_true, this]
      rw [List.range_succ_eq_map (n := n + 1), List.map_cons, List.map_map]
      simp only [expiredIn, Nat.add_zero, Prod.mk.injEq, true_and, List.cons.injEq]
      apply List.map_congr_left
      intro i _
      show _ = tx + expiredIn r j (i + 1)
      rw [expiredIn_shift, e1]; omega

/-- The replies before number `n` are all "pool full" or "expired". -/
def Waits (r : Nat → Reply) (n : Nat) : Prop := ∀ i < n, Overflow (r i) ∨ Expired (r i)

theorem run_eq {signs : Nat → Bool} (hs : ∀ k, signs k = true) {r : Nat → Reply} {n : Nat} (hw : Waits r n)
    (ho : next [] (r n) = .done o) {fuel : Nat} (hf : n < fuel) :
    sendTransaction signs r fuel = (o, (List.range (n + 1)).map (expiredIn r 0)) := by
  have := sendFrom_run signs hs r n fuel 0 0 o hf (by intro i hi; simpa using hw i hi) (by simpa using ho)
  rw [sendTransaction, if_pos (hs 0), this]
  simp

/-- C38: the transactions sent. After any number of "pool full" and "expired" replies and then an acceptance, the
hash of the acceptance is returned; before reply `i` the transaction sent is the one signed after as many "expired"
replies as came before: a full pool re-sends the same transaction, an expiry a freshly signed one. -/
theorem C38_sends (signs : Nat → Bool) (hs : ∀ k, signs k = true) (r : Nat → Reply) (n : Nat) (h : Str)
    (hw : Waits r n) (hr : r n = .ok h) (fuel : Nat) (hf : n < fuel) :
    sendTransaction signs r fuel = (.sent h, (List.range (n + 1)).map (expiredIn r 0)) :=
  run_eq hs hw (by rw [hr]; rfl) hf

/-- C38: a duplicate ends the loop as a success - but with an empty hash, whatever was sent before. -/
theorem C38_duplicate_empty_hash (signs : Nat → Bool) (hs : ∀ k, signs k = true) (r : Nat → Reply) (n : Nat)
    (hw : Waits r n) (hr : Duplicate (r n)) (fuel : Nat) (hf : n < fuel) :
    sendTransaction signs r fuel = (.sent [], (List.range (n + 1)).map (expiredIn r 0)) :=
  run_eq hs hw (next_duplicate hr []) hf

/-- C38: any other reply ends the loop with an error or a crash. -/
theorem C38_other_replies_fail (signs : Nat → Bool) (hs : ∀ k, signs k = true) (r : Nat → Reply) (n : Nat)
    (hw : Waits r n) (e : RpcErr) (hr : r n = .fail e) (h1 : ¬ Overflow (r n)) (h2 : ¬ Expired (r n))
    (h3 : ¬ Duplicate (r n)) (fuel : Nat) (hf : n < fuel) :
    ∃ o, sendTransaction signs r fuel = (o, (List.range (n + 1)).map (expiredIn r 0)) ∧
      (o = .panic ∨ ∃ m, o = .err m) := by
  rcases next_cases (r n) with h | h | ⟨⟨x, hx⟩, -⟩ | h | ⟨-, -, h⟩
  · exact absurd h h1
  · exact absurd h h2
  · rw [hr] at hx; cases hx
  · exact absurd h.1 h3
  · rcases h with h | ⟨m, h⟩
    · exact ⟨_, run_eq hs hw h hf, Or.inl rfl⟩
    · exact ⟨_, run_eq hs hw h hf, Or.inr ⟨m, rfl⟩⟩

theorem sendFrom_sent (signs : Nat → Bool) (r : Nat → Reply) :
    ∀ fuel tx j h txs, sendFrom signs r fuel tx j = (.sent h, txs) →
    ∃ n, txs.length = n + 1 ∧ (∀ i < n, Overflow (r (j + i)) ∨ Expired (r (j + i))) ∧
      (r (j + n) = .ok h ∨ (h = [] ∧ Duplicate (r (j + n)))) := by
  intro fuel
  induction fuel with
  | zero => intro tx j h txs hh; simp [sendFrom] at hh
  | succ fuel ih =>
    intro tx j h txs hh
    have step : ∀ tx', (Overflow (r j) ∨ Expired (r j)) → (∃ txs', sendFrom signs r fuel tx' (j + 1) = (.sent h, txs') ∧
        txs = tx :: txs') → ∃ n, txs.length = n + 1 ∧ (∀ i < n, Overflow (r (j + i)) ∨ Expired (r (j + i))) ∧
        (r (j + n) = .ok h ∨ (h = [] ∧ Duplicate (r (j + n)))) := by
      rintro tx' h0 ⟨txs', e, rfl⟩
      obtain ⟨n, hl, hw, hr⟩ := ih _ _ _ _ e
      refine ⟨n + 1, by simp [hl], ?_, by rwa [show j + (n + 1) = j + 1 + n by omega]⟩
      intro i hi
      cases i with
      | zero => simpa using h0
      | succ i =>
        have := hw i (by omega)
        rwa [show j + (i + 1) = j + 1 + i by omega]
    rcases next_cases (r j) with h0 | h0 | ⟨-, x, hx, h0⟩ | ⟨hd, h0⟩ | ⟨-, -, h0⟩
    · rw [sendFrom, next_overflow h0] at hh
      simp only [Prod.mk.injEq] at hh
      exact step tx (Or.inl h0) ⟨_, Prod.ext hh.1 rfl, hh.2.symm⟩
    · rw [sendFrom, next_expired h0] at hh
      by_cases hsg : signs (tx + 1) = true
      · simp only [hsg, if_true, Prod.mk.injEq] at hh
        exact step (tx + 1) (Or.inr h0) ⟨_, Prod.ext hh.1 rfl, hh.2.symm⟩
      · simp [hsg] at hh
    · rw [sendFrom, h0] at hh
      injection hh with e1 e2
      injection e1 with e1
      subst e1
      exact ⟨0, by rw [← e2]; rfl, by intro i hi; omega, Or.inl (by simpa using hx)⟩
    · rw [sendFrom, h0] at hh
      injection hh with e1 e2
      injection e1 with e1
      exact ⟨0, by rw [← e2]; rfl, by intro i hi; omega, Or.inr ⟨e1.symm, by simpa using hd⟩⟩
    · rcases h0 with h0 | ⟨m, h0⟩ <;>
      · rw [sendFrom, h0] at hh
        injection hh with e1 e2
        cases e1

/-- C38: a success with a hash is reported only when the node accepted the transaction sent last and returned that
hash for it; all replies before were "pool full" or "expired". -/
theorem C38_success_partial (signs : Nat → Bool) (r : Nat → Reply) (fuel : Nat) (h : Str) (txs : List Nat)
    (hh : sendTransaction signs r fuel = (.sent h, txs)) (hne : h ≠ []) :
    ∃ n, txs.length = n + 1 ∧ Waits r n ∧ r n = .ok h := by
  unfold sendTransaction at hh
  split at hh
  · obtain ⟨n, hl, hw, hr⟩ := sendFrom_sent _ _ _ _ _ _ _ hh
    refine ⟨n, hl, by intro i hi; simpa using hw i hi, ?_⟩
    rcases hr with hr | ⟨hr, -⟩
    · simpa using hr
    · exact absurd hr hne
  · cases hh

/-- C38, false: a success is reported although no reply was ever an acceptance (a duplicate as the first reply), and
the hash by which the relay will ask for the result is empty. -/
theorem C38_success_without_acceptance (signs : Nat → Bool) (hs : ∀ k, signs k = true) :
    ∃ r : Nat → Reply, (∀ n h, r n ≠ .ok h) ∧ ∀ fuel, sendTransaction signs r (fuel + 1) = (.sent [], [0]) := by
  let r : Nat → Reply := fun _ => .fail (.rpc (-31000) "E2000:DuplicateTransaction".toList)
  have hd : Duplicate (r 0) := ⟨_, rfl, by decide +kernel, by rfl⟩
  refine ⟨r, fun n h => by simp [r], fun fuel => ?_⟩
  have := C38_duplicate_empty_hash signs hs r 0 (by intro i hi; omega) hd (fuel + 1) (by omega)
  simpa [expiredIn] using this

/-- C38, a gap: a system error with a message shorter than five characters crashes the relay. -/
theorem C38_short_message_panics (signs : Nat → Bool) (hs : ∀ k, signs k = true) (r : Nat → Reply) (n : Nat) (m : Str)
    (hw : Waits r n) (hr : r n = .fail (.rpc (-31000) m)) (hm : m.length < 5) (fuel : Nat) (hf : n < fuel) :
    (sendTransaction signs r fuel).1 = .panic := by
  have : next [] (r n) = .done .panic := by
    have hsub : subCode m = none := by unfold subCode; rw [if_pos hm]
    rw [hr]
    simp only [next, codeSystem, codeOverflow, hsub]
    rfl
  rw [run_eq hs hw this hf]

/-- C38, a gap: a JSON error reply without an error object crashes the relay. -/
theorem C38_nil_error_panics (signs : Nat → Bool) (hs : ∀ k, signs k = true) (r : Nat → Reply) (n : Nat)
    (hw : Waits r n) (hr : r n = .fail .rpcNil) (fuel : Nat) (hf : n < fuel) :
    (sendTransaction signs r fuel).1 = .panic := by
  rw [run_eq hs hw (o := .panic) (by rw [hr]; rfl) hf]

theorem sendFrom_waits (signs : Nat → Bool) (hs : ∀ k, signs k = true) (r : Nat → Reply) :
    ∀ fuel tx j, (∀ i < fuel, Overflow (r (j + i)) ∨ Expired (r (j + i))) → (sendFrom signs r fuel tx j).1 = .stuck := by
  intro fuel
  induction fuel with
  | zero => intro tx j _; rfl
  | succ fuel ih =>
    intro tx j hw
    have h0 := hw 0 (by omega)
    simp only [Nat.add_zero] at h0
    have hw' : ∀ i < fuel, Overflow (r (j + 1 + i)) ∨ Expired (r (j + 1 + i)) := by
      intro i hi
      have := hw (i + 1) (by omega)
      rwa [show j + (i + 1) = j + 1 + i by omega] at this
    rcases h0 with h0 | h0
    · simp only [sendFrom, next_overflow h0]; exact ih _ _ hw'
    · simp only [sendFrom, next_expired h0, hs, if_true]; exact ih _ _ hw'

/-- C38: the loop returns if and only if some reply is neither "pool full" nor "expired" (there is no limit on the
number of attempts). -/
theorem C38_returns_iff (signs : Nat → Bool) (hs : ∀ k, signs k = true) (r : Nat → Reply) :
    (∃ fuel, (sendTransaction signs r fuel).1 ≠ .stuck) ↔ ∃ n, ¬ Overflow (r n) ∧ ¬ Expired (r n) := by
  constructor
  · rintro ⟨fuel, h⟩
    apply Classical.byContradiction
    intro hn
    apply h
    rw [sendTransaction, if_pos (hs 0)]
    apply sendFrom_waits signs hs
    intro i _
    apply Classical.byContradiction
    intro hi
    exact hn ⟨0 + i, fun h1 => hi (Or.inl h1), fun h2 => hi (Or.inr h2)⟩
  · rintro ⟨n, h1, h2⟩
    -- the first such reply
    have : ∃ k, Waits r k ∧ ¬ Overflow (r k) ∧ ¬ Expired (r k) := by
      induction n using Nat.strongRecOn with
      | ind n ih =>
        by_cases hw : Waits r n
        · exact ⟨n, hw, h1, h2⟩
        · simp only [Waits, Classical.not_forall] at hw
          obtain ⟨i, hi, hn⟩ := hw
          exact ih i hi (fun x => hn (Or.inl x)) (fun x => hn (Or.inr x))
    obtain ⟨k, hw, h1, h2⟩ := this
    refine ⟨k + 1, ?_⟩
    rcases next_cases (r k) with h | h | ⟨-, x, -, h⟩ | ⟨-, h⟩ | ⟨-, -, h⟩
    · exact absurd h h1
    · exact absurd h h2
    · rw [run_eq hs hw h (by omega)]; simp
    · rw [run_eq hs hw h (by omega)]; simp
    · rcases h with h | ⟨m, h⟩ <;> rw [run_eq hs hw h (by omega)] <;> simp

/-! ### several transactions -/

theorem relaySend_prefix (outs : Nat → Out) : ∀ ts k, (relaySend outs k ts).1 <+: ts
  | [], _ => List.prefix_refl _
  | [t], _ => List.prefix_refl _
  | t :: t' :: ts, k => by
    unfold relaySend
    split
    · exact List.prefix_cons_inj t |>.mpr (relaySend_prefix outs (t' :: ts) (k + 1))
    · exact ⟨t' :: ts, rfl⟩

/-- C38: the transactions of a relay message are sent in order, from the first one; a failure ends it. -/
theorem C38_relay_in_order (limit : Nat) (outs : Nat → Out) (msg : Bytes) :
    (relay limit outs msg).1 <+: Fragment.relayTxs limit msg := relaySend_prefix _ _ _

theorem relaySend_sent (outs : Nat → Out) : ∀ ts k h, ts ≠ [] → (relaySend outs k ts).2 = .sent h →
    (relaySend outs k ts).1 = ts ∧ (∀ i, i < ts.length → ∃ h', outs (k + i) = .sent h') ∧ outs (k + ts.length - 1) = .sent h
  | [], _, _, hne, _ => absurd rfl hne
  | [t], k, h, _, hh => by
    refine ⟨rfl, ?_, hh⟩
    intro i hi
    have : i = 0 := by simpa using hi
    subst this
    exact ⟨h, hh⟩
  | t :: t' :: ts, k, h, _, hh => by
    unfold relaySend at hh ⊢
    split at hh
    · rename_i h0 e
      simp only at hh ⊢
      obtain ⟨h1, h2, h3⟩ := relaySend_sent outs (t' :: ts) (k + 1) h (by simp) hh
      rw [h1]
      refine ⟨rfl, ?_, ?_⟩
      · intro i hi
        cases i with
        | zero => exact ⟨h0, e⟩
        | succ i =>
          have := h2 i (by simpa using hi)
          rwa [show k + (i + 1) = k + 1 + i by omega]
      · rw [List.length_cons] at h3 ⊢
        rwa [show k + ((t' :: ts).length + 1) - 1 = k + 1 + (ts.length + 1) - 1 by simp; omega]
    · rename_i hn
      simp only at hh
      exact absurd hh (hn h)

/-- C38: when the relay of a message is reported as sent, every one of its transactions was sent, and when the chain
executes them in that order, from any state the contract may be in after earlier attempts, exactly the message is
delivered. -/
theorem C38_relay_delivers (limit : Nat) (outs : Nat → Out) (msg : Bytes) (h : Str)
    (hh : (relay limit outs msg).2 = .sent h) (s : Fragment.St) :
    (∀ i, i < (Fragment.relayTxs limit msg).length → ∃ h', outs i = .sent h') ∧
    ∃ s', Fragment.execAll s (relay limit outs msg).1 = some (s', [msg]) := by
  have hne : Fragment.relayTxs limit msg ≠ [] := by
    unfold Fragment.relayTxs; simp only []; split <;> simp
  obtain ⟨h1, h2, -⟩ := relaySend_sent outs _ 0 h hne hh
  refine ⟨fun i hi => by simpa using h2 i hi, ?_⟩
  rw [show (relay limit outs msg).1 = Fragment.relayTxs limit msg from h1]
  exact Fragment.C24_roundtrip limit msg s

/-! ### reporting of results, ICON -/

/-- The transaction is not final yet. -/
def Pending (r : ResReply) : Prop := ∃ m, r = .fail (.rpc (-31002) m) ∨ r = .fail (.rpc (-31003) m)

theorem getResult_pending {r : Nat → ResReply} (h : Pending (r j)) (fuel : Nat) :
    getResult r (fuel + 1) j = getResult r fuel (j + 1) := by
  obtain ⟨m, h | h⟩ := h <;> · rw [getResult, h]; rfl

theorem getResult_final {r : Nat → ResReply} (h : ¬ Pending (r j)) (fuel : Nat) :
    getResult r (fuel + 1) j = resOf (r j) := by
  rw [getResult]
  split
  · rename_i code msg e
    rw [if_neg, e]
    intro hc
    apply h
    rcases hc with hc | hc
    · exact ⟨msg, Or.inl (by rw [e, hc]; rfl)⟩
    · exact ⟨msg, Or.inr (by rw [e, hc]; rfl)⟩
  · rfl

theorem getResult_run (r : Nat → ResReply) (n : Nat) : ∀ j fuel, (∀ i < n, Pending (r (j + i))) → ¬ Pending (r (j + n)) →
    n < fuel → getResult r fuel j = resOf (r (j + n)) := by
  induction n with
  | zero =>
    intro j fuel _ hn hf
    obtain ⟨fuel, rfl⟩ : ∃ f, fuel = f + 1 := ⟨fuel - 1, by omega⟩
    exact getResult_final hn fuel
  | succ n ih =>
    intro j fuel hp hn hf
    obtain ⟨fuel, rfl⟩ : ∃ f, fuel = f + 1 := ⟨fuel - 1, by omega⟩
    rw [getResult_pending (by simpa using hp 0 (by omega)), ih (j + 1) fuel ?_ ?_ (by omega)]
    · rw [show j + 1 + n = j + (n + 1) by omega]
    · intro i hi
      have := hp (i + 1) (by omega)
      rwa [show j + (i + 1) = j + 1 + i by omega] at this
    · rwa [show j + 1 + n = j + (n + 1) by omega]

/-- C86: a relay transaction that the contract reverted (failure codes 32 to 99) is reported to the link, with the
contract's code, however long the result was pending. -/
theorem C86_reverted_is_reported_partial (r : Nat → ResReply) (n : Nat) (hp : ∀ i < n, Pending (r i)) (fc : Int)
    (hr : r n = .failed (some fc)) (h1 : 32 ≤ fc) (h2 : fc ≤ 99) (fuel : Nat) (hf : n < fuel)
    (id : Int) (st : Option Link.Bls) :
    resultMsgs id (getResult r fuel 0) st = some [.result id (fc - 32), .status st] := by
  have := getResult_run r n 0 fuel (by intro i hi; simpa using hp i hi) (by
    rw [Nat.zero_add, hr]
    rintro ⟨m, h | h⟩ <;> cases h) hf
  rw [this, Nat.zero_add, hr]
  have hn : ¬ (fc < 32 ∨ fc > 99) := by omega
  have hge : fc - 32 ≥ 0 := by omega
  simp only [resOf, if_neg hn, newRevertError, if_pos hge, resultMsgs]

/-- C86, false: any other failure (out of steps, method not found, ...) is not reported: the link only sees a status. -/
theorem C86_other_failure_silent (r : Nat → ResReply) (n : Nat) (hp : ∀ i < n, Pending (r i)) (fc : Int)
    (hr : r n = .failed (some fc)) (h : fc < 32 ∨ fc > 99) (fuel : Nat) (hf : n < fuel)
    (id : Int) (st : Option Link.Bls) :
    resultMsgs id (getResult r fuel 0) st = some [.status st] := by
  have := getResult_run r n 0 fuel (by intro i hi; simpa using hp i hi) (by
    rw [Nat.zero_add, hr]
    rintro ⟨m, h | h⟩ <;> cases h) hf
  rw [this, Nat.zero_add, hr]
  simp only [resOf, if_pos h, resultMsgs]

/-- C86, false: a failing query for the result (unknown transaction, lost connection, ...) is not reported either; the
messages are those of a success. -/
theorem C86_query_failure_looks_like_success (r : Nat → ResReply) (n : Nat) (hp : ∀ i < n, Pending (r i)) (e : RpcErr)
    (hr : r n = .fail e) (hn : ¬ Pending (r n)) (he : mapError e ≠ .panic) (fuel : Nat) (hf : n < fuel)
    (id : Int) (st : Option Link.Bls) :
    resultMsgs id (getResult r fuel 0) st = some [.status st] ∧
    resultMsgs id .success st = some [.status st] := by
  have := getResult_run r n 0 fuel (by intro i hi; simpa using hp i hi) (by rwa [Nat.zero_add]) hf
  rw [this, Nat.zero_add, hr]
  simp only [resOf, if_neg he, resultMsgs, and_self]

/-- C86, a gap: a failed transaction without a failure object (or a null result) crashes the relay. -/
theorem C86_no_failure_object_panics (r : Nat → ResReply) (n : Nat) (hp : ∀ i < n, Pending (r i))
    (hr : r n = .failed none) (fuel : Nat) (hf : n < fuel) : getResult r fuel 0 = .panic := by
  have := getResult_run r n 0 fuel (by intro i hi; simpa using hp i hi) (by
    rw [Nat.zero_add, hr]
    rintro ⟨m, h | h⟩ <;> cases h) hf
  rw [this, Nat.zero_add, hr]; rfl

/-- C86: a report is made only for a transaction that the contract reverted, with the code of that revert. -/
theorem C86_reports_are_true (r : Nat → ResReply) (fuel : Nat) (id : Int) (st : Option Link.Bls) (id' code : Int)
    (ms : List Chan) (h : resultMsgs id (getResult r fuel 0) st = some ms) (hm : .result id' code ∈ ms) :
    id' = id ∧ ∃ n, r n = .failed (some (code + 32)) ∧ 0 ≤ code ∧ code ≤ 67 := by
  have gen : ∀ fuel j, (∃ c, getResult r fuel j = .coded c) → ∃ n c, getResult r fuel j = .coded c ∧
      r n = .failed (some (c + 32)) ∧ 0 ≤ c ∧ c ≤ 67 := by
    intro fuel
    induction fuel with
    | zero => rintro j ⟨c, hc⟩; cases hc
    | succ fuel ih =>
      rintro j ⟨c, hc⟩
      by_cases hp : Pending (r j)
      · rw [getResult_pending hp] at hc ⊢
        exact ih (j + 1) ⟨c, hc⟩
      · rw [getResult_final hp] at hc ⊢
        refine ⟨j, c, hc, ?_⟩
        revert hc
        cases hr : r j with
        | success => intro hc; cases hc
        | fail e =>
          intro hc
          simp only [resOf] at hc
          split at hc <;> cases hc
        | failed f =>
          cases f with
          | none => intro hc; cases hc
          | some fc =>
            intro hc
            simp only [resOf] at hc
            split at hc
            · cases hc
            · rename_i hn
              have hge : fc - 32 ≥ 0 := by omega
              simp only [newRevertError, if_pos hge, Res.coded.injEq] at hc
              subst hc
              refine ⟨?_, by omega, by omega⟩
              congr 2; omega
  cases hg : getResult r fuel 0 with
  | coded c =>
    rw [hg] at h
    simp only [resultMsgs, Option.some.injEq] at h
    subst h
    simp only [List.mem_cons, Chan.result.injEq, reduceCtorEq, List.not_mem_nil, or_false] at hm
    obtain ⟨rfl, rfl⟩ := hm
    obtain ⟨n, c, hc, hr⟩ := gen fuel 0 ⟨_, hg⟩
    rw [hg] at hc
    injection hc with hc
    subst hc
    exact ⟨rfl, n, hr⟩
  | success => rw [hg] at h; simp only [resultMsgs, Option.some.injEq] at h; subst h; simp at hm
  | plain => rw [hg] at h; simp only [resultMsgs, Option.some.injEq] at h; subst h; simp at hm
  | panic => rw [hg] at h; cases h
  | stuck => rw [hg] at h; cases h

/-- C35, end to end: an exception of the verifier contract with code `k`, rethrown by the BMC, reaches the link as
revert code `25 + k`, of the verifier's class. The chain reports a revert with code c as failure `32 + c`. -/
theorem C35_end_to_end (k c : Int) (e : Exc) (h : Type'.bmv.apply k = some c) (he : Errors.of (.reverted c) = some e)
    (r : Nat → ResReply) (n : Nat) (hp : ∀ i < n, Pending (r i)) (hr : r n = .failed (some (32 + e.code)))
    (fuel : Nat) (hf : n < fuel) (id : Int) (st : Option Link.Bls) :
    resultMsgs id (getResult r fuel 0) st = some [.result id (25 + k), .status st] ∧ classOf (25 + k) = .bmv := by
  have hk := (C35_apply_accepts .bmv k).1 ⟨c, h⟩
  have hk15 := hk.2.2.2 rfl
  have hc : c = 25 + k := by
    rw [apply_bmv, if_neg (by omega), if_neg (by omega)] at h
    injection h with h
    exact h.symm
  obtain ⟨t, ht⟩ := C35_of_keeps_code c (by omega)
  rw [he] at ht
  injection ht with ht
  subst ht
  have := C86_reverted_is_reported_partial r n hp _ hr (by show 32 ≤ 32 + c; omega) (by show 32 + c ≤ 99; omega) fuel hf id st
  refine ⟨?_, ?_⟩
  · rw [this]
    show some [Chan.result id (32 + c - 32), _] = _
    rw [show 32 + c - 32 = 25 + k by omega]
  · unfold classOf
    rw [if_neg (by omega), if_neg (by omega), if_pos (by omega)]

/-! ### status queries -/

/-- C85, false: when the query for the status fails, a nil status is sent after the result; the link crashes on it
unless both its queues are empty - and the queue of relayed messages is not, for the message is in it. -/
theorem C85_failed_status_crashes {ρ β γ : Type} (id : Int) (r : Res) (ms : List Chan)
    (h : resultMsgs id r none = some ms) (s : Link.L ρ β γ) (hq : s.rms ≠ [] ∨ s.rss ≠ []) :
    ms.getLast? = some (.status none) ∧ (onStatus none s).1 = .panic := by
  constructor
  · cases r <;> simp [resultMsgs] at h <;> subst h <;> rfl
  · have : ¬ (s.rms.length = 0 ∧ s.rss.length = 0) := by
      rintro ⟨h1, h2⟩
      rcases hq with hq | hq
      · exact hq (List.length_eq_zero_iff.1 h1)
      · exact hq (List.length_eq_zero_iff.1 h2)
    simp only [onStatus, if_neg this]

/-- C85: with a status, the link's handler returns. -/
theorem C85_status_partial {ρ β γ : Type} (b : Link.Bls) (s : Link.L ρ β γ) : (onStatus (some b) s).1 = .ok () := rfl

/-! ### client.SendTransactionAndGetResult -/

/-- C38, a gap: the client's own loop crashes on a duplicate, and gives up on a full pool although it means to retry. -/
theorem C38_client_gaps (r : Reply) :
    (Duplicate r → sendOnce r = .panic) ∧ (Overflow r → ∃ e, sendOnce r = .err (.same e)) := by
  constructor
  · rintro ⟨m, rfl, hl, hp⟩
    simp only [sendOnce, codeSystem, subCode_ok hl hp]
    rfl
  · rintro ⟨m, rfl⟩
    exact ⟨_, rfl⟩

/-! ### reporting of results, EVM -/

theorem splitColon_ne_nil (s : Str) : splitColon s ≠ [] := by
  cases s with
  | nil => simp [splitColon]
  | cons c cs =>
    simp only [splitColon]
    split
    · simp
    · split <;> simp

theorem splitColon_append (p q : Str) (hp : ':' ∉ p) : splitColon (p ++ ':' :: q) = p :: splitColon q := by
  induction p with
  | nil => simp [splitColon]
  | cons c cs ih =>
    have hc : c ≠ ':' := fun e => hp (by simp [e])
    simp only [List.cons_append, splitColon, if_neg hc, ih (fun h => hp (by simp [h]))]

theorem splitColon_none (p : Str) (hp : ':' ∉ p) : splitColon p = [p] := by
  induction p with
  | nil => rfl
  | cons c cs ih =>
    have hc : c ≠ ':' := fun e => hp (by simp [e])
    simp only [splitColon, if_neg hc, ih (fun h => hp (by simp [h]))]

theorem trimLeft_spaces (k : Nat) (s : Str) (h : ∀ c, s.head? = some c → c ≠ ' ') :
    trimLeft (List.replicate k ' ' ++ s) = s := by
  induction k with
  | zero =>
    cases s with
    | nil => rfl
    | cons c cs => simp [trimLeft, h c rfl]
  | succ k ih => simpa [List.replicate_succ, trimLeft] using ih

theorem digits_toDigits (n : Nat) : digits (Nat.toDigits 10 n) = some n := by
  unfold digits
  rw [if_neg (by have := @Nat.length_toDigits_pos 10 n; omega), if_pos]
  · rw [Nat.ofDigitChars_ten_toDigits]
  · rw [List.all_eq_true]
    intro c hc
    exact Nat.isDigit_of_mem_toDigits (by decide) (by decide) hc

theorem toDigits_not {n : Nat} {c : Char} (hc : c.isDigit = false) : c ∉ Nat.toDigits 10 n := by
  intro h
  rw [Nat.isDigit_of_mem_toDigits (by decide) (by decide) h] at hc
  cases hc

theorem atoi_toDigits (n : Nat) (hn : n < 2 ^ 63) : atoi (Nat.toDigits 10 n) = some (n : Int) := by
  have hd := digits_toDigits n
  have h1 : '-' ∉ Nat.toDigits 10 n := toDigits_not rfl
  have h2 : '+' ∉ Nat.toDigits 10 n := toDigits_not rfl
  generalize Nat.toDigits 10 n = s at hd h1 h2
  unfold atoi
  split
  · exact absurd List.mem_cons_self h1
  · exact absurd List.mem_cons_self h2
  · rw [hd]; simp only [if_pos hn]

/-- C86: on an EVM chain, a revert reason of the form "<number>:<text>" (all the contracts' own reasons) is reported
with that number. The node's text is a prefix without colon, then the reason. -/
theorem C86_evm_code_reported_partial (p rest : Str) (hp : ':' ∉ p) (k n : Nat) (hn : n < 2 ^ 63) :
    evmRevert (.text (p ++ ':' :: (List.replicate k ' ' ++ (Nat.toDigits 10 n ++ ':' :: rest)))) = .coded n := by
  have hc : ':' ∉ List.replicate k ' ' ++ Nat.toDigits 10 n := by
    rw [List.mem_append]
    rintro (h | h)
    · exact absurd (List.eq_of_mem_replicate h) (by decide)
    · exact toDigits_not (by decide) h
  have e : splitColon (p ++ ':' :: (List.replicate k ' ' ++ (Nat.toDigits 10 n ++ ':' :: rest))) =
      p :: (List.replicate k ' ' ++ Nat.toDigits 10 n) :: splitColon rest := by
    rw [splitColon_append _ _ hp, ← List.append_assoc, splitColon_append _ _ hc]
  have hl : (splitColon rest).length ≠ 0 := fun h => splitColon_ne_nil rest (List.length_eq_zero_iff.1 h)
  have hh : ∀ c, (Nat.toDigits 10 n).head? = some c → c ≠ ' ' := by
    intro c h e
    subst e
    exact toDigits_not (c := ' ') (by decide) (List.mem_of_mem_head? h)
  simp only [evmRevert, e]
  rw [if_pos (show (p :: (List.replicate k ' ' ++ Nat.toDigits 10 n) :: splitColon rest).length > 2 by simp; omega)]
  show (match atoi (trimLeft (List.replicate k ' ' ++ Nat.toDigits 10 n)) with
      | none => Res.plain
      | some c => match newRevertError c with | some p => .coded p.1 | none => .success) = _
  rw [trimLeft_spaces k _ hh, atoi_toDigits n hn]
  have hge : (n : Int) ≥ 0 := by omega
  simp only [newRevertError, if_pos hge]

/-- C86: a text with fewer than two colons (no reason, or a reason without one) is reported as code 25. -/
theorem C86_evm_no_code (s : Str) (h : (splitColon s).length ≤ 2) : evmRevert (.text s) = .coded 25 := by
  simp only [evmRevert]
  rw [if_neg (by omega)]
  rfl

/-- C86, false: a reason with a colon that does not begin with a number is not reported at all. -/
theorem C86_evm_other_reason_silent (p q rest : Str) (hp : ':' ∉ p) (hq : ':' ∉ q) (hn : atoi (trimLeft q) = none)
    (id : Int) (st : Option Link.Bls) :
    resultMsgs id (evmRevert (.text (p ++ ':' :: (q ++ ':' :: rest)))) st = some [.status st] := by
  have hl : (splitColon rest).length ≠ 0 := fun h => splitColon_ne_nil rest (List.length_eq_zero_iff.1 h)
  have e : splitColon (p ++ ':' :: (q ++ ':' :: rest)) = p :: q :: splitColon rest := by
    rw [splitColon_append _ _ hp, splitColon_append _ _ hq]
  simp only [evmRevert, e]
  rw [if_pos (show (p :: q :: splitColon rest).length > 2 by simp; omega)]
  show resultMsgs id (match atoi (trimLeft q) with
      | none => Res.plain
      | some c => match newRevertError c with | some p => .coded p.1 | none => .success) st = _
  rw [hn]
  rfl

/-- C86, false: such reasons exist in the block verifier contract (RelayMessageLib.sol:36). -/
theorem C86_evm_silent_example (id : Int) (st : Option Link.Bls) :
    resultMsgs id (evmRevert (.text "execution reverted: RelayMessage: Support only BlockUpdate type".toList)) st =
      some [.status st] := by
  have : evmRevert (.text "execution reverted: RelayMessage: Support only BlockUpdate type".toList) = .plain := by
    decide +kernel
  rw [this]
  rfl

/-- C86, false: a reason with a negative number counts as a success. -/
theorem C86_evm_negative_is_success : evmRevert (.text "execution reverted: -1:x".toList) = .success := by
  decide +kernel

/-- C86, a gap: when the replayed call succeeds, the relay crashes. -/
theorem C86_evm_replay_panics (r : Nat → EvmReply) (j fuel : Nat) (h : r j = .reverted .replaySucceeds) :
    evmGetResult r (fuel + 1) j = .panic := by
  rw [evmGetResult, h]; rfl

/-- C86: a pending transaction is waited for; the first other reply decides. -/
theorem C86_evm_waits (r : Nat → EvmReply) (n : Nat) : ∀ j fuel, (∀ i < n, r (j + i) = .pending) → n < fuel →
    r (j + n) ≠ .pending →
    evmGetResult r fuel j = (match r (j + n) with
      | .success => .success
      | .reverted m => evmRevert m
      | _ => .plain) := by
  induction n with
  | zero =>
    intro j fuel _ hf hn
    obtain ⟨fuel, rfl⟩ : ∃ f, fuel = f + 1 := ⟨fuel - 1, by omega⟩
    rw [evmGetResult]
    simp only [Nat.add_zero] at hn ⊢
    split <;> simp_all
  | succ n ih =>
    intro j fuel hp hf hn
    obtain ⟨fuel, rfl⟩ : ∃ f, fuel = f + 1 := ⟨fuel - 1, by omega⟩
    have h0 := hp 0 (by omega)
    simp only [Nat.add_zero] at h0
    rw [evmGetResult, h0]
    simp only []
    rw [ih (j + 1) fuel ?_ (by omega) ?_]
    · rw [show j + 1 + n = j + (n + 1) by omega]
    · intro i hi
      have := hp (i + 1) (by omega)
      rwa [show j + (i + 1) = j + 1 + i by omega] at this
    · rwa [show j + 1 + n = j + (n + 1) by omega]

/-! ### Examples -/

section Examples

def rs : List Reply → Nat → Reply := fun l n => l.getD n (.fail .other)
def rr : List ResReply → Nat → ResReply := fun l n => l.getD n (.fail .other)
def ov : Reply := .fail (.rpc (-31001) [])
def ex : Reply := .fail (.rpc (-31000) "E2002:Expired".toList)
def du : Reply := .fail (.rpc (-31000) "E2000:Duplicate".toList)

example : Overflow ov ∧ Expired ex ∧ Duplicate du :=
  ⟨⟨[], rfl⟩, ⟨_, rfl, by decide +kernel, by rfl⟩, ⟨_, rfl, by decide +kernel, by rfl⟩⟩
example : sendTransaction (fun _ => true) (rs [ov, ex, ov, ov, ex, .ok "0xab".toList]) 10 =
    (.sent "0xab".toList, [0, 0, 1, 1, 1, 2]) := by decide +kernel
example : sendTransaction (fun _ => true) (rs [ov, du]) 10 = (.sent [], [0, 0]) := by decide +kernel
example : (sendTransaction (fun _ => true) (rs [.fail (.rpc (-31000) "E12".toList)]) 10).1 = .panic := by decide +kernel
example : (sendTransaction (fun _ => true) (fun _ => ov) 10).1 = .stuck := by decide +kernel
example : (sendTransaction (fun _ => true) (rs [.fail (.rpc (-31000) "E2003:Future".toList)]) 10).1 = .err .future := by
  decide +kernel
example : (relay 2 (fun k => if k = 1 then .err .connect else .sent ['h']) [1, 2, 3, 4, 5]).1 =
    [.frag (-2) [1, 2], .frag 1 [3, 4]] := by decide +kernel
example : relay 2 (fun _ => .sent ['h']) [1, 2, 3, 4, 5] =
    ([.frag (-2) [1, 2], .frag 1 [3, 4], .frag 0 [5]], .sent ['h']) := by decide +kernel
example : resultMsgs 7 (getResult (rr [.fail (.rpc (-31002) []), .fail (.rpc (-31003) []), .failed (some 58)]) 9 0) none =
    some [.result 7 26, .status none] := by decide +kernel
example : resultMsgs 7 (getResult (rr [.failed (some 10)]) 9 0) none = some [.status none] := by decide +kernel
example : resultMsgs 7 (getResult (rr [.fail (.rpc (-31004) "not found".toList)]) 9 0) none = some [.status none] := by
  decide +kernel
example : evmRevert (.text "execution reverted: 27:AlreadyVerified".toList) = .coded 27 := by decide +kernel
example : evmRevert (.text "execution reverted: Must be a list".toList) = .coded 25 := by decide +kernel
example : sendOnce du = .panic := by decide +kernel

end Examples

end Verif.Sender
