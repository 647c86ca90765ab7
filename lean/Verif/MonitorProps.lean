import Verif.Monitor
import Verif.ReceiverProps
import Verif.LinkProps
import Verif.JavaBtpBlock
/-!
C60 (heights delivered by the EVM monitor), C90 (the receivers notice every message), C91 (failures stop the relay), C92 (a
restarted relay goes on where the verifier is).
-/
namespace Verif.Monitor
open Verif Verif.Receiver

/-! ### C60 -/

/-- `k` heights from `h` on. -/
def consec (h : Int) : Nat → List Int
  | 0 => []
  | k + 1 => h :: consec (h + 1) k

theorem consec_length (h : Int) (k : Nat) : (consec h k).length = k := by
  induction k generalizing h with
  | zero => rfl
  | succ k ih => simp [consec, ih]

theorem consec_add (h : Int) (i j : Nat) : consec h (i + j) = consec h i ++ consec (h + i) j := by
  induction i generalizing h with
  | zero => simp [consec]
  | succ i ih =>
    rw [show i + 1 + j = (i + j) + 1 by omega]
    simp only [consec, ih, List.cons_append]
    rw [show h + 1 + (i : Int) = h + ((i + 1 : Nat) : Int) by omega]

theorem mem_consec (h : Int) (k : Nat) (x : Int) : x ∈ consec h k ↔ h ≤ x ∧ x < h + k := by
  induction k generalizing h with
  | zero => simp only [consec, List.not_mem_nil, false_iff]; omega
  | succ k ih => simp only [consec, List.mem_cons, ih]; omega

theorem onHeader_out (hand : Nat → Hand) (s : MB) (n : Int) :
    (onHeader hand s n).1.started = s.started ∧
    ((onHeader hand s n).2 = true → (onHeader hand s n).1.out = s.out ++ [n]) ∧
    ((onHeader hand s n).1.out = s.out ∨ (onHeader hand s n).1.out = s.out ++ [n]) := by
  unfold onHeader
  cases hand s.out.length <;> simp

theorem onHeader_ok {hand : Nat → Hand} (hh : ∀ k, hand k = .ok) (s : MB) (n : Int) :
    onHeader hand s n = ({ s with out := s.out ++ [n] }, true) := by
  unfold onHeader; rw [hh]

theorem catchUp_ok {hdr : Int → Bool} {hand : Nat → Hand} (hd : ∀ x, hdr x = true) (hh : ∀ k, hand k = .ok) (k : Nat) (h : Int)
    (s : MB) : catchUp hdr hand k h s = ({ s with out := s.out ++ consec h k }, true) := by
  induction k generalizing h s with
  | zero => simp [catchUp, consec]
  | succ k ih =>
    unfold catchUp
    rw [hd, onHeader_ok hh]
    dsimp only
    rw [if_pos rfl, ih]
    simp [consec]

/-- With failures: what is delivered is a beginning of what should be, all of it if there is no failure. -/
theorem catchUp_prefix (hdr : Int → Bool) (hand : Nat → Hand) (k : Nat) (h : Int) (s : MB) :
    (catchUp hdr hand k h s).1.started = s.started ∧
    (∃ j, j ≤ k ∧ (catchUp hdr hand k h s).1.out = s.out ++ (consec h k).take j) ∧
    ((catchUp hdr hand k h s).2 = true → (catchUp hdr hand k h s).1.out = s.out ++ consec h k) := by
  induction k generalizing h s with
  | zero => exact ⟨rfl, ⟨0, Nat.le_refl _, by simp [catchUp]⟩, fun _ => by simp [catchUp, consec]⟩
  | succ k ih =>
    unfold catchUp
    cases hdr h with
    | false => exact ⟨rfl, ⟨0, Nat.zero_le _, by simp⟩, fun x => by cases x⟩
    | true =>
      rw [if_pos rfl]
      obtain ⟨o1, o2, o3⟩ := onHeader_out hand s h
      cases e : onHeader hand s h with
      | mk s' b =>
        rw [e] at o1 o2 o3
        dsimp only at o1 o2 o3 ⊢
        cases b with
        | false =>
          refine ⟨o1, ?_, fun x => by cases x⟩
          rcases o3 with o3 | o3
          · exact ⟨0, by omega, by simp [o3]⟩
          · exact ⟨1, by omega, by simp [o3, consec]⟩
        | true =>
          dsimp only
          obtain ⟨i1, ⟨j, hj, i2⟩, i3⟩ := ih (h + 1) s'
          refine ⟨i1.trans o1, ⟨j + 1, by omega, ?_⟩, ?_⟩
          · rw [i2, o2 rfl]; simp [consec]
          · intro x; rw [i3 x, o2 rfl]; simp [consec]

theorem onHead_ok {hdr : Int → Bool} {hand : Nat → Hand} (hd : ∀ x, hdr x = true) (hh : ∀ k, hand k = .ok) (h : Int) (s : MB)
    (n : Int) : onHead hdr hand h s n =
      (⟨true, s.out ++ (if s.started then [] else consec h (n - h).toNat) ++ [n]⟩, true) := by
  unfold onHead
  obtain ⟨st, out⟩ := s
  cases st with
  | true => dsimp only; rw [if_pos rfl, onHeader_ok hh]; simp
  | false =>
    dsimp only
    rw [if_neg (by simp), catchUp_ok hd hh]
    dsimp only
    rw [onHeader_ok hh]
    simp

theorem subscribe_started {hdr : Int → Bool} {hand : Nat → Hand} (hd : ∀ x, hdr x = true) (hh : ∀ k, hand k = .ok) (h : Int)
    (l : List Int) (out : List Int) : subscribe (onHead hdr hand h) l ⟨true, out⟩ = (⟨true, out ++ l⟩, .waiting) := by
  induction l generalizing out with
  | nil => simp [subscribe]
  | cons n l ih =>
    unfold subscribe
    rw [onHead_ok hd hh]
    dsimp only
    rw [ih]
    simp

/-- **C60** over a subscription, what is delivered: the heights from the start up to the first head, then the heads as they
come. -/
theorem C60_delivered (hdr : Int → Bool) (hand : Nat → Hand) (hd : ∀ x, hdr x = true) (hh : ∀ k, hand k = .ok) (h n : Int)
    (rest : List Int) :
    monitorSub hdr hand h (n :: rest) = (⟨true, consec h (n - h).toNat ++ n :: rest⟩, .waiting) := by
  unfold monitorSub subscribe
  rw [onHead_ok hd hh]
  dsimp only
  rw [subscribe_started hd hh]
  simp

/-- **C60**, exactly when it holds over a subscription: each height from the start on once and in order, if and only if the
start is not beyond the first head and every head is the one after the last. Nodes skip heads and repeat heights when their
chain reorganises: then heights are lost, or delivered again. -/
theorem C60_exact (hdr : Int → Bool) (hand : Nat → Hand) (hd : ∀ x, hdr x = true) (hh : ∀ k, hand k = .ok) (h n : Int)
    (rest : List Int) :
    (∃ k, (monitorSub hdr hand h (n :: rest)).1.out = consec h k) ↔ h ≤ n ∧ n :: rest = consec n (rest.length + 1) := by
  rw [C60_delivered hdr hand hd hh]
  dsimp only
  constructor
  · rintro ⟨k, hk⟩
    have hl := congrArg List.length hk
    simp only [List.length_append, consec_length, List.length_cons] at hl
    have hsplit : consec h k = consec h (n - h).toNat ++ consec (h + (n - h).toNat) (rest.length + 1) := by
      rw [← consec_add]; congr 1; omega
    rw [hsplit] at hk
    have h2 := List.append_cancel_left hk
    have hn : n = h + ((n - h).toNat : Int) := by
      have := congrArg List.head? h2
      simpa [consec] using this
    refine ⟨by omega, ?_⟩
    rw [← hn] at h2; exact h2
  · rintro ⟨h1, h2⟩
    refine ⟨(n - h).toNat + (rest.length + 1), ?_⟩
    rw [consec_add, show h + ((n - h).toNat : Int) = n by omega, ← h2]

/-- **C60** with failing nodes and callbacks: nothing is skipped, what was delivered when the monitor fails is a beginning of
what should have been. -/
theorem C60_prefix (hdr : Int → Bool) (hand : Nat → Hand) (h n : Int) (rest : List Int) :
    (∃ j, (monitorSub hdr hand h (n :: rest)).1.out = (consec h (n - h).toNat ++ n :: rest).take j) ∧
    ((monitorSub hdr hand h (n :: rest)).2 = .waiting →
      (monitorSub hdr hand h (n :: rest)).1.out = consec h (n - h).toNat ++ n :: rest) := by
  have key : ∀ (l out : List Int), (∃ j, (subscribe (onHead hdr hand h) l ⟨true, out⟩).1.out = out ++ l.take j) ∧
      ((subscribe (onHead hdr hand h) l ⟨true, out⟩).2 = .waiting →
        (subscribe (onHead hdr hand h) l ⟨true, out⟩).1.out = out ++ l) := by
    intro l
    induction l with
    | nil => intro out; exact ⟨⟨0, by simp [subscribe]⟩, fun _ => by simp [subscribe]⟩
    | cons m l ih =>
      intro out
      unfold subscribe
      have e0 : onHead hdr hand h ⟨true, out⟩ m = onHeader hand ⟨true, out⟩ m := rfl
      rw [e0]
      obtain ⟨o1, o2, o3⟩ := onHeader_out hand ⟨true, out⟩ m
      cases e : onHeader hand ⟨true, out⟩ m with
      | mk s' b =>
        rw [e] at o1 o2 o3
        dsimp only at o1 o2 o3 ⊢
        cases b with
        | false =>
          refine ⟨?_, fun x => by cases x⟩
          rcases o3 with o3 | o3
          · exact ⟨0, by simp [o3]⟩
          · exact ⟨1, by simp [o3]⟩
        | true =>
          obtain ⟨st', out'⟩ := s'
          dsimp only at o1 o2
          subst o1
          rw [o2 rfl]
          dsimp only
          obtain ⟨⟨j, i1⟩, i2⟩ := ih (out ++ [m])
          exact ⟨⟨j + 1, by rw [i1]; simp⟩, fun x => by rw [i2 x]; simp⟩
  have e0 : onHead hdr hand h ⟨false, []⟩ n =
      match catchUp hdr hand (n - h).toNat h { (⟨false, []⟩ : MB) with started := true } with
      | (s', true) => onHeader hand s' n
      | (s', false) => (s', false) := rfl
  unfold monitorSub subscribe
  rw [e0]
  obtain ⟨c1, ⟨j, hj, c2⟩, c3⟩ := catchUp_prefix hdr hand (n - h).toNat h { (⟨false, []⟩ : MB) with started := true }
  cases e : catchUp hdr hand (n - h).toNat h { (⟨false, []⟩ : MB) with started := true } with
  | mk s b =>
    rw [e] at c1 c2 c3
    dsimp only at c1 c2 c3 ⊢
    cases b with
    | false =>
      refine ⟨⟨j, ?_⟩, fun x => by cases x⟩
      dsimp only
      rw [c2, List.take_append_of_le_length (by rw [consec_length]; omega)]
      simp
    | true =>
      dsimp only
      have hs : s.out = consec h (n - h).toNat := by simpa using c3 rfl
      obtain ⟨o1, o2, o3⟩ := onHeader_out hand s n
      cases e' : onHeader hand s n with
      | mk s' b =>
        rw [e'] at o1 o2 o3
        dsimp only at o1 o2 o3 ⊢
        have tk : ∀ m, (consec h (n - h).toNat ++ n :: rest).take ((n - h).toNat + m) =
            consec h (n - h).toNat ++ (n :: rest).take m := by
          intro m
          rw [List.take_append, consec_length, List.take_of_length_le (by rw [consec_length]; omega)]
          congr 2; omega
        cases b with
        | false =>
          refine ⟨?_, fun x => by cases x⟩
          rcases o3 with o3 | o3
          · exact ⟨(n - h).toNat + 0, by rw [tk]; simp [o3, hs]⟩
          · exact ⟨(n - h).toNat + 1, by rw [tk]; simp [o3, hs]⟩
        | true =>
          obtain ⟨st', out'⟩ := s'
          dsimp only at o1 o2
          have : st' = true := o1.trans c1
          subst this
          rw [o2 rfl, hs]
          dsimp only
          obtain ⟨⟨j, i1⟩, i2⟩ := key rest (consec h (n - h).toNat ++ [n])
          refine ⟨⟨(n - h).toNat + (j + 1), ?_⟩, fun x => ?_⟩
          · rw [i1, tk]; simp
          · rw [i2 x]; simp

/-- **C60** is false: a start beyond the first head. A height below the start is delivered. -/
theorem C60_start_ahead (hdr : Int → Bool) (hand : Nat → Hand) (hd : ∀ x, hdr x = true) (hh : ∀ k, hand k = .ok) (h n : Int)
    (rest : List Int) (hlt : n < h) : ∃ x ∈ (monitorSub hdr hand h (n :: rest)).1.out, x < h := by
  rw [C60_delivered hdr hand hd hh]
  exact ⟨n, by simp, hlt⟩

/-- The poller gives its callback consecutive heights. -/
theorem poll_started {hdr : Int → Bool} {hand : Nat → Hand} (hd : ∀ x, hdr x = true) (hh : ∀ k, hand k = .ok)
    (reply : Nat → Bool) (h : Int) (fuel k : Nat) (cur : Int) (r : Nat) (out : List Int) :
    ∃ j, (poll reply (onHead hdr hand h) fuel k cur r ⟨true, out⟩).1.out = out ++ consec cur j := by
  induction fuel generalizing k cur r out with
  | zero => exact ⟨0, by simp [poll, consec]⟩
  | succ n ih =>
    unfold poll
    by_cases hr : r = 0
    · rw [if_pos hr]; exact ⟨0, by simp [consec]⟩
    · rw [if_neg hr]
      cases reply k with
      | false => rw [if_neg (by simp)]; exact ih _ _ _ _
      | true =>
        rw [if_pos rfl, onHead_ok hd hh]
        dsimp only
        rw [if_pos rfl]
        obtain ⟨j, hj⟩ := ih (k + 1) (cur + 1) retryLimit (out ++ [] ++ [cur])
        exact ⟨j + 1, by rw [hj]; simp [consec]⟩

/-- **C60** holds over polling: whatever the node answers, the heights delivered are the start and those after it, each once,
in order, up to where the poller is (provided the start is not beyond the head). -/
theorem C60_poll (hdr : Int → Bool) (hand : Nat → Hand) (hd : ∀ x, hdr x = true) (hh : ∀ k, hand k = .ok)
    (reply : Nat → Bool) (h n : Int) (hle : h ≤ n) (fuel : Nat) :
    ∃ k, (monitorPoll hdr hand reply h n fuel).1.out = consec h k := by
  unfold monitorPoll
  have key : ∀ (fuel k r : Nat), ∃ j, (poll reply (onHead hdr hand h) fuel k n r ⟨false, []⟩).1.out = consec h j := by
    intro fuel
    induction fuel with
    | zero => intro k r; exact ⟨0, rfl⟩
    | succ m ih =>
      intro k r
      unfold poll
      by_cases hr : r = 0
      · rw [if_pos hr]; exact ⟨0, rfl⟩
      · rw [if_neg hr]
        cases reply k with
        | false => rw [if_neg (by simp)]; exact ih _ _
        | true =>
          rw [if_pos rfl, onHead_ok hd hh]
          dsimp only
          rw [if_neg (by simp)]
          obtain ⟨j, hj⟩ := poll_started hd hh reply h m (k + 1) (n + 1) retryLimit ([] ++ consec h (n - h).toNat ++ [n])
          refine ⟨(n - h).toNat + (1 + j), ?_⟩
          rw [hj, consec_add, show h + ((n - h).toNat : Int) = n by omega, consec_add]
          simp [consec]
  exact key fuel 0 retryLimit

/-- **C60**, how long the poller lives: it fails exactly after five requests in a row without an answer. A block that is not
there yet is no answer: a chain that takes longer than five polling intervals for a block ends the monitor. -/
theorem C60_poll_gives_up {σ : Type} (reply : Nat → Bool) (cb : σ → Int → σ × Bool) (hcb : ∀ s n, (cb s n).2 = true)
    (fuel : Nat) (cur : Int) (s : σ) :
    (poll reply cb fuel 0 cur retryLimit s).2 = .failed ↔ ∃ j, j + 5 < fuel ∧ ∀ i, i < 5 → reply (j + i) = false := by
  have key : ∀ (fuel k : Nat) (cur : Int) (r : Nat) (s : σ), r ≤ 5 → 5 ≤ k + r →
      (∀ i, k + r ≤ i + 5 → i < k → reply i = false) →
      ((poll reply cb fuel k cur r s).2 = .failed ↔
        ∃ j, k + r ≤ j + 5 ∧ j + 5 < k + fuel ∧ ∀ i, i < 5 → reply (j + i) = false) := by
    intro fuel
    induction fuel with
    | zero =>
      intro k cur r s hr hk hpast
      simp only [poll, reduceCtorEq, false_iff]
      rintro ⟨j, h1, h2, h3⟩
      omega
    | succ n ih =>
      intro k cur r s hr hk hpast
      unfold poll
      by_cases hr0 : r = 0
      · rw [if_pos hr0]
        simp only [true_iff]
        refine ⟨k - 5, by omega, by omega, ?_⟩
        intro i hi
        exact hpast _ (by omega) (by omega)
      · rw [if_neg hr0]
        cases hrep : reply k with
        | true =>
          rw [if_pos rfl]
          cases e : cb s cur with
          | mk s' b =>
            have : b = true := by have := hcb s cur; rw [e] at this; exact this
            subst this
            dsimp only
            rw [ih (k + 1) (cur + 1) retryLimit s' (by decide) (by unfold retryLimit; omega)
              (by intro i h1 h2; unfold retryLimit at h1; omega)]
            unfold retryLimit
            constructor
            · rintro ⟨j, h1, h2, h3⟩; exact ⟨j, by omega, by omega, h3⟩
            · rintro ⟨j, h1, h2, h3⟩
              refine ⟨j, ?_, by omega, h3⟩
              by_cases hj : k + 1 ≤ j
              · omega
              · have := h3 (k - j) (by omega)
                rw [show j + (k - j) = k by omega, hrep] at this
                cases this
        | false =>
          rw [if_neg (by simp)]
          rw [ih (k + 1) cur (r - 1) s (by omega) (by omega) (by
            intro i h1 h2
            by_cases hik : i = k
            · subst hik; exact hrep
            · exact hpast i (by omega) (by omega))]
          constructor
          · rintro ⟨j, h1, h2, h3⟩; exact ⟨j, by omega, by omega, h3⟩
          · rintro ⟨j, h1, h2, h3⟩; exact ⟨j, by omega, by omega, h3⟩
  have := key fuel 0 cur retryLimit s (by decide) (by decide) (by intro i _ h; omega)
  rw [this]
  unfold retryLimit
  constructor
  · rintro ⟨j, h1, h2, h3⟩; exact ⟨j, by omega, h3⟩
  · rintro ⟨j, h2, h3⟩; exact ⟨j, by omega, by omega, h3⟩

/-! ### C90 -/

/-- The events for our destination in the logs of a block. -/
def ours : List (Int × Bool × Ev) → List Ev
  | [] => []
  | (_, mine, e) :: l => if mine then e :: ours l else ours l

theorem ours_true (ix : Int) (e : Ev) (l : List (Int × Bool × Ev)) : ours ((ix, true, e) :: l) = e :: ours l := rfl
theorem ours_false (ix : Int) (e : Ev) (l : List (Int × Bool × Ev)) : ours ((ix, false, e) :: l) = ours l := rfl

/-- The events of known blocks, in order. -/
def eventsOf (rss : List EbRS) : List Ev := rss.flatMap (fun rs => rs.rps.flatMap (·.2))

theorem ebInsert_flat (ix : Int) (e : Ev) (l : List Rcpt) (h : ∀ r ∈ l, r.1 ≤ ix) (hs : l.Pairwise (fun a b => a.1 < b.1)) :
    (ebInsert ix e l).flatMap (·.2) = l.flatMap (·.2) ++ [e] := by
  induction l with
  | nil => simp [ebInsert]
  | cons r rest ih =>
    obtain ⟨j, es⟩ := r
    rw [List.pairwise_cons] at hs
    have hj := h (j, es) (by simp)
    dsimp only at hj
    unfold ebInsert
    by_cases e1 : ix = j
    · rw [if_pos e1]
      have : rest = [] := by
        cases rest with
        | nil => rfl
        | cons x xs =>
          have h1 := hs.1 x (by simp)
          have h2 := h x (by simp)
          dsimp only at h1
          omega
      subst this
      simp
    · rw [if_neg e1, if_neg (by omega)]
      simp only [List.flatMap_cons]
      rw [ih (fun r hr => h r (by simp [hr])) hs.2]
      simp

theorem ebGroup_flat (seq : Int) (logs : List (Int × Bool × Ev)) (ho : Ordered logs) :
    (ebGroup seq logs).flatMap (·.2) = (ours logs).filter (fun e => decide (seq < e.1)) := by
  have key : ∀ (ls : List (Int × Bool × Ev)) (acc : List Rcpt), acc.Pairwise (fun a b => a.1 < b.1) →
      (∀ r ∈ acc, ∀ l ∈ ls, r.1 ≤ l.1) → ls.Pairwise (fun a b => a.1 ≤ b.1) →
      (ls.foldl (ebAdd seq) acc).flatMap (·.2) = acc.flatMap (·.2) ++ (ours ls).filter (fun e => decide (seq < e.1)) := by
    intro ls
    induction ls with
    | nil => intro acc _ _ _; simp [ours]
    | cons l ls ih =>
      intro acc h1 h2 h3
      rw [List.pairwise_cons] at h3
      rw [List.foldl_cons]
      obtain ⟨ix, mine, e⟩ := l
      by_cases c1 : e.1 ≤ seq
      · rw [show ebAdd seq acc (ix, mine, e) = acc by unfold ebAdd; rw [if_pos c1]]
        rw [ih acc h1 (fun r hr l hl => h2 r hr l (by simp [hl])) h3.2]
        have : (ours ((ix, mine, e) :: ls)).filter (fun e => decide (seq < e.1)) =
            (ours ls).filter (fun e => decide (seq < e.1)) := by
          cases mine with
          | false => rw [ours_false]
          | true => rw [ours_true, List.filter_cons, if_neg (by simp; omega)]
        rw [this]
      · cases mine with
        | false =>
          rw [show ebAdd seq acc (ix, false, e) = acc by unfold ebAdd; rw [if_neg c1]; rfl]
          rw [ih acc h1 (fun r hr l hl => h2 r hr l (by simp [hl])) h3.2]
          rfl
        | true =>
          rw [show ebAdd seq acc (ix, true, e) = ebInsert ix e acc by unfold ebAdd; rw [if_neg c1]; rfl]
          have hle : ∀ r ∈ acc, r.1 ≤ ix := fun r hr => h2 r hr (ix, true, e) (by simp)
          obtain ⟨_, _, q2, q3⟩ := ebInsert_last ix e acc hle h1
          rw [ih _ q3 (fun r hr l hl => Int.le_trans (q2 r hr) (h3.1 l hl)) h3.2, ebInsert_flat ix e acc hle h1]
          rw [ours_true, List.filter_cons, if_pos (by simp; omega)]
          simp
  have := key logs [] .nil (by simp) ho
  rw [List.flatMap_nil, List.nil_append] at this
  exact this

theorem getLast_flat (l : List Rcpt) (r : Rcpt) (e : Ev) (h : l.getLast? = some r) (he : r.2.getLast? = some e) :
    (l.flatMap (·.2)).getLast? = some e := by
  obtain ⟨pre, rfl⟩ : ∃ pre, l = pre ++ [r] := by
    obtain ⟨pre, x, hx⟩ := (List.eq_nil_or_concat l).resolve_left (by rintro rfl; cases h)
    subst hx
    simp at h
    exact ⟨pre, by rw [h]; simp⟩
  simp only [List.flatMap_append, List.flatMap_cons, List.flatMap_nil, List.append_nil]
  rw [List.getLast?_append, he]; rfl

theorem ebInsert_nonempty (ix : Int) (e : Ev) (l : List Rcpt) (h : ∀ r ∈ l, r.2 ≠ []) : ∀ r ∈ ebInsert ix e l, r.2 ≠ [] := by
  induction l with
  | nil => simp [ebInsert]
  | cons r rest ih =>
    obtain ⟨j, es⟩ := r
    unfold ebInsert
    by_cases e1 : ix = j
    · rw [if_pos e1]
      intro r hr
      rcases List.mem_cons.1 hr with rfl | hr
      · simp
      · exact h r (by simp [hr])
    · rw [if_neg e1]
      by_cases e2 : ix < j
      · rw [if_pos e2]
        intro r hr
        rcases List.mem_cons.1 hr with rfl | hr
        · simp
        · exact h r hr
      · rw [if_neg e2]
        intro r hr
        rcases List.mem_cons.1 hr with rfl | hr
        · exact h _ (by simp)
        · exact ih (fun r hr => h r (by simp [hr])) r hr

theorem ebGroup_nonempty (seq : Int) (logs : List (Int × Bool × Ev)) : ∀ r ∈ ebGroup seq logs, r.2 ≠ [] := by
  have key : ∀ (ls : List (Int × Bool × Ev)) (acc : List Rcpt), (∀ r ∈ acc, r.2 ≠ []) →
      ∀ r ∈ ls.foldl (ebAdd seq) acc, r.2 ≠ [] := by
    intro ls
    induction ls with
    | nil => intro acc h; exact h
    | cons l ls ih =>
      intro acc h
      rw [List.foldl_cons]
      apply ih
      unfold ebAdd
      split
      · exact h
      · split
        · exact h
        · exact ebInsert_nonempty _ _ _ h
  exact key logs [] (by simp)

/-- The status of a block: its events, and the number of the last. -/
theorem ebStatus_spec (height seq : Int) (logs : List (Int × Bool × Ev)) (ho : Ordered logs) :
    match ebStatus height seq logs with
    | none => (ours logs).filter (fun e => decide (seq < e.1)) = []
    | some rs => rs.height = height ∧ rs.rps.flatMap (·.2) = (ours logs).filter (fun e => decide (seq < e.1)) ∧
        ∃ e, ((ours logs).filter (fun e => decide (seq < e.1))).getLast? = some e ∧ rs.seq = e.1 := by
  have hf := ebGroup_flat seq logs ho
  have hn := ebGroup_nonempty seq logs
  unfold ebStatus
  dsimp only
  cases h : (ebGroup seq logs).getLast? with
  | none =>
    dsimp only
    rw [← hf, List.getLast?_eq_none_iff.1 h]; rfl
  | some r =>
    dsimp only
    have hr := hn r (List.mem_of_getLast? h)
    cases h2 : r.2.getLast? with
    | none => exact absurd (List.getLast?_eq_none_iff.1 h2) hr
    | some e => exact ⟨rfl, hf, e, by rw [← hf]; exact getLast_flat _ r e h h2, rfl⟩

/-- **C90** for the EVM receiver, the provable part: over blocks whose logs can be read and come in the order of their
transactions, with event numbers that rise, the events known to the receiver are exactly those for the destination beyond the
starting number, in order. Blocks before the start may come again. -/
theorem C90_ethbr_partial (blocks : List (Int × List (Int × Bool × Ev))) (s0 : Int) (s' : Eb)
    (ho : ∀ b ∈ blocks, Ordered b.2)
    (hup : (blocks.flatMap (fun b => ours b.2)).Pairwise (fun a b => a.1 < b.1))
    (h : ebRun ⟨s0, []⟩ (blocks.map (fun b => (b.1, b.2.map some))) = some s') :
    eventsOf s'.rss = (blocks.flatMap (fun b => ours b.2)).filter (fun e => decide (s0 < e.1)) := by
  have key : ∀ (blocks : List (Int × List (Int × Bool × Ev))) (s s' : Eb),
      (∀ b ∈ blocks, Ordered b.2) → (blocks.flatMap (fun b => ours b.2)).Pairwise (fun a b => a.1 < b.1) →
      ebRun s (blocks.map (fun b => (b.1, b.2.map some))) = some s' →
      eventsOf s'.rss = eventsOf s.rss ++ (blocks.flatMap (fun b => ours b.2)).filter (fun e => decide (s.seq < e.1)) := by
    intro blocks
    induction blocks with
    | nil => intro s s' _ _ h; cases h; simp
    | cons b rest ih =>
      intro s s' ho hup h
      rw [List.flatMap_cons, List.pairwise_append] at hup
      simp only [List.map_cons, ebRun, ebOnBlock] at h
      rw [if_neg (by simp)] at h
      have hid : (b.2.map some).filterMap id = b.2 := by
        rw [List.filterMap_map]; simp
      rw [hid] at h
      have hs := ebStatus_spec b.1 s.seq b.2 (ho b (by simp))
      rw [List.flatMap_cons, List.filter_append]
      cases e : ebStatus b.1 s.seq b.2 with
      | none =>
        rw [e] at h hs
        dsimp only at h hs
        rw [ih s s' (fun b hb => ho b (by simp [hb])) hup.2.1 h, hs]
        simp
      | some rs =>
        rw [e] at h hs
        dsimp only at h hs
        obtain ⟨_, h2, ev, h3, h4⟩ := hs
        rw [ih _ s' (fun b hb => ho b (by simp [hb])) hup.2.1 h]
        dsimp only
        have hmem := List.mem_of_getLast? h3
        rw [List.mem_filter] at hmem
        have hlater : (rest.flatMap (fun b => ours b.2)).filter (fun e => decide (rs.seq < e.1)) =
            (rest.flatMap (fun b => ours b.2)).filter (fun e => decide (s.seq < e.1)) := by
          apply List.filter_congr
          intro x hx
          have h5 := hup.2.2 ev hmem.1 x hx
          have h6 : s.seq < ev.1 := by simpa using hmem.2
          rw [h4]
          simp only [decide_eq_decide]
          constructor <;> intro <;> omega
        rw [hlater]
        unfold eventsOf
        rw [List.flatMap_append]
        simp only [List.flatMap_cons, List.flatMap_nil, List.append_nil]
        rw [h2]
        simp
  simpa [eventsOf] using key blocks ⟨s0, []⟩ s' ho hup h

/-- **C90** for the EVM receiver, end to end over a subscription whose heads follow one another: every event for the destination
in the blocks from the verifier's height on is known, once and in order. -/
theorem C90_ethbr_subscription_partial (hdr : Int → Bool) (hand : Nat → Hand) (hd : ∀ x, hdr x = true) (hh : ∀ k, hand k = .ok)
    (chain : Int → List (Int × Bool × Ev)) (h n s0 : Int) (rest : List Int) (hle : h ≤ n)
    (hcons : n :: rest = consec n (rest.length + 1)) (ho : ∀ x, Ordered (chain x)) (k : Nat)
    (hk : k = (n - h).toNat + (rest.length + 1))
    (hup : ((consec h k).flatMap (fun x => ours (chain x))).Pairwise (fun a b => a.1 < b.1)) (s' : Eb)
    (hrun : ebRun ⟨s0, []⟩ ((monitorSub hdr hand h (n :: rest)).1.out.map (fun x => (x, (chain x).map some))) = some s') :
    eventsOf s'.rss = ((consec h k).flatMap (fun x => ours (chain x))).filter (fun e => decide (s0 < e.1)) := by
  have hout : (monitorSub hdr hand h (n :: rest)).1.out = consec h k := by
    rw [C60_delivered hdr hand hd hh, hk, consec_add, show h + ((n - h).toNat : Int) = n by omega, ← hcons]
  rw [hout] at hrun
  have := C90_ethbr_partial ((consec h k).map (fun x => (x, chain x))) s0 s'
    (by intro b hb; obtain ⟨x, _, rfl⟩ := List.mem_map.1 hb; exact ho x)
    (by rw [List.flatMap_map]; exact hup)
    (by rw [List.map_map]; exact hrun)
  rw [List.flatMap_map] at this
  exact this

/-- **C90** is false for the EVM receiver: a log of the message center's event that does not unpack crashes the relay. -/
theorem C90_ethbr_bad_log_panics (s : Eb) (height : Int) (pre post : List Log) :
    ebOnBlock s height (pre ++ none :: post) = none := by
  unfold ebOnBlock
  rw [if_pos (by simp)]

/-- Whatever a notification does to the state of the btp2 receiver, the number is advanced by the messages read. -/
def counted (start : Int) (n : Notif) : Nat :=
  match n.header, n.msgs with
  | some (h, _), some ms => if h = start then 0 else ms.length
  | _, _ => 0

theorem b2_seq (H : Bytes → Bytes) (start : Int) (l : List Notif) (s : B2) :
    (b2Notifs H start s l).seq = s.seq + ((l.map (counted start)).sum : Nat) := by
  unfold b2Notifs
  induction l generalizing s with
  | nil => simp
  | cons n l ih =>
    rw [List.foldl_cons, ih]
    have : (b2OnNotif H start s n).seq = s.seq + (counted start n : Nat) := by
      obtain ⟨hdr, ms⟩ := n
      unfold b2OnNotif counted
      cases hdr with
      | none => simp
      | some x =>
        obtain ⟨h, u⟩ := x
        dsimp only
        by_cases e : h = start
        · rw [if_pos e]
          cases ms <;> simp [e]
        · rw [if_neg e]
          cases ms with
          | none => simp
          | some ms =>
            dsimp only
            rw [if_neg e]
            cases Mbt.newTree Mbt.goCfg H (ms.map some) <;> rfl
    rw [this]
    simp only [List.map_cons, List.sum_cons]
    omega

/-- **C90** is false for the btp2 receiver: if the messages of a block cannot be fetched the block is left out, the monitor goes
on, and every later block gets a number that is too low by the messages of that block. -/
theorem C90_btp2_failed_fetch (H : Bytes → Bytes) (start : Int) (s : B2) (l1 l2 : List Notif) (h u : Int) (ms : List Bytes)
    (hs : h ≠ start) :
    b2Notifs H start s (l1 ++ ⟨some (h, u), none⟩ :: l2) = b2Notifs H start s (l1 ++ l2) ∧
    (b2Notifs H start s (l1 ++ ⟨some (h, u), some ms⟩ :: l2)).seq =
      (b2Notifs H start s (l1 ++ ⟨some (h, u), none⟩ :: l2)).seq + ms.length := by
  have h1 : b2Notifs H start s (l1 ++ ⟨some (h, u), none⟩ :: l2) = b2Notifs H start s (l1 ++ l2) := by
    unfold b2Notifs
    rw [List.foldl_append, List.foldl_cons, List.foldl_append]
    congr 1
    unfold b2OnNotif
    simp [hs]
  refine ⟨h1, ?_⟩
  rw [b2_seq, b2_seq]
  simp only [List.map_append, List.map_cons, List.sum_append, List.sum_cons]
  have e1 : counted start ⟨some (h, u), some ms⟩ = ms.length := by simp [counted, hs]
  have e2 : counted start ⟨some (h, u), none⟩ = 0 := rfl
  rw [e1, e2]
  omega

/-- **C90** for the btp2 receiver, the provable part: if every call succeeds, each block is recorded in order, with the number of
messages up to and including it. -/
theorem C90_btp2_partial (H : Bytes → Bytes) (start : Int) (blocks : List (Int × Int × List Bytes)) (s : B2)
    (hs : ∀ b ∈ blocks, b.1 ≠ start) (ht : ∀ b ∈ blocks, Mbt.newTree Mbt.goCfg H (b.2.2.map some) ≠ none) (i : Nat)
    (hi : i < blocks.length) :
    ∃ t, Mbt.newTree Mbt.goCfg H (blocks[i].2.2.map some) = some t ∧
      (b2Notifs H start s (blocks.map (fun b => ⟨some (b.1, b.2.1), some b.2.2⟩))).rss[s.rss.length + i]? =
        some ⟨blocks[i].1, s.seq + (((blocks.take (i + 1)).map (fun b => b.2.2.length)).sum : Nat), t⟩ := by
  induction blocks generalizing s i with
  | nil => simp at hi
  | cons b rest ih =>
    obtain ⟨h, u, ms⟩ := b
    have h1 := hs (h, u, ms) (by simp)
    have h2 := ht (h, u, ms) (by simp)
    dsimp only at h1 h2
    cases e : Mbt.newTree Mbt.goCfg H (ms.map some) with
    | none => exact absurd e h2
    | some t =>
      have hstep : b2OnNotif H start s ⟨some (h, u), some ms⟩ = ⟨s.rss ++ [⟨h, s.seq + ms.length, t⟩], s.seq + ms.length⟩ := by
        unfold b2OnNotif
        dsimp only
        rw [if_neg h1, e]
      have hgrow : ∀ (l : List Notif) (s : B2), ∃ more, (b2Notifs H start s l).rss = s.rss ++ more := by
        intro l
        induction l with
        | nil => intro s; exact ⟨[], by simp [b2Notifs]⟩
        | cons n l ihl =>
          intro s
          unfold b2Notifs
          rw [List.foldl_cons]
          obtain ⟨m, hm⟩ := ihl (b2OnNotif H start s n)
          unfold b2Notifs at hm
          have : ∃ m', (b2OnNotif H start s n).rss = s.rss ++ m' := by
            unfold b2OnNotif
            split
            · exact ⟨[], by simp⟩
            · split
              · exact ⟨[], by simp⟩
              · split
                · exact ⟨[], by simp⟩
                · split
                  · exact ⟨[], by simp⟩
                  · exact ⟨_, rfl⟩
          obtain ⟨m', hm'⟩ := this
          exact ⟨m' ++ m, by rw [hm, hm']; simp⟩
      rw [List.map_cons]
      have hcons : b2Notifs H start s (⟨some (h, u), some ms⟩ :: rest.map (fun b => ⟨some (b.1, b.2.1), some b.2.2⟩)) =
          b2Notifs H start ⟨s.rss ++ [⟨h, s.seq + ms.length, t⟩], s.seq + ms.length⟩
            (rest.map (fun b => ⟨some (b.1, b.2.1), some b.2.2⟩)) := by
        unfold b2Notifs; rw [List.foldl_cons, hstep]
      rw [hcons]
      cases i with
      | zero =>
        refine ⟨t, e, ?_⟩
        obtain ⟨m, hm⟩ := hgrow (rest.map (fun b => ⟨some (b.1, b.2.1), some b.2.2⟩))
          ⟨s.rss ++ [⟨h, s.seq + ms.length, t⟩], s.seq + ms.length⟩
        rw [hm]
        simp
      | succ i =>
        obtain ⟨t', g1, g2⟩ := ih ⟨s.rss ++ [⟨h, s.seq + ms.length, t⟩], s.seq + ms.length⟩
          (fun b hb => hs b (by simp [hb])) (fun b hb => ht b (by simp [hb])) i (by simpa using hi)
        refine ⟨t', by simpa using g1, ?_⟩
        simp only [List.length_append, List.length_cons, List.length_nil] at g2
        rw [show s.rss.length + (i + 1) = s.rss.length + (0 + 1) + i by omega, g2]
        simp only [List.getElem_cons_succ, List.take_succ_cons, List.map_cons, List.sum_cons]
        congr 2
        omega

/-- **C90** for the bridge receiver: a block that cannot be fetched is left out and the monitor goes on; the numbers of the other
blocks are right, since they come from the block headers. -/
theorem C90_bridge_failed_fetch (start offset rxSeq : Int) (s : List BrRS) (l1 l2 : List Notif) (h u : Int) :
    brNotifs start offset rxSeq s (l1 ++ ⟨some (h, u), none⟩ :: l2) = brNotifs start offset rxSeq s (l1 ++ l2) := by
  unfold brNotifs
  rw [List.foldl_append, List.foldl_cons, List.foldl_append]
  congr 1
  unfold brOnNotif
  dsimp only
  split <;> rfl

theorem C90_bridge_partial (start offset rxSeq : Int) (s : List BrRS) (blocks : List (Int × Int × List Bytes))
    (hs : ∀ b ∈ blocks, b.1 ≠ start) :
    brNotifs start offset rxSeq s (blocks.map (fun b => ⟨some (b.1, b.2.1), some b.2.2⟩)) =
      s ++ blocks.map (fun b => ⟨b.1, offset + b.2.1 / 2, brEvents rxSeq (offset + b.2.1 / 2) b.2.2⟩) := by
  unfold brNotifs
  induction blocks generalizing s with
  | nil => simp
  | cons b rest ih =>
    rw [List.map_cons, List.foldl_cons]
    have : brOnNotif start offset rxSeq s ⟨some (b.1, b.2.1), some b.2.2⟩ =
        s ++ [brStatus b.1 rxSeq (offset + b.2.1 / 2) b.2.2] := by
      unfold brOnNotif
      dsimp only
      rw [if_neg (hs b (by simp))]
    rw [this, ih _ (fun b hb => hs b (by simp [hb]))]
    simp [brStatus]

/-! ### C91 -/

/-- What a call of the result handler means for `Start`. -/
def outcome : Link.R Unit → Option Bool
  | .ok _ => some true
  | .err => some false
  | .panic => none
  | .stuck => none

/-- **C91**, exactly the failures that end a link: a failed status query at the start, or a result handler that returns an
error before one hangs. -/
theorem C91_link_ends_iff (status : Bool) (l : List Fault) :
    linkErr status l = true ↔ status = false ∨
      ∃ pre post, l = pre ++ .result (some false) :: post ∧ Fault.result none ∉ pre := by
  have key : ∀ l, linkErr.go l = true ↔ ∃ pre post, l = pre ++ .result (some false) :: post ∧ Fault.result none ∉ pre := by
    intro l
    induction l with
    | nil => simp [linkErr.go]
    | cons f l ih =>
      have skip : f ≠ .result none → f ≠ .result (some false) →
          ((∃ pre post, f :: l = pre ++ .result (some false) :: post ∧ Fault.result none ∉ pre) ↔
            ∃ pre post, l = pre ++ .result (some false) :: post ∧ Fault.result none ∉ pre) := by
        intro h1 h2
        constructor
        · rintro ⟨pre, post, he, hn⟩
          cases pre with
          | nil => simp only [List.nil_append, List.cons.injEq] at he; exact absurd he.1 h2
          | cons x pre =>
            simp only [List.cons_append, List.cons.injEq] at he
            exact ⟨pre, post, he.2, fun h => hn (by simp [h])⟩
        · rintro ⟨pre, post, he, hn⟩
          refine ⟨f :: pre, post, by rw [he]; rfl, ?_⟩
          simp only [List.mem_cons, not_or]
          exact ⟨fun h => h1 h.symm, hn⟩
      cases f with
      | result r =>
        cases r with
        | none =>
          simp only [linkErr.go, Bool.false_eq_true, false_iff]
          rintro ⟨pre, post, he, hn⟩
          cases pre with
          | nil => simp at he
          | cons x pre =>
            simp only [List.cons_append, List.cons.injEq] at he
            exact hn (by simp [← he.1])
        | some b =>
          cases b with
          | true => rw [skip (by simp) (by simp), ← ih]; rfl
          | false =>
            simp only [linkErr.go, true_iff]
            exact ⟨[], l, rfl, by simp⟩
      | receiverStart => rw [skip (by simp) (by simp), ← ih]; rfl
      | monitorEnds => rw [skip (by simp) (by simp), ← ih]; rfl
      | checkStatus => rw [skip (by simp) (by simp), ← ih]; rfl
      | buildMessage => rw [skip (by simp) (by simp), ← ih]; rfl
      | senderStart => rw [skip (by simp) (by simp), ← ih]; rfl
  unfold linkErr
  cases status with
  | false => simp
  | true => simpa using key l

/-- **C91** is false: once the first status query has succeeded, no failure ends a link. The failures of the monitor, of the
receiver and of the sender have no way out, and the result handler never returns (C30). -/
theorem C91_nothing_stops_a_link (l : List Fault)
    (h : ∀ r, Fault.result r ∈ l → ∃ (ρ β γ : Type) (R0 : Link.Rcv ρ β γ) (n : Nat) (st : Option Link.Bls) (fresh : Nat) (id : Int)
      (code : Nat) (s : Link.L ρ β γ), r = outcome (Link.result R0 n st fresh id code s).1) :
    linkErr true l = false := by
  cases e : linkErr true l with
  | false => rfl
  | true =>
    rcases (C91_link_ends_iff true l).1 e with h0 | ⟨pre, post, hl, _⟩
    · cases h0
    · obtain ⟨ρ, β, γ, R0, n, st, fresh, id, code, s, hr⟩ := h (some false) (by rw [hl]; simp)
      rw [Link.C30_result_never_returns] at hr
      cases hr

/-- **C91** is false for the relay: the error of a link that fails while the main loop is not waiting is dropped. The part that
holds: the relay ends if a link fails while the main loop waits. -/
theorem C91_relay_partial (links : List (Bool × Bool)) :
    relayStops links = true ↔ (true, true) ∈ links := by
  unfold relayStops
  rw [List.any_eq_true]
  constructor
  · rintro ⟨⟨a, b⟩, h1, h2⟩
    cases a <;> cases b <;> simp_all
  · intro h; exact ⟨(true, true), h, rfl⟩

/-! ### C92 -/

theorem b2_heights (H : Bytes → Bytes) (start : Int) (l : List Notif) (s : B2) (lo : Int)
    (h : ∀ n ∈ l, ∀ x, n.header = some x → lo < x.1) (hs : ∀ rs ∈ s.rss, lo < rs.height) :
    ∀ rs ∈ (b2Notifs H start s l).rss, lo < rs.height := by
  unfold b2Notifs
  induction l generalizing s with
  | nil => exact hs
  | cons n l ih =>
    rw [List.foldl_cons]
    apply ih _ (fun n hn => h n (by simp [hn]))
    have hn := h n (by simp)
    unfold b2OnNotif
    cases hh : n.header with
    | none => exact hs
    | some x =>
      obtain ⟨x, u⟩ := x
      dsimp only
      split
      · exact hs
      · split
        · exact hs
        · split
          · exact hs
          · intro rs hr
            rcases List.mem_append.1 hr with hr | hr
            · exact hs rs hr
            · simp only [List.mem_singleton] at hr
              subst hr
              exact hn _ hh

/-- **C92** is false for the btp2 receiver: if the destination stands inside a block (some of its messages are still to come) when
the relay starts, the link is stuck for ever. The monitor asks for the next block, so no message proof for the block is ever
built, whatever blocks arrive; and the verifier refuses every relay message that starts with a block update. -/
theorem C92_btp2_inside_block_stuck (E : B2Env) (b : Link.Bls) (q0 from_ seq : Int) (hreq : b2Request b q0 = some (from_, seq))
    (start : Int) (l : List Notif) (hl : ∀ n ∈ l, ∀ x, n.header = some x → from_ ≤ x.1)
    (J : JavaBtpBlock.Env) (S : JavaBtpBlock.St) (hrem : S.remain ≠ 0) :
    (∀ limit, b2MsgProof E (b2Notifs E.H start ⟨[], seq⟩ l) b limit = .ok none) ∧
    ∀ (c : JavaBtpBlock.Call) (hd : JavaBtpBlock.Header) (sigs : List Bytes) (t : List JavaBtpBlock.Msg),
      c.msgs = .upd hd sigs :: t → ∃ e, JavaBtpBlock.handleRelay J S c = .error e := by
  have hf : from_ = b.height + 1 := by
    unfold b2Request at hreq
    by_cases hh : b.height < 1
    · rw [if_pos hh] at hreq; cases hreq
    · rw [if_neg hh] at hreq; cases hreq; rfl
  constructor
  · intro limit
    have hh := b2_heights E.H start l ⟨[], seq⟩ b.height (fun n hn x hx => by have := hl n hn x hx; omega) (by simp)
    have hnone : b2At (b2Notifs E.H start ⟨[], seq⟩ l).rss b.height = none := by
      unfold b2At
      rw [List.find?_eq_none]
      intro rs hrs
      have := hh rs hrs
      simp only [decide_eq_true_eq]
      omega
    unfold b2MsgProof
    rw [hnone]
  · intro c hd sigs t hc
    have hu : ∃ e, JavaBtpBlock.handleUpdate J S hd sigs = .error e := by
      unfold JavaBtpBlock.handleUpdate
      dsimp only
      split
      · exact ⟨_, rfl⟩
      · split
        · exact ⟨_, rfl⟩
        · exact ⟨_, rfl⟩
    obtain ⟨e, hu⟩ := hu
    unfold JavaBtpBlock.handleRelay
    split
    · exact ⟨_, rfl⟩
    · split
      · exact ⟨_, rfl⟩
      · split
        · exact ⟨_, rfl⟩
        · split
          · exact ⟨_, rfl⟩
          · rw [hc]
            unfold JavaBtpBlock.handleMsgs
            rw [hu]
            exact ⟨e, rfl⟩

/-- **C92** for the btp2 receiver, the part that holds: at a block boundary the blocks asked for are those after the verifier's,
and they are numbered on from the messages delivered. -/
theorem C92_btp2_boundary_partial (H : Bytes → Bytes) (b : Link.Bls) (hb : 1 ≤ b.height) (start : Int)
    (blocks : List (Int × Int × List Bytes)) (hs : ∀ x ∈ blocks, x.1 ≠ start)
    (ht : ∀ x ∈ blocks, Mbt.newTree Mbt.goCfg H (x.2.2.map some) ≠ none) (i : Nat) (hi : i < blocks.length) :
    ∃ seq, b2Request b 0 = some (b.height + 1, seq) ∧ ∃ t,
      (b2Notifs H start ⟨[], seq⟩ (blocks.map (fun b => ⟨some (b.1, b.2.1), some b.2.2⟩))).rss[i]? =
        some ⟨blocks[i].1, b.rx + (((blocks.take (i + 1)).map (fun b => b.2.2.length)).sum : Nat), t⟩ := by
  refine ⟨b.rx, ?_, ?_⟩
  · unfold b2Request
    rw [if_neg (by omega)]
    by_cases h : b.rx = 0
    · simp [h]
    · simp [h]
  · obtain ⟨t, _, h2⟩ := C90_btp2_partial H start blocks ⟨[], b.rx⟩ hs ht i hi
    exact ⟨t, by simpa using h2⟩

/-- **C92** for the bridge receiver: it asks for the verifier's own block again, and takes from it the messages beyond those
delivered. -/
theorem C92_bridge (b : Link.Bls) (hb : 1 ≤ b.height) (start offset h u : Int) (ms : List Bytes) (hs : h ≠ start) :
    brRequest b = some b.height ∧
    brNotifs start offset b.rx [] [⟨some (h, u), some ms⟩] =
      [⟨h, offset + u / 2, (ms.zipIdx.map (fun p => (offset + u / 2 + (p.2 : Int), p.1))).filter (fun e => decide (b.rx < e.1))⟩] := by
  refine ⟨by unfold brRequest; rw [if_neg (by omega)], ?_⟩
  have := C90_bridge_partial start offset b.rx [] [(h, u, ms)] (by simpa using hs)
  simp only [List.map_cons, List.map_nil, List.nil_append] at this
  rw [this]
  congr 1
  have key : ∀ (ms : List Bytes) (sn : Int) (k : Nat),
      brEvents b.rx (sn + k) ms = ((ms.zipIdx k).map (fun p => (sn + (p.2 : Int), p.1))).filter (fun e => decide (b.rx < e.1)) := by
    intro ms
    induction ms with
    | nil => intro sn k; rfl
    | cons m ms ih =>
      intro sn k
      unfold brEvents
      have hstep := ih sn (k + 1)
      rw [show sn + ((k + 1 : Nat) : Int) = sn + k + 1 by omega] at hstep
      rw [List.zipIdx_cons, List.map_cons, List.filter_cons, hstep]
      by_cases h : sn + (k : Int) > b.rx
      · rw [if_pos h, if_pos (by simpa using h)]
      · rw [if_neg h, if_neg (by simpa using h)]
  have := key ms (offset + u / 2) 0
  simp only [Int.natCast_zero, Int.add_zero] at this
  rw [this]

/-! ### Examples -/
section Examples

def yes (_ : Int) : Bool := true
def fine (_ : Nat) : Hand := .ok

-- start at 5, heads 7, 8, 9; a head skipped; a reorganisation; a start ahead of the chain
example : (monitorSub yes fine 5 [7, 8, 9]).1.out = [5, 6, 7, 8, 9] := by decide +kernel
example : (monitorSub yes fine 5 [7, 9]).1.out = [5, 6, 7, 9] := by decide +kernel
example : (monitorSub yes fine 5 [7, 8, 8]).1.out = [5, 6, 7, 8, 8] := by decide +kernel
example : (monitorSub yes fine 9 [7, 8]).1.out = [7, 8] := by decide +kernel
example : (monitorSub (fun h => decide (h ≠ 6)) fine 5 [7, 8]) = (⟨true, [5]⟩, .failed) := by decide +kernel
-- polling: a block that takes four requests, then one that takes too long
example : monitorPoll yes fine (fun k => decide (k = 4 ∨ k = 5)) 5 6 20 = (⟨true, [5, 6, 7]⟩, .failed) := by decide +kernel
-- an event of the skipped head is never known
example : (ebRun ⟨4, []⟩ ((monitorSub yes fine 7 [7, 9]).1.out.map (fun h => (h, [some (0, true, (h - 2, []))])))).map
    (fun s => eventsOf s.rss) = some [(5, []), (7, [])] := by decide +kernel
example : ebRun ⟨4, []⟩ [(7, [some (0, true, (5, [])), none])] = none := by decide +kernel
-- a failed fetch: block 12 is lost and block 13 numbered 6 in place of 8
def exH (b : Bytes) : Bytes := [b.foldl (· + ·) 1]
example : (b2Notifs exH 1 ⟨[], 5⟩ [⟨some (12, 0), none⟩, ⟨some (13, 0), some [[1]]⟩]).rss.map (fun r => (r.height, r.seq)) =
    [(13, 6)] := by decide +kernel
example : (b2Notifs exH 1 ⟨[], 5⟩ [⟨some (12, 0), some [[1], [2]]⟩, ⟨some (13, 0), some [[1]]⟩]).rss.map
    (fun r => (r.height, r.seq)) = [(12, 7), (13, 8)] := by decide +kernel
example : linkErr true [.monitorEnds, .result none, .result (some false)] = false ∧
    linkErr true [.monitorEnds, .result (some true), .result (some false)] = true := by decide +kernel
example : b2Request ⟨5, 12⟩ 0 = some (13, 5) ∧ brRequest ⟨5, 12⟩ = some 12 := by decide +kernel

end Examples

end Verif.Monitor
