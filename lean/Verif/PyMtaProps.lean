import Verif.PyMta
import Verif.PyRlpProps
/-!
C118: the accumulator of block hashes in the Python verifier for ICON blocks, and its agreement with that of the Java verifier and of the
relay.
-/
namespace Verif.PyMta
open Verif Verif.Mta Verif.Merkle Verif.Mbt

/-! ### The same as in Java -/

/-- The same accumulator in the Java contract. -/
structure Same (m : M) (j : JavaMta.J) : Prop where
  height : m.height = j.height
  offset : m.offset = j.offset
  roots : m.roots = j.roots
  size : m.rootsSize = 0 ∧ j.rootSize = 0
  cache : m.cacheSize = 0 ∧ m.cache = [] ∧ j.cache = []
  newer : m.allowNewer = false ∧ j.allowNewer = false

theorem addLoop_eq {H : Bytes → Bytes} (hH : ∀ x, (H x).length = 32) : ∀ (rs : List (Option Bytes)) (k : Nat) (hs : List Bytes) (h : Bytes),
    JavaMta.JInv H k rs hs → (∀ x ∈ hs, x.length = 32) → h.length = 32 →
    JavaMta.addLoop H 0 k rs h = some (addLoop H 0 k rs h)
  | [], _, _, _, _, _, _ => rfl
  | none :: rs, _, _, _, _, _, _ => rfl
  | some r :: rs, k, hs, h, hi, h32, hh => by
    obtain ⟨a, b, rfl, hb, rfl, hia⟩ := hi
    have hp := Nat.one_le_two_pow (n := k)
    have l1 : (mroot H b).length = 32 := mroot_length H 32 hH b (by rintro rfl; simp at hb; omega) (fun x hx => h32 x (List.mem_append_right _ hx))
    show (if k + 1 = 0 then _ else (JavaMta.concatAndHash H (mroot H b) h).bind fun x => (JavaMta.addLoop H 0 (k + 1) rs x).map fun y => (none :: y.1, y.2)) = _
    rw [if_neg (by omega), JavaMta.concat_ok H _ _ l1 hh, Option.bind_some,
      addLoop_eq hH rs (k + 1) a _ hia (fun x hx => h32 x (List.mem_append_left _ hx)) (hH _)]
    show _ = some (if 0 < 0 ∧ 0 ≤ k + 1 then _ else _)
    rw [if_neg (by omega)]
    rfl

theorem putCache_zero (m : M) (h : Bytes) (h1 : m.cacheSize = 0) (h2 : m.cache = []) : putCache m h = m := by
  unfold putCache
  cases m
  simp only at h1 h2
  subst h1 h2
  rfl

theorem add_same {H : Bytes → Bytes} (hH : ∀ x, (H x).length = 32) {o : Int} (ho : 0 ≤ o) {hs : List Bytes} {m : M} {j : JavaMta.J} (hs0 : Same m j)
    (hok : JavaMta.Ok H o hs j) (h : Bytes) (hl : h.length = 32) : ∃ j', JavaMta.add H j h = some j' ∧ Same (add H m h) j' := by
  obtain ⟨s1, s2, s3, ⟨s4, s4'⟩, ⟨s5, s6, s7⟩, ⟨s8, s9⟩⟩ := hs0
  obtain ⟨d, hd, hd0, hoff, hinv⟩ := hok.inv
  have hd := hd0 s4'
  subst hd
  rw [List.drop_zero] at hinv
  have hj : JavaMta.putCache j h = j := by unfold JavaMta.putCache; rw [s7]; rfl
  have hm := putCache_zero m h s5 s6
  have hheight := hok.height
  unfold JavaMta.add add
  simp only [hj, hm]
  by_cases hc : hs = []
  · subst hc
    have hr := JavaMta.jinv_nil hinv
    simp only [List.length_nil] at hheight
    rw [if_pos (show j.height = j.offset by omega)]
    refine ⟨_, rfl, ?_⟩
    have hr' : m.roots = [] := by rw [s3, hr]
    have : (if m.height = 0 then { m with roots := m.roots ++ [some h], height := m.height + 1 }
        else if m.roots.length = 0 then { m with roots := m.roots ++ [some h], height := m.height + 1 }
        else { m with roots := (addLoop H m.rootsSize 0 m.roots h).1, offset := m.offset + (addLoop H m.rootsSize 0 m.roots h).2, height := m.height + 1 }) =
        { m with roots := m.roots ++ [some h], height := m.height + 1 } := by
      by_cases hz : m.height = 0
      · rw [if_pos hz]
      · rw [if_neg hz, if_pos (by rw [hr']; rfl)]
    rw [this]
    exact ⟨by simp [s1], s2, by simp [s3, hr], ⟨s4, s4'⟩, ⟨s5, s6, s7⟩, ⟨s8, s9⟩⟩
  · have hpos : 0 < hs.length := List.length_pos_iff.2 hc
    have hrl : m.roots.length ≠ 0 := by
      intro h0
      have : j.roots = [] := by rw [← s3]; exact List.length_eq_zero_iff.1 h0
      rw [this] at hinv
      exact hc hinv
    rw [if_neg (show ¬ j.height = j.offset by omega), s4', addLoop_eq hH _ _ _ _ hinv hok.l32 hl]
    refine ⟨_, rfl, ?_⟩
    rw [if_neg (show ¬ m.height = 0 by omega), if_neg hrl, s4, s3]
    exact ⟨by simp [s1], by simp [s2], rfl, ⟨rfl, rfl⟩, ⟨s5, s6, s7⟩, ⟨s8, s9⟩⟩

theorem addAll_same {H : Bytes → Bytes} (hH : ∀ x, (H x).length = 32) {o : Int} (ho : 0 ≤ o) (hs : List Bytes) : ∀ (pre : List Bytes) (m : M) (j : JavaMta.J),
    Same m j → JavaMta.Ok H o pre j → (∀ h ∈ hs, h.length = 32) → ∃ j', JavaMta.addAll H j hs = some j' ∧ Same (addAll H m hs) j' := by
  induction hs with
  | nil => intro pre m j h1 _ _; exact ⟨j, rfl, h1⟩
  | cons h hs ih =>
    intro pre m j h1 h2 h3
    obtain ⟨j1, e1, s1⟩ := add_same hH ho h1 h2 h (h3 h (by simp))
    obtain ⟨j1', e1', ok1, _, _⟩ := JavaMta.add_ok hH h2 h (h3 h (by simp))
    rw [e1] at e1'
    cases e1'
    obtain ⟨j2, e2, s2⟩ := ih (pre ++ [h]) (add H m h) j1 s1 ok1 (fun x hx => h3 x (by simp [hx]))
    refine ⟨j2, ?_, s2⟩
    show (JavaMta.add H j h).bind (JavaMta.addAll H · hs) = _
    rw [e1]; exact e2

/-- **C118**: the accumulator of the Python contract has after every sequence of blocks the height, the offset and the roots of the one
of the Java contract. -/
theorem C118_as_java {H : Bytes → Bytes} (hH : ∀ x, (H x).length = 32) (o : Int) (ho : 0 ≤ o) (hs : List Bytes) (h32 : ∀ h ∈ hs, h.length = 32) :
    ∃ j, JavaMta.addAll H (JavaMta.init o) hs = some j ∧ Same (addAll H (init o) hs) j :=
  addAll_same hH ho hs [] _ _ ⟨rfl, rfl, rfl, ⟨rfl, rfl⟩, ⟨rfl, rfl, rfl⟩, ⟨rfl, rfl⟩⟩ (JavaMta.fresh_ok H ⟨rfl, rfl, rfl, by simp [JavaMta.init]⟩) h32

/-- **C118**, structure: the height counts the blocks; the roots are the Merkle roots of the blocks given by the binary digits of their number. -/
theorem C118_structure {H : Bytes → Bytes} (hH : ∀ x, (H x).length = 32) (o : Int) (ho : 0 ≤ o) (hs : List Bytes) (h32 : ∀ h ∈ hs, h.length = 32) :
    (addAll H (init o) hs).height = o + hs.length ∧ (addAll H (init o) hs).offset = o ∧
      ∀ s r, (addAll H (init o) hs).roots[s]? = some (some r) ↔ (hs.length / 2 ^ s % 2 = 1 ∧
        r = mroot H ((hs.drop (hs.length / 2 ^ (s + 1) * 2 ^ (s + 1))).take (2 ^ s))) := by
  obtain ⟨j, e, hsame⟩ := C118_as_java hH o ho hs h32
  obtain ⟨j', d, h1, h2, h3, h4, h5, h6, h7⟩ := JavaMta.C93_structure hH o (JavaMta.init o) ⟨rfl, rfl, rfl, by simp [JavaMta.init]⟩ hs h32
  rw [e] at h1
  cases h1
  have hd := h5 rfl
  subst hd
  rw [List.drop_zero] at h7
  refine ⟨by rw [hsame.height, h2], by rw [hsame.offset, h3]; simp, ?_⟩
  rw [hsame.roots]
  exact h7

/-! ### Witnesses -/

/-- The index after `n` turns of the loop. -/
def halves : Nat → Int → Int
  | 0, i => i
  | n + 1, i => halves n (i.tdiv 2)

theorem halves_nat (n m : Nat) : halves n (m : Int) = ((m / 2 ^ n : Nat) : Int) := by
  induction n generalizing m with
  | zero => simp [halves]
  | succ n ih =>
    unfold halves
    have : (m : Int).tdiv 2 = ((m / 2 : Nat) : Int) := by
      rw [Int.tdiv_eq_ediv_of_nonneg (by omega)]; omega
    rw [this, ih, Nat.div_div_eq_div_mul, Nat.pow_succ, Nat.mul_comm]

/-- The inputs of the hash function when a witness is folded. -/
def calls (H : Bytes → Bytes) : List Bytes → Bytes → Int → List Bytes
  | [], _, _ => []
  | w :: ws, h, idx => (if idx % 2 = 0 then h ++ w else w ++ h) :: calls H ws (if idx % 2 = 0 then H (h ++ w) else H (w ++ h)) (idx.tdiv 2)

theorem fold_snoc (H : Bytes → Bytes) (ws : List Bytes) (w : Bytes) : ∀ (h : Bytes) (idx : Int),
    fold H (ws ++ [w]) h idx = H (if halves ws.length idx % 2 = 0 then fold H ws h idx ++ w else w ++ fold H ws h idx) ∧
    calls H (ws ++ [w]) h idx = calls H ws h idx ++ [if halves ws.length idx % 2 = 0 then fold H ws h idx ++ w else w ++ fold H ws h idx] := by
  induction ws with
  | nil =>
    intro h idx
    simp only [List.nil_append, fold, calls, halves, List.length_nil]
    by_cases c : idx % 2 = 0
    · simp [c]
    · simp [c]
  | cons v ws ih =>
    intro h idx
    obtain ⟨e1, e2⟩ := ih (if idx % 2 = 0 then H (h ++ v) else H (v ++ h)) (idx.tdiv 2)
    refine ⟨e1, ?_⟩
    simp only [List.cons_append, calls, List.length_cons, halves, fold]
    rw [e2]

theorem fold_len {H : Bytes → Bytes} (hH : ∀ x, (H x).length = 32) (ws : List Bytes) : ∀ (h : Bytes) (idx : Int), h.length = 32 → (fold H ws h idx).length = 32 := by
  induction ws with
  | nil => intro h idx hh; exact hh
  | cons w ws ih =>
    intro h idx hh
    unfold fold
    apply ih
    split <;> exact hH _

/-- A witness, whatever the lengths of its elements, that leads to the root of `2^n` leaves starts at the leaf of its index, or hash
inputs collide. -/
theorem fold_sound {H : Bytes → Bytes} (hH : ∀ x, (H x).length = 32) (ws : List Bytes) :
    ∀ (b : List Bytes) (h : Bytes) (idx : Int), b.length = 2 ^ ws.length → (∀ x ∈ b, x.length = 32) → h.length = 32 → fold H ws h idx = mroot H b →
      Collision H (calls H ws h idx) (inputs H b) ∨ ∃ p, p < 2 ^ ws.length ∧ b[p]? = some h ∧ (0 ≤ idx → p = idx.toNat % 2 ^ ws.length) := by
  refine snocInd ws ?_ ?_
  · intro b h idx hb _ hh hv
    right
    simp at hb
    match b, hb with
    | [x], _ =>
      rw [mroot_one] at hv
      exact ⟨0, by simp, by simpa [fold] using hv.symm, fun _ => by simp [Nat.mod_one]⟩
  · intro ws w ih b h idx hb hbl hh hv
    rw [List.length_append, List.length_singleton, Nat.pow_succ] at hb
    have hpk := Nat.one_le_two_pow (n := ws.length)
    have hsplit : b = b.take (2 ^ ws.length) ++ b.drop (2 ^ ws.length) := (List.take_append_drop _ _).symm
    have ha : (b.take (2 ^ ws.length)).length = 2 ^ ws.length := by simp; omega
    have hc : (b.drop (2 ^ ws.length)).length = 2 ^ ws.length := by simp; omega
    have hal : ∀ x ∈ b.take (2 ^ ws.length), x.length = 32 := fun x hx => hbl x (List.mem_of_mem_take hx)
    have hcl : ∀ x ∈ b.drop (2 ^ ws.length), x.length = 32 := fun x hx => hbl x (List.mem_of_mem_drop hx)
    obtain ⟨m1, m2, m3, m4⟩ := inputs_half H _ _ ws.length ha hc
    rw [← hsplit] at m1 m2 m3 m4
    have la := mroot_length H 32 hH (b.take (2 ^ ws.length)) (by intro h0; rw [h0] at ha; simp at ha; omega) hal
    have lc := mroot_length H 32 hH (b.drop (2 ^ ws.length)) (by intro h0; rw [h0] at hc; simp at hc; omega) hcl
    obtain ⟨s1, s2⟩ := fold_snoc H ws w h idx
    have hcur := fold_len hH ws h idx hh
    rw [s1, m1] at hv
    rw [s2]
    by_cases heq : (if halves ws.length idx % 2 = 0 then fold H ws h idx ++ w else w ++ fold H ws h idx) =
        mroot H (b.take (2 ^ ws.length)) ++ mroot H (b.drop (2 ^ ws.length))
    · have hmod : ∀ m : Nat, m % 2 ^ (ws.length + 1) = m % 2 ^ ws.length + 2 ^ ws.length * (m / 2 ^ ws.length % 2) := fun m => by
        rw [Nat.pow_succ]; exact Nat.mod_mul
      have hbit : 0 ≤ idx → halves ws.length idx = ((idx.toNat / 2 ^ ws.length : Nat) : Int) := fun hi => by
        have := halves_nat ws.length idx.toNat
        rwa [Int.toNat_of_nonneg hi] at this
      by_cases hd : halves ws.length idx % 2 = 0
      · rw [if_pos hd] at heq
        have heq := (List.append_inj heq (by rw [hcur, la])).1
        rcases ih _ h idx ha hal hh heq with ⟨x, hx, y, hy, hne, he⟩ | ⟨p, p1, p2, p3⟩
        · left; exact ⟨x, List.mem_append_left _ hx, y, m3 y hy, hne, he⟩
        · right
          refine ⟨p, by rw [List.length_append, List.length_singleton, Nat.pow_succ]; omega, ?_, fun hi => ?_⟩
          · rw [List.getElem?_take] at p2; simpa [p1] using p2
          · rw [List.length_append, List.length_singleton, hmod, ← p3 hi]
            rw [hbit hi] at hd
            have : idx.toNat / 2 ^ ws.length % 2 = 0 := by omega
            rw [this]; simp
      · rw [if_neg hd] at heq
        have heq := (List.append_inj' heq (by rw [hcur, lc])).2
        rcases ih _ h idx hc hcl hh heq with ⟨x, hx, y, hy, hne, he⟩ | ⟨p, p1, p2, p3⟩
        · left; exact ⟨x, List.mem_append_left _ hx, y, m4 y hy, hne, he⟩
        · right
          refine ⟨2 ^ ws.length + p, by rw [List.length_append, List.length_singleton, Nat.pow_succ]; omega, ?_, fun hi => ?_⟩
          · rw [List.getElem?_drop] at p2; exact p2
          · rw [List.length_append, List.length_singleton, hmod, ← p3 hi]
            rw [hbit hi] at hd
            have : idx.toNat / 2 ^ ws.length % 2 = 1 := by omega
            rw [this]; simp; omega
    · left
      exact ⟨_, by simp, _, m2, heq, hv⟩

theorem deployed {H : Bytes → Bytes} (hs : List Bytes) : ∀ m : M, m.cacheSize = 0 → m.cache = [] → m.allowNewer = false →
    (addAll H m hs).cacheSize = 0 ∧ (addAll H m hs).cache = [] ∧ (addAll H m hs).allowNewer = false := by
  induction hs with
  | nil => intro m h1 h2 h3; exact ⟨h1, h2, h3⟩
  | cons h hs ih =>
    intro m h1 h2 h3
    refine ih (add H m h) ?_ ?_ ?_
    all_goals
      unfold add
      simp only [putCache_zero m h h1 h2]
      split
      · assumption
      · split <;> assumption

/-- **C118**: only witnesses of exactly the current height are accepted; a witness of an older height is refused. -/
theorem C118_only_current {H : Bytes → Bytes} (o : Int) (hs : List Bytes) (ws : List Bytes) (h : Bytes) (height at_ : Int)
    (hv : verify H (addAll H (init o) hs) ws h height at_ = .ok) : at_ = (addAll H (init o) hs).height := by
  obtain ⟨h1, h2, h3⟩ := deployed (H := H) hs (init o) rfl rfl rfl
  unfold verify at hv
  by_cases c1 : (addAll H (init o) hs).height = at_
  · exact c1.symm
  · exfalso
    rw [if_neg c1] at hv
    by_cases c2 : (addAll H (init o) hs).height < at_
    · rw [if_pos c2, h3, if_pos (by rfl)] at hv; cases hv
    · rw [if_neg c2, h2] at hv
      split at hv
      · rw [if_neg (by simp)] at hv; cases hv
      · cases hv

/-- **C118**, soundness (partial: the height is only bound up to the size of the tree): an accepted hash is one of the blocks, at the
position of the height modulo the size of its tree, or hash inputs collide. The elements of the witness may have any length. -/
theorem C118_sound_partial {H : Bytes → Bytes} (hH : ∀ x, (H x).length = 32) (o : Int) (ho : 0 ≤ o) (hs : List Bytes) (h32 : ∀ h ∈ hs, h.length = 32)
    (ws : List Bytes) (h : Bytes) (hh : h.length = 32) (height at_ : Int) (hv : verify H (addAll H (init o) hs) ws h height at_ = .ok) :
    (∃ i : Nat, hs[i]? = some h ∧ (o < height → i % 2 ^ ws.length = (height - 1 - o).toNat % 2 ^ ws.length)) ∨
      ∃ s n, Collision H (calls H ws h (height - 1 - o)) (inputs H ((hs.drop s).take n)) := by
  have hc := C118_only_current o hs ws h height at_ hv
  obtain ⟨h1, h2, h3⟩ := C118_structure hH o ho hs h32
  unfold verify at hv
  rw [if_pos hc.symm] at hv
  cases hr : (addAll H (init o) hs).roots[ws.length]? with
  | none => rw [hr] at hv; cases hv
  | some root =>
    rw [hr] at hv
    simp only [check, h2] at hv
    by_cases hroot : some (fold H ws h (height - 1 - o)) = root
    · rw [← hroot] at hr
      obtain ⟨b1, b2⟩ := (h3 _ _).1 hr
      generalize hst : hs.length / 2 ^ (ws.length + 1) * 2 ^ (ws.length + 1) = st at *
      have hlen : 2 ^ ws.length ≤ hs.length - st := by
        have e1 : hs.length % 2 ^ (ws.length + 1) = hs.length % 2 ^ ws.length + 2 ^ ws.length * (hs.length / 2 ^ ws.length % 2) := by
          rw [Nat.pow_succ]; exact Nat.mod_mul
        have e2 := Nat.div_add_mod hs.length (2 ^ (ws.length + 1))
        rw [Nat.mul_comm, hst] at e2
        rw [b1] at e1
        omega
      have hbl : ((hs.drop st).take (2 ^ ws.length)).length = 2 ^ ws.length := by
        rw [List.length_take, List.length_drop]; omega
      rcases fold_sound hH ws _ h (height - 1 - o) hbl (fun x hx => h32 x (List.mem_of_mem_drop (List.mem_of_mem_take hx))) hh b2 with hcol | ⟨p, p1, p2, p3⟩
      · exact Or.inr ⟨st, _, hcol⟩
      · left
        rw [List.getElem?_take, if_pos p1, List.getElem?_drop] at p2
        refine ⟨st + p, p2, fun hlt => ?_⟩
        rw [← p3 (by omega), ← hst, Nat.pow_succ]
        rw [show hs.length / (2 ^ ws.length * 2) * (2 ^ ws.length * 2) = 2 ^ ws.length * (hs.length / (2 ^ ws.length * 2) * 2) by
          rw [Nat.mul_comm (2 ^ ws.length) 2, ← Nat.mul_assoc, Nat.mul_comm]]
        rw [Nat.mul_add_mod, Nat.mod_eq_of_lt p1]
    · rw [if_pos hroot] at hv; cases hv

theorem vloop_fold {H : Bytes → Bytes} (hH : ∀ x, (H x).length = 32) (ws : List Bytes) : ∀ (h : Bytes) (idx : Int), h.length = 32 → (∀ w ∈ ws, w.length = 32) →
    JavaMta.vloop H ws.length ws h idx = some (fold H ws h idx) := by
  induction ws with
  | nil => intro h idx _ _; rfl
  | cons w ws ih =>
    intro h idx hh hw
    have hi : (idx.tmod 2 = 0) ↔ (idx % 2 = 0) := by
      rw [← Int.dvd_iff_tmod_eq_zero, ← Int.dvd_iff_emod_eq_zero]
    have e : JavaMta.vloop H (w :: ws).length (w :: ws) h idx = (if idx.tmod 2 = 0 then JavaMta.concatAndHash H h w else JavaMta.concatAndHash H w h).bind
      fun h' => JavaMta.vloop H ws.length ws h' (idx.tdiv 2) := rfl
    rw [e]
    unfold fold
    have hwl := hw w (by simp)
    by_cases c : idx % 2 = 0
    · rw [if_pos (hi.2 c), if_pos c, JavaMta.concat_ok H _ _ hh hwl]
      exact ih _ _ (hH _) (fun x hx => hw x (by simp [hx]))
    · rw [if_neg (fun x => c (hi.1 x)), if_neg c, JavaMta.concat_ok H _ _ hwl hh]
      exact ih _ _ (hH _) (fun x hx => hw x (by simp [hx]))

/-- **C118**: both contracts accept the same witnesses of hashes. -/
theorem C118_accepts_as_java {H : Bytes → Bytes} (hH : ∀ x, (H x).length = 32) (o : Int) (ho : 0 ≤ o) (hs : List Bytes) (h32 : ∀ h ∈ hs, h.length = 32)
    (ws : List Bytes) (hw : ∀ w ∈ ws, w.length = 32) (h : Bytes) (hh : h.length = 32) (height at_ : Int) :
    ∃ j, JavaMta.addAll H (JavaMta.init o) hs = some j ∧ (verify H (addAll H (init o) hs) ws h height at_ = .ok ↔ JavaMta.verify H j ws h height at_ = .ok) := by
  obtain ⟨j, e, s⟩ := C118_as_java hH o ho hs h32
  refine ⟨j, e, ?_⟩
  have hvl := vloop_fold hH ws h (height - 1 - j.offset) hh hw
  by_cases c : j.height = at_
  · unfold verify JavaMta.verify
    rw [s.height, if_pos c, if_pos c, s.roots, s.offset]
    cases j.roots[ws.length]? with
    | none => simp
    | some root =>
      simp only [check, JavaMta.verifyRoot, hvl]
      by_cases g : root = some (fold H ws h (height - 1 - j.offset))
      · rw [if_neg (by simp [g]), if_pos g]; simp
      · rw [if_pos (fun x => g x.symm), if_neg g]; simp
  · constructor
    · intro hv
      have := C118_only_current o hs ws h height at_ hv
      rw [s.height] at this
      exact absurd this.symm c
    · intro hv
      exact absurd (JavaMta.C93_only_current o hs j e ws h height at_ hv).symm c

/-- **C118**, completeness: the witness that the relay makes for a block is accepted at the same height. -/
theorem C118_relay_accepted {H : Bytes → Bytes} (hH : ∀ x, (H x).length = 32) (o : Int) (ho : 0 ≤ o) (hs : List Bytes) (h32 : ∀ h ∈ hs, h.length = 32)
    (db : Db) (a : Acc) (ha : a.Ok H db hs) (i : Nat) (x : Bytes) (hx : hs[i]? = some x) :
    ∃ a' w, a.witnessFor H db i = (a', some w) ∧ verify H (addAll H (init o) hs) (witnessesToHashes w) x (o + i + 1) (o + hs.length) = .ok := by
  obtain ⟨j, a', w, e, hw, hv⟩ := JavaMta.C93_relay_accepted hH o hs h32 db a ha i x hx
  refine ⟨a', w, hw, ?_⟩
  have hi : i < hs.length := (List.getElem?_eq_some_iff.1 hx).1
  obtain ⟨d, a2, hdep, hw2, _⟩ := ha.witness hH i hi
  rw [hw] at hw2
  have hwe := Option.some.inj (Prod.mk.inj hw2).2
  have hl : ∀ v ∈ witnessesToHashes w, v.length = 32 := by
    rw [hwe]
    exact JavaMta.wit_hash_len hH hs h32 i d hdep
  obtain ⟨j2, e2, hiff⟩ := C118_accepts_as_java hH o ho hs h32 _ hl x (h32 x (List.mem_of_getElem? hx)) (o + i + 1) (o + hs.length)
  rw [e] at e2
  cases e2
  exact hiff.2 hv

/-- **C118** is false as to the height: with an odd number of blocks the last one is accepted for every height. -/
theorem C118_height_not_bound {H : Bytes → Bytes} (hH : ∀ x, (H x).length = 32) (o : Int) (ho : 0 ≤ o) (hs : List Bytes) (x : Bytes)
    (h32 : ∀ h ∈ hs ++ [x], h.length = 32) (hodd : hs.length % 2 = 0) (height : Int) :
    verify H (addAll H (init o) (hs ++ [x])) [] x height (o + (hs ++ [x]).length) = .ok := by
  obtain ⟨j, e, hv⟩ := JavaMta.C93_height_not_bound hH o hs x h32 hodd height
  obtain ⟨j2, e2, hiff⟩ := C118_accepts_as_java hH o ho (hs ++ [x]) h32 [] (by simp) x (h32 x (by simp)) height (o + (hs ++ [x]).length)
  rw [e] at e2
  cases e2
  exact hiff.2 hv

/-! ### The stored accumulator -/

theorem roots_back (l : List (Option Bytes)) :
    ((l.map fun r => match r with | none => PyRlp.Obj.none | some b => PyRlp.Obj.bytes b).mapM (PyRlp.expect (fun _ => true) .bytes)).bind (·.mapM asRoot) = some l := by
  induction l with
  | nil => rfl
  | cons x l ih =>
    obtain ⟨vs, h1, h2⟩ := Option.bind_eq_some_iff.1 ih
    rw [List.map_cons, List.mapM_cons]
    cases x with
    | none =>
      show (Option.bind (some PyRlp.Val.none) _).bind _ = _
      simp only [Option.bind_some, h1]
      show Option.bind (some (PyRlp.Val.none :: vs)) _ = _
      rw [Option.bind_some, List.mapM_cons, h2]; rfl
    | some b =>
      show (Option.bind (some (PyRlp.Val.bytes b)) _).bind _ = _
      simp only [Option.bind_some, h1]
      show Option.bind (some (PyRlp.Val.bytes b :: vs)) _ = _
      rw [Option.bind_some, List.mapM_cons, h2]; rfl

theorem cache_back (l : List Bytes) : ((l.map PyRlp.Obj.bytes).mapM (PyRlp.expect (fun _ => true) .bytes)).bind (·.mapM asBytes) = some l := by
  induction l with
  | nil => rfl
  | cons b l ih =>
    obtain ⟨vs, h1, h2⟩ := Option.bind_eq_some_iff.1 ih
    rw [List.map_cons, List.mapM_cons]
    show (Option.bind (some (PyRlp.Val.bytes b)) _).bind _ = _
    simp only [Option.bind_some, h1]
    show Option.bind (some (PyRlp.Val.bytes b :: vs)) _ = _
    rw [Option.bind_some, List.mapM_cons, h2]; rfl

/-- **C118**: the accumulator that is stored is the one that is read by the next call. -/
theorem C118_stored (m : M) (hl : (toBytes m).length < 65536) (hz : m.height = 0 → m.offset ≤ 0) : fromBytes (fun _ => true) (toBytes m) = some m := by
  unfold fromBytes
  have hw := PyRlp.whole_list _ hl
  have hd : PyRlp.decode (fun _ => true) .raw (toBytes m) = some (.items (PyRlp.encodes [.int m.height,
      .list (m.roots.map fun r => match r with | none => .none | some b => .bytes b), .int m.offset,
      .int m.rootsSize, .int m.cacheSize, .list (m.cache.map .bytes), .int (if m.allowNewer then 1 else 0)])) :=
    PyRlp.C115_roundtrip_partial _ .raw _ _ rfl hl
  rw [hd]
  have hall := hw.2
  simp only [PyRlp.encodes]
  have hi : ∀ v : Int, (PyRlp.encode (.int v)).length < 65536 → asInt (PyRlp.decode (fun _ => true) .int (PyRlp.encode (.int v))) = some v := by
    intro v hv
    rw [PyRlp.C115_roundtrip_partial _ .int (.int v) (.int v) rfl hv]; rfl
  rw [hi m.height (hall _ (by simp)), hi m.offset (hall _ (by simp)), hi m.rootsSize (hall _ (by simp)), hi m.cacheSize (hall _ (by simp))]
  obtain ⟨rv, hr1, hr2⟩ := Option.bind_eq_some_iff.1 (roots_back m.roots)
  obtain ⟨cv, hc1, hc2⟩ := Option.bind_eq_some_iff.1 (cache_back m.cache)
  have e1 := PyRlp.C115_roundtrip_partial (fun _ => true) (.each .bytes) (.list (m.roots.map fun r => match r with | none => .none | some b => .bytes b)) (.list rv) (by
      show Option.map PyRlp.Val.list (List.mapM (PyRlp.expect (fun _ => true) .bytes) (m.roots.map _)) = _
      exact congrArg (Option.map PyRlp.Val.list) hr1) (hall _ (List.mem_cons_of_mem _ List.mem_cons_self))
  have e2 := PyRlp.C115_roundtrip_partial (fun _ => true) (.each .bytes) (.list (m.cache.map .bytes)) (.list cv) (by
      show Option.map PyRlp.Val.list (List.mapM (PyRlp.expect (fun _ => true) .bytes) (m.cache.map _)) = _
      exact congrArg (Option.map PyRlp.Val.list) hc1) (hall _ (by simp))
  rw [e1, e2, PyRlp.C115_roundtrip_partial _ .bool (.int (if m.allowNewer then 1 else 0)) (.bool m.allowNewer) (by
      cases m.allowNewer <;> rfl) (hall _ (by simp))]
  simp only [Option.bind_some, asRoots, asCache, asBool, hr2, hc2]
  rw [if_neg (by rintro ⟨a, b⟩; have := hz a; omega)]
  simp

/-! ### Examples -/

def exM : M := addAll exH (init 10) JavaMta.exLeaves
example : exM.height = 15 ∧ exM.offset = 10 ∧ exM.roots.map Option.isSome = [true, false, true] := by decide +kernel
example : verify exH exM JavaMta.exW (exHash 3) 13 15 = .ok := by decide +kernel
example : verify exH exM JavaMta.exW (exHash 4) 14 15 = .bad := by decide +kernel
example : verify exH exM [] (exHash 5) 3 15 = .ok := by decide +kernel
example : verify exH exM JavaMta.exW (exHash 3) 13 14 = .old := by decide +kernel
example : verify exH exM JavaMta.exW (exHash 3) 15 14 = .bad := by decide +kernel
example : (toBytes exM).length < 65536 ∧ fromBytes (fun _ => true) (toBytes exM) = some exM := by
  have : (toBytes exM).length < 65536 := by decide +kernel
  exact ⟨this, C118_stored exM this (by decide +kernel)⟩

end Verif.PyMta
