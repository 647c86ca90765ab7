import Verif.Mta
import Verif.MbtSound
/-!
Helpers for the accumulator properties: what a correct accumulator looks like.
-/
namespace Verif.Mta
open Verif Verif.Merkle

/-- `n` leaves from position `s`. -/
def blk (hs : List Bytes) (s n : Nat) : List Bytes := (hs.drop s).take n

theorem blk_length (hs : List Bytes) (s n : Nat) (h : s + n ≤ hs.length) : (blk hs s n).length = n := by
  simp [blk]; omega

theorem blk_append (hs : List Bytes) (s n m : Nat) : blk hs s n ++ blk hs (s + n) m = blk hs s (n + m) := by
  unfold blk
  rw [List.take_add, List.drop_drop]

theorem blk_double (hs : List Bytes) (s k : Nat) : blk hs s (2 ^ (k + 1)) = blk hs s (2 ^ k) ++ blk hs (s + 2 ^ k) (2 ^ k) := by
  rw [blk_append, Nat.pow_succ, Nat.mul_two]

theorem blk_take (hs : List Bytes) (m s n : Nat) (h : s + n ≤ m) : blk (hs.take m) s n = blk hs s n := by
  unfold blk
  rw [List.drop_take, List.take_take, Nat.min_eq_left (by omega)]

theorem blk_left (a b : List Bytes) (s n : Nat) (h : s + n ≤ a.length) : blk (a ++ b) s n = blk a s n := by
  unfold blk
  rw [List.drop_append, List.take_append]
  have : n - (a.drop s).length = 0 := by simp; omega
  rw [this]; simp

theorem fix32_eq (h : Bytes) (hl : h.length = 32) : fix32 h = h := by
  simp [fix32, hl, List.take_of_length_le]

/-- A subtree of `2^k` leaves is in the database under the hash `h`. -/
def Stored (H : Bytes → Bytes) (db : Db) : Nat → Bytes → List Bytes → Prop
  | 0, h, b => b = [h] ∧ h.length = 32
  | k + 1, h, b => ∃ a c la lc, b = a ++ c ∧ a.length = 2 ^ k ∧ c.length = 2 ^ k ∧ la.length = 32 ∧ lc.length = 32 ∧
      h = H (la ++ lc) ∧ db h = la ++ lc ∧ Stored H db k la a ∧ Stored H db k lc c

/-- A node stands for the perfect tree over `2^k` leaves. -/
def Rep (H : Bytes → Bytes) (db : Db) : Nat → Node → List Bytes → Prop
  | k, .hash h, b => Stored H db k h b
  | k, .data _ d, b => k = 0 ∧ b = [H d]
  | k', .br fl key l r, b => ∃ k a c, k' = k + 1 ∧ b = a ++ c ∧ a.length = 2 ^ k ∧ c.length = 2 ^ k ∧
      Rep H db k l a ∧ Rep H db k r c ∧ (∀ x, key = some x → x = H (l.hashOf H ++ r.hashOf H)) ∧
      (fl = true → Stored H db (k + 1) (H (l.hashOf H ++ r.hashOf H)) b)

theorem Stored.root {H : Bytes → Bytes} (hH : ∀ x, (H x).length = 32) {db : Db} {k : Nat} {h : Bytes} {b : List Bytes} (hs : Stored H db k h b) :
    h = mroot H b ∧ h.length = 32 ∧ b.length = 2 ^ k := by
  induction k generalizing h b with
  | zero => obtain ⟨rfl, hl⟩ := hs; exact ⟨(mroot_one H h).symm, hl, rfl⟩
  | succ k ih =>
    obtain ⟨a, c, la, lc, rfl, h1, h2, h3, h4, rfl, h6, h7, h8⟩ := hs
    have := Nat.one_le_two_pow (n := k)
    refine ⟨?_, hH _, by rw [List.length_append, Nat.pow_succ]; omega⟩
    rw [mroot_append H a c k h1 (by intro h; subst h; simp at h2; omega) (by omega), ← (ih h7).1, ← (ih h8).1]

theorem Rep.root {H : Bytes → Bytes} (hH : ∀ x, (H x).length = 32) {db : Db} {k : Nat} {n : Node} {b : List Bytes} (hr : Rep H db k n b) :
    n.hashOf H = mroot H b ∧ (n.hashOf H).length = 32 ∧ b.length = 2 ^ k := by
  induction n generalizing k b with
  | hash h => simp only [Rep] at hr; exact hr.root hH
  | data fl d => obtain ⟨rfl, rfl⟩ := hr; exact ⟨(mroot_one H _).symm, hH _, rfl⟩
  | br fl key l r ihl ihr =>
    obtain ⟨k, a, c, rfl, rfl, h1, h2, h3, h4, h5, h6⟩ := hr
    have := Nat.one_le_two_pow (n := k)
    have hm := mroot_append H a c k h1 (by intro h; subst h; simp at h2; omega) (by omega)
    have e : (Node.br fl key l r).hashOf H = H (l.hashOf H ++ r.hashOf H) := by
      cases key with
      | none => rw [Node.hashOf, fix32_eq _ (ihl h3).2.1, fix32_eq _ (ihr h4).2.1]
      | some x => rw [Node.hashOf]; exact h5 x rfl
    refine ⟨?_, by rw [e]; exact hH _, by rw [List.length_append, Nat.pow_succ]; omega⟩
    rw [e, hm, ← (ihl h3).1, ← (ihr h4).1]

theorem Rep.br_hash {H : Bytes → Bytes} (hH : ∀ x, (H x).length = 32) {db : Db} {k : Nat} {fl : Bool} {key : Option Bytes} {l r : Node}
    {b : List Bytes} (hr : Rep H db k (.br fl key l r) b) :
    (Node.br fl key l r).hashOf H = H (l.hashOf H ++ r.hashOf H) := by
  obtain ⟨k, a, c, rfl, rfl, h1, h2, h3, h4, h5, h6⟩ := hr
  cases key with
  | none => rw [Node.hashOf, fix32_eq _ (h3.root hH).2.1, fix32_eq _ (h4.root hH).2.1]
  | some x => rw [Node.hashOf]; exact h5 x rfl

/-- Resolving a stored subtree. -/
theorem resolve_rep {H : Bytes → Bytes} {db : Db} {k : Nat} {h : Bytes} {b : List Bytes} (hs : Stored H db (k + 1) h b) :
    ∃ n, resolve db h = some n ∧ Rep H db (k + 1) n b ∧ n.hashOf H = h ∧ ∃ fl key l r, n = .br fl key l r := by
  have hs' := hs
  obtain ⟨a, c, la, lc, rfl, h1, h2, h3, h4, h5, h6, h7, h8⟩ := hs
  have t : (la ++ lc).take 32 = la := by rw [List.take_append, h3]; simp [← h3]
  have d : (la ++ lc).drop 32 = lc := by rw [List.drop_append, h3]; simp [← h3]
  refine ⟨.br true (some h) (.hash la) (.hash lc), ?_, ⟨k, a, c, rfl, rfl, h1, h2, h7, h8, ?_, ?_⟩, rfl, _, _, _, _, rfl⟩
  · simp only [resolve, h6]
    rw [if_neg (by rw [List.length_append, h3, h4]; simp [hashSize]), t, d]
  · intro x hx; simp at hx; subst hx; exact h5
  · intro _; simp only [Node.hashOf]; rw [← h5]; exact hs'

/-- Roots from level `k` upwards over the leaves `hs`. -/
def Inv (H : Bytes → Bytes) (db : Db) : Nat → List (Option Node) → List Bytes → Prop
  | _, [], hs => hs = []
  | k, none :: rs, hs => Inv H db (k + 1) rs hs ∧ hs ≠ []
  | k, some n :: rs, hs => ∃ a b, hs = a ++ b ∧ Rep H db k n b ∧ Inv H db (k + 1) rs a

theorem addNode_inv (H : Bytes → Bytes) (hH : ∀ x, (H x).length = 32) (db : Db) (k : Nat) (rs : List (Option Node)) (n : Node)
    (hs b : List Bytes) (h : Inv H db k rs hs) (hn : Rep H db k n b) :
    Inv H db k (addNode H rs n).1 (hs ++ b) := by
  induction rs generalizing k n hs b with
  | nil =>
    simp only [Inv] at h; subst h
    exact ⟨[], b, by simp, hn, rfl⟩
  | cons o rs ih =>
    cases o with
    | none => exact ⟨hs, b, rfl, hn, h.1⟩
    | some r =>
      obtain ⟨a, b', rfl, h1, h2⟩ := h
      have e1 := h1.root hH; have e2 := hn.root hH
      rw [addNode, if_neg (by rw [e1.2.1]; omega)]
      have hbr : Rep H db (k + 1) (.br false none r n) (b' ++ b) :=
        ⟨k, b', b, rfl, rfl, e1.2.2, e2.2.2, h1, hn, by simp, by simp⟩
      refine ⟨?_, ?_⟩
      · rw [List.append_assoc]; exact ih (k + 1) _ a (b' ++ b) h2 hbr
      · intro h0
        have h' := congrArg List.length h0
        have := Nat.one_le_two_pow (n := k)
        rw [List.length_append, List.length_append, e2.2.2] at h'
        simp at h'

/-- `log2`-free description of the depth of leaf `i` in an accumulator of `n` leaves. -/
def IsDepth (n i d : Nat) : Prop := n / 2 ^ d % 2 = 1 ∧ i / 2 ^ d + 1 = n / 2 ^ d

theorem div_pow_succ (n k : Nat) : n / 2 ^ (k + 1) = n / 2 ^ k / 2 := by rw [Nat.pow_succ, Nat.div_div_eq_div_mul]

theorem testBit_iff (n k : Nat) : n.testBit k = true ↔ n / 2 ^ k % 2 = 1 := by
  rw [Nat.testBit_eq_decide_div_mod_eq]; simp

theorem Inv.facts {H : Bytes → Bytes} (hH : ∀ x, (H x).length = 32) {db : Db} {k : Nat} {rs : List (Option Node)} {hs : List Bytes}
    (h : Inv H db k rs hs) :
    2 ^ k ∣ hs.length ∧ hs.length / 2 ^ k < 2 ^ rs.length ∧ (rs ≠ [] → 2 ^ (rs.length - 1) ≤ hs.length / 2 ^ k) ∧
    ∀ o, (∃ n, rs[o]? = some (some n) ∧ hs.length / 2 ^ (k + o) % 2 = 1 ∧
            hs.length / 2 ^ (k + o + 1) * 2 ^ (k + o + 1) + 2 ^ (k + o) ≤ hs.length ∧
            Rep H db (k + o) n (blk hs (hs.length / 2 ^ (k + o + 1) * 2 ^ (k + o + 1)) (2 ^ (k + o)))) ∨
         (rs[o]? ≠ some none → rs[o]? = none) ∧ (∀ n, rs[o]? ≠ some (some n)) ∧ hs.length / 2 ^ (k + o) % 2 = 0 := by
  induction rs generalizing k hs with
  | nil =>
    simp only [Inv] at h; subst h
    refine ⟨by simp, by simp, by simp, fun o => Or.inr ⟨by simp, by simp, by simp⟩⟩
  | cons x rs ih =>
    cases x with
    | none =>
      obtain ⟨i1, i2, i3, i4⟩ := ih h.1
      have hd : 2 ^ k ∣ hs.length := Nat.dvd_trans (Nat.pow_dvd_pow 2 (by omega)) i1
      obtain ⟨m, hm⟩ := i1
      have hp := Nat.one_le_two_pow (n := k)
      have e0 : hs.length / 2 ^ (k + 1) = m := by rw [hm, Nat.mul_div_cancel_left _ (by rw [Nat.pow_succ]; omega)]
      have e1 : hs.length / 2 ^ k = 2 * m := by
        rw [hm, Nat.pow_succ, Nat.mul_assoc, Nat.mul_div_cancel_left _ (by omega)]
      rw [e0] at i2 i3
      have hrs : rs ≠ [] := by
        intro h0; subst h0
        simp at i2; subst i2
        simp at hm; exact h.2 hm
      refine ⟨hd, ?_, ?_, ?_⟩
      · rw [e1, List.length_cons, Nat.pow_succ]; omega
      · intro _
        have := i3 hrs
        rw [e1, List.length_cons, show rs.length + 1 - 1 = rs.length - 1 + 1 by
          have := List.length_pos_iff.mpr hrs; omega, Nat.pow_succ]
        omega
      · intro o
        cases o with
        | zero => right; refine ⟨by simp, by simp, ?_⟩; rw [Nat.add_zero, e1]; omega
        | succ o =>
          have := i4 o
          rw [show k + 1 + o = k + (o + 1) by omega] at this
          simpa using this
    | some nd =>
      obtain ⟨a, b, rfl, h1, h2⟩ := h
      obtain ⟨i1, i2, i3, i4⟩ := ih h2
      have hb := (h1.root hH).2.2
      have hp := Nat.one_le_two_pow (n := k)
      obtain ⟨m, hm⟩ := i1
      have hps : 2 ^ (k + 1) = 2 * 2 ^ k := by rw [Nat.pow_succ]; omega
      have hlen : (a ++ b).length = 2 ^ k * (2 * m + 1) := by
        rw [List.length_append, hb, hm, hps, Nat.mul_add, Nat.mul_comm 2 (2 ^ k), Nat.mul_assoc]; omega
      have e0 : a.length / 2 ^ (k + 1) = m := by rw [hm, Nat.mul_div_cancel_left _ (by omega)]
      have e1 : (a ++ b).length / 2 ^ k = 2 * m + 1 := by rw [hlen, Nat.mul_div_cancel_left _ (by omega)]
      have e2 : ∀ j, (a ++ b).length / 2 ^ (k + 1 + j) = a.length / 2 ^ (k + 1 + j) := by
        intro j
        rw [Nat.pow_add, ← Nat.div_div_eq_div_mul, ← Nat.div_div_eq_div_mul, e0, div_pow_succ, e1]
        congr 1; omega
      rw [e0] at i2 i3
      refine ⟨⟨_, hlen⟩, ?_, ?_, ?_⟩
      · rw [e1, List.length_cons, Nat.pow_succ]; omega
      · intro _
        rw [e1, List.length_cons]
        by_cases hrs : rs = []
        · subst hrs; simp
        · have := i3 hrs
          rw [show rs.length + 1 - 1 = rs.length - 1 + 1 by have := List.length_pos_iff.mpr hrs; omega, Nat.pow_succ]
          omega
      · intro o
        cases o with
        | zero =>
          left
          have hst : (a ++ b).length / 2 ^ (k + 0 + 1) * 2 ^ (k + 0 + 1) = a.length := by
            have := e2 0
            simp only [Nat.add_zero] at this ⊢
            rw [this, e0, hm, Nat.mul_comm]
          refine ⟨nd, by simp, by simp only [Nat.add_zero, e1]; omega, ?_, ?_⟩
          · rw [hst, List.length_append, hb]; simp
          · rw [hst]
            have : blk (a ++ b) a.length (2 ^ (k + 0)) = b := by
              simp [blk, ← hb]
            rw [this]; exact h1
        | succ o =>
          have e3 := e2 o
          have e4 := e2 (o + 1)
          rw [show k + 1 + o = k + (o + 1) by omega] at e3
          rw [show k + 1 + (o + 1) = k + (o + 1) + 1 by omega] at e4
          have := i4 o
          rw [show k + 1 + o = k + (o + 1) by omega] at this
          rw [e3, e4]
          rcases this with ⟨n, a1, a2, a3, a4⟩ | h'
          · left
            refine ⟨n, by simpa using a1, a2, ?_, ?_⟩
            · rw [List.length_append]; omega
            · rw [blk_left a b _ _ a3]; exact a4
          · right; simpa using h'

theorem len_div (n r k m j : Nat) (hn : n = 2 ^ (k + 1) * m) (hr : r < 2 ^ (k + 1)) :
    (n + r) / 2 ^ (k + 1 + j) = n / 2 ^ (k + 1 + j) := by
  have hp := Nat.one_le_two_pow (n := k + 1)
  rw [Nat.pow_add, ← Nat.div_div_eq_div_mul, ← Nat.div_div_eq_div_mul, hn, Nat.mul_add_div (by omega),
    Nat.div_eq_of_lt hr, Nat.mul_div_cancel_left _ (by omega), Nat.add_zero]

theorem Inv.set {H : Bytes → Bytes} (hH : ∀ x, (H x).length = 32) {db : Db} {k : Nat} {rs : List (Option Node)} {hs : List Bytes}
    (h : Inv H db k rs hs) (o : Nat) (n n' : Node) (ho : rs[o]? = some (some n))
    (hr : Rep H db (k + o) n' (blk hs (hs.length / 2 ^ (k + o + 1) * 2 ^ (k + o + 1)) (2 ^ (k + o)))) :
    Inv H db k (rs.set o (some n')) hs := by
  induction rs generalizing k hs o with
  | nil => simp at ho
  | cons x rs ih =>
    cases x with
    | none =>
      cases o with
      | zero => simp at ho
      | succ o =>
        refine ⟨ih h.1 o (by simpa using ho) ?_, h.2⟩
        rw [show k + 1 + o = k + (o + 1) by omega]; exact hr
    | some nd =>
      obtain ⟨a, b, rfl, h1, h2⟩ := h
      have hb := (h1.root hH).2.2
      have fa := h2.facts hH
      obtain ⟨m, hm⟩ := fa.1
      have hp := Nat.one_le_two_pow (n := k)
      have e2 : ∀ j, (a ++ b).length / 2 ^ (k + 1 + j) = a.length / 2 ^ (k + 1 + j) := by
        intro j
        rw [List.length_append]
        exact len_div _ _ k m j hm (by rw [hb, Nat.pow_succ]; omega)
      cases o with
      | zero =>
        have hst : (a ++ b).length / 2 ^ (k + 0 + 1) * 2 ^ (k + 0 + 1) = a.length := by
          have := e2 0
          simp only [Nat.add_zero] at this ⊢
          rw [this, hm, Nat.mul_div_cancel_left _ (by rw [Nat.pow_succ]; omega), Nat.mul_comm]
        rw [hst] at hr
        have : blk (a ++ b) a.length (2 ^ (k + 0)) = b := by simp [blk, ← hb]
        rw [this] at hr
        exact ⟨a, b, rfl, hr, h2⟩
      | succ o =>
        have ho' : rs[o]? = some (some n) := by simpa using ho
        refine ⟨a, b, rfl, h1, ih h2 o ho' ?_⟩
        have e4 := e2 (o + 1)
        rw [show k + 1 + (o + 1) = k + (o + 1) + 1 by omega] at e4
        rw [show k + 1 + o = k + (o + 1) by omega, ← e4]
        rcases fa.2.2.2 o with ⟨_, _, _, a3, _⟩ | ⟨_, h', _⟩
        · rw [show k + 1 + o = k + (o + 1) by omega, ← e4] at a3
          rw [← blk_left a b _ _ a3]; exact hr
        · exact absurd ho' (h' n)

/-! ### Witnesses -/

/-- Sibling of leaf `i` at level `j`: side and hash of the block of `2^j` leaves next to that of `i`. -/
def entry (H : Bytes → Bytes) (hs : List Bytes) (i j : Nat) : W :=
  if i / 2 ^ j % 2 = 0 then ⟨1, mroot H (blk hs ((i / 2 ^ j + 1) * 2 ^ j) (2 ^ j))⟩
  else ⟨0, mroot H (blk hs ((i / 2 ^ j - 1) * 2 ^ j) (2 ^ j))⟩

/-- The honest witness of leaf `i` at depth `d`. -/
def wit (H : Bytes → Bytes) (hs : List Bytes) (i d : Nat) : List W := (List.range d).map (entry H hs i)

theorem wit_succ (H : Bytes → Bytes) (hs : List Bytes) (i d : Nat) : wit H hs i (d + 1) = wit H hs i d ++ [entry H hs i d] := by
  simp [wit, List.range_succ]

theorem wit_length (H : Bytes → Bytes) (hs : List Bytes) (i d : Nat) : (wit H hs i d).length = d := by simp [wit]

theorem mod_pow_succ' (i k : Nat) : i % 2 ^ (k + 1) = i % 2 ^ k + 2 ^ k * (i / 2 ^ k % 2) := by
  rw [Nat.pow_succ, Nat.mod_mul]

theorem witnessFor_hash (H : Bytes → Bytes) (db : Db) (d : Nat) (h : Bytes) (n : Node) (idx : Int)
    (hr : resolve db h = some n) (hb : ∃ fl key l r, n = .br fl key l r) :
    Node.witnessFor H db (d + 1) (.hash h) idx = Node.witnessFor H db (d + 1) n idx := by
  obtain ⟨fl, key, l, r, rfl⟩ := hb
  simp only [Node.witnessFor, hr, Option.getD_some]

theorem Rep.witness {H : Bytes → Bytes} (hH : ∀ x, (H x).length = 32) {db : Db} (hs : List Bytes) (k : Nat) (n : Node) (i : Nat)
    (hlen : i / 2 ^ k * 2 ^ k + 2 ^ k ≤ hs.length)
    (hr : Rep H db k n (blk hs (i / 2 ^ k * 2 ^ k) (2 ^ k))) :
    ∃ n', n.witnessFor H db k ((i % 2 ^ k : Nat) : Int) = (n', some (wit H hs i k)) ∧
      Rep H db k n' (blk hs (i / 2 ^ k * 2 ^ k) (2 ^ k)) := by
  induction k generalizing n with
  | zero =>
    cases n with
    | hash h => exact ⟨_, rfl, hr⟩
    | data fl d => exact ⟨_, rfl, hr⟩
    | br fl key l r => obtain ⟨k, _, _, h, _⟩ := hr; omega
  | succ k ih =>
    -- the case of a branch
    have hbr : ∀ fl key l r, Rep H db (k + 1) (.br fl key l r) (blk hs (i / 2 ^ (k + 1) * 2 ^ (k + 1)) (2 ^ (k + 1))) →
        ∃ n', (Node.br fl key l r).witnessFor H db (k + 1) ((i % 2 ^ (k + 1) : Nat) : Int) = (n', some (wit H hs i (k + 1))) ∧
          Rep H db (k + 1) n' (blk hs (i / 2 ^ (k + 1) * 2 ^ (k + 1)) (2 ^ (k + 1))) := by
      intro fl key l r hr
      obtain ⟨k', a, c, hk, hac, h1, h2, h3, h4, h5, h6⟩ := hr
      have : k' = k := by omega
      subst this
      have hp := Nat.one_le_two_pow (n := k')
      have hps : 2 ^ (k' + 1) = 2 ^ k' + 2 ^ k' := by rw [Nat.pow_succ]; omega
      have hq : i / 2 ^ (k' + 1) * 2 ^ (k' + 1) = (2 * (i / 2 ^ (k' + 1))) * 2 ^ k' := by
        rw [Nat.pow_succ, Nat.mul_comm (2 ^ k') 2, ← Nat.mul_assoc, Nat.mul_comm _ 2]
      have hd := div_pow_succ i k'
      have hspl : a = blk hs (2 * (i / 2 ^ (k' + 1)) * 2 ^ k') (2 ^ k') ∧
          c = blk hs ((2 * (i / 2 ^ (k' + 1)) + 1) * 2 ^ k') (2 ^ k') := by
        rw [hq, blk_double] at hac
        have := List.append_inj hac (by rw [h1, blk_length]; omega)
        rw [show (2 * (i / 2 ^ (k' + 1)) + 1) * 2 ^ k' = 2 * (i / 2 ^ (k' + 1)) * 2 ^ k' + 2 ^ k' by rw [Nat.add_mul]; omega]
        exact ⟨this.1.symm, this.2.symm⟩
      have rl := h3.root hH; have rr := h4.root hH
      have hm := mod_pow_succ' i k'
      have hmlt := Nat.mod_lt i (y := 2 ^ k') (by omega)
      rcases Nat.mod_two_eq_zero_or_one (i / 2 ^ k') with hpar | hpar
      · -- left
        have hi : 2 * (i / 2 ^ (k' + 1)) = i / 2 ^ k' := by omega
        rw [hi] at hspl
        simp only [hpar, Nat.mul_zero, Nat.add_zero] at hm
        obtain ⟨l', w1, w2⟩ := ih l (by rw [← hi, ← hq]; omega) (by rw [← hspl.1]; exact h3)
        refine ⟨.br fl key l' r, ?_, ⟨k', a, c, hk, hac, h1, h2, by rw [hspl.1]; exact w2, h4, ?_, ?_⟩⟩
        · rw [hm]
          simp only [Node.witnessFor]
          rw [if_pos (by have := Mbt.castPow2 k'; omega), w1, wit_succ]
          simp only [Option.map_some, entry]
          rw [if_pos hpar, rr.1, hspl.2]
        · have : l'.hashOf H = l.hashOf H := by rw [rl.1, (w2.root hH).1, hspl.1]
          rw [this]; exact h5
        · have : l'.hashOf H = l.hashOf H := by rw [rl.1, (w2.root hH).1, hspl.1]
          rw [this]; exact h6
      · -- right
        have hi : 2 * (i / 2 ^ (k' + 1)) + 1 = i / 2 ^ k' := by omega
        have hi' : 2 * (i / 2 ^ (k' + 1)) = i / 2 ^ k' - 1 := by omega
        rw [hi, hi'] at hspl
        simp only [hpar, Nat.mul_one] at hm
        have hmul : i / 2 ^ k' * 2 ^ k' = i / 2 ^ (k' + 1) * 2 ^ (k' + 1) + 2 ^ k' := by
          rw [hq, ← hi, Nat.add_mul]; omega
        obtain ⟨r', w1, w2⟩ := ih r (by rw [hmul]; omega) (by rw [← hspl.2]; exact h4)
        refine ⟨.br fl key l r', ?_, ⟨k', a, c, hk, hac, h1, h2, h3, by rw [hspl.2]; exact w2, ?_, ?_⟩⟩
        · rw [hm]
          simp only [Node.witnessFor]
          have hcp := Mbt.castPow2 k'
          rw [if_neg (by omega), show ((i % 2 ^ k' + 2 ^ k' : Nat) : Int) - 2 ^ k' = ((i % 2 ^ k' : Nat) : Int) by omega,
            w1, wit_succ]
          simp only [Option.map_some, entry]
          rw [if_neg (by omega), rl.1, hspl.1]
        · have : r'.hashOf H = r.hashOf H := by rw [rr.1, (w2.root hH).1, hspl.2]
          rw [this]; exact h5
        · have : r'.hashOf H = r.hashOf H := by rw [rr.1, (w2.root hH).1, hspl.2]
          rw [this]; exact h6
    cases n with
    | data fl d => exact absurd hr.1 (by omega)
    | br fl key l r => exact hbr fl key l r hr
    | hash h =>
      obtain ⟨n, e1, e2, e3, e4⟩ := resolve_rep hr
      rw [witnessFor_hash H db k h n _ e1 e4]
      obtain ⟨fl, key, l, r, rfl⟩ := e4
      exact hbr fl key l r e2

theorem witLoop_ok {H : Bytes → Bytes} (hH : ∀ x, (H x).length = 32) {db : Db} (rs : List (Option Node)) (hs : List Bytes)
    (hinv : Inv H db 0 rs hs) (i : Nat) (hi : i < hs.length) (o : Nat) (heq : i / 2 ^ o = hs.length / 2 ^ o) :
    ∃ d n n', d < o ∧ IsDepth hs.length i d ∧ rs[d]? = some (some n) ∧
      witLoop H db rs o ((i % 2 ^ o : Nat) : Int) = (rs.set d (some n'), some (wit H hs i d)) ∧
      Rep H db d n' (blk hs (hs.length / 2 ^ (d + 1) * 2 ^ (d + 1)) (2 ^ d)) := by
  induction o with
  | zero => simp at heq; omega
  | succ o ih =>
    have hf := (hinv.facts hH).2.2.2 o
    simp only [Nat.zero_add] at hf
    have hp := Nat.one_le_two_pow (n := o)
    have d1 := div_pow_succ i o; have d2 := div_pow_succ hs.length o
    have hm := mod_pow_succ' i o
    have hmlt := Nat.mod_lt i (y := 2 ^ o) (by omega)
    have hcp := Mbt.castPow2 o
    have hle : i / 2 ^ o ≤ hs.length / 2 ^ o := Nat.div_le_div_right (by omega)
    rcases hf with ⟨n, a1, a2, a3, a4⟩ | ⟨a1, a2, a3⟩
    · rw [witLoop, a1]
      simp only
      rcases Nat.mod_two_eq_zero_or_one (i / 2 ^ o) with hpar | hpar
      · simp only [hpar, Nat.mul_zero, Nat.add_zero] at hm
        have hst : hs.length / 2 ^ (o + 1) * 2 ^ (o + 1) = i / 2 ^ o * 2 ^ o := by
          have : i / 2 ^ o = 2 * (hs.length / 2 ^ (o + 1)) := by omega
          rw [this, Nat.pow_succ, Nat.mul_comm (2 ^ o) 2, ← Nat.mul_assoc, Nat.mul_comm _ 2]
        rw [hst] at a3 a4
        obtain ⟨n', w1, w2⟩ := a4.witness hH hs o n i a3
        refine ⟨o, n, n', by omega, ⟨a2, by omega⟩, a1, ?_, by rw [hst]; exact w2⟩
        rw [hm, if_pos (by omega), w1]
      · simp only [hpar, Nat.mul_one] at hm
        rw [hm, if_neg (by omega), show ((i % 2 ^ o + 2 ^ o : Nat) : Int) - 2 ^ o = ((i % 2 ^ o : Nat) : Int) by omega]
        obtain ⟨d, n, n', h1, h2⟩ := ih (by omega)
        exact ⟨d, n, n', by omega, h2⟩
    · have heq' : i / 2 ^ o = hs.length / 2 ^ o := by omega
      have hpar : i / 2 ^ o % 2 = 0 := by omega
      simp only [hpar, Nat.mul_zero, Nat.add_zero] at hm
      have : witLoop H db rs (o + 1) ((i % 2 ^ (o + 1) : Nat) : Int) = witLoop H db rs o ((i % 2 ^ o : Nat) : Int) := by
        rw [hm, witLoop]
        split
        · rename_i n hn; exact absurd hn (a2 n)
        · rfl
      rw [this]
      obtain ⟨d, n, n', h1, h2⟩ := ih heq'
      exact ⟨d, n, n', by omega, h2⟩

/-- A correct accumulator over the leaves `hs`. -/
def Acc.Ok (H : Bytes → Bytes) (db : Db) (a : Acc) (hs : List Bytes) : Prop :=
  Inv H db 0 a.roots hs ∧ a.length = hs.length

theorem Acc.Ok.witness {H : Bytes → Bytes} (hH : ∀ x, (H x).length = 32) {db : Db} {a : Acc} {hs : List Bytes}
    (h : a.Ok H db hs) (i : Nat) (hi : i < hs.length) :
    ∃ d a', IsDepth hs.length i d ∧ a.witnessFor H db i = (a', some (wit H hs i d)) ∧ a'.Ok H db hs := by
  obtain ⟨h1, h2⟩ := h
  have hf := h1.facts hH
  simp only [Nat.pow_zero, Nat.div_one] at hf
  have e1 : hs.length / 2 ^ a.roots.length = 0 := Nat.div_eq_of_lt hf.2.1
  have e2 : i / 2 ^ a.roots.length = 0 := Nat.div_eq_of_lt (by omega)
  obtain ⟨d, n, n', c1, c2, c3, c4, c5⟩ := witLoop_ok hH a.roots hs h1 i hi a.roots.length (by omega)
  rw [Nat.mod_eq_of_lt (by omega)] at c4
  refine ⟨d, ⟨a.roots.set d (some n'), a.length⟩, c2, ?_, ?_, h2⟩
  · rw [Acc.witnessFor, if_neg (by omega)]
    simp only [c4]
  · exact h1.set hH d n n' c3 (by simpa using c5)

/-! ### Verification -/

theorem vbuf_eq (buf h : Bytes) (w : W) (hb : buf.length = 64) (hh : h.length = 32) (hw : w.hash.length = 32) :
    vbuf buf h w = if w.dir = 0 then w.hash ++ h else h ++ w.hash := by
  have key : ∀ x y : Bytes, x.length = 32 → y.length = 32 → cpR (cpL buf x) y = x ++ y := by
    intro x y hx hy
    have e1 : cpL buf x = x ++ buf.drop 32 := by
      unfold cpL
      rw [List.take_of_length_le (by omega), List.drop_of_length_le (l := buf.take 32) (by simp; omega)]
      simp
    have e2 : (x ++ buf.drop 32).take 32 = x := by rw [List.take_append, hx]; simp [← hx]
    have e3 : (x ++ buf.drop 32).drop 32 = buf.drop 32 := by rw [List.drop_append, hx]; simp [← hx]
    unfold cpR
    rw [e1, e2, e3, List.take_of_length_le (l := y) (by omega), List.drop_of_length_le (l := buf.drop 32) (by simp; omega)]
    simp
  unfold vbuf
  split
  · exact key _ _ hw hh
  · exact key _ _ hh hw

/-- One step of an honest verification. -/
def vstep (H : Bytes → Bytes) (h : Bytes) (w : W) : Bytes := if w.dir = 0 then H (w.hash ++ h) else H (h ++ w.hash)

theorem vloop_eq {H : Bytes → Bytes} (hH : ∀ x, (H x).length = 32) (ws : List W) (buf h : Bytes) (hb : buf.length = 64)
    (hh : h.length = 32) (hw : ∀ w ∈ ws, w.hash.length = 32) : vloop H ws buf h = ws.foldl (vstep H) h := by
  induction ws generalizing buf h with
  | nil => rfl
  | cons w ws ih =>
    have e := vbuf_eq buf h w hb hh (hw w (by simp))
    have e2 : H (vbuf buf h w) = vstep H h w := by rw [e, vstep]; split <;> rfl
    rw [vloop, List.foldl_cons, ih _ _ ?_ (hH _) (fun x hx => hw x (by simp [hx])), e2]
    rw [e]; split <;> simp [hh, hw w (by simp)]

theorem entry_length {H : Bytes → Bytes} (hH : ∀ x, (H x).length = 32) (hs : List Bytes) (hl : ∀ h ∈ hs, h.length = 32) (i j d : Nat)
    (hj : j < d) (hlen : i / 2 ^ d * 2 ^ d + 2 ^ d ≤ hs.length) : (entry H hs i j).hash.length = 32 := by
  have hp := Nat.one_le_two_pow (n := j)
  -- both neighbours lie in the block
  have hb : (i / 2 ^ j + 1 + (1 - i / 2 ^ j % 2)) * 2 ^ j ≤ hs.length := by
    obtain ⟨e, rfl⟩ : ∃ e, d = j + 1 + e := ⟨d - (j + 1), by omega⟩
    have h1 : i / 2 ^ (j + 1 + e) = i / 2 ^ j / 2 / 2 ^ e := by
      rw [Nat.pow_add, ← Nat.div_div_eq_div_mul, div_pow_succ]
    have h2 : 2 ^ (j + 1 + e) = 2 ^ j * (2 * 2 ^ e) := by rw [Nat.pow_add, Nat.pow_succ, Nat.mul_assoc]
    rw [h1, h2] at hlen
    have h3 : i / 2 ^ j + 1 + (1 - i / 2 ^ j % 2) ≤ (i / 2 ^ j / 2 / 2 ^ e + 1) * (2 * 2 ^ e) := by
      have h4 : i / 2 ^ j / 2 < (i / 2 ^ j / 2 / 2 ^ e + 1) * 2 ^ e := by
        rw [Nat.mul_comm]; exact Nat.lt_mul_div_succ _ (Nat.one_le_two_pow)
      have h5 : (i / 2 ^ j / 2 / 2 ^ e + 1) * (2 * 2 ^ e) = 2 * ((i / 2 ^ j / 2 / 2 ^ e + 1) * 2 ^ e) := by
        rw [Nat.mul_left_comm]
      omega
    have h6 := Nat.mul_le_mul_right (2 ^ j) h3
    have h7 : (i / 2 ^ j / 2 / 2 ^ e + 1) * (2 * 2 ^ e) * 2 ^ j = i / 2 ^ j / 2 / 2 ^ e * (2 ^ j * (2 * 2 ^ e)) + 2 ^ j * (2 * 2 ^ e) := by
      rw [Nat.mul_assoc, Nat.mul_comm (2 * 2 ^ e), Nat.add_mul, Nat.one_mul]
    omega
  have hmr : ∀ s, s + 2 ^ j ≤ hs.length → (mroot H (blk hs s (2 ^ j))).length = 32 := by
    intro s hs'
    have hbl := blk_length hs s (2 ^ j) hs'
    apply mroot_length H 32 hH
    · intro h0; rw [h0] at hbl; simp at hbl; omega
    · intro x hx; exact hl x (List.mem_of_mem_drop (List.mem_of_mem_take hx))
  unfold entry
  split
  · rename_i hpar
    rw [hpar] at hb
    apply hmr
    rw [Nat.add_mul] at hb
    simp only [Nat.sub_zero, Nat.one_mul] at hb
    exact hb
  · apply hmr
    have hpar : i / 2 ^ j % 2 = 1 := by omega
    rw [hpar] at hb
    have : (i / 2 ^ j - 1) * 2 ^ j + 2 ^ j = i / 2 ^ j * 2 ^ j := by
      rw [Nat.sub_mul]
      have h1 : 1 ≤ i / 2 ^ j := by generalize i / 2 ^ j = q at hpar ⊢; omega
      have : 1 * 2 ^ j ≤ i / 2 ^ j * 2 ^ j := Nat.mul_le_mul_right _ h1
      omega
    rw [this]
    rw [Nat.add_mul, Nat.add_mul] at hb
    omega

theorem fold_wit {H : Bytes → Bytes} (hs : List Bytes) (i d : Nat) (h : Bytes) (hx : hs[i]? = some h)
    (hlen : i / 2 ^ d * 2 ^ d + 2 ^ d ≤ hs.length) :
    (wit H hs i d).foldl (vstep H) h = mroot H (blk hs (i / 2 ^ d * 2 ^ d) (2 ^ d)) := by
  induction d with
  | zero =>
    have : blk hs i 1 = [h] := by
      unfold blk
      apply List.ext_getElem?
      intro j
      rw [List.getElem?_take, List.getElem?_drop]
      cases j with
      | zero => simp [hx]
      | succ j => simp
    simp [wit, this, mroot_one]
  | succ d ih =>
    have hp := Nat.one_le_two_pow (n := d)
    have hps : 2 ^ (d + 1) = 2 ^ d + 2 ^ d := by rw [Nat.pow_succ]; omega
    have hd := div_pow_succ i d
    have hq : i / 2 ^ (d + 1) * 2 ^ (d + 1) = (2 * (i / 2 ^ (d + 1))) * 2 ^ d := by
      rw [Nat.pow_succ, Nat.mul_comm (2 ^ d) 2, ← Nat.mul_assoc, Nat.mul_comm _ 2]
    have hl1 := blk_length hs (2 * (i / 2 ^ (d + 1)) * 2 ^ d) (2 ^ d) (by rw [← hq]; omega)
    have hl2 := blk_length hs (2 * (i / 2 ^ (d + 1)) * 2 ^ d + 2 ^ d) (2 ^ d) (by rw [← hq]; omega)
    rw [wit_succ, List.foldl_append, List.foldl_cons, List.foldl_nil, hq, blk_double,
      mroot_append H _ _ d hl1 (by intro h0; rw [h0] at hl2; simp at hl2; omega) (by omega)]
    rcases Nat.mod_two_eq_zero_or_one (i / 2 ^ d) with hpar | hpar
    · have hi : 2 * (i / 2 ^ (d + 1)) = i / 2 ^ d := by omega
      rw [ih (by rw [← hi, ← hq]; omega), hi, entry, if_pos hpar, vstep]
      simp only [if_neg (show ¬ (1 : Int) = 0 by omega)]
      rw [Nat.add_mul, Nat.one_mul]
    · have hi : 2 * (i / 2 ^ (d + 1)) = i / 2 ^ d - 1 := by omega
      have hmul : i / 2 ^ d * 2 ^ d = 2 * (i / 2 ^ (d + 1)) * 2 ^ d + 2 ^ d := by
        have : i / 2 ^ d = 2 * (i / 2 ^ (d + 1)) + 1 := by omega
        rw [this, Nat.add_mul, Nat.one_mul]
      rw [ih (by rw [hmul, ← hq]; omega), hmul, hi, entry, if_neg (by omega), vstep]
      simp only [if_pos]

theorem Acc.Ok.root {H : Bytes → Bytes} (hH : ∀ x, (H x).length = 32) {db : Db} {a : Acc} {hs : List Bytes}
    (h : a.Ok H db hs) (i d : Nat) (hd : IsDepth hs.length i d) :
    ∃ n, a.roots[d]? = some (some n) ∧ n.hashOf H = mroot H (blk hs (i / 2 ^ d * 2 ^ d) (2 ^ d)) ∧
      i / 2 ^ d * 2 ^ d + 2 ^ d ≤ hs.length := by
  have hf := (h.1.facts hH).2.2.2 d
  simp only [Nat.zero_add] at hf
  obtain ⟨hd1, hd2⟩ := hd
  have hst : hs.length / 2 ^ (d + 1) * 2 ^ (d + 1) = i / 2 ^ d * 2 ^ d := by
    have := div_pow_succ hs.length d
    have : i / 2 ^ d = 2 * (hs.length / 2 ^ (d + 1)) := by omega
    rw [this, Nat.pow_succ, Nat.mul_comm (2 ^ d) 2, ← Nat.mul_assoc, Nat.mul_comm _ 2]
  rcases hf with ⟨n, a1, a2, a3, a4⟩ | ⟨_, _, a3⟩
  · rw [hst] at a3 a4
    exact ⟨n, a1, (a4.root hH).1, a3⟩
  · omega

theorem Acc.Ok.verify_wit {H : Bytes → Bytes} (hH : ∀ x, (H x).length = 32) {db : Db} {a : Acc} {hs : List Bytes}
    (h : a.Ok H db hs) (hl : ∀ h ∈ hs, h.length = 32) (i d : Nat) (hd : IsDepth hs.length i d) (x : Bytes) (hx : hs[i]? = some x) :
    a.verify H (wit H hs i d) x = .ok := by
  obtain ⟨n, a1, a2, a3⟩ := h.root hH i d hd
  rw [Acc.verify, wit_length, a1]
  simp only
  rw [vloop_eq hH _ _ _ (by simp) (hl x (List.mem_of_getElem? hx)) ?_, fold_wit hs i d x hx a3, a2, if_pos rfl]
  intro w hw
  simp only [wit, List.mem_map, List.mem_range] at hw
  obtain ⟨j, hj, rfl⟩ := hw
  exact entry_length hH hs hl i j d hj a3

theorem IsDepth.unique {n i d d' : Nat} (h : IsDepth n i d) (h' : IsDepth n i d') : d = d' := by
  have key : ∀ {d d'}, IsDepth n i d → IsDepth n i d' → ¬ d < d' := by
    intro d d' ⟨a1, a2⟩ ⟨b1, b2⟩ hlt
    obtain ⟨e, rfl⟩ : ∃ e, d' = d + 1 + e := ⟨d' - (d + 1), by omega⟩
    have e1 : ∀ m : Nat, m / 2 ^ (d + 1 + e) = m / 2 ^ d / 2 / 2 ^ e := by
      intro m; rw [Nat.pow_add, ← Nat.div_div_eq_div_mul, div_pow_succ]
    rw [e1, e1] at b2
    have : i / 2 ^ d / 2 = n / 2 ^ d / 2 := by omega
    rw [this] at b2
    omega
  have := key h h'; have := key h' h; omega

theorem IsDepth.exists (n i : Nat) (h : i < n) : ∃ d, IsDepth n i d := by
  have key : ∀ o, i / 2 ^ o = n / 2 ^ o → ∃ d, IsDepth n i d := by
    intro o
    induction o with
    | zero => intro h'; simp at h'; omega
    | succ o ih =>
      intro h'
      have d1 := div_pow_succ i o; have d2 := div_pow_succ n o
      have hle : i / 2 ^ o ≤ n / 2 ^ o := Nat.div_le_div_right (by omega)
      by_cases he : i / 2 ^ o = n / 2 ^ o
      · exact ih he
      · exact ⟨o, by omega, by omega⟩
  have : n < 2 ^ n := Nat.lt_two_pow_self
  exact key n (by rw [Nat.div_eq_of_lt this, Nat.div_eq_of_lt (by omega)])

end Verif.Mta
