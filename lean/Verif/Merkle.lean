import Verif.Bytes
/-!
Specification of the binary Merkle tree used by the relay and the on-chain verifiers: a node over `n ≥ 2` leaves
has the first `split n` leaves on the left, where `split n` is the largest power of two below `n`.
Nothing here models code.
-/
namespace Verif.Merkle
open Verif

/-- The largest power of two below `n` (for `n ≥ 2`). -/
def split (n : Nat) : Nat := 2 ^ Nat.log2 (n - 1)

/-- Height of a tree with `n` leaves, a single leaf having height 1. -/
def lvl (n : Nat) : Nat := if n ≤ 1 then n else Nat.log2 (n - 1) + 2

theorem split_pos (n : Nat) : 1 ≤ split n := Nat.one_le_two_pow

theorem split_lt {n : Nat} (h : 2 ≤ n) : split n < n := by
  have : 2 ^ Nat.log2 (n - 1) ≤ n - 1 := Nat.log2_self_le (by omega)
  unfold split; omega

theorem le_split {n : Nat} (h : 2 ≤ n) : n ≤ 2 * split n := by
  have : n - 1 < 2 ^ (Nat.log2 (n - 1) + 1) := Nat.lt_log2_self
  rw [Nat.pow_succ] at this
  unfold split; omega

theorem log2_unique {m k : Nat} (h1 : 2 ^ k ≤ m) (h2 : m < 2 ^ (k + 1)) : Nat.log2 m = k := by
  have hm : m ≠ 0 := by have := Nat.one_le_two_pow (n := k); omega
  have a := (Nat.log2_lt hm).mpr h2
  have b : ¬ Nat.log2 m < k := fun hlt => by
    have := (Nat.log2_lt hm).mp hlt; omega
  omega

theorem split_unique {n k : Nat} (h1 : 2 ^ k < n) (h2 : n ≤ 2 ^ (k + 1)) : split n = 2 ^ k ∧ lvl n = k + 2 := by
  have hk := Nat.one_le_two_pow (n := k)
  have : Nat.log2 (n - 1) = k := log2_unique (by omega) (by omega)
  unfold split lvl
  rw [this, if_neg (by omega)]
  exact ⟨rfl, rfl⟩

theorem lvl_one : lvl 1 = 1 := rfl

theorem lvl_pow (k : Nat) : lvl (2 ^ k) = k + 1 := by
  cases k with
  | zero => rfl
  | succ k =>
    have hk := Nat.one_le_two_pow (n := k)
    have : 2 ^ (k + 1) = 2 ^ k * 2 := Nat.pow_succ ..
    exact (split_unique (n := 2 ^ (k + 1)) (k := k) (by omega) (by omega)).2

theorem lvl_split {n : Nat} (h : 2 ≤ n) : lvl n = lvl (split n) + 1 := by
  rw [split, lvl_pow, lvl, if_neg (by omega)]

theorem lvl_pos {n : Nat} (h : 1 ≤ n) : 1 ≤ lvl n := by
  unfold lvl; split <;> omega

theorem le_two_pow_lvl {n : Nat} (h : 1 ≤ n) : n ≤ 2 ^ (lvl n - 1) := by
  by_cases h1 : n ≤ 1
  · have : n = 1 := by omega
    subst this; simp [lvl]
  · have := le_split (n := n) (by omega)
    unfold lvl; rw [if_neg h1]
    unfold split at this
    rw [show Nat.log2 (n - 1) + 2 - 1 = Nat.log2 (n - 1) + 1 by omega, Nat.pow_succ]; omega

theorem lvl_mono {m n : Nat} (h : m ≤ n) : lvl m ≤ lvl n := by
  unfold lvl
  by_cases h1 : n ≤ 1
  · rw [if_pos (by omega), if_pos h1]; exact h
  · rw [if_neg h1]
    by_cases h2 : m ≤ 1
    · rw [if_pos h2]; omega
    · rw [if_neg h2]
      have : Nat.log2 (m - 1) ≤ Nat.log2 (n - 1) := by
        have a : 2 ^ Nat.log2 (m - 1) ≤ m - 1 := Nat.log2_self_le (by omega)
        have b : n - 1 < 2 ^ (Nat.log2 (n - 1) + 1) := Nat.lt_log2_self
        have c : 2 ^ Nat.log2 (m - 1) < 2 ^ (Nat.log2 (n - 1) + 1) := by omega
        have := (Nat.pow_lt_pow_iff_right (a := 2) (by omega)).mp c
        omega
      omega

/-- Merkle root over a list of leaf hashes. -/
def mroot (H : Bytes → Bytes) (hs : List Bytes) : Bytes :=
  match hs with
  | [] => []
  | [h] => h
  | a :: b :: t =>
    H (mroot H ((a :: b :: t).take (split (t.length + 2))) ++ mroot H ((a :: b :: t).drop (split (t.length + 2))))
termination_by hs.length
decreasing_by
  · have := split_lt (n := t.length + 2) (by omega)
    simp; omega
  · have := split_pos (t.length + 2)
    simp; omega

/-- The byte strings hashed when computing the inner nodes of the tree. -/
def inputs (H : Bytes → Bytes) (hs : List Bytes) : List Bytes :=
  match hs with
  | [] => []
  | [_] => []
  | a :: b :: t =>
    (mroot H ((a :: b :: t).take (split (t.length + 2))) ++ mroot H ((a :: b :: t).drop (split (t.length + 2)))) ::
      (inputs H ((a :: b :: t).take (split (t.length + 2))) ++ inputs H ((a :: b :: t).drop (split (t.length + 2))))
termination_by hs.length
decreasing_by
  · have := split_lt (n := t.length + 2) (by omega)
    simp; omega
  · have := split_pos (t.length + 2)
    simp; omega

theorem mroot_one (H : Bytes → Bytes) (h : Bytes) : mroot H [h] = h := by rw [mroot]

theorem mroot_two (H : Bytes → Bytes) (hs : List Bytes) (h : 2 ≤ hs.length) :
    mroot H hs = H (mroot H (hs.take (split hs.length)) ++ mroot H (hs.drop (split hs.length))) := by
  match hs, h with
  | a :: b :: t, _ =>
    rw [mroot]
    rfl

theorem inputs_two (H : Bytes → Bytes) (hs : List Bytes) (h : 2 ≤ hs.length) :
    inputs H hs = (mroot H (hs.take (split hs.length)) ++ mroot H (hs.drop (split hs.length))) ::
      (inputs H (hs.take (split hs.length)) ++ inputs H (hs.drop (split hs.length))) := by
  match hs, h with
  | a :: b :: t, _ =>
    rw [inputs]
    rfl

/-- The root of two adjacent segments of which the first is a full power of two and not shorter than the second. -/
theorem mroot_append (H : Bytes → Bytes) (a b : List Bytes) (k : Nat) (ha : a.length = 2 ^ k) (hb : b ≠ [])
    (hle : b.length ≤ a.length) : mroot H (a ++ b) = H (mroot H a ++ mroot H b) := by
  have hb1 : 1 ≤ b.length := List.length_pos_iff.mpr hb
  have hk := Nat.one_le_two_pow (n := k)
  have hs : split (a ++ b).length = a.length := by
    rw [ha]
    apply (split_unique _ _).1
    · simp; omega
    · rw [Nat.pow_succ]; simp; omega
  rw [mroot_two H (a ++ b) (by simp; omega), hs]
  simp

theorem mroot_length (H : Bytes → Bytes) (L : Nat) (hH : ∀ x, (H x).length = L) (hs : List Bytes) (hne : hs ≠ [])
    (hl : ∀ h ∈ hs, h.length = L) : (mroot H hs).length = L := by
  match hs with
  | [] => exact absurd rfl hne
  | [h] => rw [mroot_one]; exact hl h (by simp)
  | a :: b :: t => rw [mroot_two H _ (by simp)]; exact hH _

theorem mroot_ne_nil (H : Bytes → Bytes) (hH : ∀ x, H x ≠ []) (hs : List Bytes) (hne : hs ≠ [])
    (hl : ∀ h ∈ hs, h ≠ []) : mroot H hs ≠ [] := by
  match hs with
  | [] => exact absurd rfl hne
  | [h] => rw [mroot_one]; exact hl h (by simp)
  | a :: b :: t => rw [mroot_two H _ (by simp)]; exact hH _

end Verif.Merkle
