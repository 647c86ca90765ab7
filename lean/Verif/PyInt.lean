import Verif.IntConvProps
/-!
Integers of the Python contracts as byte strings: `int.to_bytes` and `int.from_bytes` with `byteorder="big", signed=True` as used in
/repo/pyscore/lib/icon/rlp.py and db.py. Python integers are unbounded (`Int`).
-/
namespace Verif.PyInt
open Verif Verif.IntConv

/-- Python `int.to_bytes(n, "big")` of a natural number below 256^n: exactly `n` bytes. -/
def fixBytes : Nat → Nat → Bytes
  | 0, _ => []
  | n + 1, x => fixBytes n (x / 256) ++ [UInt8.ofNat (x % 256)]

/-- Python `int.to_bytes(n, "big", signed=True)` for `n` ≥ 1; `none` is the OverflowError. -/
def toBytesSigned (n : Nat) (v : Int) : Option Bytes :=
  if -(2 ^ (8 * n - 1) : Int) ≤ v ∧ v < 2 ^ (8 * n - 1) then some (fixBytes n (v % 256 ^ n).toNat) else none

/-- rlp.py:22, db.py:489: the number of bytes; `obj < 0` counts as 1, `bit_length` is that of the magnitude. -/
def nBytes (v : Int) : Nat := (bitLen (v + if v < 0 then 1 else 0).natAbs + 8) / 8

/-- rlp.py:22-23, db.py:489-490. -/
def intBytes (v : Int) : Option Bytes := toBytesSigned (nBytes v) v

/-- Python `int.from_bytes(bs, "big", signed=True)` (rlp.py:100, db.py:431). -/
def intFrom (bs : Bytes) : Int :=
  match bs with
  | [] => 0
  | b :: _ => if 128 ≤ b.toNat then (beNat bs : Int) - 256 ^ bs.length else beNat bs

theorem fixBytes_len (n x : Nat) : (fixBytes n x).length = n := by
  induction n generalizing x with
  | zero => rfl
  | succ n ih => simp [fixBytes, ih]

theorem beNat_fixBytes (n x : Nat) : beNat (fixBytes n x) = x % 256 ^ n := by
  induction n generalizing x with
  | zero => simp [fixBytes, Nat.mod_one]
  | succ n ih =>
    rw [fixBytes, beNat_append, ih, beNat_cons, u8_ofNat_toNat (Nat.mod_lt _ (by omega))]
    simp only [List.length_cons, List.length_nil, Nat.zero_add, Nat.pow_one, Nat.pow_zero, Nat.mul_one, beNat_nil, Nat.add_zero]
    rw [Nat.pow_succ, Nat.mul_comm (256 ^ n) 256, Nat.mod_mul]
    omega

theorem intFrom_sval (bs : Bytes) : intFrom bs = sval bs := by
  cases bs <;> rfl

theorem sval_fix (n : Nat) (v : Int) (hn : 0 < n) (h : fits n v) : sval (fixBytes n (v % 256 ^ n).toNat) = v := by
  have hne : fixBytes n (v % 256 ^ n).toNat ≠ [] := by
    intro e; have := fixBytes_len n (v % 256 ^ n).toNat; rw [e] at this; simp at this; omega
  obtain ⟨h1, h2⟩ := h
  have hP : (256 ^ n : Int) = 2 * 2 ^ (8 * n - 1) := by
    rw [← cast256, pow256, cast2, show 8 * n = (8 * n - 1) + 1 by omega, Int.pow_succ]
    simp only [Nat.add_sub_cancel]
    omega
  have hq : (0 : Int) < 2 ^ (8 * n - 1) := Int.pow_pos (by omega)
  have hlt : (v % 256 ^ n).toNat < 256 ^ n := by
    have := Int.emod_lt_of_pos v (show (0 : Int) < 256 ^ n by omega)
    have h0 := Int.emod_nonneg v (show (256 ^ n : Int) ≠ 0 by omega)
    have e := cast256 n
    omega
  have hb : beNat (fixBytes n (v % 256 ^ n).toNat) = (v % 256 ^ n).toNat := by
    rw [beNat_fixBytes, Nat.mod_eq_of_lt hlt]
  have c2 := cast2 (8 * n - 1)
  by_cases hv : 0 ≤ v
  · have e : v % 256 ^ n = v := Int.emod_eq_of_lt hv (by omega)
    rw [sval_of_lt hne (by rw [hb, fixBytes_len, e]; omega), hb, e]
    omega
  · have e : v % 256 ^ n = v + 256 ^ n := by
      rw [← Int.add_emod_right]; exact Int.emod_eq_of_lt (by omega) (by omega)
    rw [sval_of_ge hne (by rw [hb, fixBytes_len, e]; omega), hb, fixBytes_len, e]
    have e8 : (2 ^ (8 * n) : Int) = 256 ^ n := by rw [← cast256, pow256, cast2]
    omega

/-- The Python contracts and the relay write integers alike. -/
theorem intBytes_eq (v : Int) : intBytes v = some (bigIntToBytes v) := by
  unfold intBytes toBytesSigned nBytes
  generalize hK : (bitLen (v + if v < 0 then 1 else 0).natAbs + 8) / 8 = K
  have hKpos : 0 < K := by omega
  -- the magnitude that is measured
  have key : ∃ m : Nat, (v + if v < 0 then 1 else 0).natAbs = m ∧ (v = m ∨ v = -(m : Int) - 1) := by
    refine ⟨_, rfl, ?_⟩
    split <;> omega
  obtain ⟨m, hm, hv⟩ := key
  rw [hm] at hK
  have hb1 := lt_two_pow_bitLen m
  have hm1 : m < 2 ^ (8 * K - 1) := Nat.lt_of_lt_of_le hb1 (Nat.pow_le_pow_right (by omega) (by omega))
  have c2 := cast2 (8 * K - 1)
  have hf : fits K v := by unfold fits; omega
  have hf' : -(2 ^ (8 * K - 1) : Int) ≤ v ∧ v < 2 ^ (8 * K - 1) := hf
  rw [if_pos hf']
  congr 1
  have hs := sval_fix K v hKpos hf
  have hne : fixBytes K (v % 256 ^ K).toNat ≠ [] := by
    intro e; have := fixBytes_len K (v % 256 ^ K).toNat; rw [e] at this; simp at this; omega
  apply (C04_bigInt_bijection v _).2
  rw [C04_bigIntSetBytes_value]
  refine ⟨hs, shortest_of_not_fits hne ?_⟩
  rw [hs, fixBytes_len]
  by_cases hK1 : K = 1
  · exact Or.inl hK1
  · right
    unfold fits
    have hmn : m ≠ 0 := by intro h; subst h; simp [bitLen] at hK; omega
    have hb2 := two_pow_bitLen_le hmn
    have : 2 ^ (8 * (K - 1) - 1) ≤ 2 ^ (bitLen m - 1) := Nat.pow_le_pow_right (by omega) (by omega)
    have c3 := cast2 (8 * (K - 1) - 1)
    rintro ⟨hlo, hhi⟩
    omega

theorem intFrom_intBytes (v : Int) : ∃ bs, intBytes v = some bs ∧ bs ≠ [] ∧ intFrom bs = v := by
  refine ⟨_, intBytes_eq v, (C04_bigInt_roundtrip v).2.1, ?_⟩
  rw [intFrom_sval, ← C04_bigIntSetBytes_value]
  exact (C04_bigInt_roundtrip v).1

example : intBytes (-129) = some [0xff, 0x7f] ∧ intBytes 128 = some [0, 0x80] ∧ intBytes 0 = some [0] ∧ intFrom [0xff, 0x7f] = -129 := by decide +kernel

end Verif.PyInt
