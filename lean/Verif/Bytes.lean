/-!
Byte strings and big-endian naturals, shared by several models.

`beNat` is the value of a byte string read as an unsigned big-endian number
(Go `big.Int.SetBytes`), `natBytes` the shortest such string (Go `big.Int.Bytes`,
empty for zero).
-/

namespace Verif

abbrev Bytes := List UInt8

/-- Unsigned big-endian value of a byte string. -/
def beNat (bs : Bytes) : Nat := bs.foldl (fun v b => v * 256 + b.toNat) 0

/-- Shortest big-endian byte string of a natural number; empty for zero. -/
def natBytes (n : Nat) : Bytes :=
  if n = 0 then [] else natBytes (n / 256) ++ [UInt8.ofNat (n % 256)]
decreasing_by omega

/-- Go `big.Int.BitLen` of a magnitude. -/
def bitLen (n : Nat) : Nat := if n = 0 then 0 else Nat.log2 n + 1

theorem foldl_be (bs : Bytes) (a : Nat) :
    bs.foldl (fun v b => v * 256 + b.toNat) a = a * 256 ^ bs.length + beNat bs := by
  induction bs generalizing a with
  | nil => simp [beNat]
  | cons b t ih =>
    simp only [List.foldl_cons, List.length_cons, beNat]
    rw [ih, ih (0 * 256 + b.toNat)]
    simp only [Nat.pow_succ, Nat.add_mul, Nat.zero_mul, Nat.zero_add, Nat.mul_assoc]
    rw [Nat.mul_comm 256 (256 ^ t.length)]
    omega

@[simp] theorem beNat_nil : beNat [] = 0 := rfl

theorem beNat_cons (b : UInt8) (t : Bytes) : beNat (b :: t) = b.toNat * 256 ^ t.length + beNat t := by
  have := foldl_be t b.toNat
  simpa [beNat] using this

theorem beNat_append (s t : Bytes) : beNat (s ++ t) = beNat s * 256 ^ t.length + beNat t := by
  unfold beNat
  rw [List.foldl_append, foldl_be]
  rfl

theorem u8_lt (b : UInt8) : b.toNat < 256 := UInt8.toNat_lt b

theorem beNat_lt (bs : Bytes) : beNat bs < 256 ^ bs.length := by
  induction bs with
  | nil => simp
  | cons b t ih =>
    rw [beNat_cons, List.length_cons, Nat.pow_succ]
    have hb := u8_lt b
    have : b.toNat * 256 ^ t.length ≤ 255 * 256 ^ t.length := Nat.mul_le_mul_right _ (by omega)
    omega

theorem u8_ofNat_toNat {n : Nat} (h : n < 256) : (UInt8.ofNat n).toNat = n := by
  simp; omega

theorem u8_eq_of_toNat {a b : UInt8} (h : a.toNat = b.toNat) : a = b := UInt8.toNat_inj.mp h

@[simp] theorem natBytes_zero : natBytes 0 = [] := by unfold natBytes; simp

theorem natBytes_pos {n : Nat} (h : n ≠ 0) :
    natBytes n = natBytes (n / 256) ++ [UInt8.ofNat (n % 256)] := by
  rw [natBytes]; simp [h]

theorem beNat_natBytes (n : Nat) : beNat (natBytes n) = n := by
  induction n using Nat.strongRecOn with
  | ind n ih =>
    by_cases h : n = 0
    · subst h; simp
    · rw [natBytes_pos h, beNat_append, ih (n / 256) (by omega), beNat_cons,
        u8_ofNat_toNat (Nat.mod_lt _ (by omega))]
      simp; omega

theorem natBytes_len_lt (n : Nat) : n < 256 ^ (natBytes n).length := by
  have := beNat_lt (natBytes n)
  rwa [beNat_natBytes] at this

theorem natBytes_length_pos {n : Nat} (h : n ≠ 0) : 0 < (natBytes n).length := by
  rw [natBytes_pos h]; simp

theorem natBytes_len_ge {n : Nat} (h : n ≠ 0) : 256 ^ ((natBytes n).length - 1) ≤ n := by
  induction n using Nat.strongRecOn with
  | ind n ih =>
    rw [natBytes_pos h]
    by_cases h2 : n / 256 = 0
    · simp [h2]; omega
    · have h3 := ih (n / 256) (by omega) h2
      have h4 := natBytes_length_pos h2
      simp only [List.length_append, List.length_cons, List.length_nil]
      have : (natBytes (n/256)).length + (0 + 1) - 1 = ((natBytes (n/256)).length - 1) + 1 := by omega
      rw [this, Nat.pow_succ]
      omega

/-- The head of the shortest form of a non-zero number is not zero. -/
theorem natBytes_head {n : Nat} (b : UInt8) (t : Bytes) (h : natBytes n = b :: t) : b ≠ 0 := by
  intro hb
  have hn : n ≠ 0 := by intro h0; subst h0; simp at h
  have h1 := natBytes_len_ge hn
  have h2 := beNat_natBytes n
  rw [h] at h1 h2
  rw [beNat_cons, hb] at h2
  have h3 := beNat_lt t
  simp at h1 h2
  omega

theorem beNat_inj_of_len {s t : Bytes} (hl : s.length = t.length) (h : beNat s = beNat t) : s = t := by
  induction s generalizing t with
  | nil => cases t with
    | nil => rfl
    | cons _ _ => simp at hl
  | cons a s ih =>
    cases t with
    | nil => simp at hl
    | cons b t =>
      simp at hl
      rw [beNat_cons, beNat_cons, hl] at h
      have h1 := beNat_lt s
      have h2 := beNat_lt t
      rw [hl] at h1
      have hp : 0 < 256 ^ t.length := Nat.pow_pos (by omega)
      have hab : a.toNat = b.toNat := by
        have e1 := congrArg (· / 256 ^ t.length) h
        rw [Nat.mul_comm, Nat.mul_add_div hp, Nat.div_eq_of_lt h1, Nat.mul_comm b.toNat, Nat.mul_add_div hp,
          Nat.div_eq_of_lt h2] at e1
        omega
      have := u8_eq_of_toNat hab
      subst this
      rw [ih hl (by omega)]

/-- Length of the shortest form: the least `k` with `n < 256^k`. -/
theorem natBytes_len_le {n k : Nat} (h : n < 256 ^ k) : (natBytes n).length ≤ k := by
  by_cases h0 : n = 0
  · subst h0; simp
  · have h1 := natBytes_len_ge h0
    have h2 : 256 ^ ((natBytes n).length - 1) < 256 ^ k := by omega
    have h3 := (Nat.pow_lt_pow_iff_right (by omega : 1 < 256)).mp h2
    omega

theorem natBytes_len_eq {n k : Nat} (h1 : 256 ^ k ≤ n) (h2 : n < 256 ^ (k + 1)) :
    (natBytes n).length = k + 1 := by
  have h3 := natBytes_len_le h2
  have h4 := natBytes_len_lt n
  have h5 : 256 ^ k < 256 ^ (natBytes n).length := by omega
  have h6 := (Nat.pow_lt_pow_iff_right (by omega : 1 < 256)).mp h5
  omega

/-- A byte string without leading zero byte is the shortest form of its value. -/
theorem natBytes_beNat (bs : Bytes) (h : bs.head? ≠ some 0) : natBytes (beNat bs) = bs := by
  cases bs with
  | nil => simp
  | cons b t =>
    have hb : b.toNat ≠ 0 := by
      intro h0; apply h; simp; exact u8_eq_of_toNat (by simpa using h0)
    apply beNat_inj_of_len _ (beNat_natBytes _)
    apply natBytes_len_eq
    · rw [beNat_cons]
      have : 1 * 256 ^ t.length ≤ b.toNat * 256 ^ t.length := Nat.mul_le_mul_right _ (by omega)
      omega
    · exact beNat_lt (b :: t)

theorem bitLen_zero : bitLen 0 = 0 := by simp [bitLen]

theorem lt_two_pow_bitLen (n : Nat) : n < 2 ^ bitLen n := by
  unfold bitLen
  split
  · omega
  · exact Nat.lt_log2_self

theorem two_pow_bitLen_le {n : Nat} (h : n ≠ 0) : 2 ^ (bitLen n - 1) ≤ n := by
  unfold bitLen
  simp [h]
  exact Nat.log2_self_le h

theorem bitLen_pos {n : Nat} (h : n ≠ 0) : 0 < bitLen n := by unfold bitLen; simp [h]

theorem pow256 (k : Nat) : 256 ^ k = 2 ^ (8 * k) := by
  rw [Nat.pow_mul]

end Verif
