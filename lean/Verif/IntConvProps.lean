import Verif.IntConv
/-!
C01–C04: integer byte codecs.

Specification: `sval` is the signed big-endian (two's complement) value of a byte string.
-/
namespace Verif.IntConv
open Verif

/-- Specification: two's complement big-endian value. -/
def sval : Bytes → Int
  | [] => 0
  | b :: t => if 128 ≤ b.toNat then (beNat (b :: t) : Int) - 256 ^ (t.length + 1) else (beNat (b :: t) : Int)

/-! ### helper lemmas -/

theorem cast256 (k : Nat) : ((256 ^ k : Nat) : Int) = 256 ^ k := by
  have h : ((256 : Nat) : Int) = (256 : Int) := by decide
  rw [Int.natCast_pow, h]

theorem cast2 (k : Nat) : ((2 ^ k : Nat) : Int) = 2 ^ k := Int.natCast_pow 2 k

theorem castDiv256 (v : Nat) : ((v / 256 : Nat) : Int) = (v : Int) / 256 := by omega

theorem and80 (b : UInt8) : b &&& 0x80 = 0 ↔ b.toNat < 128 := by
  rw [← UInt8.toNat_inj]
  have h : (b &&& 0x80).toNat = b.toNat &&& 2 ^ 7 := by simp
  rw [h]
  have key : ∀ n : Fin 256, (n.val &&& 2 ^ 7 = 0 ↔ n.val < 128) := by decide +kernel
  exact key ⟨b.toNat, u8_lt b⟩

theorem xorff (b : UInt8) : (b ^^^ 0xff).toNat = 255 - b.toNat := by
  have h : (b ^^^ 0xff).toNat = b.toNat ^^^ (2 ^ 8 - 1) := by simp
  have hb : b.toNat < 2 ^ 8 := u8_lt b
  rw [h]
  apply Nat.eq_of_testBit_eq
  intro i
  rw [Nat.testBit_xor, Nat.testBit_two_pow_sub_one]
  have : 255 - b.toNat = 2 ^ 8 - (b.toNat + 1) := by omega
  rw [this, Nat.testBit_two_pow_sub_succ hb]
  by_cases hi : i < 8
  · simp [hi]
  · simp [hi]
    apply Nat.testBit_lt_two_pow
    exact Nat.lt_of_lt_of_le hb (Nat.pow_le_pow_right (by omega) (by omega))

theorem sval_single (b : UInt8) : sval [b] = if 128 ≤ b.toNat then (b.toNat : Int) - 256 else b.toNat := by
  simp [sval, beNat_cons]

theorem sval_snoc (s : Bytes) (b : UInt8) (h : s ≠ []) : sval (s ++ [b]) = sval s * 256 + b.toNat := by
  cases s with
  | nil => exact absurd rfl h
  | cons c t =>
    have h1 : beNat (c :: (t ++ [b])) = beNat (c :: t) * 256 + b.toNat := by
      have := beNat_append (c :: t) [b]
      simpa [beNat_cons] using this
    simp only [List.cons_append, sval, h1]
    split
    · simp only [List.length_append, List.length_cons, List.length_nil]
      rw [show t.length + (0 + 1) + 1 = (t.length + 1) + 1 from rfl, Int.pow_succ]
      omega
    · omega

theorem sval_range (bs : Bytes) (h : bs ≠ []) :
    -(2 ^ (8 * bs.length - 1) : Int) ≤ sval bs ∧ sval bs < 2 ^ (8 * bs.length - 1) := by
  cases bs with
  | nil => exact absurd rfl h
  | cons b t =>
    have hb := u8_lt b
    have ht := beNat_lt t
    have e1 : 8 * (b :: t).length - 1 = 8 * t.length + 7 := by rw [List.length_cons]; omega
    have e2 : (2 ^ (8 * t.length + 7) : Int) = 128 * 256 ^ t.length := by
      rw [Int.pow_add, Int.pow_mul]; simp [Int.mul_comm]
    have e3 : (256 ^ (t.length + 1) : Int) = 256 * 256 ^ t.length := by
      rw [Int.pow_succ, Int.mul_comm]
    have ht' : (beNat t : Int) < 256 ^ t.length := by rw [← cast256]; exact Int.ofNat_lt.mpr ht
    rw [e1, e2]
    simp only [sval, beNat_cons, e3, Int.natCast_add, Int.natCast_mul, cast256]
    generalize hP : (256 ^ t.length : Int) = P at *
    have hPpos : 0 < P := by rw [← hP]; exact Int.pow_pos (by omega)
    split
    · rename_i h8
      have l1 : (128 : Int) * P ≤ b.toNat * P := Int.mul_le_mul_of_nonneg_right (by omega) (by omega)
      have l2 : (b.toNat : Int) * P ≤ 255 * P := Int.mul_le_mul_of_nonneg_right (by omega) (by omega)
      omega
    · rename_i h8
      have l1 : (b.toNat : Int) * P ≤ 127 * P := Int.mul_le_mul_of_nonneg_right (by omega) (by omega)
      have l2 : (0 : Int) * P ≤ b.toNat * P := Int.mul_le_mul_of_nonneg_right (by omega) (by omega)
      omega

theorem sval_inj_len {s t : Bytes} (hl : s.length = t.length) (h : sval s = sval t) : s = t := by
  cases s with
  | nil => cases t with
    | nil => rfl
    | cons _ _ => simp at hl
  | cons a s =>
    cases t with
    | nil => simp at hl
    | cons b t =>
      apply beNat_inj_of_len hl
      have h1 := beNat_lt (a :: s)
      have h2 := beNat_lt (b :: t)
      simp only [List.length_cons] at h1 h2 hl
      have hl' : s.length = t.length := by omega
      rw [hl'] at h1
      have h1' : (beNat (a :: s) : Int) < 256 ^ (t.length + 1) := by rw [← cast256]; exact Int.ofNat_lt.mpr h1
      have h2' : (beNat (b :: t) : Int) < 256 ^ (t.length + 1) := by rw [← cast256]; exact Int.ofNat_lt.mpr h2
      simp only [sval, hl'] at h
      split at h <;> split at h <;> omega

/-- Two's complement range of `k ≥ 1` bytes. -/
def fits (k : Nat) (v : Int) : Prop := -(2 ^ (8 * k - 1) : Int) ≤ v ∧ v < 2 ^ (8 * k - 1)

theorem fits_succ_div {k : Nat} (hk : 0 < k) (v : Int) : fits (k + 1) v ↔ fits k (v / 256) := by
  unfold fits
  have e : (2 ^ (8 * (k + 1) - 1) : Int) = 256 * 2 ^ (8 * k - 1) := by
    rw [show 8 * (k + 1) - 1 = 8 + (8 * k - 1) by omega, Int.pow_add]; rfl
  rw [e]
  omega

theorem fits_mono {k l : Nat} (h : k ≤ l) {v : Int} (hv : fits k v) : fits l v := by
  unfold fits at *
  have : (2 ^ (8 * k - 1) : Int) ≤ 2 ^ (8 * l - 1) := by
    have := Nat.pow_le_pow_right (n := 2) (by omega) (show 8 * k - 1 ≤ 8 * l - 1 by omega)
    rw [← cast2, ← cast2]; exact Int.ofNat_le.mpr this
  omega

/-- A non-empty string whose value needs its full length. -/
def Shortest (bs : Bytes) : Prop :=
  bs ≠ [] ∧ ∀ cs : Bytes, cs ≠ [] → sval cs = sval bs → bs.length ≤ cs.length

theorem shortest_of_not_fits {bs : Bytes} (h : bs ≠ []) (hn : bs.length = 1 ∨ ¬ fits (bs.length - 1) (sval bs)) :
    Shortest bs := by
  refine ⟨h, fun cs hc he => ?_⟩
  rcases hn with h1 | h1
  · have : cs.length ≠ 0 := by simpa using hc
    omega
  · apply Classical.byContradiction
    intro hlt
    apply h1
    have := sval_range cs hc
    rw [he] at this
    exact fits_mono (by omega) (show fits cs.length _ from this)

theorem shortest_unique {s t : Bytes} (hs : Shortest s) (ht : Shortest t) (h : sval s = sval t) : s = t := by
  have h1 := hs.2 t ht.1 h.symm
  have h2 := ht.2 s hs.1 h
  exact sval_inj_len (by omega) h

theorem int64Loop_spec (target : Int) (f : Nat) (v : Int) (acc : Bytes)
    (ht : target = if v < 0 then -0x80 else 0) (hv : fits (f + 1) v) :
    ∃ bs, int64Loop target (f + 1) v acc = bs ++ acc ∧ bs ≠ [] ∧ sval bs = v ∧ bs.length ≤ f + 1 ∧
      (bs.length = 1 ∨ ¬ fits (bs.length - 1) v) := by
  induction f generalizing v acc with
  | zero =>
    have : 128 * (v / 128) = target := by
      rw [ht]; simp [fits] at hv; split <;> omega
    refine ⟨[UInt8.ofNat (v % 256).toNat], by simp [int64Loop, this], by simp, ?_, by simp, by simp⟩
    rw [sval_single, u8_ofNat_toNat (by omega)]
    simp [fits] at hv
    split <;> omega
  | succ f ih =>
    rw [int64Loop]
    by_cases hc : 128 * (v / 128) = target
    · simp only [hc, if_true]
      refine ⟨[UInt8.ofNat (v % 256).toNat], by simp, by simp, ?_, by simp, by simp⟩
      rw [sval_single, u8_ofNat_toNat (by omega)]
      rw [ht] at hc
      split at hc <;> split <;> omega
    · simp only [hc, if_false]
      have hs : (if v / 256 < 0 then (-0x80 : Int) else 0) = if v < 0 then -0x80 else 0 := by
        by_cases h : v < 0
        · rw [if_pos h, if_pos (by omega)]
        · rw [if_neg h, if_neg (by omega)]
      have ht2 : target = if v / 256 < 0 then -0x80 else 0 := by rw [hs]; exact ht
      obtain ⟨bs, h1, h2, h3, h4, h5⟩ := ih (v / 256) (UInt8.ofNat (v % 256).toNat :: acc) ht2
        ((fits_succ_div (by omega) v).mp hv)
      refine ⟨bs ++ [UInt8.ofNat (v % 256).toNat], by simp [h1], by simp, ?_, by simp; omega, ?_⟩
      · rw [sval_snoc _ _ h2, h3, u8_ofNat_toNat (by omega)]
        omega
      · right
        have hl : bs.length ≠ 0 := by simpa using h2
        simp only [List.length_append, List.length_cons, List.length_nil]
        rcases (by by_cases hb1 : bs.length = 1; exact Or.inl hb1; exact Or.inr ⟨hb1, h5.resolve_left hb1⟩ :
          bs.length = 1 ∨ (bs.length ≠ 1 ∧ ¬ fits (bs.length - 1) _)) with h6 | ⟨h61, h6⟩
        · intro hf
          rw [h6] at hf
          simp [fits] at hf
          apply hc
          rw [ht]; split <;> omega
        · intro hf
          apply h6
          rw [← fits_succ_div (by omega)]
          rw [show bs.length - 1 + 1 = bs.length + (0 + 1) - 1 by omega]
          exact hf

theorem uint64Loop_spec (f v : Nat) (acc : Bytes) (hv : fits (f + 1) v) :
    ∃ bs, uint64Loop (f + 1) v acc = bs ++ acc ∧ bs ≠ [] ∧ sval bs = v ∧ bs.length ≤ f + 1 ∧
      (bs.length = 1 ∨ ¬ fits (bs.length - 1) v) := by
  induction f generalizing v acc with
  | zero =>
    simp [fits] at hv
    have hc : v / 256 = 0 ∧ UInt8.ofNat (v % 256) &&& 0x80 = 0 := by
      rw [and80, u8_ofNat_toNat (by omega)]; omega
    refine ⟨[UInt8.ofNat (v % 256)], by simp only [uint64Loop]; rw [if_pos hc]; rfl, by simp, ?_, by simp, by simp⟩
    rw [sval_single, u8_ofNat_toNat (by omega)]
    split <;> omega
  | succ f ih =>
    rw [uint64Loop]
    by_cases hc : v / 256 = 0 ∧ UInt8.ofNat (v % 256) &&& 0x80 = 0
    · simp only [hc, and_self, if_true]
      refine ⟨[UInt8.ofNat (v % 256)], by simp, by simp, ?_, by simp, by simp⟩
      rw [and80, u8_ofNat_toNat (by omega)] at hc
      rw [sval_single, u8_ofNat_toNat (by omega)]
      split <;> omega
    · simp only [hc, if_false]
      have hv2 : fits (f + 1) ((v / 256 : Nat) : Int) := by
        rw [castDiv256]
        exact (fits_succ_div (by omega) (v : Int)).mp hv
      obtain ⟨bs, h1, h2, h3, h4, h5⟩ := ih (v / 256) (UInt8.ofNat (v % 256) :: acc) hv2
      refine ⟨bs ++ [UInt8.ofNat (v % 256)], by simp [h1], by simp, ?_, by simp; omega, ?_⟩
      · rw [sval_snoc _ _ h2, h3, u8_ofNat_toNat (by omega)]
        omega
      · right
        have hl : bs.length ≠ 0 := by simpa using h2
        simp only [List.length_append, List.length_cons, List.length_nil]
        rcases (by by_cases hb1 : bs.length = 1; exact Or.inl hb1; exact Or.inr ⟨hb1, h5.resolve_left hb1⟩ :
          bs.length = 1 ∨ (bs.length ≠ 1 ∧ ¬ fits (bs.length - 1) _)) with h6 | ⟨h61, h6⟩
        · intro hf
          rw [h6] at hf
          simp [fits] at hf
          apply hc
          rw [and80, u8_ofNat_toNat (by omega)]; omega
        · intro hf
          apply h6
          rw [castDiv256, ← fits_succ_div (by omega)]
          rw [show bs.length - 1 + 1 = bs.length + (0 + 1) - 1 by omega]
          exact hf

theorem foldl_mod (bs : Bytes) (a : Nat) :
    bs.foldl (fun v c => (v * 256 + c.toNat) % 2 ^ 64) a % 2 ^ 64 = (a * 256 ^ bs.length + beNat bs) % 2 ^ 64 := by
  induction bs generalizing a with
  | nil => simp
  | cons b t ih =>
    rw [List.foldl_cons, ih, beNat_cons, List.length_cons]
    rw [Nat.add_mod, Nat.mul_mod, Nat.mod_mod, ← Nat.mul_mod, ← Nat.add_mod]
    congr 1
    rw [Nat.add_mul, Nat.pow_succ, Nat.mul_assoc, Nat.mul_comm 256 (256 ^ _)]
    omega

theorem foldl_lt (bs : Bytes) (a : Nat) (h : a < 2 ^ 64) :
    bs.foldl (fun v c => (v * 256 + c.toNat) % 2 ^ 64) a < 2 ^ 64 := by
  induction bs generalizing a with
  | nil => simpa
  | cons b t ih => rw [List.foldl_cons]; exact ih _ (Nat.mod_lt _ (by omega))

theorem foldl_size (bs : Bytes) :
    bs.foldl (fun v c => (v * 256 + c.toNat) % 2 ^ 64) 0 = beNat bs % 2 ^ 64 := by
  have h := foldl_mod bs 0
  rw [Nat.mod_eq_of_lt (foldl_lt bs 0 (by omega))] at h
  simpa using h

theorem foldl_compl (bs : Bytes) :
    bs.foldl (fun v c => (v * 256 + (c ^^^ 0xff).toNat) % 2 ^ 64) 0
      = (256 ^ bs.length - 1 - beNat bs) % 2 ^ 64 := by
  have h := foldl_size (bs.map (· ^^^ 0xff))
  rw [List.foldl_map] at h
  rw [h]
  congr 1
  clear h
  induction bs with
  | nil => simp
  | cons b t ih =>
    rw [List.map_cons, beNat_cons, beNat_cons, ih, xorff, List.length_map, List.length_cons, Nat.pow_succ]
    have h1 := beNat_lt t
    have h2 := u8_lt b
    rw [Nat.sub_mul]
    have : b.toNat * 256 ^ t.length ≤ 255 * 256 ^ t.length := Nat.mul_le_mul_right _ (by omega)
    omega

/-! ### properties -/

/-- C01 (decoding): `BytesToInt64` reads the two's complement value, reduced to 64 bits, of any string. -/
theorem C01_bytesToInt64_value (bs : Bytes) :
    ∃ k : Int, bytesToInt64 bs = sval bs + k * 2 ^ 64 ∧ -(2 ^ 63) ≤ bytesToInt64 bs ∧ bytesToInt64 bs < 2 ^ 63 := by
  cases bs with
  | nil => exact ⟨0, by simp [bytesToInt64, sval]⟩
  | cons b t =>
    have hl := beNat_lt (b :: t)
    simp only [List.length_cons] at hl
    by_cases hb : b.toNat < 128
    · have hz := (and80 b).mpr hb
      simp only [bytesToInt64, hz, ne_eq, not_true, if_false, foldl_size, sval, show ¬ 128 ≤ b.toNat by omega]
      refine ⟨(toInt64 (beNat (b :: t) % 2 ^ 64) - beNat (b :: t)) / 2 ^ 64, ?_⟩
      unfold toInt64
      simp only [Nat.mod_mod]
      split <;> omega
    · have hz : b &&& 0x80 ≠ 0 := fun h => hb ((and80 b).mp h)
      simp only [bytesToInt64, hz, ne_eq, not_false_eq_true, if_true, foldl_compl, sval, show 128 ≤ b.toNat by omega,
        List.length_cons]
      have hp : 1 ≤ 256 ^ (t.length + 1) := Nat.pow_pos (by omega)
      have e : (256 ^ (t.length + 1) : Int) = ((256 ^ (t.length + 1) : Nat) : Int) := (cast256 _).symm
      rw [e]
      generalize 256 ^ (t.length + 1) = P at *
      generalize beNat (b :: t) = n at *
      refine ⟨(toInt64 (2 ^ 64 - 1 - (P - 1 - n) % 2 ^ 64) - (n - P)) / 2 ^ 64, ?_⟩
      unfold toInt64
      simp only
      split <;> omega

/-- C01: `Int64ToBytes` yields the shortest two's complement form, at most 8 bytes, and decoding returns the value. -/
theorem C01_int64_roundtrip (v : Int) (h1 : -(2 ^ 63) ≤ v) (h2 : v < 2 ^ 63) :
    bytesToInt64 (int64ToBytes v) = v ∧ sval (int64ToBytes v) = v ∧ Shortest (int64ToBytes v) ∧
      (int64ToBytes v).length ≤ 8 := by
  have key : sval (int64ToBytes v) = v ∧ Shortest (int64ToBytes v) ∧ (int64ToBytes v).length ≤ 8 := by
    unfold int64ToBytes
    by_cases h0 : v = 0
    · subst h0
      rw [if_pos rfl]
      refine ⟨rfl, shortest_of_not_fits (by simp [bytesForZero]) (Or.inl rfl), by simp [bytesForZero]⟩
    · rw [if_neg h0]
      obtain ⟨bs, e1, e2, e3, e4, e5⟩ := int64Loop_spec (if v < 0 then -0x80 else 0) 7 v [] rfl
        (by simp [fits]; omega)
      rw [e1, List.append_nil]
      exact ⟨e3, shortest_of_not_fits e2 (by rw [e3]; exact e5), e4⟩
  refine ⟨?_, key⟩
  obtain ⟨k, hk, hlo, hhi⟩ := C01_bytesToInt64_value (int64ToBytes v)
  rw [key.1] at hk
  omega

/-- C01: the encoding is injective and the only shortest string decoding to the value. -/
theorem C01_int64_unique (v : Int) (h1 : -(2 ^ 63) ≤ v) (h2 : v < 2 ^ 63) (bs : Bytes)
    (hs : Shortest bs) (hv : sval bs = v) : bs = int64ToBytes v := by
  obtain ⟨_, h3, h4, _⟩ := C01_int64_roundtrip v h1 h2
  exact shortest_unique hs h4 (by rw [hv, h3])

example : int64ToBytes (-32769) = [0xff, 0x7f, 0xff] ∧ int64ToBytes (-(2^63)) = [0x80,0,0,0,0,0,0,0] := by decide

/-- C02 (decoding): `BytesToUint64` is the sign-extended value modulo 2^64 of any string. -/
theorem C02_bytesToUint64_value (bs : Bytes) : (bytesToUint64 bs : Int) = sval bs % 2 ^ 64 := by
  cases bs with
  | nil => simp [bytesToUint64, sval]
  | cons b t =>
    have hfl := foldl_mod (b :: t)
    by_cases hb : b.toNat < 128
    · have hz := (and80 b).mpr hb
      simp only [bytesToUint64, hz, ne_eq, not_true, if_false, sval, show ¬ 128 ≤ b.toNat by omega]
      rw [foldl_size]; omega
    · have hz : b &&& 0x80 ≠ 0 := fun h => hb ((and80 b).mp h)
      simp only [bytesToUint64, hz, ne_eq, not_false_eq_true, if_true, sval, show 128 ≤ b.toNat by omega]
      have h1 := foldl_lt (b :: t) (2 ^ 64 - 1) (by omega)
      have h2 := hfl (2 ^ 64 - 1)
      rw [Nat.mod_eq_of_lt h1] at h2
      rw [h2, List.length_cons]
      have e : (256 ^ (t.length + 1) : Int) = ((256 ^ (t.length + 1) : Nat) : Int) := (cast256 _).symm
      rw [e]
      generalize 256 ^ (t.length + 1) = P at *
      generalize beNat (b :: t) = n at *
      rw [Nat.sub_mul]
      have : P ≤ 2 ^ 64 * P := Nat.le_mul_of_pos_left _ (by omega)
      omega

/-- C02: `Uint64ToBytes` yields the shortest two's complement form (at most 9 bytes); decoding returns the value. -/
theorem C02_uint64_roundtrip (v : Nat) (h : v < 2 ^ 64) :
    bytesToUint64 (uint64ToBytes v) = v ∧ sval (uint64ToBytes v) = v ∧ Shortest (uint64ToBytes v) ∧
      (uint64ToBytes v).length ≤ 9 := by
  have key : sval (uint64ToBytes v) = v ∧ Shortest (uint64ToBytes v) ∧ (uint64ToBytes v).length ≤ 9 := by
    unfold uint64ToBytes
    by_cases h0 : v = 0
    · subst h0
      rw [if_pos rfl]
      refine ⟨rfl, shortest_of_not_fits (by simp [bytesForZero]) (Or.inl rfl), by simp [bytesForZero]⟩
    · rw [if_neg h0]
      obtain ⟨bs, e1, e2, e3, e4, e5⟩ := uint64Loop_spec 8 v [] (by simp [fits]; omega)
      rw [e1, List.append_nil]
      exact ⟨e3, shortest_of_not_fits e2 (by rw [e3]; exact e5), e4⟩
  refine ⟨?_, key⟩
  have := C02_bytesToUint64_value (uint64ToBytes v)
  rw [key.1] at this
  omega

example : uint64ToBytes (2^64-1) = [0,0xff,0xff,0xff,0xff,0xff,0xff,0xff,0xff] := by decide
/-- C02, note: a single byte 0xff decodes to the largest uint64 (sign extension). -/
example : bytesToUint64 [0xff] = 2^64-1 := by decide

theorem sizeLoop_spec (f v : Nat) (acc : Bytes) (hv : v < 256 ^ (f + 1)) (h0 : v ≠ 0) :
    sizeLoop (f + 1) v acc = natBytes v ++ acc := by
  induction f generalizing v acc with
  | zero =>
    have : v / 256 = 0 := by simp at hv; omega
    rw [natBytes_pos h0]
    simp [sizeLoop, this]
  | succ f ih =>
    rw [sizeLoop, natBytes_pos h0]
    by_cases hc : v / 256 = 0
    · simp [hc]
    · simp only [hc, if_false]
      rw [ih (v / 256) _ (by rw [Nat.pow_succ] at hv; omega) hc]
      simp

/-- C03: sizes use the shortest big-endian form (one zero byte for zero) and decode back;
decoding any string gives its value modulo 2^64. -/
theorem C03_size_roundtrip (v : Nat) (h : v < 2 ^ 64) :
    bytesToSize (sizeToBytes v) = v ∧ sizeToBytes v = (if v = 0 then [0] else natBytes v) ∧
      1 ≤ (sizeToBytes v).length ∧ (sizeToBytes v).length ≤ 8 := by
  have e : sizeToBytes v = if v = 0 then [0] else natBytes v := by
    unfold sizeToBytes
    split
    · rfl
    · rename_i h0
      rw [sizeLoop_spec 7 v [] (by simp; omega) h0, List.append_nil]
  refine ⟨?_, e, ?_, ?_⟩
  · unfold bytesToSize
    rw [foldl_size, e]
    split
    · simp [beNat_cons]; omega
    · rw [beNat_natBytes]; omega
  · rw [e]; split
    · simp
    · rename_i h0; exact natBytes_length_pos h0
  · rw [e]; split
    · simp
    · exact natBytes_len_le (by simp; omega)

theorem C03_bytesToSize_value (bs : Bytes) : bytesToSize bs = beNat bs % 2 ^ 64 := foldl_size bs

/-- C03: no shorter string than `SizeToBytes v` has the value `v` (for a non-zero size). -/
theorem C03_size_minimal (v : Nat) (h : v < 2 ^ 64) (h0 : v ≠ 0) (bs : Bytes) (hb : beNat bs = v) :
    (sizeToBytes v).length ≤ bs.length := by
  rw [(C03_size_roundtrip v h).2.1, if_neg h0]
  apply natBytes_len_le
  rw [← hb]; exact beNat_lt bs

example : sizeToBytes 256 = [1, 0] ∧ bytesToSize [0,0,0,0,0,0,0,1,0] = 256 := by decide

theorem sval_natBytes_cons (n : Nat) : sval (0 :: natBytes n) = n := by
  simp [sval, beNat_cons, beNat_natBytes]

/-- C04 (decoding): `BigIntSetBytes` is the two's complement value of any string. -/
theorem C04_bigIntSetBytes_value (bs : Bytes) : bigIntSetBytes bs = sval bs := by
  cases bs with
  | nil => simp [bigIntSetBytes, sval]
  | cons b t =>
    by_cases hb : b.toNat < 128
    · have hz := (and80 b).mpr hb
      simp only [bigIntSetBytes, hz, ne_eq, not_true, if_false, sval, show ¬ 128 ≤ b.toNat by omega]
    · have hz : b &&& 0x80 ≠ 0 := fun h => hb ((and80 b).mp h)
      simp only [bigIntSetBytes, hz, ne_eq, not_false_eq_true, if_true, sval, show 128 ≤ b.toNat by omega]
      congr 1
      have h1 := lt_two_pow_bitLen (beNat (b :: t))
      have hge : 128 * 256 ^ t.length ≤ beNat (b :: t) := by
        rw [beNat_cons]
        have : 128 * 256 ^ t.length ≤ b.toNat * 256 ^ t.length := Nat.mul_le_mul_right _ (by omega)
        omega
      have hp : 0 < 256 ^ t.length := Nat.pow_pos (by omega)
      have hn : beNat (b :: t) ≠ 0 := by omega
      have h2 := two_pow_bitLen_le hn
      have h3 := beNat_lt (b :: t)
      have e1 : 128 * 256 ^ t.length = 2 ^ (8 * t.length + 7) := by
        rw [Nat.pow_add, Nat.pow_mul]; simp [Nat.mul_comm]
      have e2 : 256 ^ (b :: t).length = 2 ^ (8 * t.length + 8) := by
        rw [pow256, List.length_cons]; congr 1
      rw [e1] at hge
      rw [e2] at h3
      have l1 := (Nat.pow_lt_pow_iff_right (a := 2) (by omega)).mp (Nat.lt_of_le_of_lt hge h1)
      have l2 := (Nat.pow_lt_pow_iff_right (a := 2) (by omega)).mp (Nat.lt_of_le_of_lt h2 h3)
      have : bitLen (beNat (b :: t)) = 8 * t.length + 8 := by omega
      rw [this]
      have : (256 ^ (t.length + 1) : Int) = ((256 ^ (b :: t).length : Nat) : Int) := by rw [cast256, List.length_cons]
      rw [this, e2, cast2]

theorem fits_of_nat_lt {k : Nat} (n : Nat) : fits k n ↔ n < 2 ^ (8 * k - 1) := by
  unfold fits
  have : ((2 ^ (8 * k - 1) : Nat) : Int) = 2 ^ (8 * k - 1) := by simp only [cast2]
  have hp : 0 < 2 ^ (8 * k - 1) := Nat.pow_pos (a := 2) (by omega)
  constructor
  · intro h; omega
  · intro h; omega

/-- Head byte of a shortest positive form, in terms of bit length. -/
theorem bitLen_natBytes {n : Nat} (h : n ≠ 0) : (natBytes n).length = (bitLen n + 7) / 8 := by
  have h1 := lt_two_pow_bitLen n
  have h2 := two_pow_bitLen_le h
  have h3 := natBytes_len_ge h
  have h4 := natBytes_len_lt n
  rw [pow256] at h3 h4
  have l1 := (Nat.pow_lt_pow_iff_right (a := 2) (by omega)).mp (Nat.lt_of_le_of_lt h3 h1)
  have l2 := (Nat.pow_lt_pow_iff_right (a := 2) (by omega)).mp (Nat.lt_of_le_of_lt h2 h4)
  have := bitLen_pos h
  omega

theorem sval_of_lt {bs : Bytes} (h : bs ≠ []) (hlt : beNat bs < 2 ^ (8 * bs.length - 1)) : sval bs = beNat bs := by
  cases bs with
  | nil => exact absurd rfl h
  | cons b t =>
    simp only [sval]
    rw [if_neg]
    intro h8
    rw [beNat_cons] at hlt
    have e : 2 ^ (8 * (b :: t).length - 1) = 128 * 256 ^ t.length := by
      rw [show 8 * (b :: t).length - 1 = 8 * t.length + 7 by rw [List.length_cons]; omega, Nat.pow_add, Nat.pow_mul]
      simp [Nat.mul_comm]
    rw [e] at hlt
    have : 128 * 256 ^ t.length ≤ b.toNat * 256 ^ t.length := Nat.mul_le_mul_right _ (by omega)
    omega

theorem sval_of_ge {bs : Bytes} (h : bs ≠ []) (hge : 2 ^ (8 * bs.length - 1) ≤ beNat bs) :
    sval bs = (beNat bs : Int) - 2 ^ (8 * bs.length) := by
  cases bs with
  | nil => exact absurd rfl h
  | cons b t =>
    have e : 2 ^ (8 * (b :: t).length - 1) = 128 * 256 ^ t.length := by
      rw [show 8 * (b :: t).length - 1 = 8 * t.length + 7 by rw [List.length_cons]; omega, Nat.pow_add, Nat.pow_mul]
      simp [Nat.mul_comm]
    have h8 : 128 ≤ b.toNat := by
      apply Classical.byContradiction
      intro hb
      rw [e, beNat_cons] at hge
      have : b.toNat * 256 ^ t.length ≤ 127 * 256 ^ t.length := Nat.mul_le_mul_right _ (by omega)
      have := beNat_lt t
      omega
    simp only [sval]
    rw [if_pos h8]
    have : (2 ^ (8 * (b :: t).length) : Int) = 256 ^ (t.length + 1) := by
      rw [Int.pow_mul]; rfl
    rw [this]

/-- C04: every integer round trips through the shortest two's complement form. -/
theorem C04_bigInt_roundtrip (v : Int) :
    bigIntSetBytes (bigIntToBytes v) = v ∧ Shortest (bigIntToBytes v) := by
  rw [C04_bigIntSetBytes_value]
  unfold bigIntToBytes
  by_cases h0 : v = 0
  · subst h0
    exact ⟨rfl, shortest_of_not_fits (by simp [bytesForZero]) (Or.inl rfl)⟩
  rw [if_neg h0]
  by_cases hp : 0 < v
  · rw [if_pos hp]
    obtain ⟨n, rfl⟩ := Int.eq_ofNat_of_zero_le (by omega : 0 ≤ v)
    have hn : n ≠ 0 := by omega
    simp only [Int.natAbs_natCast]
    have hlen := bitLen_natBytes hn
    have hb1 := lt_two_pow_bitLen n
    have hb2 := two_pow_bitLen_le hn
    have hbp := bitLen_pos hn
    split
    · rename_i h8
      refine ⟨sval_natBytes_cons n, shortest_of_not_fits (by simp) (Or.inr ?_)⟩
      rw [sval_natBytes_cons, List.length_cons, Nat.add_sub_cancel, fits_of_nat_lt]
      have : 8 * (natBytes n).length - 1 = bitLen n - 1 := by omega
      rw [this]; omega
    · rename_i h8
      have hne : natBytes n ≠ [] := by
        intro h; have := natBytes_length_pos hn; rw [h] at this; simp at this
      have hs : sval (natBytes n) = n := by
        rw [sval_of_lt hne, beNat_natBytes]
        rw [beNat_natBytes]
        apply Nat.lt_of_lt_of_le hb1
        exact Nat.pow_le_pow_right (by omega) (by omega)
      refine ⟨hs, shortest_of_not_fits hne ?_⟩
      rw [hs]
      by_cases hl1 : (natBytes n).length = 1
      · exact Or.inl hl1
      · right
        rw [fits_of_nat_lt]
        intro hlt
        have : 2 ^ (8 * ((natBytes n).length - 1) - 1) ≤ 2 ^ (bitLen n - 1) :=
          Nat.pow_le_pow_right (by omega) (by omega)
        omega
  · rw [if_neg hp]
    -- v < 0; m = -(v+1) ≥ 0
    obtain ⟨m, hm⟩ := Int.eq_ofNat_of_zero_le (by omega : 0 ≤ -(v + 1))
    have hv : v = -(m : Int) - 1 := by omega
    subst hv
    have hti : (-(m : Int) - 1 + 1).natAbs = m := by omega
    simp only [hti]
    generalize hK : (bitLen m + 8) / 8 = K
    have hKpos : 0 < K := by omega
    have hb1 := lt_two_pow_bitLen m
    have hm1 : m < 2 ^ (8 * K - 1) :=
      Nat.lt_of_lt_of_le hb1 (Nat.pow_le_pow_right (by omega) (by omega))
    have e2 : 2 ^ (8 * K) = 2 * 2 ^ (8 * K - 1) := by
      rw [show 8 * K = (8 * K - 1) + 1 by omega, Nat.pow_succ]; simp; omega
    have ei : (2 ^ (K * 8) : Int) = ((2 ^ (8 * K) : Nat) : Int) := by
      rw [Nat.mul_comm, cast2]
    have hnb : ((2 ^ (K * 8) : Int) + (-(m : Int) - 1)).toNat = 2 ^ (8 * K) - m - 1 := by
      rw [ei]; omega
    rw [hnb]
    generalize hN : 2 ^ (8 * K) - m - 1 = N
    have hNge : 2 ^ (8 * K - 1) ≤ N := by omega
    have hNlt : N < 2 ^ (8 * K) := by omega
    have hlen : (natBytes N).length = K := by
      obtain ⟨k', rfl⟩ : ∃ k', K = k' + 1 := ⟨K - 1, by omega⟩
      apply natBytes_len_eq
      · rw [pow256]
        exact Nat.le_trans (Nat.pow_le_pow_right (by omega) (by omega)) hNge
      · rw [pow256]; exact hNlt
    have hne : natBytes N ≠ [] := by
      intro h; rw [h] at hlen; simp at hlen; omega
    have hs : sval (natBytes N) = -(m : Int) - 1 := by
      rw [sval_of_ge hne (by rw [beNat_natBytes, hlen]; exact hNge), beNat_natBytes, hlen]
      have : (2 ^ (8 * K) : Int) = ((2 ^ (8 * K) : Nat) : Int) := by simp only [cast2]
      rw [this]; omega
    refine ⟨hs, shortest_of_not_fits hne ?_⟩
    rw [hs, hlen]
    by_cases hK1 : K = 1
    · exact Or.inl hK1
    · right
      unfold fits
      rintro ⟨hlo, _⟩
      have hmn : m ≠ 0 := by
        intro h; subst h; simp [bitLen] at hK; omega
      have hb2 := two_pow_bitLen_le hmn
      have : 2 ^ (8 * (K - 1) - 1) ≤ 2 ^ (bitLen m - 1) :=
          Nat.pow_le_pow_right (by omega) (by omega)
      have e3 : (2 ^ (8 * (K - 1) - 1) : Int) = ((2 ^ (8 * (K - 1) - 1) : Nat) : Int) := by simp only [cast2]
      rw [e3] at hlo
      omega

/-- C04: a byte string is the encoding of `v` iff it is a shortest string decoding to `v`; so encoding is injective. -/
theorem C04_bigInt_bijection (v : Int) (bs : Bytes) :
    bs = bigIntToBytes v ↔ (bigIntSetBytes bs = v ∧ Shortest bs) := by
  constructor
  · rintro rfl; exact C04_bigInt_roundtrip v
  · rintro ⟨h1, h2⟩
    obtain ⟨h3, h4⟩ := C04_bigInt_roundtrip v
    rw [C04_bigIntSetBytes_value] at h1 h3
    exact shortest_unique h2 h4 (by rw [h1, h3])

/-- C04: agreement of the three encoders where their domains overlap. -/
theorem C04_encoders_agree (v : Int) :
    (-(2 ^ 63) ≤ v → v < 2 ^ 63 → int64ToBytes v = bigIntToBytes v) ∧
    (0 ≤ v → v < 2 ^ 64 → uint64ToBytes v.toNat = bigIntToBytes v) := by
  obtain ⟨h3, h4⟩ := C04_bigInt_roundtrip v
  rw [C04_bigIntSetBytes_value] at h3
  refine ⟨fun h1 h2 => ?_, fun h1 h2 => ?_⟩
  · obtain ⟨_, h5, h6, _⟩ := C01_int64_roundtrip v h1 h2
    exact shortest_unique h6 h4 (by rw [h5, h3])
  · obtain ⟨_, h5, h6, _⟩ := C02_uint64_roundtrip v.toNat (by omega)
    exact shortest_unique h6 h4 (by rw [h5, h3]; omega)

example : bigIntToBytes (-129) = [0xff, 0x7f] ∧ bigIntToBytes 32768 = [0, 0x80, 0] := by
  constructor
  · exact ((C04_bigInt_bijection _ _).mpr ⟨by decide, shortest_of_not_fits (by decide) (Or.inr (by simp [fits, sval, beNat]))⟩).symm
  · exact ((C04_bigInt_bijection _ _).mpr ⟨by decide, shortest_of_not_fits (by decide) (Or.inr (by simp [fits, sval, beNat]))⟩).symm

end Verif.IntConv
