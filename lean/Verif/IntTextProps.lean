import Verif.IntText
import Verif.IntConvProps
/-!
C05, C61, C62: text forms of integers.

Specification: `natHex n` are the lower-case hexadecimal digits of `n` without leading zero,
`hexNum s` is the number written by a string of hexadecimal digits.
-/
namespace Verif.IntText
open Verif Verif.IntConv

/-- Specification: hexadecimal digits of `n`, most significant first, none for zero. -/
def natHex (n : Nat) : Str := if _h : n = 0 then [] else natHex (n / 16) ++ [hexDigit (n % 16)]

/-- Specification: number denoted by a digit string. -/
def hexNum (s : Str) : Nat := s.foldl (fun a c => a * 16 + (hexVal c).getD 0) 0

/-- Specification: only hexadecimal digits (either case). -/
def IsHex (s : Str) : Prop := ∀ c ∈ s, (hexVal c).isSome

/-! ### helper lemmas -/

theorem hexVal_hexDigit {n : Nat} (h : n < 16) : hexVal (hexDigit n) = some n := by
  have key : ∀ n : Fin 16, hexVal (hexDigit n.val) = some n.val := by decide
  exact key ⟨n, h⟩

theorem hexDigit_eq_zero {n : Nat} (h : n < 16) : hexDigit n = '0' ↔ n = 0 := by
  have key : ∀ n : Fin 16, (hexDigit n.val = '0' ↔ n.val = 0) := by decide
  exact key ⟨n, h⟩

theorem hexVal_lt {c : Char} {d : Nat} (h : hexVal c = some d) : d < 16 := by
  unfold hexVal at h
  simp only at h
  split at h
  · simp at h; omega
  · split at h
    · simp at h; omega
    · split at h
      · simp at h; omega
      · simp at h

theorem natHex_zero : natHex 0 = [] := by unfold natHex; simp

theorem natHex_pos {n : Nat} (h : n ≠ 0) : natHex n = natHex (n / 16) ++ [hexDigit (n % 16)] := by
  rw [natHex]; simp [h]

theorem foldl_hex (s : Str) (a : Nat) :
    s.foldl (fun a c => a * 16 + (hexVal c).getD 0) a = a * 16 ^ s.length + hexNum s := by
  induction s generalizing a with
  | nil => simp [hexNum]
  | cons c t ih =>
    have e : hexNum (c :: t) = t.foldl (fun a c => a * 16 + (hexVal c).getD 0) (0 * 16 + (hexVal c).getD 0) := rfl
    rw [List.foldl_cons, ih, e, ih, List.length_cons, Nat.pow_succ]
    rw [Nat.add_mul, Nat.add_mul, Nat.mul_assoc, Nat.mul_comm 16 (16 ^ _)]
    omega

theorem hexNum_cons (c : Char) (t : Str) : hexNum (c :: t) = (hexVal c).getD 0 * 16 ^ t.length + hexNum t := by
  rw [hexNum, List.foldl_cons, foldl_hex]; simp

theorem hexNum_append (s t : Str) : hexNum (s ++ t) = hexNum s * 16 ^ t.length + hexNum t := by
  rw [hexNum, List.foldl_append, foldl_hex]; rfl

theorem natHex_spec (n : Nat) : hexNum (natHex n) = n ∧ IsHex (natHex n) ∧ (natHex n).head? ≠ some '0' ∧
    (n ≠ 0 → natHex n ≠ []) := by
  induction n using Nat.strongRecOn with
  | ind n ih =>
    by_cases h : n = 0
    · subst h; rw [natHex_zero]; simp [hexNum, IsHex]
    · have ih' := ih (n / 16) (by omega)
      have hv := hexVal_hexDigit (show n % 16 < 16 by omega)
      rw [natHex_pos h]
      refine ⟨?_, ?_, ?_, by simp⟩
      · rw [hexNum_append, ih'.1, hexNum_cons, hv]; simp [hexNum]; omega
      · intro c hc
        rcases List.mem_append.mp hc with h1 | h1
        · exact ih'.2.1 c h1
        · simp at h1; subst h1; rw [hv]; rfl
      · by_cases h16 : n / 16 = 0
        · rw [h16, natHex_zero]
          simp
          rw [hexDigit_eq_zero (by omega)]; omega
        · have hne := ih'.2.2.2 h16
          cases hx : natHex (n / 16) with
          | nil => exact absurd hx hne
          | cons c t => have := ih'.2.2.1; rw [hx] at this; simpa using this

theorem hexEncode_append (s t : Bytes) : hexEncode (s ++ t) = hexEncode s ++ hexEncode t := by
  induction s with
  | nil => rfl
  | cons b s ih => simp [hexEncode, ih]

/-- What `encodeHexNumber` does after hex encoding. -/
def stripZero (s : Str) : Str := match s with
  | [] => []
  | c :: t => if c = '0' then t else c :: t

theorem hexEncode_natBytes {n : Nat} (h : n ≠ 0) :
    hexEncode (natBytes n) = natHex n ∨ hexEncode (natBytes n) = '0' :: natHex n := by
  induction n using Nat.strongRecOn with
  | ind n ih =>
    rw [natBytes_pos h, hexEncode_append, natHex_pos h]
    have e1 : (UInt8.ofNat (n % 256)).toNat = n % 256 := u8_ofNat_toNat (by omega)
    have e2 : n % 256 % 16 = n % 16 := by omega
    by_cases h16 : n / 16 = 0
    · have : n / 256 = 0 := by omega
      rw [this, natBytes_zero, h16, natHex_zero]
      right
      have : n % 256 / 16 = 0 := by omega
      simp [hexEncode, e1, e2, this, hexDigit]
    · rw [natHex_pos h16]
      have e3 : n % 256 / 16 = n / 16 % 16 := by omega
      have e4 : n / 16 / 16 = n / 256 := by omega
      by_cases h256 : n / 256 = 0
      · left
        rw [e4, h256, natBytes_zero, natHex_zero]
        simp [hexEncode, e1, e2, e3]
      · rcases ih (n / 256) (by omega) h256 with h1 | h1
        · left; rw [h1, e4]; simp [hexEncode, e1, e2, e3]
        · right; rw [h1, e4]; simp [hexEncode, e1, e2, e3]

theorem encodeHexNumber_natBytes (neg : Bool) {n : Nat} (h : n ≠ 0) :
    encodeHexNumber neg (natBytes n) = (if neg then ['-'] else []) ++ '0' :: 'x' :: natHex n := by
  obtain ⟨_, _, hh, hne⟩ := natHex_spec n
  unfold encodeHexNumber
  rcases hexEncode_natBytes h with h1 | h1
  · rw [h1]
    cases hx : natHex n with
    | nil => exact absurd hx (hne h)
    | cons c t =>
      rw [hx] at hh
      have : c ≠ '0' := by simpa using hh
      cases neg <;> simp [this]
  · rw [h1]; cases neg <;> simp

theorem hexDecode_spec (k : Nat) (s : Str) (hk : s.length = 2 * k) (hs : IsHex s) :
    ∃ bs, hexDecode s = some bs ∧ beNat bs = hexNum s ∧ bs.length = k := by
  induction k generalizing s with
  | zero =>
    have : s = [] := by simpa using hk
    subst this; exact ⟨[], rfl, rfl, rfl⟩
  | succ k ih =>
    match s, hk, hs with
    | a :: b :: t, hk, hs =>
      obtain ⟨x, hx⟩ := Option.isSome_iff_exists.mp (hs a (by simp))
      obtain ⟨y, hy⟩ := Option.isSome_iff_exists.mp (hs b (by simp))
      have hl : t.length = 2 * k := by simp at hk; omega
      obtain ⟨bs, h1, h2, h3⟩ := ih t hl (fun c hc => hs c (by simp [hc]))
      refine ⟨UInt8.ofNat (x * 16 + y) :: bs, by simp [hexDecode, hx, hy, h1], ?_, by simp [h3]⟩
      have hxl := hexVal_lt hx
      have hyl := hexVal_lt hy
      rw [beNat_cons, u8_ofNat_toNat (by omega), h2, hexNum_cons, hexNum_cons, hx, hy, List.length_cons, hl, h3]
      simp only [Option.getD_some]
      rw [show (256 : Nat) = 16 ^ 2 from rfl, ← Nat.pow_mul, Nat.pow_succ, Nat.add_mul]
      rw [Nat.mul_assoc, Nat.mul_comm 16 (16 ^ _)]
      omega
    | [], hk, _ => simp at hk
    | [_], hk, _ => simp at hk; omega

theorem padded (s : Str) (hs : IsHex s) :
    ∃ bs, hexDecode (if s.length % 2 = 1 then '0' :: s else s) = some bs ∧ beNat bs = hexNum s ∧
      bs.length = (s.length + 1) / 2 := by
  split
  · rename_i h
    obtain ⟨bs, h1, h2, h3⟩ := hexDecode_spec ((s.length + 1) / 2) ('0' :: s) (by simp; omega)
      (by intro c hc; rcases List.mem_cons.mp hc with h | h
          · subst h; decide
          · exact hs c h)
    refine ⟨bs, h1, ?_, h3⟩
    rw [h2, hexNum_cons]
    have : hexVal '0' = some 0 := by decide
    simp [this]
  · obtain ⟨bs, h1, h2, h3⟩ := hexDecode_spec (s.length / 2) s (by omega) hs
    exact ⟨bs, h1, h2, by omega⟩

theorem isHex_not_special {s : Str} (hs : IsHex s) : '-' ∉ s ∧ '+' ∉ s ∧ '_' ∉ s ∧ 'x' ∉ s := by
  refine ⟨?_, ?_, ?_, ?_⟩ <;> intro h <;> have := hs _ h <;> revert this <;> decide

theorem decodeHex_prefixed (neg : Bool) (ds : Str) (hs : IsHex ds) (hne : ds ≠ []) :
    ∃ bs, decodeHexNumber ((if neg then ['-'] else []) ++ '0' :: 'x' :: ds) = some (neg, bs) ∧
      beNat bs = hexNum ds ∧ bs.length = (ds.length + 1) / 2 := by
  obtain ⟨bs, h1, h2, h3⟩ := padded ds hs
  refine ⟨bs, ?_, h2, h3⟩
  cases ds with
  | nil => exact absurd rfl hne
  | cons c t =>
    have e1 : stripNeg ('0' :: 'x' :: c :: t) = (false, '0' :: 'x' :: c :: t) := rfl
    have e2 : stripNeg ('-' :: '0' :: 'x' :: c :: t) = (true, '0' :: 'x' :: c :: t) := rfl
    have e3 : strip0x ('0' :: 'x' :: c :: t) = c :: t := rfl
    unfold decodeHexNumber
    cases neg
    · simp only [Bool.false_eq_true, if_false, List.nil_append, e1, e3, h1, Option.map_some]
    · simp only [if_true, List.cons_append, List.nil_append, e2, e3, h1, Option.map_some]

theorem digitVal_of_hexVal {c : Char} {d : Nat} (h : hexVal c = some d) : digitVal c = some d ∧ c ≠ '_' := by
  constructor
  · unfold hexVal at h
    simp only at h
    unfold digitVal lower
    simp only
    split at h
    · rename_i h1; simp [h1] at h ⊢; exact h
    · rename_i h1
      simp only [h1, if_false]
      split at h
      · rename_i h2
        have : ¬ (65 ≤ c.toNat ∧ c.toNat ≤ 90) := by omega
        simp only [this, if_false]
        rw [if_pos (by omega)]; exact h
      · split at h
        · rename_i h3
          have h4 : 65 ≤ c.toNat ∧ c.toNat ≤ 90 := by omega
          simp only [h4, and_self, if_true]
          have h5 : (Char.ofNat (c.toNat + 32)).toNat = c.toNat + 32 := by
            have key : ∀ k : Fin 6, (Char.ofNat (65 + k.val + 32)).toNat = 65 + k.val + 32 := by decide
            have := key ⟨c.toNat - 65, by omega⟩
            simpa [show 65 + (c.toNat - 65) = c.toNat by omega] using this
          rw [h5, if_pos (by omega)]
          simp at h ⊢; omega
        · simp at h
  · intro hc; subst hc; revert h; simp [hexVal]

theorem uintLoop_hex (maxVal : Nat) (hm : maxVal ≤ 2 ^ 64 - 1) (s : Str) (hs : IsHex s) (a : Nat) (ha : a ≤ maxVal) :
    uintLoop 16 maxVal s a false =
      if a * 16 ^ s.length + hexNum s ≤ maxVal then .ok (a * 16 ^ s.length + hexNum s, false) else .error .range := by
  induction s generalizing a with
  | nil => simp [uintLoop, hexNum, ha]
  | cons c t ih =>
    obtain ⟨d, hd⟩ := Option.isSome_iff_exists.mp (hs c (by simp))
    have hdl := hexVal_lt hd
    obtain ⟨hdv, hus⟩ := digitVal_of_hexVal hd
    rw [uintLoop, if_neg hus, hdv]
    simp only
    rw [if_neg (by omega)]
    have hlow : (a * 16 + d) * 16 ^ t.length + hexNum t = a * 16 ^ (c :: t).length + hexNum (c :: t) := by
      rw [hexNum_cons, hd, List.length_cons, Nat.pow_succ, Nat.add_mul, Nat.mul_assoc, Nat.mul_comm 16 (16 ^ _)]
      simp only [Option.getD_some]; omega
    have hp : 1 ≤ 16 ^ t.length := Nat.pow_pos (by omega)
    have hge : a * 16 + d ≤ (a * 16 + d) * 16 ^ t.length := Nat.le_mul_of_pos_right _ hp
    by_cases hb : a * 16 + d ≤ maxVal
    · rw [if_neg (by omega), if_neg (by omega), ih (fun c hc => hs c (by simp [hc])) _ hb, hlow]
    · rw [← hlow, if_neg (show ¬ ((a * 16 + d) * 16 ^ t.length + hexNum t ≤ maxVal) by omega)]
      split
      · rfl
      · rw [if_pos (by omega)]

theorem two_pow_bits {bits : Nat} (hb : 1 ≤ bits) (hb2 : bits ≤ 64) :
    2 * 2 ^ (bits - 1) = 2 ^ bits ∧ 2 ^ bits ≤ 2 ^ 64 ∧ 1 ≤ 2 ^ (bits - 1) := by
  refine ⟨?_, Nat.pow_le_pow_right (by omega) hb2, Nat.pow_pos (by omega)⟩
  rw [Nat.mul_comm, ← Nat.pow_succ]; congr 1; omega

theorem goParseUint_hex (ds : Str) (hs : IsHex ds) (hne : ds ≠ []) (bits : Nat) (hb : 1 ≤ bits) (hb2 : bits ≤ 64) :
    goParseUint ('0' :: 'x' :: ds) bits = if hexNum ds < 2 ^ bits then .ok (hexNum ds) else .error .range := by
  obtain ⟨h1, h2, h3⟩ := two_pow_bits hb hb2
  cases ds with
  | nil => exact absurd rfl hne
  | cons c t =>
    have hp : basePrefix ('0' :: 'x' :: c :: t) = (16, c :: t) := by
      simp only [basePrefix]; rw [if_neg (by decide), if_neg (by decide), if_pos (by decide)]
    unfold goParseUint
    rw [if_neg (List.cons_ne_nil _ _)]
    simp only [hp]
    rw [uintLoop_hex _ (by omega) _ hs 0 (by omega)]
    simp only [Nat.zero_mul, Nat.zero_add]
    by_cases hlt : hexNum (c :: t) < 2 ^ bits
    · rw [if_pos (by omega), if_pos hlt]; simp
    · rw [if_neg (by omega), if_neg hlt]

theorem goParseInt_hex (neg : Bool) (ds : Str) (hs : IsHex ds) (hne : ds ≠ []) (bits : Nat)
    (hb : 1 ≤ bits) (hb2 : bits ≤ 64) :
    goParseInt ((if neg then ['-'] else []) ++ '0' :: 'x' :: ds) bits =
      if hexNum ds < 2 ^ (bits - 1) + (if neg then 1 else 0) ∧ hexNum ds < 2 ^ bits then
        .ok (if neg then -(hexNum ds : Int) else hexNum ds) else .error .range := by
  obtain ⟨h1, h2, h3⟩ := two_pow_bits hb hb2
  have hu := goParseUint_hex ds hs hne bits hb hb2
  cases neg
  · simp only [Bool.false_eq_true, if_false, List.nil_append, goParseInt]
    rw [if_neg (by decide), hu]
    by_cases hlt : hexNum ds < 2 ^ bits
    · rw [if_pos hlt]
      simp only [show decide ('0' = '-') = false from rfl, true_and, Nat.add_zero]
      by_cases hlt2 : hexNum ds < 2 ^ (bits - 1)
      · rw [if_neg (by omega), if_neg (by simp)]; simp [hlt, hlt2]
      · rw [if_pos (by omega), if_neg (by omega)]
    · rw [if_neg hlt, if_neg (by omega)]
  · simp only [if_true, List.cons_append, List.nil_append, goParseInt]
    rw [if_pos (by simp), hu]
    by_cases hlt : hexNum ds < 2 ^ bits
    · rw [if_pos hlt]
      simp only [decide_true, true_and]
      rw [if_neg (by simp)]
      by_cases hlt2 : hexNum ds < 2 ^ (bits - 1) + 1
      · rw [if_neg (by omega)]; simp [hlt, hlt2]
      · rw [if_pos (by omega), if_neg (by omega)]
    · rw [if_neg hlt, if_neg (by omega)]

theorem formatText (neg : Bool) (n : Nat) (hn : neg = true → n ≠ 0) :
    encodeHexNumber neg (if n = 0 then [0] else natBytes n) =
      (if neg then ['-'] else []) ++ '0' :: 'x' :: (if n = 0 then ['0'] else natHex n) := by
  by_cases h : n = 0
  · subst h
    cases neg
    · rfl
    · exact absurd rfl (hn rfl)
  · rw [if_neg h, if_neg h]; exact encodeHexNumber_natBytes neg h

/-- Digits written by the formatters. -/
def fmtDigits (n : Nat) : Str := if n = 0 then ['0'] else natHex n

theorem fmtDigits_spec (n : Nat) : hexNum (fmtDigits n) = n ∧ IsHex (fmtDigits n) ∧ fmtDigits n ≠ [] := by
  unfold fmtDigits
  split
  · rename_i h; subst h
    exact ⟨by decide, by intro c hc; simp at hc; subst hc; decide, by simp⟩
  · rename_i h
    obtain ⟨h1, h2, _, h3⟩ := natHex_spec n
    exact ⟨h1, h2, h3 h⟩

/-! ### C05 -/

/-- C05: what the formatters write: an optional '-', "0x", and the digits of the absolute value without
leading zero (a single "0" for zero). -/
theorem C05_format_text (v : Int) :
    formatBigInt v = (if v < 0 then ['-'] else []) ++ '0' :: 'x' :: (if v = 0 then ['0'] else natHex v.natAbs) ∧
    (-(2 ^ 63) ≤ v → v < 2 ^ 63 → formatInt v = formatBigInt v) ∧
    (0 ≤ v → v < 2 ^ 64 → formatUint v.toNat = formatBigInt v) := by
  have hbig : formatBigInt v = (if v < 0 then ['-'] else []) ++ '0' :: 'x' :: (if v = 0 then ['0'] else natHex v.natAbs) := by
    unfold formatBigInt
    by_cases h0 : v = 0
    · subst h0; simp [encodeHexNumber, hexEncode]
    · rw [encodeHexNumber_natBytes _ (by omega), if_neg h0]
      simp
  refine ⟨hbig, fun h1 h2 => ?_, fun h1 h2 => ?_⟩
  · rw [hbig]
    unfold formatInt
    by_cases hneg : v < 0
    · rw [if_pos hneg]
      have e : ((-v) % 2 ^ 64).toNat = v.natAbs := by omega
      rw [e, (C03_size_roundtrip v.natAbs (by omega)).2.1, formatText true _ (by omega)]
      simp [hneg]
    · rw [if_neg hneg]
      have e : v.toNat = v.natAbs := by omega
      rw [e, (C03_size_roundtrip v.natAbs (by omega)).2.1, formatText false _ (by simp)]
      simp [hneg]
  · rw [hbig]
    unfold formatUint
    have e : v.toNat = v.natAbs := by omega
    rw [e, (C03_size_roundtrip v.natAbs (by omega)).2.1, formatText false _ (by simp)]
    simp [show ¬ v < 0 by omega]

theorem format_eq (v : Int) :
    formatBigInt v = (if decide (v < 0) = true then ['-'] else []) ++ '0' :: 'x' :: fmtDigits v.natAbs := by
  rw [(C05_format_text v).1]
  unfold fmtDigits
  by_cases h : v = 0
  · subst h; rfl
  · simp [h]

/-- C05: `ParseBigInt(FormatBigInt(v)) = v`. -/
theorem C05_bigInt_roundtrip (v : Int) : parseBigInt (formatBigInt v) = some v := by
  obtain ⟨h1, h2, h3⟩ := fmtDigits_spec v.natAbs
  obtain ⟨bs, e1, e2, _⟩ := decodeHex_prefixed (decide (v < 0)) _ h2 h3
  unfold parseBigInt
  rw [format_eq, e1]
  simp only [e2, h1, decide_eq_true_eq]
  congr 1
  split <;> omega

/-- C05: `ParseInt(FormatInt(v), bits) = v` for every value of the width, including the minimum. -/
theorem C05_int_roundtrip (bits : Nat) (hb : 2 ≤ bits) (hb2 : bits ≤ 64) (v : Int)
    (hlo : -(2 ^ (bits - 1) : Nat) ≤ v) (hhi : v < (2 ^ (bits - 1) : Nat)) :
    parseInt (formatInt v) bits = some v := by
  obtain ⟨h1, h2, h3⟩ := fmtDigits_spec v.natAbs
  obtain ⟨p1, p2, p3⟩ := two_pow_bits (show 1 ≤ bits by omega) hb2
  have pw : 2 ≤ 2 ^ (bits - 1) := by
    have := Nat.pow_le_pow_right (n := 2) (by omega) (show 1 ≤ bits - 1 by omega)
    simpa using this
  rw [(C05_format_text v).2.1 (by omega) (by omega), format_eq]
  unfold parseInt
  rw [goParseInt_hex _ _ h2 h3 bits (by omega) hb2, h1]
  by_cases hneg : v < 0
  · simp only [hneg, decide_true, if_true]
    rw [if_pos (by omega)]
    simp; omega
  · simp only [hneg, decide_false, Bool.false_eq_true, if_false]
    rw [if_pos (by omega)]
    simp; omega

/-- C05: `ParseUint(FormatUint(v), bits) = v` for every value of the width. -/
theorem C05_uint_roundtrip (bits : Nat) (hb : 1 ≤ bits) (hb2 : bits ≤ 64) (v : Nat) (hv : v < 2 ^ bits) :
    parseUint (formatUint v) bits = some v := by
  obtain ⟨h1, h2, h3⟩ := fmtDigits_spec v
  obtain ⟨p1, p2, p3⟩ := two_pow_bits hb hb2
  have := (C05_format_text v).2.2 (by omega) (by omega)
  simp only [Int.toNat_natCast] at this
  rw [this, format_eq]
  unfold parseUint
  have e : (decide ((v : Int) < 0)) = false := by simp
  rw [e]
  simp only [Bool.false_eq_true, if_false, List.nil_append, Int.natAbs_natCast]
  rw [goParseUint_hex _ h2 h3 bits hb hb2, h1, if_pos hv]

example : formatInt (-(2^63)) = "-0x8000000000000000".toList := by decide
example : parseInt "-0x8000000000000000".toList 64 = some (-(2^63)) := by decide
example : formatBigInt 4096 = "0x1000".toList := by
  rw [(C05_format_text 4096).1]; simp [natHex, hexDigit]

/-! ### C61: parsing never returns a value outside the requested width -/

theorem uintLoop_le (base maxVal : Nat) (s : Str) (a : Nat) (us : Bool) (ha : a ≤ maxVal) (n : Nat) (us' : Bool)
    (h : uintLoop base maxVal s a us = .ok (n, us')) : n ≤ maxVal := by
  induction s generalizing a us with
  | nil => simp [uintLoop] at h; omega
  | cons c t ih =>
    rw [uintLoop] at h
    split at h
    · exact ih a true ha h
    · split at h
      · simp at h
      · split at h
        · simp at h
        · split at h
          · simp at h
          · split at h
            · simp at h
            · exact ih _ us (by omega) h

theorem goParseUint_lt (s : Str) (bits : Nat) (n : Nat) (h : goParseUint s bits = .ok n) : n < 2 ^ bits := by
  have hp : 0 < 2 ^ bits := Nat.pow_pos (by omega)
  unfold goParseUint at h
  split at h
  · simp at h
  · simp only at h
    split at h
    · simp at h
    · rename_i n' us hl
      have := uintLoop_le _ _ _ _ _ (by omega) _ _ hl
      split at h
      · simp at h
      · simp at h; omega

/-- C61: for every text, a successful `ParseInt(s, bits)` is in the signed range of the width. -/
theorem C61_parseInt_range (s : Str) (bits : Nat) (hb : 1 ≤ bits) (hb2 : bits ≤ 64) (v : Int)
    (h : parseInt s bits = some v) : -(2 ^ (bits - 1) : Nat) ≤ v ∧ v < (2 ^ (bits - 1) : Nat) := by
  obtain ⟨p1, p2, p3⟩ := two_pow_bits hb hb2
  unfold parseInt at h
  split at h
  · rename_i v' hg
    simp at h; subst h
    unfold goParseInt at hg
    split at hg
    · simp at hg
    · simp only at hg
      split at hg
      · simp at hg
      · rename_i un hu
        split at hg
        · simp at hg
        · rename_i c1
          split at hg
          · simp at hg
          · rename_i c2
            simp at hg
            split at hg
            · rename_i hneg
              simp [hneg] at c1 c2
              omega
            · rename_i hneg
              simp [hneg] at c1 c2
              omega
  · split at h
    · simp at h
    · rename_i neg bs hd
      split at h
      · simp at h
      · simp only at h
        split at h
        · split at h
          · simp at h
          · simp only [Option.some.injEq] at h
            subst h
            unfold toInt64
            simp only
            split <;> split <;> omega
        · split at h
          · simp at h
          · simp only [Option.some.injEq] at h
            subst h
            unfold toInt64
            simp only
            split <;> omega

/-- C61: for every text, a successful `ParseUint(s, bits)` is below `2^bits`. -/
theorem C61_parseUint_range (s : Str) (bits : Nat) (v : Nat)
    (h : parseUint s bits = some v) : v < 2 ^ bits := by
  unfold parseUint at h
  split at h
  · rename_i v' hg
    simp at h; subst h
    exact goParseUint_lt _ _ _ hg
  · split at h
    · rename_i bs hd
      split at h
      · simp at h
      · rename_i hl
        simp at h
        rw [← h, C03_bytesToSize_value]
        have h1 := beNat_lt bs
        rw [pow256] at h1
        have h2 : 2 ^ (8 * bs.length) ≤ 2 ^ bits := Nat.pow_le_pow_right (by omega) (by omega)
        have h3 := Nat.mod_le (beNat bs) (2 ^ 64)
        omega
    · simp at h

example : parseInt "0x8000".toList 16 = none ∧ parseInt "-0x8000".toList 16 = some (-32768) := by decide

/-! ### C62: the same text denotes the same number whatever the parser -/

/-- C62 is false in general: the text "10" is ten for the fixed-width parsers and sixteen for the
arbitrary-precision one. -/
theorem C62_parsers_disagree :
    ¬ ∀ (s : Str) (v : Int), parseInt s 64 = some v → parseBigInt s = some v := by
  intro h
  have := h "10".toList 10 (by decide)
  revert this; decide

/-- C62, part: on text with the "0x" prefix and at least one digit all parsers agree with the written number;
the fixed-width ones reject exactly the numbers outside their range. -/
theorem C62_prefixed_agree_partial (neg : Bool) (ds : Str) (hs : IsHex ds) (hne : ds ≠ []) (bits : Nat)
    (hb : 2 ≤ bits) (hb2 : bits ≤ 64) :
    let text := (if neg then ['-'] else []) ++ '0' :: 'x' :: ds
    let v : Int := if neg then -(hexNum ds : Int) else hexNum ds
    parseBigInt text = some v ∧
    parseInt text bits = (if -(2 ^ (bits - 1) : Nat) ≤ v ∧ v < (2 ^ (bits - 1) : Nat) then some v else none) := by
  obtain ⟨p1, p2, p3⟩ := two_pow_bits (show 1 ≤ bits by omega) hb2
  have pw : 2 ≤ 2 ^ (bits - 1) := by
    have := Nat.pow_le_pow_right (n := 2) (by omega) (show 1 ≤ bits - 1 by omega)
    simpa using this
  obtain ⟨bs, e1, e2, e3⟩ := decodeHex_prefixed neg ds hs hne
  refine ⟨by simp only [parseBigInt, e1, e2], ?_⟩
  simp only [parseInt]
  rw [goParseInt_hex _ _ hs hne bits (by omega) hb2, e1]
  simp only
  have hbs : bs.length * 8 > bits ∨ bytesToSize bs = hexNum ds := by
    by_cases hl : bs.length * 8 > bits
    · exact Or.inl hl
    · right
      rw [C03_bytesToSize_value, e2]
      have h1 := beNat_lt bs
      rw [pow256] at h1
      have h2 : 2 ^ (8 * bs.length) ≤ 2 ^ 64 := Nat.pow_le_pow_right (by omega) (by omega)
      rw [e2] at h1
      exact Nat.mod_eq_of_lt (by omega)
  cases neg
  · simp only [Bool.false_eq_true, if_false, Nat.add_zero]
    by_cases hlt : hexNum ds < 2 ^ (bits - 1)
    · rw [if_pos (show hexNum ds < 2 ^ (bits - 1) ∧ hexNum ds < 2 ^ bits by omega)]
      simp only
      rw [if_pos (by omega)]
    · rw [if_neg (by omega)]
      simp only
      rw [if_neg (show ¬ (-((2 ^ (bits - 1) : Nat) : Int) ≤ (hexNum ds : Int) ∧ (hexNum ds : Int) < (2 ^ (bits - 1) : Nat)) by omega)]
      rcases hbs with h | h
      · rw [if_pos h]
      · split
        · rfl
        · rw [h, if_pos (by omega)]
  · simp only [if_true]
    by_cases hlt : hexNum ds < 2 ^ (bits - 1) + 1
    · rw [if_pos (show hexNum ds < 2 ^ (bits - 1) + 1 ∧ hexNum ds < 2 ^ bits by omega)]
      simp only
      rw [if_pos (by omega)]
    · rw [if_neg (by omega)]
      simp only
      rw [if_neg (show ¬ (-((2 ^ (bits - 1) : Nat) : Int) ≤ -(hexNum ds : Int) ∧ -(hexNum ds : Int) < (2 ^ (bits - 1) : Nat)) by omega)]
      rcases hbs with h | h
      · rw [if_pos h]
      · split
        · rfl
        · rw [h, if_pos (by omega)]

example : IsHex "1fF".toList ∧ hexNum "1fF".toList = 511 := by
  constructor
  · intro c hc; revert c; decide
  · decide

/-! ### C64 -/

theorem hexDecode_isHex (s : Str) (bs : Bytes) (h : hexDecode s = some bs) : IsHex s := by
  induction s using hexDecode.induct generalizing bs with
  | case1 => simp [IsHex]
  | case2 => simp [hexDecode] at h
  | case3 a b t ih =>
    rw [hexDecode] at h
    cases ha : hexVal a with
    | none => simp [ha] at h
    | some x =>
      cases hb : hexVal b with
      | none => simp [ha, hb] at h
      | some y =>
        cases hr : hexDecode t with
        | none => simp [ha, hb, hr] at h
        | some r =>
          intro c hc
          simp at hc
          rcases hc with rfl | rfl | hc
          · simp [ha]
          · simp [hb]
          · exact ih r hr c hc

theorem stripNeg_eq (s : Str) : s = (if (stripNeg s).1 then ['-'] else []) ++ (stripNeg s).2 := by
  unfold stripNeg; split <;> simp

theorem strip0x_eq (s : Str) : strip0x s = s ∨ (s = '0' :: 'x' :: strip0x s ∧ strip0x s ≠ []) := by
  unfold strip0x
  split
  · right; simp
  · left; rfl

theorem strip0x_hex (s : Str) (h : IsHex s) : strip0x s = s := by
  unfold strip0x
  split
  · rename_i c t
    have := (isHex_not_special h).2.2.2
    simp at this
  · rfl

/-- C64: the texts accepted by `ParseBigInt` are exactly an optional minus sign followed by hexadecimal digits
(possibly none), or by `0x` and at least one digit; the value is the number the digits denote. -/
theorem C64_parseBigInt_language (s : Str) (v : Int) :
    parseBigInt s = some v ↔ ∃ (neg : Bool) (ds : Str), IsHex ds ∧
      (s = (if neg then ['-'] else []) ++ ds ∨ (ds ≠ [] ∧ s = (if neg then ['-'] else []) ++ '0' :: 'x' :: ds)) ∧
      v = if neg then -(hexNum ds : Int) else hexNum ds := by
  constructor
  · intro h
    unfold parseBigInt decodeHexNumber at h
    simp only at h
    cases hd : hexDecode (if (strip0x (stripNeg s).2).length % 2 = 1 then '0' :: strip0x (stripNeg s).2 else strip0x (stripNeg s).2) with
    | none => simp [hd] at h
    | some bs =>
      have hx : IsHex (strip0x (stripNeg s).2) := by
        have := hexDecode_isHex _ _ hd
        split at this
        · exact fun c hc => this c (by simp [hc])
        · exact this
      obtain ⟨bs', h1, h2, _⟩ := padded _ hx
      rw [hd] at h1
      simp at h1
      subst h1
      refine ⟨(stripNeg s).1, strip0x (stripNeg s).2, hx, ?_, ?_⟩
      · rcases strip0x_eq (stripNeg s).2 with h3 | ⟨h3, h4⟩
        · left; rw [h3]; exact stripNeg_eq s
        · right; refine ⟨h4, ?_⟩; rw [← h3]; exact stripNeg_eq s
      · simp [hd] at h
        rw [← h, h2]
  · rintro ⟨neg, ds, hx, hs, hv⟩
    rcases hs with hs | ⟨hne, hs⟩
    · obtain ⟨bs, h1, h2, _⟩ := padded ds hx
      have hsn : stripNeg s = (neg, ds) := by
        rw [hs]
        cases neg
        · have := (isHex_not_special hx).1
          cases ds with
          | nil => rfl
          | cons c t =>
            have hc : c ≠ '-' := by rintro rfl; simp at this
            simp only [Bool.false_eq_true, if_false, List.nil_append]
            unfold stripNeg
            split
            · rename_i h; simp at h; exact absurd h.1 hc
            · rfl
        · rfl
      unfold parseBigInt decodeHexNumber
      simp only [hsn, strip0x_hex ds hx, h1, Option.map_some, hv, h2]
    · obtain ⟨bs, h1, h2, _⟩ := decodeHex_prefixed neg ds hx hne
      rw [hs]
      unfold parseBigInt
      rw [h1]
      simp only [hv, h2]

example : parseBigInt "-0xfF".toList = some (-255) ∧ parseBigInt "0x".toList = none ∧ parseBigInt "-".toList = some 0 := by
  decide +kernel

end Verif.IntText
