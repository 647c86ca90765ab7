import Verif.PyBase64
/-!
Property C116 of the base64 functions of the Python contracts.
-/
namespace Verif.PyBase64
open Verif

theorem value_char (url : Bool) (i : Nat) (h : i < 64) : value url (char url i) = i := by
  have : ∀ url : Bool, ∀ i : Fin 64, value url (char url i.val) = (i.val : Int) := by decide +kernel
  exact this url ⟨i, h⟩

theorem char_ne_pad (url : Bool) (i : Nat) : char url i ≠ 61 := by
  by_cases h : i < 64
  · have : ∀ url : Bool, ∀ i : Fin 64, char url i.val ≠ 61 := by decide +kernel
    exact this url ⟨i, h⟩
  · unfold char
    rw [if_neg (by omega), if_neg (by omega), if_neg (by omega), if_neg (by omega)]
    cases url <;> decide

theorem u8_of (a : UInt8) (n : Nat) (h : n = a.toNat) : UInt8.ofNat n = a := by subst h; simp

/-- One character of six bits. -/
theorem loop_char (url : Bool) (i : Nat) (hi : i < 64) (r : Bytes) (bits shift : Nat) (out : Bytes) (hs : shift ≠ 0) :
    loop url (char url i :: r) bits shift out = loop url r (bits + i * 2 ^ shift) (shift - 6) out := by
  rw [loop, value_char url i hi, if_neg (by omega), if_neg hs]; rfl

theorem loop_last (url : Bool) (i : Nat) (hi : i < 64) (r : Bytes) (bits : Nat) (out : Bytes) :
    loop url (char url i :: r) bits 0 out = loop url r 0 18 (out ++ [UInt8.ofNat ((bits + i) / 65536 % 256), UInt8.ofNat ((bits + i) / 256 % 256),
      UInt8.ofNat ((bits + i) % 256)]) := by
  rw [loop, value_char url i hi, if_neg (by omega)]
  simp

theorem loop_group (url : Bool) (a b c : UInt8) (r out : Bytes) :
    loop url (char url ((a.toNat * 65536 + b.toNat * 256 + c.toNat) / 262144 % 64) ::
      char url ((a.toNat * 65536 + b.toNat * 256 + c.toNat) / 4096 % 64) :: char url ((a.toNat * 65536 + b.toNat * 256 + c.toNat) / 64 % 64) ::
      char url ((a.toNat * 65536 + b.toNat * 256 + c.toNat) % 64) :: r) 0 18 out = loop url r 0 18 (out ++ [a, b, c]) := by
  have ha := a.toNat_lt; have hb := b.toNat_lt; have hc := c.toNat_lt
  rw [loop_char url _ (by omega) _ _ _ _ (by omega), loop_char url _ (by omega) _ _ _ _ (by omega), loop_char url _ (by omega) _ _ _ _ (by omega),
    loop_last url _ (by omega)]
  congr 2
  simp only [Nat.reducePow, Nat.reduceSub]
  rw [u8_of a _ (by omega), u8_of b _ (by omega), u8_of c _ (by omega)]

/-- What the text of `x` is turned into, with `k` of the padding characters left out. -/
def tail (x : Bytes) : Nat := if x.length % 3 = 0 then 0 else 3 - x.length % 3

theorem encode_len (url : Bool) : ∀ x : Bytes, (encode url x).length = 4 * ((x.length + 2) / 3)
  | [] => rfl
  | [_] => by simp [encode]
  | [_, _] => by simp [encode]
  | a :: b :: c :: l => by
    rw [encode]; simp only [List.length_cons]; rw [encode_len url l]; omega

/-- The loop on an encoding. -/
theorem loop_encode (url : Bool) : ∀ (x out : Bytes), ∃ sh bits o, loop url (encode url x) 0 18 out = some (sh, bits, o, 0) ∧ finish sh bits o = some (out ++ x)
  | [], out => ⟨18, 0, out, rfl, by simp [finish]⟩
  | [a], out => by
    have ha := a.toNat_lt
    refine ⟨6, a.toNat / 4 * 2 ^ 18 + a.toNat * 16 % 64 * 2 ^ 12, out, ?_, ?_⟩
    · rw [encode, loop_char url _ (by omega) _ _ _ _ (by omega), loop_char url _ (by omega) _ _ _ _ (by omega)]
      have hv : value url 61 = -2 := by cases url <;> decide
      rw [loop, hv]; simp
    · rw [finish, if_pos rfl, u8_of a _ (by simp only [Nat.reducePow]; omega)]
  | [a, b], out => by
    have ha := a.toNat_lt; have hb := b.toNat_lt
    refine ⟨0, a.toNat / 4 * 2 ^ 18 + (a.toNat * 16 % 64 + b.toNat / 16) * 2 ^ 12 + b.toNat * 4 % 64 * 2 ^ 6, out, ?_, ?_⟩
    · rw [encode, loop_char url _ (by omega) _ _ _ _ (by omega), loop_char url _ (by omega) _ _ _ _ (by omega),
        loop_char url _ (by omega) _ _ _ _ (by omega)]
      have hv : value url 61 = -2 := by cases url <;> decide
      rw [loop, hv]; simp
    · rw [finish, if_neg (by omega), if_pos rfl, u8_of a _ (by simp only [Nat.reducePow]; omega), u8_of b _ (by simp only [Nat.reducePow]; omega)]
  | a :: b :: c :: l, out => by
    obtain ⟨sh, bits, o, h1, h2⟩ := loop_encode url l (out ++ [a, b, c])
    refine ⟨sh, bits, o, ?_, by rw [h2]; simp⟩
    rw [encode, loop_group]
    exact h1

theorem getD_append_right' (l : Bytes) (t : Bytes) (i : Nat) (h : l.length ≤ i) : (l ++ t).getD i 0 = t.getD (i - l.length) 0 := by
  rw [List.getD_eq_getElem?_getD, List.getD_eq_getElem?_getD, List.getElem?_append_right h]

/-- The last two characters tell how many bytes are missing. -/
theorem encode_last (url : Bool) : ∀ x : Bytes, x ≠ [] →
    (if (encode url x).getD ((encode url x).length - 1) 0 = 61 then 1 else 0) + (if (encode url x).getD ((encode url x).length - 2) 0 = 61 then 1 else 0) =
    3 * ((x.length + 2) / 3) - x.length
  | [], h => absurd rfl h
  | [a], _ => by simp [encode, List.getD]
  | [a, b], _ => by
    have : char url (b.toNat * 4 % 64) ≠ 61 := char_ne_pad _ _
    simp [encode, List.getD, this]
  | [a, b, c], _ => by
    have h1 : ∀ i, char url i ≠ 61 := char_ne_pad url
    simp [encode, List.getD, h1]
  | a :: b :: c :: d :: l, _ => by
    have ih := encode_last url (d :: l) (by simp)
    have hl := encode_len url (d :: l)
    rw [encode]
    generalize hE : encode url (d :: l) = E at *
    have h2 : 2 ≤ E.length := by rw [hl]; simp only [List.length_cons]; omega
    have e1 : ∀ p q r s : UInt8, (p :: q :: r :: s :: E).getD ((p :: q :: r :: s :: E).length - 1) 0 = E.getD (E.length - 1) 0 := by
      intro p q r s
      have := getD_append_right' [p, q, r, s] E (E.length + 3) (by simp; omega)
      rw [show (p :: q :: r :: s :: E).length - 1 = E.length + 3 by simp]
      rw [show p :: q :: r :: s :: E = [p, q, r, s] ++ E from rfl, this]
      congr 1
    have e2 : ∀ p q r s : UInt8, (p :: q :: r :: s :: E).getD ((p :: q :: r :: s :: E).length - 2) 0 = E.getD (E.length - 2) 0 := by
      intro p q r s
      have := getD_append_right' [p, q, r, s] E (E.length + 2) (by simp; omega)
      rw [show (p :: q :: r :: s :: E).length - 2 = E.length + 2 by simp]
      rw [show p :: q :: r :: s :: E = [p, q, r, s] ++ E from rfl, this]
      congr 1
    rw [e1, e2, ih]
    simp only [List.length_cons]; omega

theorem decodeLength_encode (url : Bool) (x : Bytes) : decodeLength (encode url x) = some x.length := by
  have hl := encode_len url x
  unfold decodeLength
  cases x with
  | nil => rfl
  | cons a l =>
    have hlast := encode_last url (a :: l) (by simp)
    simp only [List.length_cons] at hl hlast ⊢
    rw [if_neg (by omega), if_neg (by omega)]
    simp only [hlast]
    rw [if_neg (by omega)]
    congr 1; omega

/-- C116: what is encoded is decoded, in both alphabets. -/
theorem C116_roundtrip (url : Bool) (x : Bytes) : decode url (encode url x) = some x := by
  obtain ⟨sh, bits, o, h1, h2⟩ := loop_encode url x []
  unfold decode
  rw [decodeLength_encode, h1]
  simp only [Option.bind_some, h2, List.nil_append]
  simp

/-- C116: the decoder of the contracts reads the encoder of the contracts (and of the relay: the URL alphabet with padding). -/
theorem C116_url_roundtrip (x : Bytes) : urlDecode (encode true x) = some x := by
  unfold urlDecode
  rw [if_neg (by rw [encode_len]; omega)]
  exact C116_roundtrip true x

/-- Padding at the end of an encoding. -/
theorem encode_pad (url : Bool) : ∀ x : Bytes, ∃ y, encode url x = y ++ List.replicate (3 * ((x.length + 2) / 3) - x.length) 61 ∧ 61 ∉ y
  | [] => ⟨[], rfl, by simp⟩
  | [a] => ⟨[char url (a.toNat / 4), char url (a.toNat * 16 % 64)], by simp [encode], by simp [fun i => Ne.symm (char_ne_pad url i)]⟩
  | [a, b] => ⟨[char url (a.toNat / 4), char url (a.toNat * 16 % 64 + b.toNat / 16), char url (b.toNat * 4 % 64)], by simp [encode],
      by simp [fun i => Ne.symm (char_ne_pad url i)]⟩
  | a :: b :: c :: l => by
    obtain ⟨y, h1, h2⟩ := encode_pad url l
    refine ⟨_ :: _ :: _ :: _ :: y, by rw [encode, h1]; simp only [List.length_cons, List.cons_append]; rw [show 3 * ((l.length + 1 + 1 + 1 + 2) / 3) - (l.length + 1 + 1 + 1) = 3 * ((l.length + 2) / 3) - l.length by omega], ?_⟩
    simp [fun i => Ne.symm (char_ne_pad url i), h2]

/-- C116: texts without the padding are accepted too. -/
theorem C116_unpadded (x : Bytes) : urlDecode ((encode true x).filter (· ≠ 61)) = some x := by
  obtain ⟨y, h1, h2⟩ := encode_pad true x
  have hf : (encode true x).filter (· ≠ 61) = y := by
    rw [h1, List.filter_append]
    have e1 : y.filter (· ≠ 61) = y := List.filter_eq_self.2 fun a ha => by
      have : a ≠ 61 := fun e => h2 (e ▸ ha)
      simpa using this
    have e2 : (List.replicate (3 * ((x.length + 2) / 3) - x.length) (61 : UInt8)).filter (· ≠ 61) = [] := by
      rw [List.filter_eq_nil_iff]
      intro a ha
      have := List.eq_of_mem_replicate ha
      simp [this]
    rw [e1, e2, List.append_nil]
  have hl := encode_len true x
  rw [h1, List.length_append, List.length_replicate] at hl
  rw [hf]
  unfold urlDecode
  have : (if y.length % 4 > 0 then y ++ List.replicate (4 - y.length % 4) 61 else y) = encode true x := by
    rw [h1]
    by_cases hc : y.length % 4 > 0
    · rw [if_pos hc]; congr 2; omega
    · rw [if_neg hc]
      have : 3 * ((x.length + 2) / 3) - x.length = 0 := by omega
      rw [this]; simp
  rw [this]
  exact C116_roundtrip true x

/-- C116 is false as to uniqueness: the unused bits of the last character are not checked, so several texts stand for the same bytes. -/
theorem C116_not_canonical : urlDecode [84, 81, 61, 61] = some [77] ∧ urlDecode [84, 82, 61, 61] = some [77] ∧ urlDecode [84, 82] = some [77] := by
  decide +kernel

/-- C116: `decode` itself, which the contracts only call with a length that is a multiple of four, takes one more character after a
single '=' and appends zeros. -/
theorem C116_decode_trailing (url : Bool) (a b c : UInt8) (hc : c ≠ 61) : decode url (encode url [a, b] ++ [c]) = some [a, b, 0, 0, 0] := by
  have ha := a.toNat_lt; have hb := b.toNat_lt
  have hv : value url 61 = -2 := by cases url <;> decide
  have h1 : loop url (encode url [a, b] ++ [c]) 0 18 [] =
      some (0, a.toNat / 4 * 2 ^ 18 + (a.toNat * 16 % 64 + b.toNat / 16) * 2 ^ 12 + b.toNat * 4 % 64 * 2 ^ 6, [], 0) := by
    rw [encode]
    simp only [List.cons_append, List.nil_append]
    rw [loop_char url _ (by omega) _ _ _ _ (by omega), loop_char url _ (by omega) _ _ _ _ (by omega),
      loop_char url _ (by omega) _ _ _ _ (by omega), loop, hv]
    simp
  have h2 : finish 0 (a.toNat / 4 * 2 ^ 18 + (a.toNat * 16 % 64 + b.toNat / 16) * 2 ^ 12 + b.toNat * 4 % 64 * 2 ^ 6) [] = some [a, b] := by
    rw [finish, if_neg (by omega), if_pos rfl, u8_of a _ (by simp only [Nat.reducePow]; omega), u8_of b _ (by simp only [Nat.reducePow]; omega)]
    rfl
  have h3 : decodeLength (encode url [a, b] ++ [c]) = some 5 := by
    simp [decodeLength, encode, List.getD, hc]
  unfold decode
  rw [h3, h1]
  simp only [Option.bind_some]
  rw [h2]
  rfl

/-! ### Examples -/

example : encode true [0xfb, 0xff, 0xfe, 77] = [45, 95, 95, 45, 84, 81, 61, 61] := by decide +kernel
example : urlDecode [45, 95, 95, 45, 84, 81] = some [0xfb, 0xff, 0xfe, 77] := by decide +kernel
example : urlDecode [84, 81, 61, 61, 84] = none := by decide +kernel

end Verif.PyBase64
