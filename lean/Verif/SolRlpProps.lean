import Verif.SolRlp
import Verif.RlpProps
/-! C59: the Solidity RLP libraries against the relay's RLP codec. -/
namespace Verif.SolRlp
open Verif Verif.IntConv Verif.Rlp

/-! ### fixed-width numbers -/

theorem be_length (k n : Nat) : (be k n).length = k := by
  induction k generalizing n with
  | zero => rfl
  | succ k ih => simp [be, ih]

theorem beNat_be (k n : Nat) : beNat (be k n) = n % 256 ^ k := by
  induction k generalizing n with
  | zero => simp [be]; omega
  | succ k ih =>
    rw [be, beNat_append, ih, beNat_cons, u8_ofNat_toNat (Nat.mod_lt _ (by omega))]
    simp only [List.length_cons, List.length_nil, beNat_nil, Nat.pow_zero, Nat.pow_succ, Nat.zero_add, Nat.one_mul,
      Nat.mul_one, Nat.add_zero]
    rw [Nat.mul_comm (256 ^ k) 256, Nat.mod_mul]
    omega

theorem be_nil {k n : Nat} (h : be k n = []) : k = 0 := by
  have := be_length k n
  rw [h] at this; simpa using this.symm

theorem be_eq {k n : Nat} (h : n < 256 ^ k) {b : Bytes} (hl : b.length = k) (hb : beNat b = n) : be k n = b :=
  beNat_inj_of_len (by rw [be_length, hl]) (by rw [beNat_be, hb, Nat.mod_eq_of_lt h])

/-- The first of `1 … m` with a monotone property. -/
theorem find_least (p : Nat → Bool) (m k : Nat) (h : ((List.range m).map (· + 1)).find? p = some k) :
    1 ≤ k ∧ k ≤ m ∧ p k = true ∧ ∀ j, 1 ≤ j → j < k → p j = false := by
  obtain ⟨h1, as, bs, h2, h3⟩ := List.find?_eq_some_iff_append.mp h
  have hk : k ∈ (List.range m).map (· + 1) := by rw [h2]; simp
  simp at hk
  obtain ⟨a, ha, rfl⟩ := hk
  refine ⟨by omega, by omega, h1, ?_⟩
  intro j j1 j2
  have hlen : as.length = a := by
    have := congrArg (fun l => l[as.length]?) h2
    simp at this
    have hl : as.length < m := by
      have := congrArg List.length h2
      simp at this; omega
    rw [List.getElem?_range hl] at this
    simpa using this
  have hj : ((List.range m).map (· + 1))[j - 1]? = some j := by
    rw [List.getElem?_map, List.getElem?_range (by omega)]
    simp; omega
  rw [h2, List.getElem?_append_left (by omega)] at hj
  have := h3 j (List.mem_of_getElem? hj)
  simpa using this

theorem find_some (p : Nat → Bool) (m k : Nat) (h1 : 1 ≤ k) (h2 : k ≤ m) (hp : p k = true) :
    ∃ j, ((List.range m).map (· + 1)).find? p = some j := by
  cases hf : ((List.range m).map (· + 1)).find? p with
  | some j => exact ⟨j, rfl⟩
  | none =>
    rw [List.find?_eq_none] at hf
    exact absurd hp (hf k (by simp; exact ⟨k - 1, by omega, by omega⟩))

/-! ### integers -/

theorem uintByLength (n : Nat) (h : n < 2 ^ 128 - 1) :
    ∃ k, encodeUintByLength n = some (be k n) ∧ 1 ≤ k ∧ k ≤ 16 ∧ n < 256 ^ k - 1 ∧ (k = 1 ∨ 256 ^ (k - 1) - 1 ≤ n) := by
  obtain ⟨k, hk⟩ := find_some (fun k => decide (n < 256 ^ k - 1)) 16 16 (by omega) (by omega)
    (by simp only [decide_eq_true_eq]; rw [show (256 : Nat) ^ 16 = 2 ^ 128 by decide]; exact h)
  obtain ⟨h1, h2, h3, h4⟩ := find_least _ _ _ hk
  refine ⟨k, by rw [encodeUintByLength, hk]; rfl, h1, h2, by simpa using h3, ?_⟩
  by_cases hk1 : k = 1
  · exact Or.inl hk1
  · right
    have := h4 (k - 1) (by omega) (by omega)
    simp at this
    omega

theorem uintBytes_eq (n : Nat) (h : n < 2 ^ 128 - 1) : uintBytes n = some (bigIntToBytes n) := by
  obtain ⟨k, hk, k1, k2, k3, k4⟩ := uintByLength n h
  have hb1 := lt_two_pow_bitLen n
  have p256 : ∀ j, 256 ^ j = 2 ^ (8 * j) := fun j => by rw [show (256 : Nat) = 2 ^ 8 by decide, ← Nat.pow_mul]
  -- k ≤ nb
  have hkn : k ≤ bitLen n / 8 + 1 := by
    rcases k4 with rfl | k4
    · omega
    · apply Classical.byContradiction
      intro hlt
      have e1 : 2 ^ (bitLen n) ≤ 2 ^ (8 * (k - 1) - 1) := Nat.pow_le_pow_right (by omega) (by omega)
      rw [p256] at k4
      have e2 : 2 ^ (8 * (k - 1)) = 2 * 2 ^ (8 * (k - 1) - 1) := by
        rw [show 8 * (k - 1) = (8 * (k - 1) - 1) + 1 by omega, Nat.pow_succ]; simp; omega
      have : 1 ≤ 2 ^ (8 * (k - 1) - 1) := Nat.one_le_two_pow
      omega
  have hkn2 : bitLen n / 8 + 1 ≤ k + 1 := by
    by_cases h0 : n = 0
    · subst h0; simp [bitLen]
    · have hb2 := two_pow_bitLen_le h0
      apply Classical.byContradiction
      intro hlt
      have : 2 ^ (8 * k) ≤ 2 ^ (bitLen n - 1) := Nat.pow_le_pow_right (by omega) (by omega)
      rw [p256] at k3
      omega
  have hval : n < 256 ^ k := by omega
  -- the result has nb bytes and value n
  have main : ∀ b : Bytes, b.length = bitLen n / 8 + 1 → beNat b = n → b = bigIntToBytes n := by
    intro b hl hbn
    have hne : b ≠ [] := by intro hb; simp [hb] at hl
    have hs : sval b = n := by
      rw [sval_of_lt hne, hbn]
      rw [hbn, hl]
      exact Nat.lt_of_lt_of_le hb1 (Nat.pow_le_pow_right (by omega) (by omega))
    refine (C04_bigInt_bijection n b).mpr ⟨by rw [C04_bigIntSetBytes_value, hs], shortest_of_not_fits hne ?_⟩
    by_cases hq : bitLen n / 8 = 0
    · left; omega
    · right
      rw [hs, hl, fits_of_nat_lt]
      intro hlt
      have h0 : n ≠ 0 := by intro h0; subst h0; simp [bitLen] at hq
      have hb2 := two_pow_bitLen_le h0
      have : 2 ^ (8 * (bitLen n / 8 + 1 - 1) - 1) ≤ 2 ^ (bitLen n - 1) := Nat.pow_le_pow_right (by omega) (by omega)
      omega
  unfold uintBytes
  rw [hk]
  simp only [Option.bind_some, be_length]
  rw [if_neg (by omega)]
  split
  · rw [main (0 :: be k n) (by simp [be_length]; omega) (by rw [beNat_cons, beNat_be, Nat.mod_eq_of_lt hval]; simp)]
  · rw [main (be k n) (by rw [be_length]; omega) (by rw [beNat_be, Nat.mod_eq_of_lt hval])]

theorem uintBytes_none (n : Nat) (h : 2 ^ 128 - 1 ≤ n) : uintBytes n = none := by
  have : encodeUintByLength n = none := by
    simp only [encodeUintByLength, Option.map_eq_none_iff, List.find?_eq_none]
    intro k hk
    simp at hk
    obtain ⟨a, ha, rfl⟩ := hk
    have : (256 : Nat) ^ (a + 1) ≤ 256 ^ 16 := Nat.pow_le_pow_right (by omega) (by omega)
    rw [show (256 : Nat) ^ 16 = 2 ^ 128 by decide] at this
    simp; omega
  simp [uintBytes, this]

theorem intBytes_eq (n : Int) (h1 : -(2 ^ 127) ≤ n) (h2 : n < 2 ^ 127) : intToStrictBytes n = some (bigIntToBytes n) := by
  obtain ⟨k, hk⟩ := find_some (fun k => decide (-(2 ^ (8 * k - 1) : Int) ≤ n ∧ n < 2 ^ (8 * k - 1))) 16 16 (by omega) (by omega)
    (by simp only [decide_eq_true_eq]; exact ⟨h1, h2⟩)
  obtain ⟨k1, k2, k3, k4⟩ := find_least _ _ _ hk
  have hf : fits k n := by simpa [fits] using k3
  unfold intToStrictBytes
  rw [hk]
  simp only [Option.map_some, Option.some.injEq]
  have hne : be k (n % 256 ^ k).toNat ≠ [] := by
    intro h; have := be_nil h; omega
  have hs : sval (be k (n % 256 ^ k).toNat) = n := by
    have hp : (0 : Int) < 256 ^ k := by rw [← cast256]; exact Int.ofNat_lt.mpr (Nat.pow_pos (by omega))
    have hm1 := Int.emod_nonneg n (Int.ne_of_gt hp)
    have hm2 := Int.emod_lt_of_pos n hp
    have hbe : (beNat (be k (n % 256 ^ k).toNat) : Int) = n % 256 ^ k := by
      rw [beNat_be, Nat.mod_eq_of_lt]
      · omega
      · have : ((256 ^ k : Nat) : Int) = 256 ^ k := cast256 k
        omega
    have e2 : (256 ^ k : Int) = 2 * 2 ^ (8 * k - 1) := by
      rw [show (256 : Int) = 2 ^ 8 by decide, ← Int.pow_mul, show 8 * k = (8 * k - 1) + 1 by omega, Int.pow_succ]
      rw [show 8 * k - 1 + 1 - 1 = 8 * k - 1 by omega]; omega
    have e3 : (2 ^ (8 * k) : Int) = 256 ^ k := by rw [show (256 : Int) = 2 ^ 8 by decide, ← Int.pow_mul]
    have e4 : ((2 ^ (8 * k - 1) : Nat) : Int) = 2 ^ (8 * k - 1) := cast2 _
    unfold fits at hf
    have hlen := be_length k (n % 256 ^ k).toNat
    generalize be k (n % 256 ^ k).toNat = X at *
    by_cases hn : 0 ≤ n
    · have : n % 256 ^ k = n := Int.emod_eq_of_lt hn (by omega)
      rw [this] at hbe
      rw [sval_of_lt hne, hbe]
      rw [hlen]; omega
    · have : n % 256 ^ k = n + 256 ^ k := by
        rw [← Int.add_emod_right]; exact Int.emod_eq_of_lt (by omega) (by omega)
      rw [this] at hbe
      rw [sval_of_ge hne, hbe, hlen, e3]
      · omega
      · rw [hlen]; omega
  refine (C04_bigInt_bijection n _).mpr ⟨by rw [C04_bigIntSetBytes_value, hs], shortest_of_not_fits hne ?_⟩
  rw [be_length, hs]
  by_cases hk1 : k = 1
  · exact Or.inl hk1
  · right
    have := k4 (k - 1) (by omega) (by omega)
    simpa [fits] using this

theorem intBytes_none (n : Int) (h : n < -(2 ^ 127) ∨ 2 ^ 127 ≤ n) : intToStrictBytes n = none := by
  simp only [intToStrictBytes, Option.map_eq_none_iff, List.find?_eq_none]
  intro k hk
  simp only [List.mem_map, List.mem_range] at hk
  obtain ⟨a, ha, rfl⟩ := hk
  have : (2 : Nat) ^ (8 * (a + 1) - 1) ≤ 2 ^ 127 := Nat.pow_le_pow_right (by omega) (by omega)
  have e : ((2 ^ (8 * (a + 1) - 1) : Nat) : Int) = 2 ^ (8 * (a + 1) - 1) := cast2 _
  simp only [decide_eq_true_eq, ← e]
  omega

/-! ### strings and list headers -/

theorem natBytes_size {n : Nat} (h : n < 2 ^ 64) (h0 : n ≠ 0) : sizeToBytes n = natBytes n := by
  rw [(C03_size_roundtrip n h).2.1, if_neg h0]

theorem encodeLength_bytes (b : Bytes) (h : b.length < 2 ^ 64) (h1 : b.length ≠ 1) :
    encodeLength b.length 128 ++ b = wBytes b := by
  rcases wBytes_cases b with ⟨c, hb, _, _⟩ | ⟨h2, h3⟩ | ⟨h2, h3⟩
  · rw [hb] at h1; simp at h1
  · rw [h3, encodeLength, if_pos (by omega)]; simp [Nat.add_comm]
  · rw [h3, encodeLength, if_neg (by omega), natBytes_size h (by omega)]
    simp only [List.cons_append, List.cons.injEq, and_true]
    congr 1; omega

theorem encodeBytes_eq (b : Bytes) (h : b.length < 2 ^ 64) (hb : b ≠ [0x80]) : encodeBytes b = wBytes b := by
  match b with
  | [] => rfl
  | [c] =>
    simp only [encodeBytes, wBytes]
    have hc : c.toNat ≠ 128 := by
      intro h; apply hb; rw [show c = 0x80 from u8_eq_of_toNat (by rw [h]; rfl)]
    by_cases h1 : c.toNat ≤ 128
    · rw [if_pos h1, if_pos (by rw [UInt8.lt_iff_toNat_lt]; simp; omega)]
    · rw [if_neg h1, if_neg (by rw [UInt8.lt_iff_toNat_lt]; simp; omega)]
      simp [encodeLength]
  | c :: d :: t =>
    rw [encodeBytes, encodeLength_bytes _ h (by simp)]
    simp

theorem wList_form (p : Bytes) (h : p.length < 2 ^ 64) : wList p = encodeLength p.length 192 ++ p := by
  rcases wList_cases p with ⟨h2, h3⟩ | ⟨h2, h3⟩
  · rw [h3, encodeLength, if_pos (by omega)]; simp [Nat.add_comm]
  · rw [h3, encodeLength, if_neg (by omega), natBytes_size h (by omega)]
    simp only [List.cons_append, List.cons.injEq, and_true]
    congr 1; omega

/-- A length header with base 0x80 (strings) or 0xc0 (lists); leading zeros in a long length are allowed. -/
def Hdr (base : Nat) (h : Bytes) (n : Nat) : Prop :=
  (n ≤ 55 ∧ h = [UInt8.ofNat (base + n)]) ∨
  ∃ s : Bytes, 1 ≤ s.length ∧ s.length ≤ 8 ∧ beNat s = n ∧ h = UInt8.ofNat (base + 55 + s.length) :: s

theorem uintByLength_size (n : Nat) (h : n < 2 ^ 64 - 1) :
    ∃ k, encodeUintByLength n = some (be k n) ∧ 1 ≤ k ∧ k ≤ 8 ∧ n < 256 ^ k := by
  obtain ⟨k, h1, h2, h3, h4, h5⟩ := uintByLength n (by omega)
  refine ⟨k, h1, h2, ?_, by omega⟩
  rcases h5 with rfl | h5
  · omega
  · apply Classical.byContradiction
    intro hk
    have : (256 : Nat) ^ 8 ≤ 256 ^ (k - 1) := Nat.pow_le_pow_right (by omega) (by omega)
    rw [show (256 : Nat) ^ 8 = 2 ^ 64 by decide] at this
    omega

theorem listOf_hdr (p : Bytes) (h : p.length < 2 ^ 64 - 1) : ∃ hd, listOf p = some (hd ++ p) ∧ Hdr 0xc0 hd p.length := by
  unfold listOf addLength
  by_cases h1 : p.length ≤ 55
  · rw [if_pos h1]
    exact ⟨_, rfl, Or.inl ⟨h1, rfl⟩⟩
  · rw [if_neg h1]
    obtain ⟨k, k1, k2, k3, k4⟩ := uintByLength_size p.length h
    rw [k1]
    refine ⟨_, rfl, Or.inr ⟨be k p.length, by rw [be_length]; exact k2, by rw [be_length]; exact k3,
      by rw [beNat_be, Nat.mod_eq_of_lt k4], rfl⟩⟩

/-- Payload lengths for which `addLength` writes the shortest header. -/
def LenOk (n : Nat) : Prop := n < 2 ^ 64 - 1 ∧ (n ≤ 55 ∨ ∀ k, n + 1 ≠ 256 ^ k)

theorem listOf_eq (p : Bytes) (h : LenOk p.length) : listOf p = some (wList p) := by
  obtain ⟨h1, h2⟩ := h
  rw [wList_form p (by omega)]
  unfold listOf addLength encodeLength
  by_cases h3 : p.length ≤ 55
  · rw [if_pos h3, if_pos (by omega)]; simp [Nat.add_comm]
  · rw [if_neg h3, if_neg (by omega)]
    obtain ⟨k, k1, k2, k3, k4, k5⟩ := uintByLength p.length (by omega)
    rw [k1]
    have hn : ∀ k, p.length + 1 ≠ 256 ^ k := by
      rcases h2 with h2 | h2
      · omega
      · exact h2
    have e : be k p.length = natBytes p.length := by
      have hl : (natBytes p.length).length = k := by
        obtain ⟨j, rfl⟩ : ∃ j, k = j + 1 := ⟨k - 1, by omega⟩
        apply natBytes_len_eq
        · rcases k5 with k5 | k5
          · rw [show j = 0 by omega]; simp; omega
          · have := hn j
            rw [Nat.add_sub_cancel] at k5; omega
        · omega
      exact be_eq (by omega) hl (beNat_natBytes _)
    rw [e]
    simp only [Option.map_some, List.cons_append, Option.some.injEq, List.cons.injEq, and_true]
    congr 1; omega

/-! ### reading -/

theorem peek_append (s x : Bytes) : peek s.length (s ++ x) = s := by simp [peek]

theorem byte0_cons (n : Nat) (h : n < 256) (t : Bytes) : byte0 (UInt8.ofNat n :: t) = n := by
  simp [byte0]; omega

theorem hdr_read {base : Nat} (hb : base = 0x80 ∨ base = 0xc0) {h : Bytes} {n : Nat} (hh : Hdr base h n) (p : Bytes) :
    itemLength (h ++ p) = h.length + n ∧ payloadOffset (h ++ p) = h.length ∧ base ≤ byte0 (h ++ p) ∧ 1 ≤ h.length := by
  rcases hh with ⟨h1, rfl⟩ | ⟨s, h1, h2, h3, rfl⟩
  · simp only [itemLength, payloadOffset, List.cons_append, List.nil_append]
    rw [byte0_cons _ (by omega)]
    rcases hb with rfl | rfl
    · rw [if_neg (by omega), if_pos (by omega), if_neg (by omega), if_pos (by omega)]
      refine ⟨?_, rfl, by omega, by simp⟩
      simp; omega
    · rw [if_neg (by omega), if_neg (by omega), if_neg (by omega), if_pos (by omega), if_neg (by omega), if_pos (by omega)]
      refine ⟨?_, rfl, by omega, by simp⟩
      simp; omega
  · have hc := byte0_cons (base + 55 + s.length) (by omega) (s ++ p)
    generalize UInt8.ofNat (base + 55 + s.length) = c at *
    have e : c :: s ++ p = c :: (s ++ p) := rfl
    have ht : (c :: (s ++ p)).tail = s ++ p := rfl
    unfold itemLength payloadOffset
    rw [e, hc, ht]
    rcases hb with rfl | rfl
    · rw [if_neg (by omega), if_neg (by omega), if_pos (by omega), if_neg (by omega), if_neg (by omega), if_pos (by omega)]
      rw [show 128 + 55 + s.length - 183 = s.length by omega, peek_append, h3]
      refine ⟨?_, by simp, by omega, by simp⟩
      simp; omega
    · rw [if_neg (by omega), if_neg (by omega), if_neg (by omega), if_neg (by omega), if_neg (by omega), if_neg (by omega),
        if_neg (by omega)]
      rw [show 192 + 55 + s.length - 247 = s.length by omega, peek_append, h3]
      refine ⟨?_, by simp, by omega, by simp⟩
      simp; omega

theorem wBytes_hdr (b : Bytes) (h : b.length < 2 ^ 64) :
    (∃ c, b = [c] ∧ c.toNat < 0x80 ∧ wBytes b = [c]) ∨ ∃ hd, wBytes b = hd ++ b ∧ Hdr 0x80 hd b.length := by
  rcases wBytes_cases b with h1 | ⟨h1, h2⟩ | ⟨h1, h2⟩
  · exact Or.inl h1
  · exact Or.inr ⟨_, h2, Or.inl ⟨h1, rfl⟩⟩
  · right
    obtain ⟨s1, s2, s3⟩ := size_facts h
    refine ⟨_, h2, Or.inr ⟨sizeToBytes b.length, s2, s3, ?_, rfl⟩⟩
    rw [natBytes_size h (by omega), beNat_natBytes]

/-- An encoded item: its length can be read from its first bytes. -/
def Whole (e : Bytes) : Prop := 1 ≤ e.length ∧ ∀ rest, itemLength (e ++ rest) = e.length

theorem hdr_whole {base : Nat} (hb : base = 0x80 ∨ base = 0xc0) {h p : Bytes} (hh : Hdr base h p.length) : Whole (h ++ p) := by
  refine ⟨?_, fun rest => ?_⟩
  · have := (hdr_read hb hh []).2.2.2
    simp; omega
  · rw [List.append_assoc, (hdr_read hb hh _).1]; simp

theorem wBytes_whole (b : Bytes) (h : b.length < 2 ^ 64) : Whole (wBytes b) := by
  rcases wBytes_hdr b h with ⟨c, rfl, hc, h2⟩ | ⟨hd, h1, h2⟩
  · rw [h2]
    refine ⟨by simp, fun rest => ?_⟩
    have hb : byte0 ([c] ++ rest) = c.toNat := rfl
    simp only [itemLength, hb, hc, if_true]; rfl
  · rw [h1]; exact hdr_whole (Or.inl rfl) h2

/-- The items of a concatenation of encodings. -/
def itemsOf (rest : Bytes) : List Bytes → List Item
  | [] => []
  | e :: es => ⟨e.length, e ++ (es.flatten ++ rest)⟩ :: itemsOf rest es

theorem walk_flatten (es : List Bytes) (rest : Bytes) (hw : ∀ e ∈ es, Whole e) (f : Nat) (hf : es.flatten.length ≤ f) :
    walk f es.flatten.length (es.flatten ++ rest) = itemsOf rest es := by
  induction es generalizing f with
  | nil => cases f <;> simp [walk, itemsOf]
  | cons e es ih =>
    obtain ⟨h1, h2⟩ := hw e (by simp)
    cases f with
    | zero => simp at hf; simp [hf] at h1
    | succ f =>
      rw [walk, if_neg (by simp; intro h; simp [h] at h1)]
      simp only [List.flatten_cons, List.append_assoc, h2, itemsOf, List.cons.injEq, true_and]
      rw [List.length_append, Nat.add_sub_cancel_left, List.drop_left]
      rw [List.flatten_cons, List.length_append] at hf
      exact ih (fun x hx => hw x (by simp [hx])) f (by omega)

theorem toList_hdr {h : Bytes} (es : List Bytes) (hh : Hdr 0xc0 h es.flatten.length) (hw : ∀ e ∈ es, Whole e) (rest : Bytes) :
    toList ⟨(h ++ es.flatten).length, (h ++ es.flatten) ++ rest⟩ = some (itemsOf rest es) := by
  obtain ⟨r1, r2, r3, r4⟩ := hdr_read (Or.inr rfl) hh (es.flatten ++ rest)
  unfold toList isList
  simp only [List.append_assoc, r2]
  rw [if_pos (by simp only [decide_eq_true_eq]; exact ⟨by simp; intro h0; simp [h0] at r4, r3⟩)]
  rw [List.length_append, Nat.add_sub_cancel_left, List.drop_left]
  rw [walk_flatten es rest hw _ (Nat.le_refl _)]

theorem toBytes_wBytes (b rest : Bytes) (h : b.length < 2 ^ 64) : toBytes ⟨(wBytes b).length, wBytes b ++ rest⟩ = some b := by
  rcases wBytes_hdr b h with ⟨c, rfl, hc, h2⟩ | ⟨hd, h1, h2⟩
  · rw [h2]
    simp [toBytes, payloadOffset, byte0, hc, peek]
  · rw [h1]
    obtain ⟨_, r2, _, r4⟩ := hdr_read (Or.inl rfl) h2 (b ++ rest)
    unfold toBytes
    simp only [List.append_assoc, r2, List.length_append]
    rw [if_neg (by omega), Nat.add_sub_cancel_left, List.drop_left, peek_append]

theorem toUint_wBytes (b rest : Bytes) (h : b.length ≤ 32) : toUint ⟨(wBytes b).length, wBytes b ++ rest⟩ = some (beNat b) := by
  rcases wBytes_hdr b (by omega) with ⟨c, rfl, hc, h2⟩ | ⟨hd, h1, h2⟩
  · rw [h2]
    simp [toUint, payloadOffset, byte0, hc, peek]
  · have hl : hd.length = 1 := by
      rcases wBytes_cases b with ⟨c, rfl, _, h3⟩ | ⟨_, h3⟩ | ⟨h3, _⟩
      · rw [h3] at h1
        have := congrArg List.length h1
        simp at this
        subst this
        rcases h2 with ⟨_, h2⟩ | ⟨_, _, _, _, h2⟩ <;> cases h2
      · have := congrArg List.length (h1.symm.trans h3)
        simp at this; omega
      · omega
    rw [h1]
    obtain ⟨_, r2, _, r4⟩ := hdr_read (Or.inl rfl) h2 (b ++ rest)
    unfold toUint
    simp only [List.append_assoc, r2, List.length_append]
    rw [if_neg (by omega), Nat.add_sub_cancel_left, List.drop_left, show min 32 b.length = b.length by omega, peek_append]

theorem toInt_wBytes (b rest : Bytes) (h : b.length ≤ 31) (hne : b ≠ []) :
    toInt ⟨(wBytes b).length, wBytes b ++ rest⟩ = some (sval b) := by
  unfold toInt
  rw [toBytes_wBytes b rest (by omega), toUint_wBytes b rest (by omega)]
  match b, hne with
  | c :: t, _ =>
    simp only [Option.bind_some]
    have hlt := beNat_lt (c :: t)
    have : (256 : Nat) ^ (c :: t).length ≤ 256 ^ 31 := Nat.pow_le_pow_right (by omega) h
    have h31 : (256 : Nat) ^ 31 < 2 ^ 255 := by decide
    rw [if_pos (show beNat (c :: t) < 2 ^ 255 by omega)]
    simp only [List.length_cons] at h
    by_cases hc : 0x80 ≤ c.toNat
    · rw [if_pos hc, if_neg (by omega)]
      simp only [sval]
      rw [if_pos hc, show (256 : Int) = 2 ^ 8 by decide, ← Int.pow_mul, Nat.mul_comm 8]
    · rw [if_neg hc]
      simp only [sval]
      rw [if_neg hc]

/-! ### C59 -/

/-- Strings the encoder represents faithfully. -/
def StrOk (b : Bytes) : Prop := b.length < 2 ^ 56 ∧ b ≠ [0x80]
/-- Signed numbers the encoder represents faithfully. -/
def IntOk (n : Int) : Prop := -(2 ^ 127) ≤ n ∧ n < 2 ^ 127 ∧ n ≠ -128
/-- Unsigned numbers the encoder accepts. -/
def UintOk (n : Nat) : Prop := n < 2 ^ 128 - 1

theorem bigIntToBytes_ne (n : Int) : bigIntToBytes n ≠ [] := (C04_bigInt_roundtrip n).2.1

theorem bigInt_80 (n : Int) (h : bigIntToBytes n = [0x80]) : n = -128 := by
  have := (C04_bigInt_roundtrip n).1
  rw [h, C04_bigIntSetBytes_value] at this
  rw [← this]; decide

theorem int_len (n : Int) (h1 : -(2 ^ 127) ≤ n) (h2 : n < 2 ^ 127) : (bigIntToBytes n).length ≤ 16 := by
  have h := intBytes_eq n h1 h2
  unfold intToStrictBytes at h
  cases hf : ((List.range 16).map (· + 1)).find? (fun k => decide (-(2 ^ (8 * k - 1) : Int) ≤ n ∧ n < 2 ^ (8 * k - 1))) with
  | none => rw [hf] at h; simp at h
  | some k =>
    rw [hf] at h
    simp only [Option.map_some, Option.some.injEq] at h
    rw [← h, be_length]
    exact (find_least _ _ _ hf).2.1

theorem uint_len (n : Nat) (h : UintOk n) : (bigIntToBytes n).length ≤ 17 := by
  have h0 := uintBytes_eq n h
  obtain ⟨k, hk, k1, k2, _⟩ := uintByLength n h
  unfold uintBytes at h0
  rw [hk] at h0
  simp only [Option.bind_some] at h0
  split at h0
  · simp at h0
  · split at h0 <;> simp only [Option.some.injEq] at h0 <;> rw [← h0] <;> simp [be_length] <;> omega

/-- C59: a number in range is encoded exactly as by the relay; out of range the encoder reverts. -/
theorem C59_uint (n : Nat) :
    (n < 2 ^ 128 - 1 → encodeUint n = some (wBytes (bigIntToBytes n))) ∧ (2 ^ 128 - 1 ≤ n → encodeUint n = none) := by
  refine ⟨fun h => ?_, fun h => by rw [encodeUint, uintBytes_none n h]; rfl⟩
  rw [encodeUint, uintBytes_eq n h]
  have hl := uint_len n h
  simp only [Option.map_some, Option.some.injEq]
  exact encodeBytes_eq _ (by omega) (fun h => by have := bigInt_80 _ h; omega)

example : encodeUint 255 = some [0x82, 0, 0xff] ∧ encodeUint 128 = some [0x82, 0, 0x80] ∧ encodeUint 0 = some [0] := by
  decide +kernel

/-- C59: the same for signed numbers other than -128. -/
theorem C59_int (n : Int) :
    (IntOk n → encodeInt n = some (wBytes (bigIntToBytes n))) ∧
    (n < -(2 ^ 127) ∨ 2 ^ 127 ≤ n → encodeInt n = none) := by
  refine ⟨fun ⟨h1, h2, h3⟩ => ?_, fun h => by rw [encodeInt, intBytes_none n h]; rfl⟩
  rw [encodeInt, intBytes_eq n h1 h2]
  have hl := int_len n h1 h2
  simp only [Option.map_some, Option.some.injEq]
  exact encodeBytes_eq _ (by omega) (fun h => h3 (bigInt_80 _ h))

/-- C59 is false for -128 and for the one-byte string 0x80: both are written as the empty string. The first can not
be read again, the second is read as the empty string. -/
theorem C59_byte_80_witness :
    encodeInt (-128) = some [0x80] ∧ wBytes (bigIntToBytes (-128)) = [0x81, 0x80] ∧
    (∀ junk, toInt (toRlpItem [0x80] junk) = none) ∧
    encodeBytes [0x80] = [0x80] ∧ wBytes [0x80] = [0x81, 0x80] ∧
    (∀ junk, toBytes (toRlpItem (encodeBytes [0x80]) junk) = some []) := by
  refine ⟨by decide +kernel, by decide +kernel, fun junk => ?_, by decide, by decide, fun junk => ?_⟩
  · simp [toInt, toBytes, toRlpItem, payloadOffset, byte0, peek]
  · simp [encodeBytes, toBytes, toRlpItem, payloadOffset, byte0, peek]

/-- C59: a list header equals the relay's for every payload length that is not one less than a power of 256. -/
theorem C59_list_header (p : Bytes) (h : LenOk p.length) : listOf p = some (wList p) := listOf_eq p h

/-- C59 is false for a payload of 255 bytes: the header has a leading zero in its length, the relay's has not. -/
theorem C59_length_255_witness :
    listOf (List.replicate 255 1) = some ([0xf9, 0, 0xff] ++ List.replicate 255 1) ∧
    wList (List.replicate 255 1) = [0xf8, 0xff] ++ List.replicate 255 1 := by decide +kernel

theorem str_enc {b : Bytes} (h : StrOk b) : encodeBytes b = wBytes b := encodeBytes_eq b (by have := h.1; omega) h.2

theorem str_whole {b : Bytes} (h : StrOk b) : Whole (wBytes b) := wBytes_whole b (by have := h.1; omega)

theorem str_dec {b : Bytes} (h : StrOk b) (rest : Bytes) : toBytes ⟨(wBytes b).length, wBytes b ++ rest⟩ = some b :=
  toBytes_wBytes b rest (by have := h.1; omega)

theorem int_whole {n : Int} (h : IntOk n) : Whole (wBytes (bigIntToBytes n)) :=
  wBytes_whole _ (by have := int_len n h.1 h.2.1; omega)

theorem int_dec {n : Int} (h : IntOk n) (rest : Bytes) :
    toInt ⟨(wBytes (bigIntToBytes n)).length, wBytes (bigIntToBytes n) ++ rest⟩ = some n := by
  rw [toInt_wBytes _ _ (by have := int_len n h.1 h.2.1; omega) (bigIntToBytes_ne n)]
  rw [← C04_bigIntSetBytes_value, (C04_bigInt_roundtrip n).1]

theorem uint_whole {n : Nat} (h : UintOk n) : Whole (wBytes (bigIntToBytes n)) :=
  wBytes_whole _ (by have := uint_len n h; omega)

theorem uint_dec {n : Nat} (h : UintOk n) (rest : Bytes) :
    toUint ⟨(wBytes (bigIntToBytes n)).length, wBytes (bigIntToBytes n) ++ rest⟩ = some n := by
  rw [toUint_wBytes _ _ (by have := uint_len n h; omega)]
  have h1 := (C04_bigInt_roundtrip (n : Int)).1
  rw [C04_bigIntSetBytes_value] at h1
  have hne := bigIntToBytes_ne n
  generalize bigIntToBytes n = b at *
  match b, hne with
  | c :: t, _ =>
    simp only [sval] at h1
    split at h1
    · have := beNat_lt (c :: t)
      have : (beNat (c :: t) : Int) < 256 ^ (t.length + 1) := by
        rw [← cast256]; exact Int.ofNat_lt.mpr this
      omega
    · rw [show beNat (c :: t) = n by omega]

theorem wBytes_len_le (b : Bytes) (h : b.length < 2 ^ 64) : (wBytes b).length ≤ b.length + 9 := by
  rcases wBytes_cases b with ⟨c, rfl, _, h2⟩ | ⟨_, h2⟩ | ⟨_, h2⟩
  · rw [h2]; simp
  · rw [h2]; simp
  · have := (size_facts h).2.2
    rw [h2]; simp; omega

theorem str_len {b : Bytes} (h : StrOk b) : (wBytes b).length ≤ 2 ^ 56 + 9 := by
  have := wBytes_len_le b (by have := h.1; omega)
  have := h.1; omega

theorem intw_len {n : Int} (h : IntOk n) : (wBytes (bigIntToBytes n)).length ≤ 25 := by
  have := int_len n h.1 h.2.1
  have := wBytes_len_le (bigIntToBytes n) (by omega); omega

theorem uintw_len {n : Nat} (h : UintOk n) : (wBytes (bigIntToBytes n)).length ≤ 26 := by
  have := uint_len n h
  have := wBytes_len_le (bigIntToBytes n) (by omega); omega

/-- The relay's encoding of one fee value. -/
def uEnc (n : Nat) : Bytes := wBytes (bigIntToBytes (n : Int))

theorem mapM_uint (l : List Nat) (h : ∀ n ∈ l, UintOk n) :
    l.mapM encodeUint = some (l.map uEnc) := by
  induction l with
  | nil => rfl
  | cons a l ih =>
    rw [List.mapM_cons, (C59_uint a).1 (h a (by simp)), ih (fun n hn => h n (by simp [hn]))]
    rfl

theorem flatten_len (l : List Nat) (h : ∀ n ∈ l, UintOk n) :
    (l.map uEnc).flatten.length ≤ 26 * l.length := by
  induction l with
  | nil => simp
  | cons a l ih =>
    have := uintw_len (h a (by simp))
    have := ih (fun n hn => h n (by simp [hn]))
    simp only [List.map_cons, List.flatten_cons, List.length_append, List.length_cons, uEnc] at this ⊢
    omega

theorem dec_uints (l : List Nat) (rest : Bytes) (h : ∀ n ∈ l, UintOk n) :
    (itemsOf rest (l.map uEnc)).mapM toUint = some l := by
  induction l with
  | nil => rfl
  | cons a l ih =>
    simp only [List.map_cons, itemsOf]
    rw [List.mapM_cons, show uEnc a = wBytes (bigIntToBytes (a : Int)) from rfl, uint_dec (h a (by simp)), ih (fun n hn => h n (by simp [hn]))]
    rfl

theorem encodeFee (f : FeeInfo) (h1 : StrOk f.network) (h2 : ∀ n ∈ f.values, UintOk n) (h3 : f.values.length < 2 ^ 56) :
    ∃ h h', encodeFeeInfo f = some (h' ++ [wBytes f.network, h ++ (f.values.map uEnc).flatten].flatten) ∧
      Hdr 0xc0 h (f.values.map uEnc).flatten.length ∧
      Hdr 0xc0 h' [wBytes f.network, h ++ (f.values.map uEnc).flatten].flatten.length := by
  unfold encodeFeeInfo
  rw [mapM_uint f.values h2]
  have hl := flatten_len f.values h2
  simp only [Option.bind_some]
  generalize (f.values.map uEnc) = vs at *
  obtain ⟨h, e1, e2⟩ := listOf_hdr vs.flatten (by omega)
  have hhl : h.length ≤ 9 := by
    rcases e2 with ⟨_, rfl⟩ | ⟨s, _, hs, _, rfl⟩ <;> simp; omega
  have hn := str_len h1
  rw [e1]
  simp only [Option.bind_some]
  obtain ⟨h', e3, e4⟩ := listOf_hdr (encodeBytes f.network ++ (h ++ vs.flatten)) (by
    rw [str_enc h1]; simp only [List.length_append]; omega)
  refine ⟨h, h', ?_, e2, ?_⟩
  · rw [e3, str_enc h1]; simp
  · rw [str_enc h1] at e4; simpa using e4

theorem hdr_len {base : Nat} {h : Bytes} {n : Nat} (hh : Hdr base h n) : h.length ≤ 9 := by
  rcases hh with ⟨_, rfl⟩ | ⟨s, _, hs, _, rfl⟩ <;> simp; omega

/-- The fields of a message that the codec represents faithfully. -/
structure MsgOk (m : BTPMessage) : Prop where
  src : StrOk m.src
  dst : StrOk m.dst
  svc : StrOk m.svc
  sn : IntOk m.sn
  message : StrOk m.message
  nsn : IntOk m.nsn
  network : StrOk m.fee.network
  values : ∀ n ∈ m.fee.values, UintOk n
  count : m.fee.values.length < 2 ^ 56

theorem fee_dec (f : FeeInfo) (h h' rest : Bytes) (h1 : StrOk f.network) (h2 : ∀ n ∈ f.values, UintOk n)
    (e2 : Hdr 0xc0 h (f.values.map uEnc).flatten.length)
    (e3 : Hdr 0xc0 h' [wBytes f.network, h ++ (f.values.map uEnc).flatten].flatten.length) :
    decodeFeeInfo ⟨(h' ++ [wBytes f.network, h ++ (f.values.map uEnc).flatten].flatten).length,
      (h' ++ [wBytes f.network, h ++ (f.values.map uEnc).flatten].flatten) ++ rest⟩ = some f := by
  have hv := dec_uints f.values
  have hw : ∀ e ∈ f.values.map uEnc, Whole e := by
    intro e he
    simp only [List.mem_map] at he
    obtain ⟨n, hn, rfl⟩ := he
    exact uint_whole (h2 n hn)
  generalize f.values.map uEnc = vs at *
  have hws : ∀ e ∈ [wBytes f.network, h ++ vs.flatten], Whole e := by
    intro e he
    simp only [List.mem_cons, List.not_mem_nil, or_false] at he
    rcases he with rfl | rfl
    · exact str_whole h1
    · exact hdr_whole (Or.inr rfl) e2
  unfold decodeFeeInfo
  rw [if_neg]
  · rw [toList_hdr _ e3 hws rest]
    simp only [itemsOf, Option.bind_some, List.flatten_nil, List.nil_append]
    rw [toList_hdr vs e2 hw rest]
    simp only [Option.bind_some]
    rw [hv rest h2, str_dec h1]
    rfl
  · have r := hdr_read (Or.inr rfl) e3 ([wBytes f.network, h ++ vs.flatten].flatten ++ rest)
    have r2 := (str_whole h1).1
    have r3 := (hdr_whole (p := vs.flatten) (Or.inr rfl) e2).1
    unfold isNull
    simp only [decide_eq_true_eq, List.append_assoc]
    rintro ⟨q1, q2, q3⟩
    simp only [List.flatten_cons, List.length_append, List.flatten_nil, List.length_nil] at q1 r3
    omega

/-- C59, part: every message whose strings are not the single byte 0x80 and whose numbers are in range and not -128
survives encoding and decoding by the message center, whatever lies behind it in memory. -/
theorem C59_btp_message_roundtrip_partial (m : BTPMessage) (ok : MsgOk m) :
    ∃ e, encodeBTPMessage m = some e ∧ ∀ junk, decodeBTPMessage e junk = some m := by
  obtain ⟨h, h', f1, f2, f3⟩ := encodeFee m.fee ok.network ok.values ok.count
  unfold encodeBTPMessage
  rw [(C59_int m.sn).1 ok.sn, (C59_int m.nsn).1 ok.nsn, f1, str_enc ok.src, str_enc ok.dst, str_enc ok.svc,
    str_enc ok.message]
  simp only [Option.bind_some]
  have l1 := flatten_len m.fee.values ok.values
  have lc := ok.count
  have l2 := hdr_len f2
  have l3 := hdr_len f3
  have l4 := str_len ok.network
  have fd := fun rest => fee_dec m.fee h h' rest ok.network ok.values f2 f3
  have fw := hdr_whole (base := 0xc0) (Or.inr rfl) f3
  have lf : (h' ++ [wBytes m.fee.network, h ++ (m.fee.values.map uEnc).flatten].flatten).length ≤ 2 ^ 62 := by
    simp only [List.length_append, List.flatten_cons, List.flatten_nil, List.length_nil]; omega
  generalize h' ++ [wBytes m.fee.network, h ++ (m.fee.values.map uEnc).flatten].flatten = fe at *
  have a1 := str_len ok.src
  have a2 := str_len ok.dst
  have a3 := str_len ok.svc
  have a4 := intw_len ok.sn
  have a5 := str_len ok.message
  have a6 := intw_len ok.nsn
  obtain ⟨hd, e1, e2⟩ := listOf_hdr [wBytes m.src, wBytes m.dst, wBytes m.svc, wBytes (bigIntToBytes m.sn), wBytes m.message,
    wBytes (bigIntToBytes m.nsn), fe].flatten (by
      simp only [List.length_append, List.flatten_cons, List.flatten_nil, List.length_nil]; omega)
  refine ⟨_, e1, fun junk => ?_⟩
  unfold decodeBTPMessage toRlpItem
  rw [toList_hdr _ e2 (by
    intro e he
    simp only [List.mem_cons, List.not_mem_nil, or_false] at he
    rcases he with rfl | rfl | rfl | rfl | rfl | rfl | rfl
    · exact str_whole ok.src
    · exact str_whole ok.dst
    · exact str_whole ok.svc
    · exact int_whole ok.sn
    · exact str_whole ok.message
    · exact int_whole ok.nsn
    · exact fw) junk]
  simp only [itemsOf, Option.bind_some]
  rw [str_dec ok.src, str_dec ok.dst, str_dec ok.svc, int_dec ok.sn, str_dec ok.message, int_dec ok.nsn, fd]
  rfl

/-- The relay codec's encoding of the same structure: nested lists of strings, numbers as shortest two's complement. -/
def relayFee (f : FeeInfo) : Bytes :=
  wList (wBytes f.network ++ wList (f.values.map uEnc).flatten)
def relayBTP (m : BTPMessage) : Bytes :=
  wList (wBytes m.src ++ (wBytes m.dst ++ (wBytes m.svc ++ (wBytes (bigIntToBytes m.sn) ++ (wBytes m.message ++
    (wBytes (bigIntToBytes m.nsn) ++ (relayFee m.fee ++ [])))))))

/-- C59, part: for the same messages, if no list payload has a length one less than a power of 256, the encoding is
the relay codec's. -/
theorem C59_btp_message_relay_partial (m : BTPMessage) (ok : MsgOk m)
    (h1 : LenOk (m.fee.values.map uEnc).flatten.length)
    (h2 : LenOk (wBytes m.fee.network ++ wList (m.fee.values.map uEnc).flatten).length)
    (h3 : LenOk (wBytes m.src ++ (wBytes m.dst ++ (wBytes m.svc ++ (wBytes (bigIntToBytes m.sn) ++ (wBytes m.message ++
      (wBytes (bigIntToBytes m.nsn) ++ (relayFee m.fee ++ []))))))).length) :
    encodeBTPMessage m = some (relayBTP m) := by
  have hf : encodeFeeInfo m.fee = some (relayFee m.fee) := by
    unfold encodeFeeInfo
    rw [mapM_uint _ ok.values]
    simp only [Option.bind_some]
    rw [listOf_eq _ h1]
    simp only [Option.bind_some]
    rw [str_enc ok.network, listOf_eq _ h2]
    rfl
  unfold encodeBTPMessage
  rw [(C59_int m.sn).1 ok.sn, (C59_int m.nsn).1 ok.nsn, hf, str_enc ok.src, str_enc ok.dst, str_enc ok.svc,
    str_enc ok.message]
  simp only [Option.bind_some]
  exact listOf_eq _ h3

/-- A message meeting the hypotheses. -/
def sample : BTPMessage := ⟨[0x61], [0x62], [0x63], -7, [1, 2], 300, ⟨[0x64], [5, 255]⟩⟩

example : MsgOk sample ∧ encodeBTPMessage sample = some (relayBTP sample) ∧
    (encodeBTPMessage sample).bind (fun e => decodeBTPMessage e [9, 9]) = some sample := by
  refine ⟨⟨?_, ?_, ?_, ?_, ?_, ?_, ?_, ?_, ?_⟩, by decide +kernel, by decide +kernel⟩
  all_goals simp [sample, StrOk, IntOk, UintOk]

/-- C59 is false for the response to the request with network sequence number 128: its number is -128 and no message
center can decode it. -/
theorem C59_nsn_128_witness :
    ∃ e, encodeBTPMessage ⟨[0x61], [0x62], [0x63], 0, [1], -128, ⟨[], []⟩⟩ = some e ∧
      decodeBTPMessage e [] = none := by
  refine ⟨[0xc9, 0x61, 0x62, 0x63, 0, 1, 0x80, 0xc2, 0x80, 0xc0], by decide +kernel, by decide +kernel⟩

/-- C59 is false for a service message that consists of the byte 0x80: it arrives empty. -/
theorem C59_payload_80_witness :
    (encodeBTPMessage ⟨[0x61], [0x62], [0x63], 1, [0x80], 5, ⟨[], []⟩⟩).bind (fun e => decodeBTPMessage e []) =
      some ⟨[0x61], [0x62], [0x63], 1, [], 5, ⟨[], []⟩⟩ := by decide +kernel

theorem list_rt (es : List Bytes) (hl : es.flatten.length < 2 ^ 64 - 1) (hw : ∀ e ∈ es, Whole e) :
    ∃ e, listOf es.flatten = some e ∧ ∀ junk, toList (toRlpItem e junk) = some (itemsOf junk es) := by
  obtain ⟨h, e1, e2⟩ := listOf_hdr es.flatten hl
  exact ⟨_, e1, fun junk => toList_hdr es e2 hw junk⟩

theorem strs_whole {a b : Bytes} (ha : Whole a) (hb : Whole b) : ∀ e ∈ [a, b], Whole e := by
  intro e he
  simp only [List.mem_cons, List.not_mem_nil, or_false] at he
  rcases he with rfl | rfl
  · exact ha
  · exact hb

/-- C59, part: BMC messages, link announcements and responses survive. -/
theorem C59_bmc_message_roundtrip_partial (ty payload : Bytes) (h1 : StrOk ty) (h2 : StrOk payload) :
    ∃ e, encodeBMCMessage ty payload = some e ∧ ∀ junk, decodeBMCMessage e junk = some (ty, payload) := by
  have l1 := str_len h1
  have l2 := str_len h2
  unfold encodeBMCMessage
  rw [str_enc h1, str_enc h2]
  obtain ⟨e, e1, e2⟩ := list_rt [wBytes ty, wBytes payload] (by
    simp only [List.length_append, List.flatten_cons, List.flatten_nil, List.length_nil]; omega)
    (strs_whole (str_whole h1) (str_whole h2))
  refine ⟨e, e1, fun junk => ?_⟩
  unfold decodeBMCMessage
  rw [e2]
  simp only [itemsOf, Option.bind_some]
  rw [str_dec h1, str_dec h2]
  rfl

theorem C59_propagate_roundtrip_partial (link : Bytes) (h1 : StrOk link) :
    ∃ e, encodePropagateMessage link = some e ∧ ∀ junk, decodePropagateMessage e junk = some link := by
  have l1 := str_len h1
  unfold encodePropagateMessage
  rw [str_enc h1]
  obtain ⟨e, e1, e2⟩ := list_rt [wBytes link] (by
    simp only [List.length_append, List.flatten_cons, List.flatten_nil, List.length_nil]; omega)
    (by intro e he; simp at he; rw [he]; exact str_whole h1)
  refine ⟨e, e1, fun junk => ?_⟩
  unfold decodePropagateMessage
  rw [e2]
  simp only [itemsOf, Option.bind_some]
  rw [str_dec h1]

theorem C59_response_roundtrip_partial (code : Nat) (msg : Bytes) (h1 : UintOk code) (h2 : StrOk msg) :
    ∃ e, encodeResponseMessage code msg = some e ∧ ∀ junk, decodeResponseMessage e junk = some (code, msg) := by
  have l1 := uintw_len h1
  have l2 := str_len h2
  unfold encodeResponseMessage
  rw [(C59_uint code).1 h1, str_enc h2]
  obtain ⟨e, e1, e2⟩ := list_rt [wBytes (bigIntToBytes code), wBytes msg] (by
    simp only [List.length_append, List.flatten_cons, List.flatten_nil, List.length_nil]; omega)
    (strs_whole (uint_whole h1) (str_whole h2))
  refine ⟨e, e1, fun junk => ?_⟩
  unfold decodeResponseMessage
  rw [e2]
  simp only [itemsOf, Option.bind_some]
  rw [uint_dec h1, str_dec h2]
  rfl

theorem strs_len (l : List Bytes) (h : ∀ b ∈ l, StrOk b) :
    (l.map wBytes).flatten.length ≤ (2 ^ 56 + 9) * l.length := by
  induction l with
  | nil => simp
  | cons a l ih =>
    have := str_len (h a (by simp))
    have := ih (fun n hn => h n (by simp [hn]))
    simp only [List.map_cons, List.flatten_cons, List.length_append, List.length_cons] at this ⊢
    omega

theorem strs_dec (l : List Bytes) (rest : Bytes) (h : ∀ b ∈ l, StrOk b) :
    (itemsOf rest (l.map wBytes)).mapM toBytes = some l := by
  induction l with
  | nil => rfl
  | cons a l ih =>
    simp only [List.map_cons, itemsOf]
    rw [List.mapM_cons, str_dec (h a (by simp)), ih (fun n hn => h n (by simp [hn]))]
    rfl

theorem C59_init_roundtrip_partial (links : List Bytes) (h : ∀ b ∈ links, StrOk b) (hc : links.length < 200) :
    ∃ e, encodeInitMessage links = some e ∧ ∀ junk, decodeInitMessage e junk = some links := by
  have l1 := strs_len links h
  have hm : links.map encodeBytes = links.map wBytes := List.map_congr_left (fun b hb => str_enc (h b hb))
  have hw : ∀ e ∈ links.map wBytes, Whole e := by
    intro e he
    simp only [List.mem_map] at he
    obtain ⟨b, hb, rfl⟩ := he
    exact str_whole (h b hb)
  unfold encodeInitMessage
  rw [hm]
  obtain ⟨h1, e1, e2⟩ := listOf_hdr (links.map wBytes).flatten (by omega)
  have l2 := hdr_len e2
  rw [e1]
  simp only [Option.bind_some]
  obtain ⟨e, e3, e4⟩ := list_rt [h1 ++ (links.map wBytes).flatten] (by
    simp only [List.length_append, List.flatten_cons, List.flatten_nil, List.length_nil]; omega)
    (by intro e he; simp only [List.mem_singleton] at he; rw [he]; exact hdr_whole (Or.inr rfl) e2)
  refine ⟨e, e3, fun junk => ?_⟩
  unfold decodeInitMessage
  rw [e4]
  simp only [itemsOf, Option.bind_some]
  rw [toList_hdr _ e2 hw]
  simp only [Option.bind_some]
  exact strs_dec links _ h

/-- C59, part: the call service's structures survive. -/
theorem C59_call_message_roundtrip_partial (ty : Int) (payload : Bytes) (h1 : IntOk ty) (h2 : StrOk payload) :
    ∃ e, encodeCSMessage ty payload = some e ∧ ∀ junk, decodeCSMessage e junk = some (ty, payload) := by
  have l1 := intw_len h1
  have l2 := str_len h2
  unfold encodeCSMessage
  rw [(C59_int ty).1 h1, str_enc h2]
  obtain ⟨e, e1, e2⟩ := list_rt [wBytes (bigIntToBytes ty), wBytes payload] (by
    simp only [List.length_append, List.flatten_cons, List.flatten_nil, List.length_nil]; omega)
    (strs_whole (int_whole h1) (str_whole h2))
  refine ⟨e, e1, fun junk => ?_⟩
  unfold decodeCSMessage
  rw [e2]
  simp only [itemsOf, Option.bind_some]
  rw [int_dec h1, str_dec h2]
  rfl

theorem bool_enc (b : Bool) : encodeBool b = wBytes [if b then 1 else 0] := by cases b <;> decide

theorem C59_call_request_roundtrip_partial (r : CallRequest) (h1 : StrOk r.src) (h2 : StrOk r.dst) (h3 : UintOk r.sn)
    (h4 : StrOk r.data) :
    ∃ e, encodeCSMessageRequest r = some e ∧ ∀ junk, decodeCSMessageRequest e junk = some r := by
  have l1 := str_len h1
  have l2 := str_len h2
  have l3 := uintw_len h3
  have l4 := str_len h4
  have hb : StrOk [if r.rollback then 1 else 0] := by
    constructor
    · simp
    · cases r.rollback <;> decide
  have l5 := str_len hb
  unfold encodeCSMessageRequest
  rw [(C59_uint r.sn).1 h3, str_enc h1, str_enc h2, str_enc h4, bool_enc]
  obtain ⟨e, e1, e2⟩ := list_rt [wBytes r.src, wBytes r.dst, wBytes (bigIntToBytes r.sn), wBytes [if r.rollback then 1 else 0],
    wBytes r.data] (by
    simp only [List.length_append, List.flatten_cons, List.flatten_nil, List.length_nil]; omega)
    (by
      intro e he
      simp only [List.mem_cons, List.not_mem_nil, or_false] at he
      rcases he with rfl | rfl | rfl | rfl | rfl
      · exact str_whole h1
      · exact str_whole h2
      · exact uint_whole h3
      · exact str_whole hb
      · exact str_whole h4)
  refine ⟨e, e1, fun junk => ?_⟩
  have hbd : ∀ rest, toBoolean ⟨(wBytes [if r.rollback then 1 else 0]).length, wBytes [if r.rollback then 1 else 0] ++ rest⟩ =
      some r.rollback := by
    intro rest
    cases r.rollback <;> simp [wBytes, toBoolean, byte0]
  unfold decodeCSMessageRequest
  rw [e2]
  simp only [itemsOf, Option.bind_some]
  rw [str_dec h1, str_dec h2, uint_dec h3, hbd, str_dec h4]
  rfl

theorem C59_call_response_roundtrip_partial (sn : Nat) (code : Int) (msg : Bytes) (h1 : UintOk sn) (h2 : IntOk code)
    (h3 : StrOk msg) :
    ∃ e, encodeCSMessageResponse sn code msg = some e ∧ ∀ junk, decodeCSMessageResponse e junk = some (sn, code, msg) := by
  have l1 := uintw_len h1
  have l2 := intw_len h2
  have l3 := str_len h3
  unfold encodeCSMessageResponse
  rw [(C59_uint sn).1 h1, (C59_int code).1 h2, str_enc h3]
  obtain ⟨e, e1, e2⟩ := list_rt [wBytes (bigIntToBytes sn), wBytes (bigIntToBytes code), wBytes msg] (by
    simp only [List.length_append, List.flatten_cons, List.flatten_nil, List.length_nil]; omega)
    (by
      intro e he
      simp only [List.mem_cons, List.not_mem_nil, or_false] at he
      rcases he with rfl | rfl | rfl
      · exact uint_whole h1
      · exact int_whole h2
      · exact str_whole h3)
  refine ⟨e, e1, fun junk => ?_⟩
  unfold decodeCSMessageResponse
  rw [e2]
  simp only [itemsOf, Option.bind_some]
  rw [uint_dec h1, int_dec h2, str_dec h3]
  rfl

example : (encodeCSMessageRequest ⟨[0x61], [0x62], 200, true, []⟩).bind (fun e => decodeCSMessageRequest e [7]) =
    some ⟨[0x61], [0x62], 200, true, []⟩ ∧
    (encodeInitMessage [[0x61], [0x62, 0x63]]).bind (fun e => decodeInitMessage e [7]) = some [[0x61], [0x62, 0x63]] ∧
    (encodeCSMessageResponse 128 (-1) [1]).bind (fun e => decodeCSMessageResponse e []) = some (128, -1, [1]) := by
  decide +kernel

end Verif.SolRlp
