import Verif.SolText
/-!
C136: addresses as texts in the Solidity contracts. C137: text and number helpers.
-/
namespace Verif.SolText

/-! ### C136 -/

def lows : Bytes := [0x30, 0x31, 0x32, 0x33, 0x34, 0x35, 0x36, 0x37, 0x38, 0x39, 0x61, 0x62, 0x63, 0x64, 0x65, 0x66]
def ups : Bytes := [0x30, 0x31, 0x32, 0x33, 0x34, 0x35, 0x36, 0x37, 0x38, 0x39, 0x41, 0x42, 0x43, 0x44, 0x45, 0x46]

/-- The character is a hexadecimal digit of that value, of either case. -/
def Digit (c : UInt8) (n : Nat) : Prop := lows[n]? = some c ∨ ups[n]? = some c

/-- The text spells the bytes, two digits for each. -/
inductive Spells : Bytes → Bytes → Prop where
  | nil : Spells [] []
  | cons {c d b : UInt8} {t a : Bytes} : Digit c (b.toNat / 16) → Digit d (b.toNat % 16) → Spells t a → Spells (c :: d :: t) (b :: a)

theorem digit_hexVal (c : UInt8) (n : Nat) : Digit c n ↔ hexVal c = some n := by
  have key : ∀ k < 256, (∀ n < 16, (lows[n]? = some (UInt8.ofNat k) ∨ ups[n]? = some (UInt8.ofNat k)) ↔ hexVal (UInt8.ofNat k) = some n) ∧
      (hexVal (UInt8.ofNat k)).all (· < 16) = true := by decide +kernel
  have h := key c.toNat c.toNat_lt
  rw [UInt8.ofNat_toNat] at h
  by_cases hn : n < 16
  · exact h.1 n hn
  · constructor
    · intro h1
      have e1 : lows[n]? = none := List.getElem?_eq_none (by simp [lows]; omega)
      have e2 : ups[n]? = none := List.getElem?_eq_none (by simp [ups]; omega)
      unfold Digit at h1
      rw [e1, e2] at h1
      simp at h1
    · intro h1
      rw [h1] at h
      simp at h
      omega

theorem pairs_spells : ∀ (s a : Bytes), s.length % 2 = 0 → (parsePairs s = some a ↔ Spells s a)
  | [], a, _ => by
    simp only [parsePairs, Option.some.injEq]
    constructor
    · rintro rfl; exact .nil
    · intro h; cases h; rfl
  | [_], _, h => by simp at h
  | c :: d :: t, a, h => by
    have ht : t.length % 2 = 0 := by simp only [List.length_cons] at h; omega
    constructor
    · intro hp
      simp only [parsePairs] at hp
      obtain ⟨x, hx, hp⟩ := Option.bind_eq_some_iff.mp hp
      obtain ⟨y, hy, hp⟩ := Option.bind_eq_some_iff.mp hp
      obtain ⟨r, hr, rfl⟩ := Option.map_eq_some_iff.mp hp
      have dx := (digit_hexVal c x).mpr hx
      have dy := (digit_hexVal d y).mpr hy
      have lx : x < 16 := by
        rcases dx with h | h <;> exact (List.getElem?_eq_some_iff.mp h).1
      have ly : y < 16 := by
        rcases dy with h | h <;> exact (List.getElem?_eq_some_iff.mp h).1
      have e : (UInt8.ofNat (16 * x + y)).toNat = 16 * x + y := by rw [UInt8.toNat_ofNat']; omega
      refine .cons ?_ ?_ ((pairs_spells t r ht).mp hr)
      · rw [e, show (16 * x + y) / 16 = x by omega]; exact dx
      · rw [e, show (16 * x + y) % 16 = y by omega]; exact dy
    · intro hs
      cases hs with
      | @cons _ _ b _ a' h1 h2 h3 =>
        simp only [parsePairs, (digit_hexVal c _).mp h1, (digit_hexVal d _).mp h2, (pairs_spells t a' ht).mpr h3, Option.bind_some,
          Option.map_some, Option.some.injEq, List.cons.injEq, and_true]
        rw [show 16 * (b.toNat / 16) + b.toNat % 16 = b.toNat by omega, UInt8.ofNat_toNat]

theorem Spells.length {s a : Bytes} (h : Spells s a) : s.length = 2 * a.length := by
  induction h with
  | nil => rfl
  | cons _ _ _ ih => simp only [List.length_cons, ih]; omega

theorem digit_zero {c : UInt8} (h : Digit c 0) : c = 0x30 := by
  rcases h with h | h <;> (simp [lows, ups] at h; exact h.symm)

theorem Spells.zeros {s a : Bytes} (h : Spells s a) (ha : ∀ b ∈ a, b = 0) : ∀ c ∈ s, c = 0x30 := by
  induction h with
  | nil => simp
  | cons h1 h2 _ ih =>
    have h0 := ha _ List.mem_cons_self
    subst h0
    intro c hc
    simp only [List.mem_cons] at hc
    rcases hc with rfl | rfl | hc
    · exact digit_zero h1
    · exact digit_zero h2
    · exact ih (fun b hb => ha b (by simp [hb])) c hc

/-- C136: exactly the texts "0x" with forty digits, of either case, are read as addresses, with the value they spell. -/
theorem C136_parse (s a : Bytes) : parseAddress s = some a ↔ a.length = 20 ∧ ∃ d, s = [0x30, 0x78] ++ d ∧ Spells d a := by
  unfold parseAddress
  constructor
  · intro h
    split at h
    · rename_i hc
      obtain ⟨h1, h2, h3⟩ := hc
      match s, h1, h2, h3, h with
      | x :: y :: d, h1, h2, h3, h =>
        simp only [List.getD_cons_zero, List.getD_cons_succ] at h2 h3
        subst h2 h3
        simp only [List.length_cons] at h1
        obtain ⟨a', h4, h5⟩ := Option.bind_eq_some_iff.mp h
        simp only [List.drop_succ_cons, List.drop_zero] at h4
        split at h5
        · cases h5
        · cases h5
          have hs := (pairs_spells d a (by omega)).mp h4
          exact ⟨by have := hs.length; omega, d, rfl, hs⟩
    · cases h
  · rintro ⟨hl, d, rfl, hs⟩
    have hd := hs.length
    rw [if_pos ⟨by simp; omega, rfl, rfl⟩]
    simp only [List.cons_append, List.nil_append, List.drop_succ_cons, List.drop_zero]
    rw [(pairs_spells d a (by omega)).mpr hs]
    simp only [Option.bind_some]
    rw [if_neg]
    rintro ⟨h1, h2⟩
    have := hs.zeros (by rw [h1]; simp [zero20])
    simp only [List.any_eq_true, bne_iff_ne] at h2
    obtain ⟨c, hc, hne⟩ := h2
    exact hne (this c hc)

/-- Digit number `k` of bytes. -/
def nib (b : Bytes) (k : Nat) : Nat := if k % 2 = 0 then (b.getD (k / 2) 0).toNat / 16 else (b.getD (k / 2) 0).toNat % 16

theorem char_lo : ∀ n < 16, lows[n]? = some (nibbleChar n false) := by decide +kernel
theorem char_up : ∀ n < 16, ups[n]? = some (nibbleChar n true) := by decide +kernel
theorem char_digit : ∀ n < 16, ∀ f, Digit (nibbleChar n f) n := by
  intro n hn f
  cases f
  · exact Or.inl (char_lo n hn)
  · exact Or.inr (char_up n hn)

theorem checksum_spells (a : Bytes) (fs : List (Bool × Bool)) (hf : a.length ≤ fs.length) :
    Spells (List.zipWith (fun b f => [nibbleChar (b.toNat / 16) f.1, nibbleChar (b.toNat % 16) f.2]) a fs).flatten a := by
  induction a generalizing fs with
  | nil => simp; exact .nil
  | cons b t ih =>
    cases fs with
    | nil => simp at hf
    | cons f fs =>
      have hb : b.toNat < 256 := b.toNat_lt
      exact .cons (char_digit _ (by omega) _) (char_digit _ (by omega) _) (ih fs (by simpa using hf))

/-- C136: an address printed with its checksum is read back as the same address, whatever the hash function. -/
theorem C136_roundtrip (H : Bytes → Bytes) (hH : ∀ x, (H x).length = 32) (a : Bytes) (ha : a.length = 20) :
    parseAddress (toChecksum H a) = some a :=
  (C136_parse _ _).mpr ⟨ha, _, rfl, checksum_spells a _ (by simp [capsFlags, hH, ha])⟩

theorem nib_cons (b : UInt8) (t : Bytes) (k : Nat) : nib (b :: t) (k + 2) = nib t k := by
  unfold nib
  rw [show (k + 2) % 2 = k % 2 by omega, show (k + 2) / 2 = k / 2 + 1 by omega]
  simp

theorem nib_lt (b : Bytes) (k : Nat) : nib b k < 16 := by
  unfold nib
  have : (b.getD (k / 2) 0).toNat < 256 := UInt8.toNat_lt _
  split <;> omega

/-- C136: the text that is hashed is the address in small letters. -/
theorem C136_ascii (a : Bytes) (k : Nat) (hk : k < 2 * a.length) : (toAscii a)[k]? = lows[nib a k]? := by
  induction a generalizing k with
  | nil => simp at hk
  | cons b t ih =>
    have hb : b.toNat < 256 := b.toNat_lt
    have e : toAscii (b :: t) = nibbleChar (b.toNat / 16) false :: nibbleChar (b.toNat % 16) false :: toAscii t := rfl
    rw [e]
    match k with
    | 0 => simp [nib, char_lo (b.toNat / 16) (by omega)]
    | 1 => simp [nib, char_lo (b.toNat % 16) (by omega)]
    | k + 2 =>
      rw [nib_cons, ← ih k (by simp only [List.length_cons] at hk; omega)]
      rfl

theorem caps_get (a h : Bytes) (k : Nat) (hk : k < 2 * a.length) (hh : a.length ≤ h.length) :
    ((List.zipWith (fun b f => [nibbleChar (b.toNat / 16) f.1, nibbleChar (b.toNat % 16) f.2]) a
      (List.zipWith (fun (x h : UInt8) => (decide (x.toNat / 16 > 9) && decide (h.toNat / 16 > 7),
        decide (x.toNat % 16 > 9) && decide (h.toNat % 16 > 7))) a h)).flatten)[k]? =
    (if 9 < nib a k ∧ 7 < nib h k then ups else lows)[nib a k]? := by
  induction a generalizing h k with
  | nil => simp at hk
  | cons b t ih =>
    cases h with
    | nil => simp at hh
    | cons x xs =>
      have hb : b.toNat < 256 := b.toNat_lt
      simp only [List.zipWith_cons_cons, List.flatten_cons, List.cons_append, List.nil_append]
      match k with
      | 0 =>
        simp only [List.getElem?_cons_zero, nib, Nat.zero_mod, if_pos, Nat.zero_div, List.getD_cons_zero]
        by_cases hc : 9 < b.toNat / 16 ∧ 7 < x.toNat / 16
        · rw [if_pos hc, char_up _ (by omega)]; simp [hc]
        · rw [if_neg hc, char_lo _ (by omega)]
          congr 2
          simp only [gt_iff_lt, Bool.and_eq_false_iff, decide_eq_false_iff_not]
          omega
      | 1 =>
        have e1 : nib (b :: t) 1 = b.toNat % 16 := rfl
        have e2 : nib (x :: xs) 1 = x.toNat % 16 := rfl
        rw [e1, e2]
        simp only [List.getElem?_cons_succ, List.getElem?_cons_zero]
        by_cases hc : 9 < b.toNat % 16 ∧ 7 < x.toNat % 16
        · rw [if_pos hc, char_up _ (by omega)]; simp [hc]
        · rw [if_neg hc, char_lo _ (by omega)]
          congr 2
          simp only [gt_iff_lt, Bool.and_eq_false_iff, decide_eq_false_iff_not]
          omega
      | k + 2 =>
        rw [nib_cons, nib_cons]
        exact ih xs k (by simp only [List.length_cons] at hk; omega) (by simpa using hh)

/-- C136: the printed text is that of ERC-55: "0x", then each digit, a capital letter exactly if the digit of the hash of the small
letters at its place is above seven. -/
theorem C136_checksum (H : Bytes → Bytes) (hH : ∀ x, (H x).length = 32) (a : Bytes) (ha : a.length = 20) :
    (toChecksum H a).length = 42 ∧ (toChecksum H a).take 2 = [0x30, 0x78] ∧
    ∀ k < 40, (toChecksum H a)[k + 2]? = (if 9 < nib a k ∧ 7 < nib (H (toAscii a)) k then ups else lows)[nib a k]? := by
  have hs := (checksum_spells a (capsFlags H a) (by simp [capsFlags, hH, ha])).length
  refine ⟨?_, rfl, fun k hk => ?_⟩
  · unfold toChecksum
    rw [List.length_append, hs, ha]
    rfl
  · unfold toChecksum
    rw [List.getElem?_append_right (by simp)]
    simp only [List.length_cons, List.length_nil]
    exact caps_get a (H (toAscii a)) k (by omega) (by rw [hH, ha]; omega)

/-- C136 is false for the checksum test: the text it compares with begins with "0x", so it is false for every text, correct checksum
or not, or else a hash collision shows. -/
theorem C136_never_valid (H : Bytes → Bytes) (hH : ∀ x, (H x).length = 32) (s : Bytes) (h : isChecksumValid H s = true) :
    Mbt.Collision H [toChecksum H (toAddress s)] [s] := by
  have hl : (toAddress s).length = 20 := by
    unfold toAddress
    split
    · rename_i h40
      cases hp : parsePairs s with
      | none => rfl
      | some a =>
        have := ((pairs_spells s a (by omega)).mp hp).length
        simp only [Option.getD_some]
        omega
    · rfl
  unfold isChecksumValid at h
  dsimp only at h
  split at h
  · cases h
  · rename_i hz
    refine ⟨_, by simp, s, by simp, ?_, of_decide_eq_true h⟩
    intro e
    have c := C136_checksum H hH (toAddress s) hl
    have hs : s.length = 42 := by rw [← e]; exact c.1
    have hz2 : toAddress s = zero20 := by unfold toAddress; rw [if_neg (by omega)]
    apply hz
    refine ⟨hz2, ?_⟩
    rw [List.any_eq_true]
    refine ⟨0x78, ?_, by decide⟩
    rw [← e]
    simp [toChecksum]

/-- A correct checksum is refused. -/
theorem C136_never_valid_witness : isChecksumValid (fun x => if x.length = 40 then List.replicate 32 0xff else x ++ List.replicate 32 0)
    ((toChecksum (fun x => if x.length = 40 then List.replicate 32 0xff else x ++ List.replicate 32 0) (List.replicate 20 0xab)).drop 2) = false := by
  decide +kernel

/-! ### C137: texts -/

/-- C137: bytes are written with "0x" and two small digits each. -/
theorem C137_hex (b : Bytes) : ∃ d, bytesToHex b = [0x30, 0x78] ++ d ∧ d.length = 2 * b.length ∧
    ∀ k < 2 * b.length, d[k]? = lows[nib b k]? := by
  refine ⟨b.flatMap (fun x => [base16.getD (x.toNat / base16.length) 0, base16.getD (x.toNat % base16.length) 0]), ?_, ?_, ?_⟩
  · unfold bytesToHex
    split
    · rename_i h; rw [List.eq_nil_of_length_eq_zero h]; rfl
    · rfl
  · induction b with
    | nil => rfl
    | cons x t ih => simp only [List.flatMap_cons, List.length_append, List.length_cons, List.length_nil, ih]; omega
  · induction b with
    | nil => simp
    | cons x t ih =>
      intro k hk
      have hb : x.toNat < 256 := x.toNat_lt
      have e16 : base16.length = 16 := rfl
      have key : ∀ n < 16, base16.getD n 0 = lows.getD n 0 ∧ lows[n]? = some (lows.getD n 0) := by decide +kernel
      simp only [List.flatMap_cons, List.cons_append, List.nil_append, e16] at ih ⊢
      match k with
      | 0 =>
        have k1 := key (x.toNat / 16) (by omega)
        rw [show nib (x :: t) 0 = x.toNat / 16 from rfl, k1.2, k1.1]; rfl
      | 1 =>
        have k1 := key (x.toNat % 16) (by omega)
        rw [show nib (x :: t) 1 = x.toNat % 16 from rfl, k1.2, k1.1]; rfl
      | k + 2 =>
        rw [nib_cons, ← ih k (by simp only [List.length_cons] at hk; omega)]
        rfl

/-- C137: different byte strings have different texts. -/
theorem C137_hex_injective (a b : Bytes) (h : bytesToHex a = bytesToHex b) : a = b := by
  obtain ⟨d, h1, h2, h3⟩ := C137_hex a
  obtain ⟨d', g1, g2, g3⟩ := C137_hex b
  rw [h1, g1] at h
  have hd : d = d' := List.append_cancel_left h
  subst hd
  have hl : a.length = b.length := by omega
  have lows_inj : ∀ n < 16, ∀ m < 16, lows[n]? = lows[m]? → n = m := by decide +kernel
  refine List.ext_getElem hl (fun i hi hi' => ?_)
  have e0 := (h3 (2 * i) (by omega)).symm.trans (g3 (2 * i) (by omega))
  have e1 := (h3 (2 * i + 1) (by omega)).symm.trans (g3 (2 * i + 1) (by omega))
  have n0 := lows_inj _ (nib_lt _ _) _ (nib_lt _ _) e0
  have n1 := lows_inj _ (nib_lt _ _) _ (nib_lt _ _) e1
  unfold nib at n0 n1
  rw [if_pos (by omega), if_pos (by omega), show 2 * i / 2 = i by omega] at n0
  rw [if_neg (by omega), if_neg (by omega), show (2 * i + 1) / 2 = i by omega] at n1
  rw [List.getD_eq_getElem?_getD, List.getD_eq_getElem?_getD, List.getElem?_eq_getElem hi, List.getElem?_eq_getElem hi'] at n0 n1
  simp only [Option.getD_some] at n0 n1
  apply UInt8.toNat_inj.mp
  omega

/-- C137: two texts compare as equal exactly if they are, or else a hash collision shows. -/
theorem C137_compare (H : Bytes → Bytes) (a b : Bytes) : (a = b → compareTo H a b = true) ∧
    (compareTo H a b = true → a = b ∨ Mbt.Collision H [a] [b]) := by
  refine ⟨fun h => by simp [compareTo, h], fun h => ?_⟩
  by_cases e : a = b
  · exact Or.inl e
  · exact Or.inr ⟨a, by simp, b, by simp, e, of_decide_eq_true h⟩

/-- C137: `lower` changes the 26 capital letters and nothing else. -/
theorem C137_lower (s : Bytes) : (lower s).length = s.length ∧
    ∀ (i : Nat) (c : UInt8), s[i]? = some c → (lower s)[i]? = some (if 65 ≤ c.toNat ∧ c.toNat ≤ 90 then c + 32 else c) := by
  refine ⟨by simp [lower], fun i c h => ?_⟩
  have key : ∀ k < 256, lowerChar (UInt8.ofNat k) =
      (if 65 ≤ (UInt8.ofNat k).toNat ∧ (UInt8.ofNat k).toNat ≤ 90 then UInt8.ofNat k + 32 else UInt8.ofNat k) := by decide +kernel
  have := key c.toNat c.toNat_lt
  rw [UInt8.ofNat_toNat] at this
  rw [lower, List.getElem?_map, h, Option.map_some, this]

theorem indexLoop_spec (c : UInt8) (r : Bytes) : ∀ i, indexLoop c i r =
    if c ∈ r then ((i + (r.takeWhile (· ≠ c)).length : Nat) : Int) else -1 := by
  induction r with
  | nil => intro i; rfl
  | cons x t ih =>
    intro i
    unfold indexLoop
    by_cases h : x = c
    · subst h; simp
    · have e2 : (x :: t).takeWhile (· ≠ c) = x :: t.takeWhile (· ≠ c) := by
        rw [List.takeWhile_cons, if_pos (by simpa using h)]
      rw [if_neg h, ih, e2]
      have : (c ∈ x :: t) = (c ∈ t) := by simp [Ne.symm h]
      by_cases hm : c ∈ t
      · rw [if_pos hm, if_pos (by simp [hm]), List.length_cons]; congr 1; omega
      · rw [if_neg hm, if_neg (by rw [this]; exact hm)]

/-- C137: `_indexOf` finds the first place at or after the offset, or gives -1; a needle that is not one character reverts. -/
theorem C137_indexOf (s v : Bytes) (off : Nat) (c : UInt8) :
    (v.length ≠ 1 → indexOf s v off = none) ∧
    (c ∉ s.drop off → indexOf s [c] off = some (-1)) ∧
    (∀ i, indexOf s [c] off = some (Int.ofNat i) ↔ off ≤ i ∧ s[i]? = some c ∧ ∀ j, off ≤ j → j < i → s[j]? ≠ some c) := by
  refine ⟨fun h => ?_, fun h => ?_, fun i => ?_⟩
  · match v, h with
    | [], _ => rfl
    | [x], h => simp at h
    | _ :: _ :: _, _ => rfl
  · simp only [indexOf]; rw [indexLoop_spec, if_neg h]
  · simp only [indexOf]
    have gen : ∀ (r : Bytes) (o i : Nat), indexLoop c o r = Int.ofNat i ↔
        o ≤ i ∧ r[i - o]? = some c ∧ ∀ j, o ≤ j → j < i → r[j - o]? ≠ some c := by
      intro r
      induction r with
      | nil => intro o i; simp [indexLoop]
      | cons x t ih =>
        intro o i
        unfold indexLoop
        by_cases h : x = c
        · subst h
          rw [if_pos rfl]
          constructor
          · intro e
            have e : o = i := by injection e
            subst e
            exact ⟨Nat.le_refl _, by simp, fun j h1 h2 => by omega⟩
          · rintro ⟨h1, _, h3⟩
            by_cases e : o = i
            · simp [e]
            · exact absurd (by simp) (h3 o (Nat.le_refl _) (by omega))
        · rw [if_neg h, ih]
          constructor
          · rintro ⟨h1, h2, h3⟩
            refine ⟨by omega, ?_, fun j j1 j2 => ?_⟩
            · rw [show i - o = i - (o + 1) + 1 by omega, List.getElem?_cons_succ]; exact h2
            · by_cases e : j = o
              · rw [e]; simp [h]
              · rw [show j - o = j - (o + 1) + 1 by omega, List.getElem?_cons_succ]; exact h3 j (by omega) j2
          · rintro ⟨h1, h2, h3⟩
            have hi : o + 1 ≤ i := by
              by_cases e : i = o
              · rw [e] at h2; simp at h2; exact absurd h2 h
              · omega
            refine ⟨hi, ?_, fun j j1 j2 => ?_⟩
            · rw [show i - o = i - (o + 1) + 1 by omega, List.getElem?_cons_succ] at h2; exact h2
            · have := h3 j (by omega) j2
              rw [show j - o = j - (o + 1) + 1 by omega, List.getElem?_cons_succ] at this; exact this
    rw [Option.some.injEq, gen]
    simp only [List.getElem?_drop]
    constructor
    · rintro ⟨h1, h2, h3⟩
      refine ⟨h1, by rw [show off + (i - off) = i by omega] at h2; exact h2, fun j j1 j2 => ?_⟩
      have := h3 j j1 j2
      rwa [show off + (j - off) = j by omega] at this
    · rintro ⟨h1, h2, h3⟩
      refine ⟨h1, by rw [show off + (i - off) = i by omega]; exact h2, fun j j1 j2 => ?_⟩
      rw [show off + (j - off) = j by omega]; exact h3 j j1 j2

/-- The parts of a text between the delimiters. -/
def parts (c : UInt8) : Bytes → List Bytes
  | [] => [[]]
  | x :: t => if x = c then [] :: parts c t else (x :: (parts c t).headD []) :: (parts c t).tail

/-- What `split` returns: it stops as soon as at most one character is left. -/
def cut (c : UInt8) (r : Bytes) : List Bytes :=
  if r.length ≤ 1 then [[]]
  else if _h : c ∈ r then r.takeWhile (· ≠ c) :: cut c (r.drop ((r.takeWhile (· ≠ c)).length + 1))
  else [r]
termination_by r.length
decreasing_by simp only [List.length_drop]; omega

theorem takeWhile_lt {c : UInt8} {r : Bytes} (h : c ∈ r) : (r.takeWhile (· ≠ c)).length < r.length := by
  induction r with
  | nil => cases h
  | cons x t ih =>
    rw [List.takeWhile_cons]
    by_cases e : x = c
    · subst e; simp
    · rw [if_pos (by simpa using e)]
      have := ih (by simpa [Ne.symm e] using h)
      simp only [List.length_cons]; omega

theorem cut_pos (c : UInt8) (r : Bytes) : 0 < (cut c r).length := by
  unfold cut; split
  · simp
  · split <;> simp

theorem countLoop_spec (s : Bytes) (c : UInt8) : ∀ (fuel off n : Nat), s.length < off + fuel →
    countLoop s [c] fuel off n = some (n + (cut c (s.drop off)).length - 1)
  | 0, off, n, hf => by
    have : s.drop off = [] := List.drop_eq_nil_of_le (by omega)
    rw [this]; unfold cut; simp [countLoop]
  | fuel + 1, off, n, hf => by
    unfold countLoop
    by_cases h : off < s.length - 1
    · rw [if_pos h]
      simp only [indexOf, Option.bind_some]
      rw [indexLoop_spec]
      by_cases hc : c ∈ s.drop off
      · have e : cut c (s.drop off) = (s.drop off).takeWhile (· ≠ c) :: cut c (s.drop (off + ((s.drop off).takeWhile (· ≠ c)).length + 1)) := by
          rw [cut, if_neg (by simp only [List.length_drop]; omega), dif_pos hc, List.drop_drop, Nat.add_assoc]
        rw [e, if_pos hc, if_neg (by omega)]
        rw [countLoop_spec s c fuel _ _ (by omega)]
        simp only [Int.toNat_natCast, List.length_cons]
        have := cut_pos c (s.drop (off + ((s.drop off).takeWhile (· ≠ c)).length + 1))
        congr 1
        omega
      · have e : cut c (s.drop off) = [s.drop off] := by
          rw [cut, if_neg (by simp only [List.length_drop]; omega), dif_neg hc]
        rw [e, if_neg hc, if_pos rfl]
        simp
    · rw [if_neg h, cut, if_pos (by simp only [List.length_drop]; omega)]
      simp

theorem fillLoop_spec (s : Bytes) (c : UInt8) : ∀ (fuel off : Nat) (pre : List Bytes), s.length < off + fuel → off ≤ s.length →
    fillLoop s [c] fuel off pre.length (pre ++ List.replicate (cut c (s.drop off)).length []) = some (pre ++ cut c (s.drop off))
  | 0, off, pre, hf, ho => by omega
  | fuel + 1, off, pre, hf, ho => by
    unfold fillLoop
    by_cases h : off < s.length - 1
    · rw [if_pos h]
      simp only [indexOf, Option.bind_some]
      rw [indexLoop_spec]
      have hp := cut_pos c (s.drop off)
      rw [if_pos (by simp; omega)]
      by_cases hc : c ∈ s.drop off
      · have hlt := takeWhile_lt hc
        rw [List.length_drop] at hlt
        have e : cut c (s.drop off) = (s.drop off).takeWhile (· ≠ c) :: cut c (s.drop (off + ((s.drop off).takeWhile (· ≠ c)).length + 1)) := by
          rw [cut, if_neg (by simp only [List.length_drop]; omega), dif_pos hc, List.drop_drop, Nat.add_assoc]
        rw [e]
        simp only [if_pos hc]
        rw [if_neg (by omega)]
        simp only [Int.toNat_natCast]
        have hset : (pre ++ List.replicate ((s.drop off).takeWhile (· ≠ c) :: cut c (s.drop (off + ((s.drop off).takeWhile (· ≠ c)).length + 1))).length
            ([] : Bytes)).set pre.length ((s.drop off).take (off + ((s.drop off).takeWhile (· ≠ c)).length - off)) =
            (pre ++ [(s.drop off).takeWhile (· ≠ c)]) ++ List.replicate (cut c (s.drop (off + ((s.drop off).takeWhile (· ≠ c)).length + 1))).length [] := by
          rw [Nat.add_sub_cancel_left, List.length_cons, List.replicate_succ, List.set_append_right _ _ (Nat.le_refl _), Nat.sub_self, List.set_cons_zero]
          have : (s.drop off).take ((s.drop off).takeWhile (· ≠ c)).length = (s.drop off).takeWhile (· ≠ c) := by
            exact (List.prefix_iff_eq_take.mp (List.takeWhile_prefix _)).symm
          rw [this]; simp
        rw [hset]
        have := fillLoop_spec s c fuel (off + ((s.drop off).takeWhile (· ≠ c)).length + 1) (pre ++ [(s.drop off).takeWhile (· ≠ c)])
          (by omega) (by omega)
        simp only [List.length_append, List.length_cons, List.length_nil, Nat.zero_add] at this
        rw [this]
        simp
      · have e : cut c (s.drop off) = [s.drop off] := by
          rw [cut, if_neg (by simp only [List.length_drop]; omega), dif_neg hc]
        rw [e]
        simp only [if_neg hc, if_true]
        have hset : (pre ++ List.replicate [s.drop off].length ([] : Bytes)).set pre.length ((s.drop off).take (s.length - off)) = pre ++ [s.drop off] := by
          rw [List.length_singleton, List.replicate_one, List.set_append_right _ _ (Nat.le_refl _), Nat.sub_self, List.set_cons_zero,
            List.take_of_length_le (by simp)]
        rw [hset]
        cases fuel with
        | zero => rfl
        | succ f => unfold fillLoop; rw [if_neg (by omega)]
    · have e : cut c (s.drop off) = [[]] := by rw [cut, if_pos (by simp only [List.length_drop]; omega)]
      rw [if_neg h, e]
      rfl

theorem split_cut (s : Bytes) (c : UInt8) (hs : s ≠ []) : split s [c] = some (cut c s) := by
  unfold split
  rw [if_neg (by simpa using hs), countLoop_spec s c _ 0 1 (by omega)]
  simp only [Option.bind_some, List.drop_zero]
  have := fillLoop_spec s c (s.length + 1) 0 [] (by omega) (by omega)
  simp only [List.length_nil, List.nil_append, List.drop_zero] at this
  rw [show 1 + (cut c s).length - 1 = (cut c s).length by omega, this]

theorem parts_ne (c : UInt8) (r : Bytes) : parts c r ≠ [] := by
  cases r with
  | nil => simp [parts]
  | cons x t => unfold parts; split <;> simp

theorem parts_not_mem {c : UInt8} {r : Bytes} (h : c ∉ r) : parts c r = [r] := by
  induction r with
  | nil => rfl
  | cons x t ih =>
    simp only [List.mem_cons, not_or] at h
    unfold parts
    rw [if_neg (Ne.symm h.1), ih h.2]
    rfl

theorem parts_append {c : UInt8} {a : Bytes} (h : c ∉ a) (r : Bytes) : parts c (a ++ c :: r) = a :: parts c r := by
  induction a with
  | nil => simp [parts]
  | cons x t ih =>
    simp only [List.mem_cons, not_or] at h
    rw [List.cons_append, parts, if_neg (Ne.symm h.1), ih h.2]
    rfl

theorem split_at {c : UInt8} {r : Bytes} (h : c ∈ r) :
    r = r.takeWhile (· ≠ c) ++ c :: r.drop ((r.takeWhile (· ≠ c)).length + 1) ∧ c ∉ r.takeWhile (· ≠ c) := by
  constructor
  · induction r with
    | nil => cases h
    | cons x t ih =>
      rw [List.takeWhile_cons]
      by_cases e : x = c
      · subst e; simp
      · rw [if_pos (by simpa using e)]
        have := ih (by simpa [Ne.symm e] using h)
        simp only [List.cons_append, List.length_cons, List.drop_succ_cons]
        rw [← this]
  · intro hm
    have key : ∀ (l : Bytes), c ∉ l.takeWhile (· ≠ c) := by
      intro l
      induction l with
      | nil => simp
      | cons x t ih =>
        rw [List.takeWhile_cons]
        split
        · rename_i hx
          have hx : x ≠ c := by simpa using hx
          simp only [List.mem_cons, not_or]
          exact ⟨Ne.symm hx, ih⟩
        · simp
    exact key r hm

/-- C137, exact: the empty text reverts; else `split` gives the parts of the text - except that a last part of one character is
returned empty, and of a text that is the delimiter or ends with two of them the last, empty, part is missing. -/
theorem C137_split (s : Bytes) (c : UInt8) :
    split [] [c] = none ∧
    (s ≠ [] → split s [c] = some (
      if s = [c] ∨ [c, c] <:+ s then (parts c s).dropLast
      else if ((parts c s).getLast?.getD []).length = 1 then (parts c s).dropLast ++ [[]]
      else parts c s)) := by
  refine ⟨rfl, fun hs => ?_⟩
  rw [split_cut s c hs]
  congr 1
  have gen : ∀ (n : Nat) (r : Bytes), r.length ≤ n → r ≠ [] → cut c r =
      if r = [c] ∨ [c, c] <:+ r then (parts c r).dropLast
      else if ((parts c r).getLast?.getD []).length = 1 then (parts c r).dropLast ++ [[]]
      else parts c r := by
    intro n
    induction n with
    | zero => intro r h hr; exact absurd (List.eq_nil_of_length_eq_zero (by omega)) hr
    | succ n ih =>
      intro r hn hr
      rw [cut]
      by_cases h1 : r.length ≤ 1
      · rw [if_pos h1]
        match r, h1, hr with
        | [x], _, _ =>
          by_cases hx : x = c
          · subst hx
            rw [if_pos (Or.inl rfl)]
            simp [parts]
          · have hno : ¬ ([x] = [c] ∨ [c, c] <:+ [x]) := by
              rintro (h | h)
              · exact hx (by simpa using h)
              · have := h.length_le; simp at this
            rw [if_neg hno]
            simp [parts, hx]
      · rw [if_neg h1]
        by_cases hc : c ∈ r
        · rw [dif_pos hc]
          obtain ⟨e1, e2⟩ := split_at hc
          have hlt := takeWhile_lt hc
          have hp : parts c r = r.takeWhile (· ≠ c) :: parts c (r.drop ((r.takeWhile (· ≠ c)).length + 1)) := by
            conv => lhs; rw [e1]
            exact parts_append e2 _
          generalize hA : r.takeWhile (· ≠ c) = A at *
          generalize hR : r.drop (A.length + 1) = R at *
          rw [hp]
          have hR1 : R.length + A.length + 1 = r.length := by
            rw [e1]; simp only [List.length_append, List.length_cons]; omega
          by_cases hR0 : R = []
          · subst hR0
            have hA0 : A ≠ [] := by
              intro h0; subst h0; simp at hR1; omega
            have hno : ¬ (r = [c] ∨ [c, c] <:+ r) := by
              rintro (h | h)
              · rw [h] at h1; simp at h1
              · rw [e1] at h
                obtain ⟨q, hq⟩ := h
                have : q ++ [c] = A := by
                  have h2 : (q ++ [c]) ++ [c] = A ++ [c] := by rw [← hq]; simp
                  exact List.append_cancel_right h2
                exact e2 (by rw [← this]; simp)
            rw [if_neg hno]
            have hq : cut c ([] : Bytes) = [[]] := by rw [cut]; simp
            rw [hq]
            simp [parts]
          · have ih' := ih R (by omega) hR0
            have hiff : (r = [c] ∨ [c, c] <:+ r) ↔ (R = [c] ∨ [c, c] <:+ R) := by
              constructor
              · rintro (h | h)
                · rw [h] at h1; simp at h1
                · rw [e1] at h
                  by_cases hl : 2 ≤ R.length
                  · right
                    have h2 : R <:+ A ++ c :: R := ⟨A ++ [c], by simp⟩
                    exact List.suffix_of_suffix_length_le h h2 (by simpa using hl)
                  · left
                    match R, hR0, hl, h with
                    | [y], _, _, h =>
                      obtain ⟨q, hq⟩ := h
                      have h3 : (q ++ [c]) ++ [c] = (A ++ [c]) ++ [y] := by simpa using hq
                      have := (List.append_inj_right' h3 rfl)
                      exact this.symm
                    | _ :: _ :: _, _, hl, _ => simp at hl
              · rintro (h | h)
                · right; rw [e1, h]; exact ⟨A, by simp⟩
                · right; rw [e1]; exact h.trans ⟨A ++ [c], by simp⟩
            have hne := parts_ne c R
            rw [ih']
            by_cases hx : R = [c] ∨ [c, c] <:+ R
            · rw [if_pos hx, if_pos (hiff.mpr hx), List.dropLast_cons_of_ne_nil hne]
            · rw [if_neg hx, if_neg (fun h => hx (hiff.mp h))]
              have hl : (A :: parts c R).getLast? = (parts c R).getLast? := by
                rw [List.getLast?_cons]
                cases hg : (parts c R).getLast? with
                | none => exact absurd (List.getLast?_eq_none_iff.mp hg) hne
                | some z => rfl
              rw [hl]
              split
              · rw [List.dropLast_cons_of_ne_nil hne]; rfl
              · rfl
        · rw [dif_neg hc, parts_not_mem hc]
          have hno : ¬ (r = [c] ∨ [c, c] <:+ r) := by
            rintro (h | h)
            · exact hc (by rw [h]; simp)
            · obtain ⟨q, hq⟩ := h; exact hc (by rw [← hq]; simp)
          rw [if_neg hno, if_neg (by simp; omega)]
  exact gen s.length s (Nat.le_refl _) hs


theorem cut_cons {c : UInt8} {a : Bytes} (h : c ∉ a) (r : Bytes) (hl : a ≠ [] ∨ r ≠ []) : cut c (a ++ c :: r) = a :: cut c r := by
  have tw : (a ++ c :: r).takeWhile (· ≠ c) = a := by
    induction a with
    | nil => simp
    | cons x t ih =>
      simp only [List.mem_cons, not_or] at h
      by_cases ht : t ≠ [] ∨ r ≠ []
      · rw [List.cons_append, List.takeWhile_cons, if_pos (by simpa using Ne.symm h.1), ih h.2 ht]
      · have : t = [] ∧ r = [] := by
          constructor
          · exact Decidable.not_not.mp (fun e => ht (Or.inl e))
          · exact Decidable.not_not.mp (fun e => ht (Or.inr e))
        rw [this.1, this.2]
        simp [Ne.symm h.1]
  rw [cut, if_neg, dif_pos (by simp), tw]
  · congr 2
    rw [List.drop_append, List.drop_eq_nil_of_le (by omega), Nat.add_sub_cancel_left]; rfl
  · simp only [List.length_append, List.length_cons]
    rcases hl with h | h
    · have := List.length_pos_iff.mpr h; omega
    · have := List.length_pos_iff.mpr h; omega

theorem cut_more {c : UInt8} {r x : Bytes} {t : List Bytes} (h : cut c r = x :: t) (ht : t ≠ []) :
    c ∉ x ∧ ∃ r', r = x ++ c :: r' ∧ t = cut c r' := by
  rw [cut] at h
  split at h
  · cases h; exact absurd rfl ht
  · split at h
    · rename_i hc
      injection h with h1 h2
      obtain ⟨e1, e2⟩ := split_at hc
      subst h1 h2
      exact ⟨e2, _, e1, rfl⟩
    · cases h; exact absurd rfl ht

/-- C137: a BTP address gives its network, whatever its account is; the account is given if it has more than one character. -/
theorem C137_btp_address (net acct : Bytes) (hn : (0x2f : UInt8) ∉ net) (h : net ≠ [] ∨ acct ≠ []) :
    ∃ b, splitBTPAddress ([0x62, 0x74, 0x70, 0x3a, 0x2f, 0x2f] ++ net ++ [0x2f] ++ acct) = some (net, b) ∧
      ((0x2f : UInt8) ∉ acct → acct.length ≠ 1 → b = acct) ∧ (acct.length = 1 → b = []) := by
  have e : [0x62, 0x74, 0x70, 0x3a, 0x2f, 0x2f] ++ net ++ [0x2f] ++ acct =
      [0x62, 0x74, 0x70, 0x3a] ++ (0x2f : UInt8) :: ([] ++ 0x2f :: (net ++ 0x2f :: acct)) := by simp
  unfold splitBTPAddress
  rw [e, split_cut _ _ (by simp), cut_cons (by decide) _ (Or.inl (by simp)), cut_cons (by simp) _ (Or.inr (by simp)), cut_cons hn _ h]
  obtain ⟨b, t, hb⟩ : ∃ b t, cut 0x2f acct = b :: t := by
    cases hc : cut 0x2f acct with
    | nil => have := cut_pos 0x2f acct; rw [hc] at this; simp at this
    | cons b t => exact ⟨b, t, rfl⟩
  rw [hb]
  refine ⟨b, rfl, fun h1 h2 => ?_, fun h2 => ?_⟩
  · rw [cut] at hb
    split at hb
    · have : acct.length = 0 := by omega
      rw [List.eq_nil_of_length_eq_zero this]
      injection hb with h3 _; exact h3.symm
    · injection hb with h3 _; exact h3.symm
  · rw [cut, if_pos (by omega)] at hb; injection hb with h3 _; exact h3.symm

/-- C137: the two names come from the third and fourth part; what stands before is not looked at, and a text with fewer than
three delimiters reverts. -/
theorem C137_btp_sound (s n b : Bytes) (h : splitBTPAddress s = some (n, b)) :
    ∃ p q rest, s = p ++ [0x2f] ++ q ++ [0x2f] ++ n ++ [0x2f] ++ rest ∧ (0x2f : UInt8) ∉ p ∧ (0x2f : UInt8) ∉ q ∧ (0x2f : UInt8) ∉ n := by
  unfold splitBTPAddress at h
  by_cases hs : s = []
  · subst hs; cases h
  rw [split_cut _ _ hs, Option.bind_some] at h
  match hc : cut 0x2f s, h with
  | p :: q :: n' :: b' :: t, h =>
    simp at h
    obtain ⟨h1, h2⟩ := h
    subst h1 h2
    obtain ⟨a1, r1, a2, a3⟩ := cut_more hc (by simp)
    obtain ⟨b1, r2, b2, b3⟩ := cut_more a3.symm (by simp)
    obtain ⟨c1, r3, c2, c3⟩ := cut_more b3.symm (by simp)
    exact ⟨p, q, r3, by rw [a2, b2, c2]; simp, a1, b1, c1⟩
  | [], h => simp at h
  | [_], h => simp at h
  | [_, _], h => simp at h
  | [_, _, _], h => simp at h

/-! ### C138: numbers -/

/-- C138: `parseInt` reads no text at all: it always reverts. -/
theorem C138_parse_reverts (s : Bytes) : parseInt s = none := by
  unfold parseInt
  split
  · rfl
  · rename_i h
    have gen : ∀ (fuel i j r : Nat), i < s.length → i < fuel → parseLoop s fuel i j r = none := by
      intro fuel
      induction fuel with
      | zero => intro i j r _ h2; omega
      | succ f ih =>
        intro i j r h1 h2
        unfold parseLoop
        rw [if_pos h1]
        dsimp only
        split
        · rfl
        · split
          · rfl
          · split
            · rfl
            · exact ih _ _ _ (by omega) (by omega)
    exact gen _ _ _ _ (by omega) (by omega)

/-- The number that decimal digits spell, from the left. -/
def decimal (s : Bytes) : Nat := s.foldl (fun v c => v * 10 + (c.toNat - 48)) 0

/-- The same from the right. -/
def rvalue : Bytes → Nat
  | [] => 0
  | c :: t => (c.toNat - 48) + 10 * rvalue t

theorem decimal_reverse (d : Bytes) : decimal d.reverse = rvalue d := by
  unfold decimal
  rw [List.foldl_reverse]
  induction d with
  | nil => rfl
  | cons c t ih => rw [List.foldr_cons, ih, rvalue]; omega

theorem digitLoop_spec : ∀ (fuel i n : Nat) (acc : Bytes), 33 ≤ i + fuel → i ≤ 32 →
    (n < 10 ^ (32 - i) → ∃ d, digitLoop fuel i n acc = some (acc ++ d) ∧ (∀ c ∈ d, 48 ≤ c.toNat ∧ c.toNat ≤ 57) ∧ rvalue d = n ∧
      d.getLast? ≠ some 48 ∧ (n ≠ 0 → d ≠ [])) ∧
    (10 ^ (32 - i) ≤ n → digitLoop fuel i n acc = none)
  | 0, i, n, acc, h1, h2 => by omega
  | fuel + 1, i, n, acc, h1, h2 => by
    unfold digitLoop
    by_cases hn : n > 0
    · rw [if_pos hn]
      by_cases hi : i < 32
      · rw [if_pos hi]
        obtain ⟨g1, g2⟩ := digitLoop_spec fuel (i + 1) (n / 10) (acc ++ [UInt8.ofNat (n % 10 + 48)]) (by omega) (by omega)
        have hp : 10 ^ (32 - i) = 10 * 10 ^ (32 - (i + 1)) := by
          rw [show 32 - i = (32 - (i + 1)) + 1 by omega, Nat.pow_succ]; omega
        constructor
        · intro hlt
          obtain ⟨d, e1, e2, e3, e4, e5⟩ := g1 (by rw [hp] at hlt; omega)
          have hu : (UInt8.ofNat (n % 10 + 48)).toNat = n % 10 + 48 := by
            rw [UInt8.toNat_ofNat']; omega
          refine ⟨UInt8.ofNat (n % 10 + 48) :: d, by rw [e1]; simp, ?_, ?_, ?_, fun _ => by simp⟩
          · intro c hc
            rcases List.mem_cons.mp hc with rfl | hc
            · rw [hu]; omega
            · exact e2 c hc
          · unfold rvalue; rw [hu, e3]; omega
          · rw [List.getLast?_cons]
            cases hd : d.getLast? with
            | none =>
              have : d = [] := List.getLast?_eq_none_iff.mp hd
              subst this
              have : n / 10 = 0 := e3.symm
              intro hx
              simp only [Option.getD_none, Option.some.injEq] at hx
              have := congrArg UInt8.toNat hx
              rw [hu] at this
              have h48 : (48 : UInt8).toNat = 48 := rfl
              omega
            | some z =>
              rw [hd] at e4
              simpa using e4
        · intro hge
          exact g2 (by rw [hp] at hge; omega)
      · rw [if_neg hi]
        have : i = 32 := by omega
        subst this
        constructor
        · intro h; simp at h; omega
        · intro _; rfl
    · rw [if_neg hn]
      have : n = 0 := by omega
      subst this
      constructor
      · intro _
        exact ⟨[], by simp, by simp, rfl, by simp, fun h => absurd rfl h⟩
      · intro h
        have : 0 < 10 ^ (32 - i) := Nat.pow_pos (by omega)
        omega

/-- C138: numbers below 10 ^ 32 are written in decimal without leading zeros. -/
theorem C138_toString (n : Nat) (h : n < 10 ^ 32) : ∃ s, toString n = some s ∧ s ≠ [] ∧ (∀ c ∈ s, 48 ≤ c.toNat ∧ c.toNat ≤ 57) ∧
    decimal s = n ∧ (s.head? = some 48 → n = 0 ∧ s = [48]) := by
  unfold toString
  by_cases h0 : n = 0
  · subst h0
    exact ⟨[48], rfl, by simp, by simp, rfl, fun _ => ⟨rfl, rfl⟩⟩
  · rw [if_neg h0]
    obtain ⟨d, e1, e2, e3, e4, e5⟩ := (digitLoop_spec 34 0 n [] (by omega) (by omega)).1 h
    refine ⟨d.reverse, by rw [e1]; simp, by simpa using e5 h0, fun c hc => e2 c (by simpa using hc), by rw [decimal_reverse, e3], ?_⟩
    intro hh
    rw [List.head?_reverse] at hh
    exact absurd hh e4

/-- C138: all other numbers revert: the buffer has 32 bytes. -/
theorem C138_toString_reverts (n : Nat) (h : 10 ^ 32 ≤ n) : toString n = none := by
  unfold toString
  rw [if_neg (by omega), (digitLoop_spec 34 0 n [] (by omega) (by omega)).2 h]
  rfl

/-! ### Concrete cases -/

section Examples

-- "ab/cd", "ab/c" (the last character is lost), "/", "a//" and "a/"
example : split [97, 98, 47, 99, 100] [47] = some [[97, 98], [99, 100]] := by decide +kernel
example : split [97, 98, 47, 99] [47] = some [[97, 98], []] := by decide +kernel
example : split [47] [47] = some [[]] ∧ parts 47 [47] = [[], []] := by decide +kernel
example : split [97, 47, 47] [47] = some [[97], []] ∧ parts 47 [97, 47, 47] = [[97], [], []] := by decide +kernel
example : split [97, 47] [47] = some [[97], []] := by decide +kernel
-- btp://0x1.icon/cx
example : splitBTPAddress [98, 116, 112, 58, 47, 47, 48, 120, 49, 46, 105, 99, 111, 110, 47, 99, 120] =
    some ([48, 120, 49, 46, 105, 99, 111, 110], [99, 120]) := by decide +kernel
-- x/y/net/cx: no scheme is asked for
example : splitBTPAddress [120, 47, 121, 47, 110, 101, 116, 47, 99, 120] = some ([110, 101, 116], [99, 120]) := by decide +kernel
example : splitBTPAddress [98, 116, 112, 58, 47, 47, 110, 101, 116] = none := by decide +kernel
example : bytesToHex [0xab, 0x05] = [0x30, 0x78, 0x61, 0x62, 0x30, 0x35] := by decide +kernel
example : lower [0x41, 0x5A, 0x5B, 0x61] = [0x61, 0x7A, 0x5B, 0x61] := by decide +kernel
example : indexOf [97, 47, 98, 47] [47] 2 = some 3 := by decide +kernel
example : toString 1090 = some [49, 48, 57, 48] ∧ toString (10 ^ 32 - 1) ≠ none ∧ toString (10 ^ 32) = none := by decide +kernel
-- an address of a byte repeated, with small and capital digits
example : parseAddress ([0x30, 0x78] ++ (List.replicate 20 [0x61, 0x42]).flatten) = some (List.replicate 20 0xAB) := by decide +kernel
example : parseAddress ([0x30, 0x78] ++ (List.replicate 20 [0x61, 0x47]).flatten) = none := by decide +kernel
example : toAscii (List.replicate 20 0xAB) = (List.replicate 20 [0x61, 0x62]).flatten := by decide +kernel

end Examples

end Verif.SolText
