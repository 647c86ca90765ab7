import Verif.HexJson
import Verif.IntLang
/-!
C149: what is written in JSON is read again; which JSON values are numbers and bytes, and what they mean.

Specification: `DecText s v` says that `s` is a JSON number without fraction and exponent and `v` its value; `decNum` is the
number denoted by decimal digits.
-/
namespace Verif.HexJson
open Verif Verif.IntConv Verif.IntText

/-- Specification: the number denoted by decimal digits, least significant digit last. -/
def decNum (s : Str) : Nat := s.foldl (fun a c => a * 10 + (c.toNat - 48)) 0

/-- Specification: a decimal digit. -/
def IsDec (c : Char) : Prop := 48 ≤ c.toNat ∧ c.toNat ≤ 57

/-- Specification: the digits of a JSON integer: no leading zero, except the single zero. -/
def DecDigits (ds : Str) : Prop := ds ≠ [] ∧ (∀ c ∈ ds, IsDec c) ∧ (ds.head? = some '0' → ds = ['0'])

/-- Specification: an integer in JSON. -/
inductive DecText : Str → Int → Prop
  | pos {ds : Str} : DecDigits ds → DecText ds (decNum ds)
  | neg {ds : Str} : DecDigits ds → DecText ('-' :: ds) (-(decNum ds : Int))

/-! ### decimal digits -/

theorem isDec_isDig {c : Char} (h : IsDec c) : IsDig 10 c ∧ (hexVal c).getD 0 = c.toNat - 48 ∧ c ≠ '_' ∧ c ≠ '-' := by
  unfold IsDec at h
  have hv : hexVal c = some (c.toNat - 48) := by unfold hexVal; simp only; rw [if_pos h]
  refine ⟨⟨_, hv, by omega⟩, by simp [hv], ?_, ?_⟩ <;> (rintro rfl; revert h; decide)

theorem numFrom_dec (ds : Str) (h : ∀ c ∈ ds, IsDec c) (a : Nat) :
    numFrom 10 a ds = ds.foldl (fun a c => a * 10 + (c.toNat - 48)) a := by
  induction ds generalizing a with
  | nil => rfl
  | cons c t ih =>
    obtain ⟨_, h2, h3, _⟩ := isDec_isDig (h c (by simp))
    rw [numFrom, if_neg h3, List.foldl_cons, h2, ih (fun x hx => h x (by simp [hx]))]

theorem dec_lit {ds : Str} (h : DecDigits ds) (n : Nat) : Lit ds n ↔ n = decNum ds := by
  obtain ⟨hne, hd, hz⟩ := h
  by_cases h0 : ds.head? = some '0'
  · rw [hz h0]
    rw [lit_zero_cons]
    have e : decNum ['0'] = 0 := by decide
    rw [e]
    constructor
    · rintro (⟨_, h⟩ | ⟨h, _⟩ | ⟨_, _, _, h, _⟩)
      · exact h
      · exact absurd rfl h
      · simp at h
    · intro h; exact Or.inl ⟨rfl, h⟩
  · have hbody : Digs 10 ds := by
      refine digs_of_plain (fun c hc => Or.inr (isDec_isDig (hd c hc)).1) ?_ hne
      intro hm; exact (isDec_isDig (hd _ hm)).2.2.1 rfl
    have e : numOf 10 ds = decNum ds := numFrom_dec ds hd 0
    constructor
    · intro h
      cases h with
      | dec _ _ => exact e
      | _ => simp at h0
    · rintro rfl; rw [← e]; exact .dec hbody h0

theorem dec_no_sign {ds : Str} (h : DecDigits ds) : ds.head? ≠ some '-' ∧ ds.head? ≠ some '+' := by
  obtain ⟨hne, hd, _⟩ := h
  cases ds with
  | nil => exact absurd rfl hne
  | cons c t =>
    have hc := hd c (by simp)
    refine ⟨?_, ?_⟩ <;> (intro he; simp at he; subst he; revert hc; unfold IsDec; decide)

theorem decText_lit {s : Str} {v : Int} (h : DecText s v) (w : Int) : IntLit s w ↔ w = v := by
  cases h with
  | pos hd =>
    constructor
    · intro h
      cases h with
      | plain h => rw [(dec_lit hd _).mp h]
      | plus h => exact absurd rfl (dec_no_sign hd).2
      | minus h => exact absurd rfl (dec_no_sign hd).1
    · rintro rfl; exact .plain ((dec_lit hd _).mpr rfl)
  | @neg ds hd =>
    constructor
    · intro h
      generalize hs : '-' :: ds = s at h
      cases h with
      | plain h => obtain ⟨c, t, he, _, h2⟩ := lit_head h; rw [← hs] at he; simp at he; exact absurd he.1.symm h2
      | plus h => simp at hs
      | minus h => simp at hs; subst hs; rw [(dec_lit hd _).mp h]
    · rintro rfl; exact .minus ((dec_lit hd _).mpr rfl)

/-! ### C149, numbers -/

/-- C149: the numbers written by every type are read again by the same type. -/
theorem C149_roundtrip :
    (∀ v, readBig (writeBig v) = some v) ∧
    (∀ bits, 2 ≤ bits → bits ≤ 64 → ∀ v, InRange bits v → readInt bits (writeInt v) = some v) ∧
    (∀ bits, 1 ≤ bits → bits ≤ 64 → ∀ v, v < 2 ^ bits → readUint bits (writeUint v) = some v) ∧
    (∀ v, v < 2 ^ 16 → readUint 16 (writeUint16 v) = some v) := by
  refine ⟨fun v => C05_bigInt_roundtrip v, fun bits h1 h2 v hv => C05_int_roundtrip bits h1 h2 v hv.1 hv.2,
    fun bits h1 h2 v hv => C05_uint_roundtrip bits h1 h2 v hv, fun v hv => ?_⟩
  have e : writeUint16 v = writeUint v := by
    unfold writeUint16 writeUint formatInt formatUint
    rw [if_neg (by omega)]; rfl
  rw [e]
  exact C05_uint_roundtrip 16 (by omega) (by omega) v hv

/-- C149: what is read is in the range of the type. -/
theorem C149_range (bits : Nat) (h1 : 1 ≤ bits) (h2 : bits ≤ 64) (j : Json) :
    (∀ v, readInt bits j = some v → InRange bits v) ∧ (∀ v, readUint bits j = some v → v < 2 ^ bits) := by
  refine ⟨fun v h => (C61_parseInt_range _ bits h1 h2 v h), fun v h => ?_⟩
  exact C61_parseUint_range _ bits v h

/-- C149: an integer in JSON is read with its value by every type if it is in the range, and refused otherwise; a negative sign is
refused by the unsigned types. -/
theorem C149_number {s : Str} {v : Int} (h : DecText s v) :
    readBig (.raw s) = some v ∧
    (∀ bits, 1 ≤ bits → bits ≤ 64 → ∀ w, readInt bits (.raw s) = some w ↔ w = v ∧ InRange bits v) ∧
    (∀ bits, 1 ≤ bits → bits ≤ 64 → ∀ w : Nat, readUint bits (.raw s) = some w ↔
      s.head? ≠ some '-' ∧ (w : Int) = v ∧ w < 2 ^ bits) := by
  refine ⟨?_, ?_, ?_⟩
  · unfold readBig
    simp only [readString]
    unfold setString0
    cases h with
    | @pos ds hd =>
      have e : stripNeg s = (false, s) := by
        have := (dec_no_sign hd).1
        unfold stripNeg
        split
        · simp at this
        · rfl
      rw [e]
      simp only
      rw [if_pos ⟨hd.1, by simpa [IsDec] using hd.2.1⟩]
      rfl
    | @neg ds hd =>
      simp only [stripNeg]
      rw [if_pos ⟨hd.1, by simpa [IsDec] using hd.2.1⟩]
      rfl
  · intro bits h1 h2 w
    unfold readInt
    simp only [textOf, readString]
    rw [C134_parseInt s bits h1 h2]
    constructor
    · rintro ⟨hr, hl | ⟨hno, _⟩⟩
      · have := (decText_lit h w).mp hl
        subst this
        exact ⟨rfl, hr⟩
      · exact absurd ((decText_lit h v).mpr rfl) (hno v)
    · rintro ⟨rfl, hr⟩
      exact ⟨hr, Or.inl ((decText_lit h w).mpr rfl)⟩
  · intro bits h1 h2 w
    unfold readUint
    simp only [textOf, readString]
    rw [C134_parseUint s bits h1 h2]
    cases h with
    | pos hd =>
      have hs := (dec_no_sign hd).1
      constructor
      · rintro (⟨hl, hr⟩ | ⟨hno, _⟩)
        · exact ⟨hs, by rw [(dec_lit hd w).mp hl], hr⟩
        · exact absurd ((dec_lit hd _).mpr rfl) (hno _)
      · rintro ⟨_, he, hr⟩
        exact Or.inl ⟨(dec_lit hd w).mpr (by omega), hr⟩
    | neg hd =>
      constructor
      · rintro (⟨hl, hr⟩ | ⟨_, hx, _⟩)
        · obtain ⟨c, t, he, _, hc⟩ := lit_head hl
          simp at he
          exact absurd he.1.symm hc
        · exact absurd (by simp) (isHex_not_special hx).1
      · rintro ⟨hs, _⟩
        exact absurd rfl hs

/-- C149: null and the empty string are read as zero by every number type: a number that is absent can not be told from zero. -/
theorem C149_null_zero : ∀ j ∈ [Json.null, .str []],
    readBig j = some 0 ∧ (∀ bits, 1 ≤ bits → bits ≤ 64 → readInt bits j = some 0 ∧ readUint bits j = some 0) := by
  have hl : ∀ n, ¬ Lit [] n := by intro n h; obtain ⟨_, _, he, _⟩ := lit_head h; simp at he
  have key : ∀ bits, 1 ≤ bits → bits ≤ 64 → parseInt [] bits = some 0 ∧ parseUint [] bits = some 0 := by
    intro bits h1 h2
    refine ⟨?_, ?_⟩
    · rw [C134_parseInt _ bits h1 h2]
      have hp : 0 < 2 ^ (bits - 1) := Nat.two_pow_pos _
      refine ⟨⟨by omega, by exact_mod_cast hp⟩, Or.inr ⟨?_, false, [], by intro c hc; simp at hc, rfl, by simp, by decide⟩⟩
      intro w h
      generalize hs : ([] : Str) = s at h
      cases h with
      | plain h => subst hs; exact hl _ h
      | _ => simp at hs
    · rw [C134_parseUint _ bits h1 h2]
      exact Or.inr ⟨hl, by intro c hc; simp at hc, by simp, by decide⟩
  intro j hj
  simp only [List.mem_cons, List.not_mem_nil, or_false] at hj
  rcases hj with rfl | rfl <;>
    exact ⟨by decide, fun bits h1 h2 => key bits h1 h2⟩

/-- C149, witness that a JSON number with an exponent is misread: one hundred thousand, written `1e5`, is 485 for `HexInt64` and
`HexUint64`; `HexInt` refuses it. -/
theorem C149_exponent : readInt 64 (.raw ['1', 'e', '5']) = some 485 ∧ readUint 64 (.raw ['1', 'e', '5']) = some 485 ∧
    readBig (.raw ['1', 'e', '5']) = none := by decide +kernel

/-- C149, witness that the same digits are another number in a string: `10` is ten as a number for every type, and in a string
sixteen for `HexInt` and ten for `HexInt64`. -/
theorem C149_string : readBig (.raw ['1', '0']) = some 10 ∧ readBig (.str ['1', '0']) = some 16 ∧
    readInt 64 (.raw ['1', '0']) = some 10 ∧ readInt 64 (.str ['1', '0']) = some 10 := by decide +kernel

/-- C149: the RLP form of the unsigned 16 and 32 bit types, written as a signed number, is the form of the unsigned number and is
read again. -/
theorem C149_rlp (v : Nat) (h : v < 2 ^ 63) :
    rlpUintAsInt v = uint64ToBytes v ∧ bytesToUint64 (rlpUintAsInt v) = v := by
  have h1 := (C04_encoders_agree v).1 (by omega) (by omega)
  have h2 := (C04_encoders_agree v).2 (by omega) (by omega)
  have e : rlpUintAsInt v = uint64ToBytes v := by
    unfold rlpUintAsInt; rw [h1, ← h2]; simp
  exact ⟨e, by rw [e]; exact (C02_uint64_roundtrip v (by omega)).1⟩

/-! ### C149, bytes -/

theorem hexVal_digit (c : Char) (d : Nat) : hexVal c = some d ↔ d < 16 ∧ lower c = hexDigit d := by
  have hd : ∀ d, d < 16 → (hexDigit d).toNat = if d < 10 then 48 + d else 87 + d := by decide
  rw [char_eq, lower_toNat]
  constructor
  · intro h
    have hlt := hexVal_lt h
    refine ⟨hlt, ?_⟩
    rw [hd d hlt]
    unfold hexVal at h
    simp only at h
    split at h
    · simp at h; rw [if_neg (by omega), if_pos (by omega)]; omega
    · split at h
      · simp at h; rw [if_neg (by omega), if_neg (by omega)]; omega
      · split at h
        · simp at h; rw [if_pos (by omega), if_neg (by omega)]; omega
        · simp at h
  · rintro ⟨hlt, h⟩
    rw [hd d hlt] at h
    unfold hexVal
    simp only
    split at h <;> split at h
    · omega
    · rw [if_neg (by omega), if_neg (by omega), if_pos (by omega)]; simp; omega
    · rw [if_pos (by omega)]; simp; omega
    · rw [if_neg (by omega), if_pos (by omega)]; simp; omega

theorem hexDecode_iff (s : Str) (bs : Bytes) : hexDecode s = some bs ↔ s.map lower = hexEncode bs := by
  induction s using hexDecode.induct generalizing bs with
  | case1 =>
    cases bs with
    | nil => simp [hexDecode, hexEncode]
    | cons b t => simp [hexDecode, hexEncode]
  | case2 c =>
    cases bs with
    | nil => simp [hexDecode, hexEncode]
    | cons b t => simp [hexDecode, hexEncode]
  | case3 a b t ih =>
    rw [hexDecode]
    cases bs with
    | nil =>
      simp only [hexEncode, List.map_cons]
      constructor
      · intro h
        cases hx : hexVal a with
        | none => simp [hx] at h
        | some x =>
          cases hy : hexVal b with
          | none => simp [hx, hy] at h
          | some y => cases hr : hexDecode t <;> simp [hx, hy, hr] at h
      · intro h; simp at h
    | cons w u =>
      simp only [hexEncode, List.map_cons, List.cons.injEq]
      have hw := w.toNat_lt
      constructor
      · intro h
        cases hx : hexVal a with
        | none => simp [hx] at h
        | some x =>
          cases hy : hexVal b with
          | none => simp [hx, hy] at h
          | some y =>
            cases hr : hexDecode t with
            | none => simp [hx, hy, hr] at h
            | some r =>
              simp [hx, hy, hr] at h
              obtain ⟨h1, h2⟩ := h
              obtain ⟨x1, x2⟩ := (hexVal_digit a x).mp hx
              obtain ⟨y1, y2⟩ := (hexVal_digit b y).mp hy
              have hv : w.toNat = x * 16 + y := by
                rw [← h1]; simp; omega
              subst h2
              refine ⟨?_, ?_, (ih r).mp hr⟩
              · rw [x2, hv]; congr 1; omega
              · rw [y2, hv]; congr 1; omega
      · rintro ⟨h1, h2, h3⟩
        have hx := (hexVal_digit a (w.toNat / 16)).mpr ⟨by omega, h1⟩
        have hy := (hexVal_digit b (w.toNat % 16)).mpr ⟨by omega, h2⟩
        have hr := (ih u).mpr h3
        simp only [hx, hy, hr, Option.bind_eq_bind, Option.bind_some]
        have e : w.toNat / 16 * 16 + w.toNat % 16 = w.toNat := by omega
        rw [e]
        simp

/-- C149: which JSON values `RawHexBytes` reads: null is nil; a string is accepted exactly if it is the hexadecimal form of bytes, in
letters of any case, and gives those bytes. -/
theorem C149_raw_bytes (j : Json) (v : Option Bytes) :
    readRawHex j = some v ↔ (j = .null ∧ v = none) ∨ ∃ s bs, j = .str s ∧ v = some bs ∧ s.map lower = hexEncode bs := by
  cases j with
  | null => simp [readRawHex, eq_comm]
  | raw s => simp [readRawHex]
  | str s =>
    simp only [readRawHex, Option.map_eq_some_iff]
    constructor
    · rintro ⟨bs, h, rfl⟩; exact Or.inr ⟨s, bs, rfl, rfl, (hexDecode_iff s bs).mp h⟩
    · rintro (⟨h, _⟩ | ⟨s', bs, h, rfl, h2⟩)
      · simp at h
      · simp at h; subst h; exact ⟨bs, (hexDecode_iff s bs).mpr h2, rfl⟩

theorem cut0x_cases (s : Str) : (∃ t, s = '0' :: 'x' :: t ∧ cut0x s = t) ∨ ((∀ t, s ≠ '0' :: 'x' :: t) ∧ cut0x s = s) := by
  unfold cut0x
  split
  · exact Or.inl ⟨_, rfl, rfl⟩
  · rename_i h; exact Or.inr ⟨fun t ht => h t ht, rfl⟩

/-- C149: which JSON values `HexBytes` reads: the same, with an optional prefix `0x` (lower case). -/
theorem C149_bytes (j : Json) (v : Option Bytes) :
    readHex j = some v ↔ (j = .null ∧ v = none) ∨
      ∃ s bs, (j = .str s ∨ j = .str ('0' :: 'x' :: s)) ∧ v = some bs ∧ s.map lower = hexEncode bs := by
  cases j with
  | null => simp [readHex, eq_comm]
  | raw s => simp [readHex]
  | str s =>
    simp only [readHex, Option.map_eq_some_iff]
    have hnx : ∀ t bs, ('0' :: 'x' :: t).map lower = hexEncode bs → False := by
      intro t bs h
      rw [← hexDecode_iff] at h
      simp [hexDecode, show hexVal 'x' = none by decide] at h
    rcases cut0x_cases s with ⟨t, rfl, hc⟩ | ⟨hno, hc⟩
    · rw [hc]
      constructor
      · rintro ⟨bs, h, rfl⟩; exact Or.inr ⟨t, bs, Or.inr rfl, rfl, (hexDecode_iff t bs).mp h⟩
      · rintro (⟨h, _⟩ | ⟨s', bs, h | h, rfl, h2⟩)
        · simp at h
        · simp at h; subst h; exact absurd h2 (hnx _ _)
        · simp at h; subst h; exact ⟨bs, (hexDecode_iff _ bs).mpr h2, rfl⟩
    · rw [hc]
      constructor
      · rintro ⟨bs, h, rfl⟩; exact Or.inr ⟨s, bs, Or.inl rfl, rfl, (hexDecode_iff s bs).mp h⟩
      · rintro (⟨h, _⟩ | ⟨s', bs, h | h, rfl, h2⟩)
        · simp at h
        · simp at h; subst h; exact ⟨bs, (hexDecode_iff _ bs).mpr h2, rfl⟩
        · simp at h; exact absurd h (hno s')

theorem hexEncode_lower (bs : Bytes) : (hexEncode bs).map lower = hexEncode bs := by
  have key : ∀ d, d < 16 → lower (hexDigit d) = hexDigit d := by decide
  induction bs with
  | nil => rfl
  | cons b t ih =>
    have := b.toNat_lt
    simp only [hexEncode, List.map_cons, ih]
    rw [key _ (by omega), key _ (by omega)]

/-- C149: bytes are read as they were written; nil stays nil and empty stays empty. What one of the two types writes is read by
`HexBytes`; `RawHexBytes` refuses the prefix. -/
theorem C149_bytes_roundtrip (v : Option Bytes) :
    readHex (writeHex v) = some v ∧ readRawHex (writeRawHex v) = some v ∧ readHex (writeRawHex v) = some v ∧
    (v ≠ none → readRawHex (writeHex v) = none) := by
  cases v with
  | none => exact ⟨rfl, rfl, rfl, fun h => absurd rfl h⟩
  | some bs =>
    have hl := hexEncode_lower bs
    refine ⟨?_, ?_, ?_, fun _ => ?_⟩
    · exact (C149_bytes _ _).mpr (Or.inr ⟨_, bs, Or.inr rfl, rfl, hl⟩)
    · exact (C149_raw_bytes _ _).mpr (Or.inr ⟨_, bs, rfl, rfl, hl⟩)
    · exact (C149_bytes _ _).mpr (Or.inr ⟨_, bs, Or.inl rfl, rfl, hl⟩)
    · simp [readRawHex, writeHex, hexDecode, show hexVal 'x' = none by decide]

/-! ### examples -/

example : DecText ['-', '4', '0', '9', '6'] (-4096) :=
  .neg ⟨by simp, by intro c hc; simp at hc; rcases hc with rfl | rfl | rfl | rfl <;> (unfold IsDec; decide), by decide⟩
example : readInt 16 (.raw ['4', '0', '0', '0', '0']) = none ∧ readUint 16 (.raw ['4', '0', '0', '0', '0']) = some 40000 := by
  decide +kernel
example : readHex (.str ['0', 'x', 'A', 'b']) = some (some [0xab]) := by decide +kernel
example : readHex (.str ['0', 'x']) = some (some []) ∧ readHex (.str ['0', 'X', '1', '2']) = none := by decide +kernel
example : writeBig (-255) = .str ['-', '0', 'x', 'f', 'f'] := by decide +kernel

end Verif.HexJson
