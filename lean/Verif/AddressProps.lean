import Verif.Address
import Verif.IntTextProps
/-!
C27: text and byte forms of addresses, for every address and every earlier content.
-/
namespace Verif.Address
open Verif Verif.IntText

/-- A well formed address: type byte 0 or 1 and a 20 byte id. -/
def WF (a : Bytes) : Prop := ∃ t id, a = t :: id ∧ id.length = 20 ∧ (t = 0 ∨ t = 1)

theorem hexDecode_encode : ∀ b : Bytes, hexDecode (hexEncode b) = some b
  | [] => rfl
  | x :: t => by
    have hv : ∀ n : Fin 16, hexVal (hexDigit n.1) = some n.1 := by decide +kernel
    have hx := x.toNat_lt
    have h1 := hv ⟨x.toNat / 16, by omega⟩
    have h2 := hv ⟨x.toNat % 16, by omega⟩
    simp only [] at h1 h2
    simp only [hexEncode, hexDecode, h1, h2, hexDecode_encode t, Option.bind_eq_bind, Option.bind_some, Option.pure_def]
    congr 2
    have : x.toNat / 16 * 16 + x.toNat % 16 = x.toNat := by omega
    rw [this]
    exact UInt8.ofNat_toNat

theorem hexEncode_length : ∀ b : Bytes, (hexEncode b).length = 2 * b.length
  | [] => rfl
  | x :: t => by simp [hexEncode, hexEncode_length t]; omega

theorem set_full (a : Bytes) (ha : a.length = 21) (ic : Bool) (id : Bytes) (hi : 20 ≤ id.length) :
    setTypeAndID a ic (some id) = .ok ((if ic then 1 else 0) :: id.take 20) := by
  cases a with
  | nil => simp at ha
  | cons x t =>
    simp at ha
    have hn : ¬ id.length < 20 := by omega
    have e : copyAt (x :: t) 1 id = x :: id.take 20 := by
      have h20 : (x :: t).length - 1 = 20 := by simp [ha]
      have hl : (id.take 20).length = 20 := by simp; omega
      simp only [copyAt, h20, hl]
      have hd : List.drop (1 + 20) (x :: t) = [] := by apply List.drop_eq_nil_of_le; simp [ha]
      rw [hd]; simp
    simp only [setTypeAndID, if_neg hn, e]
    cases ic <;> simp

theorem set_short (a : Bytes) (ha : a.length = 21) (ic : Bool) (id : Bytes) (hi : id.length < 20) :
    setTypeAndID a ic (some id) = .ok ((if ic then 1 else 0) :: ((a.drop 1).take (20 - id.length) ++ id)) := by
  cases a with
  | nil => simp at ha
  | cons x t =>
    simp at ha
    have e : copyAt (x :: t) (20 - id.length + 1) id = x :: (t.take (20 - id.length) ++ id) := by
      have h20 : (x :: t).length - (20 - id.length + 1) = id.length := by simp [ha]; omega
      simp only [copyAt, h20, List.take_length]
      have hd : List.drop (20 - id.length + 1 + id.length) (x :: t) = [] := by apply List.drop_eq_nil_of_le; simp [ha]; omega
      rw [hd]; simp
    simp only [setTypeAndID, if_pos hi, e]
    cases ic <;> simp

/-- C27: text form and back, over any earlier content. -/
theorem C27_string_roundtrip (st a : Bytes) (hst : st.length = 21) (ha : WF a) : setString st (toStr a) = .ok a := by
  obtain ⟨t, id, rfl, hl, ht⟩ := ha
  have he : (hexEncode id).length % 2 ≠ 1 := by rw [hexEncode_length]; omega
  rcases ht with rfl | rfl
  · have : toStr (0 :: id) = 'h' :: 'x' :: hexEncode id := by simp [toStr]
    simp only [this, setString, if_neg he, hexDecode_encode]
    rw [set_full st hst false id (by omega)]
    simp [List.take_of_length_le, hl]
  · have : toStr (1 :: id) = 'c' :: 'x' :: hexEncode id := by simp [toStr]
    simp only [this, setString, if_neg he, hexDecode_encode]
    rw [set_full st hst true id (by omega)]
    simp [List.take_of_length_le, hl]

/-- C27: byte form and back, over any earlier content. -/
theorem C27_bytes_roundtrip (st a : Bytes) (hst : st.length = 21) (ha : WF a) : setBytes st (some a) = .ok a := by
  obtain ⟨t, id, rfl, hl, ht⟩ := ha
  rcases ht with rfl | rfl
  · simp only [setBytes, if_true]
    rw [set_full st hst false id (by omega)]
    simp [List.take_of_length_le, hl]
  · have h10 : ¬ ((1 : UInt8) = 0) := by decide
    simp only [setBytes, if_neg h10, if_true]
    rw [set_full st hst true id (by omega)]
    simp [List.take_of_length_le, hl]

/-- C27: distinct addresses have distinct texts. -/
theorem C27_string_injective (a b : Bytes) (ha : WF a) (hb : WF b) (h : toStr a = toStr b) : a = b := by
  have h1 := C27_string_roundtrip zero a (by simp [zero]) ha
  have h2 := C27_string_roundtrip zero b (by simp [zero]) hb
  rw [h, h2] at h1
  exact (Out.ok.inj h1).symm

/-- Lower case hexadecimal digit. -/
def LowHex (c : Char) : Prop := c ∈ "0123456789abcdef".toList

theorem encode_decode : ∀ (s : Str) (b : Bytes), (∀ c ∈ s, LowHex c) → hexDecode s = some b → hexEncode b = s
  | [], b, _, h => by simp [hexDecode] at h; subst h; rfl
  | [_], b, _, h => by simp [hexDecode] at h
  | c :: d :: t, b, hs, h => by
    have key : ∀ c ∈ "0123456789abcdef".toList, (hexVal c).elim false (fun n => decide (n < 16 ∧ hexDigit n = c)) = true := by
      decide +kernel
    have hc := key c (hs c (by simp))
    have hd := key d (hs d (by simp))
    simp only [hexDecode] at h
    cases hx : hexVal c with
    | none => simp [hx] at hc
    | some x =>
      cases hy : hexVal d with
      | none => simp [hy] at hd
      | some y =>
        cases hr : hexDecode t with
        | none => simp [hx, hy, hr] at h
        | some r =>
          simp only [hx, hy, hr, Option.bind_eq_bind, Option.bind_some, Option.pure_def, Option.some.injEq] at h
          subst h
          simp only [hx, Option.elim, decide_eq_true_eq] at hc
          simp only [hy, Option.elim, decide_eq_true_eq] at hd
          have ih := encode_decode t r (fun c' m => hs c' (List.mem_cons_of_mem _ (List.mem_cons_of_mem _ m))) hr
          have hm : (UInt8.ofNat (x * 16 + y)).toNat = x * 16 + y := by
            rw [UInt8.toNat_ofNat']; omega
          have q1 : (x * 16 + y) / 16 = x := by omega
          have q2 : (x * 16 + y) % 16 = y := by omega
          simp only [hexEncode, hm, q1, q2, hc.2, hd.2, ih]

theorem decode_low : ∀ (s : Str), (∀ c ∈ s, LowHex c) → s.length % 2 = 0 → ∃ b, hexDecode s = some b ∧ 2 * b.length = s.length
  | [], _, _ => ⟨[], rfl, rfl⟩
  | [_], _, h => by simp at h
  | c :: d :: t, hs, hl => by
    have key : ∀ c ∈ "0123456789abcdef".toList, (hexVal c).isSome = true := by decide +kernel
    obtain ⟨x, hx⟩ := Option.isSome_iff_exists.1 (key c (hs c (by simp)))
    obtain ⟨y, hy⟩ := Option.isSome_iff_exists.1 (key d (hs d (by simp)))
    obtain ⟨r, hr, hlen⟩ := decode_low t (fun c' m => hs c' (List.mem_cons_of_mem _ (List.mem_cons_of_mem _ m))) (by simp at hl; omega)
    exact ⟨UInt8.ofNat (x * 16 + y) :: r, by simp [hexDecode, hx, hy, hr], by simp; omega⟩

/-- C27: canonical text (hx or cx and 40 lower case digits) is accepted, gives a well formed address, and comes back. -/
theorem C27_canonical_text (st : Bytes) (hst : st.length = 21) (p : Char) (hp : p = 'c' ∨ p = 'h') (s : Str) (hl : s.length = 40)
    (hs : ∀ c ∈ s, LowHex c) : ∃ a, setString st (p :: 'x' :: s) = .ok a ∧ WF a ∧ toStr a = p :: 'x' :: s ∧ (isContract a = true ↔ p = 'c') := by
  obtain ⟨b, hb, hbl⟩ := decode_low s hs (by omega)
  have he := encode_decode s b hs hb
  have hlen : b.length = 20 := by omega
  have hodd : ¬ s.length % 2 = 1 := by omega
  rcases hp with rfl | rfl
  · refine ⟨1 :: b, ?_, ⟨1, b, rfl, hlen, .inr rfl⟩, by simp [toStr, he], by simp [isContract]⟩
    simp only [setString, if_neg hodd, hb]
    rw [set_full st hst true b (by omega)]
    simp [List.take_of_length_le, hlen]
  · refine ⟨0 :: b, ?_, ⟨0, b, rfl, hlen, .inl rfl⟩, by simp [toStr, he], by simp [isContract]⟩
    simp only [setString, if_neg hodd, hb]
    rw [set_full st hst false b (by omega)]
    simp [List.take_of_length_le, hlen]

theorem setTypeAndID_wf (st : Bytes) (hst : st.length = 21) (ic : Bool) (id : Option Bytes) (a : Bytes)
    (h : setTypeAndID st ic id = .ok a) : WF a := by
  cases id with
  | none => simp [setTypeAndID] at h
  | some id =>
    have ht : (if ic = true then (1 : UInt8) else 0) = 0 ∨ (if ic = true then (1 : UInt8) else 0) = 1 := by cases ic <;> simp
    by_cases hi : id.length < 20
    · rw [set_short st hst ic id hi] at h
      exact ⟨_, _, (Out.ok.inj h).symm, by simp [hst]; omega, ht⟩
    · rw [set_full st hst ic id (by omega)] at h
      exact ⟨_, _, (Out.ok.inj h).symm, by simp; omega, ht⟩

/-- C27: whatever is accepted, the result is a well formed address. -/
theorem C27_setters_wf (st : Bytes) (hst : st.length = 21) (a : Bytes) :
    (∀ s, setString st s = .ok a → WF a) ∧ (∀ b, setBytes st b = .ok a → WF a) := by
  constructor
  · intro s h
    unfold setString at h
    dsimp only at h
    generalize hexDecode _ = r at h
    cases r with
    | none => cases h
    | some bs => exact setTypeAndID_wf st hst _ _ a h
  · intro b h
    unfold setBytes at h
    split at h
    · cases h
    · cases h
    · split at h
      · exact setTypeAndID_wf st hst _ _ a h
      · split at h
        · exact setTypeAndID_wf st hst _ _ a h
        · cases h

/-- C27, restricted: with an id of at least 20 bytes the result does not depend on the earlier content.
    Missing: shorter ids keep earlier bytes (`C27_stale_bytes`). -/
theorem C27_independent_partial (st st' : Bytes) (h : st.length = 21) (h' : st'.length = 21) (ic : Bool) (id : Bytes)
    (hi : 20 ≤ id.length) : setTypeAndID st ic (some id) = setTypeAndID st' ic (some id) := by
  rw [set_full st h ic id hi, set_full st' h' ic id hi]

/-- With a shorter id the result is the id behind the earlier content's first `20 - len` id bytes: only a zero (new) address
    gives the zero padded value. -/
theorem C27_short_id (st : Bytes) (h : st.length = 21) (ic : Bool) (id : Bytes) (hi : id.length < 20) :
    setTypeAndID st ic (some id) = .ok ((if ic then 1 else 0) :: ((st.drop 1).take (20 - id.length) ++ id)) ∧
    setTypeAndID zero ic (some id) = .ok ((if ic then 1 else 0) :: (List.replicate (20 - id.length) 0 ++ id)) := by
  refine ⟨set_short st h ic id hi, ?_⟩
  rw [set_short zero (by simp [zero]) ic id hi]
  have : (zero.drop 1).take (20 - id.length) = List.replicate (20 - id.length) 0 := by
    rw [show zero.drop 1 = List.replicate 20 0 from rfl, List.take_replicate]
    congr 1; omega
  rw [this]

/-- C27: into a new address, text with at most 40 digits of either case is read as the id with that value. -/
theorem C27_text_value (p : Char) (hp : p = 'c' ∨ p = 'h' ∨ p = '0') (s : Str) (hl : s.length ≤ 40) (hs : IsHex s) :
    ∃ id, setString zero (p :: 'x' :: s) = .ok ((if p = 'c' then 1 else 0) :: id) ∧ id.length = 20 ∧ beNat id = hexNum s := by
  obtain ⟨bs, h1, h2, h3⟩ := padded s hs
  have hset : setString zero (p :: 'x' :: s) = setTypeAndID zero (decide (p = 'c')) (some bs) := by
    rcases hp with rfl | rfl | rfl <;> simp only [setString, h1] <;> rfl
  have hr : ∀ n, beNat (List.replicate n 0) = 0 := by
    intro n
    induction n with
    | zero => rfl
    | succ n ih => rw [List.replicate_succ, beNat_cons, ih]; simp
  by_cases hb : bs.length < 20
  · refine ⟨List.replicate (20 - bs.length) 0 ++ bs, ?_, by simp; omega, ?_⟩
    · rw [hset, (C27_short_id zero (by simp [zero]) _ bs hb).2]
      simp
    · rw [beNat_append, hr, h2]; simp
  · refine ⟨bs, ?_, by omega, h2⟩
    rw [hset, set_full zero (by simp [zero]) _ bs (by omega), List.take_of_length_le (by omega)]
    simp

/-- C27 is false: parsing "hx1" into an address that was used before keeps the earlier id. -/
theorem C27_stale_bytes : ∃ st : Bytes, st.length = 21 ∧ WF st ∧ setString st "hx1".toList ≠ setString zero "hx1".toList :=
  ⟨0 :: List.replicate 20 7, by simp, ⟨0, _, rfl, by simp, .inl rfl⟩, by decide +kernel⟩

/-- Empty, non-nil bytes panic (an RLP empty string decodes to them), and `NewAddress` on a bad type byte silently gives the
    zero address; ids beyond 20 bytes are cut, so different bytes give the same address. -/
theorem C27_bad_bytes :
    (∀ st, setBytes st (some []) = .panic) ∧
    (∀ t id, t ≠ 0 → t ≠ 1 → newAddress (some (t :: id)) = some zero) ∧
    (∀ st id x, st.length = 21 → id.length = 20 → setBytes st (some (0 :: (id ++ x))) = .ok (0 :: id)) := by
  refine ⟨fun _ => rfl, ?_, ?_⟩
  · intro t id h0 h1
    simp [newAddress, setBytes, h0, h1]
  · intro st id x hst hid
    simp only [setBytes, if_true]
    rw [set_full st hst false _ (by simp; omega)]
    simp [hid]

/-- C27: an account address from a public key is the last 20 bytes of the hash, and well formed. -/
theorem C27_public_key (sha3 : Bytes → Bytes) (pk : Bytes) (h : (sha3 (pk.drop 1)).length = 32) :
    fromPublicKey sha3 pk = .ok (0 :: (sha3 (pk.drop 1)).drop 12) := by
  have hl : ((sha3 (pk.drop 1)).drop 12).length = 20 := by rw [List.length_drop, h]
  simp only [fromPublicKey, h]
  rw [set_full zero (by simp [zero]) false _ (by rw [hl]; omega)]
  rw [List.take_of_length_le (by rw [hl]; omega)]
  simp

/-- C27: `Equal` is equality. -/
theorem C27_equal (a b : Option Bytes) : equal a b = true ↔ a = b := by
  cases a <;> cases b <;> simp [equal]

/-- Non-vacuity. -/
example : WF (1 :: List.replicate 20 0xab) ∧
    setString zero "cxABababababababababababababababababababAb".toList = .ok (1 :: List.replicate 20 0xab) := by
  refine ⟨⟨1, _, rfl, by simp, .inr rfl⟩, by decide +kernel⟩

end Verif.Address
