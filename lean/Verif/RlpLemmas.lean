import Verif.Rlp
import Verif.IntConvProps
/-! Helper lemmas for the RLP model: what the readers do on what the writers wrote. -/
namespace Verif.Rlp
open Verif Verif.IntConv

theorem u8_ofNat_small {n : Nat} (h : n < 256) : (UInt8.ofNat n).toNat = n := u8_ofNat_toNat h

theorem readAll_append (b rest : Bytes) : readAll b.length (b ++ rest) = .ok b rest := by
  unfold readAll
  rw [if_neg (by simp)]
  simp

theorem readAll_append' {n : Nat} (b rest : Bytes) (h : b.length = n) : readAll n (b ++ rest) = .ok b rest := by
  subst h; exact readAll_append b rest

theorem size_facts {n : Nat} (h : n < 2 ^ 64) :
    bytesToSize (sizeToBytes n) = n ∧ 1 ≤ (sizeToBytes n).length ∧ (sizeToBytes n).length ≤ 8 := by
  obtain ⟨h1, _, h2, h3⟩ := C03_size_roundtrip n h
  exact ⟨h1, h2, h3⟩

/-- The three forms written by `writeBytes`. -/
theorem wBytes_cases (b : Bytes) :
    (∃ c, b = [c] ∧ c.toNat < 0x80 ∧ wBytes b = [c]) ∨
    (b.length ≤ 55 ∧ wBytes b = UInt8.ofNat (0x80 + b.length) :: b) ∨
    (55 < b.length ∧ wBytes b = UInt8.ofNat (0xB7 + (sizeToBytes b.length).length) :: (sizeToBytes b.length ++ b)) := by
  match b with
  | [] => right; left; simp [wBytes]
  | [c] =>
    by_cases h : c < 0x80
    · left
      refine ⟨c, rfl, ?_, by simp [wBytes, h]⟩
      exact h
    · right; left; simp [wBytes, h]
  | a :: b :: t =>
    right
    by_cases h : (a :: b :: t).length ≤ 55
    · left; exact ⟨h, by rw [wBytes]; rw [if_pos h]; all_goals simp⟩
    · right; refine ⟨by omega, ?_⟩
      rw [wBytes]; rw [if_neg h]; all_goals simp

theorem wBytes_ne_nil (b : Bytes) : wBytes b ≠ [] := by
  rcases wBytes_cases b with ⟨c, _, _, h⟩ | ⟨_, h⟩ | ⟨_, h⟩ <;> rw [h] <;> simp

theorem readBytes_wBytes (cap : Nat) (b rest : Bytes) (h : b.length ≤ cap) (hc : cap < 2 ^ 63) :
    readBytes cap (wBytes b ++ rest) = .ok b rest := by
  rcases wBytes_cases b with ⟨c, hb, h1, h2⟩ | ⟨h1, h2⟩ | ⟨h1, h2⟩
  · rw [h2, hb]; simp [readBytes, h1]
  · rw [h2]
    simp only [List.cons_append, readBytes]
    rw [u8_ofNat_small (by omega), if_neg (by omega), if_pos (by omega)]
    exact readAll_append' _ _ (by omega)
  · obtain ⟨s1, s2, s3⟩ := size_facts (show b.length < 2 ^ 64 by omega)
    rw [h2]
    simp only [List.cons_append, readBytes, List.append_assoc]
    rw [u8_ofNat_small (by omega), if_neg (by omega), if_neg (by omega), if_pos (by omega)]
    rw [readAll_append' (sizeToBytes b.length) (b ++ rest) (by omega)]
    simp only [s1]
    rw [if_neg (by omega)]
    exact readAll_append b rest

/-- The three forms written by `writeList`. -/
theorem wList_cases (b : Bytes) :
    (b.length ≤ 55 ∧ wList b = UInt8.ofNat (0xC0 + b.length) :: b) ∨
    (55 < b.length ∧ wList b = UInt8.ofNat (0xF7 + (sizeToBytes b.length).length) :: (sizeToBytes b.length ++ b)) := by
  unfold wList
  by_cases h0 : b.length = 0
  · left
    have : b = [] := by simpa using h0
    subst this; simp
  · rw [if_neg h0]
    by_cases h : b.length ≤ 55
    · left; exact ⟨h, by rw [if_pos h]⟩
    · right; exact ⟨by omega, by rw [if_neg h]⟩

theorem wList_ne_nil (b : Bytes) : wList b ≠ [] := by
  rcases wList_cases b with ⟨_, h⟩ | ⟨_, h⟩ <;> rw [h] <;> simp

theorem readList_wList (b rest : Bytes) (h : b.length < 2 ^ 63) :
    readList (wList b ++ rest) = .ok b rest := by
  rcases wList_cases b with ⟨h1, h2⟩ | ⟨h1, h2⟩
  · rw [h2]
    simp only [List.cons_append, readList]
    rw [u8_ofNat_small (by omega), if_neg (by omega), if_pos (by omega)]
    simp [show 192 + b.length - 192 = b.length by omega]
  · obtain ⟨s1, s2, s3⟩ := size_facts (show b.length < 2 ^ 64 by omega)
    rw [h2]
    simp only [List.cons_append, readList, List.append_assoc]
    rw [u8_ofNat_small (by omega), if_neg (by omega), if_neg (by omega)]
    rw [readAll_append' (sizeToBytes b.length) (b ++ rest) (by omega)]
    simp only [s1]
    rw [if_neg (by omega), if_neg (by omega)]
    simp

theorem readBytes_null (cap : Nat) (rest : Bytes) : readBytes cap (nullSeq ++ rest) = .nil rest := by
  simp [nullSeq, readBytes, bytesToSize]

theorem readList_null (rest : Bytes) : readList (nullSeq ++ rest) = .nil rest := by
  simp [nullSeq, readList, readAll, bytesToSize]

theorem readRaw_wBytes (cap : Nat) (b rest : Bytes) (h : (wBytes b).length ≤ cap) (hc : cap < 2 ^ 63) :
    readRaw cap (wBytes b ++ rest) = .ok (wBytes b) rest := by
  rcases wBytes_cases b with ⟨c, hb, h1, h2⟩ | ⟨h1, h2⟩ | ⟨h1, h2⟩
  · rw [h2]; simp [readRaw, h1]
  · rw [h2] at h ⊢
    simp only [List.length_cons] at h
    simp only [List.cons_append, readRaw]
    rw [u8_ofNat_small (by omega), if_neg (by omega), if_pos (by omega)]
    rw [if_neg (by simp; omega), readAll_append' b rest (by omega)]
    simp [Res.map]
  · obtain ⟨s1, s2, s3⟩ := size_facts (show b.length < 2 ^ 64 by rw [h2] at h; simp at h; omega)
    rw [h2] at h ⊢
    simp only [List.length_cons, List.length_append] at h
    simp only [List.cons_append, readRaw, List.append_assoc]
    rw [u8_ofNat_small (by omega), if_neg (by omega), if_neg (by omega), if_pos (by omega)]
    rw [readAll_append' (sizeToBytes b.length) (b ++ rest) (by omega)]
    simp only [s1]
    rw [if_neg (by simp; omega), readAll_append b rest]
    simp [Res.map]

theorem readRaw_wList (cap : Nat) (b rest : Bytes) (h : (wList b).length ≤ cap) (hc : cap < 2 ^ 63) :
    readRaw cap (wList b ++ rest) = .ok (wList b) rest := by
  rcases wList_cases b with ⟨h1, h2⟩ | ⟨h1, h2⟩
  · rw [h2] at h ⊢
    simp only [List.length_cons] at h
    simp only [List.cons_append, readRaw]
    rw [u8_ofNat_small (by omega), if_neg (by omega), if_neg (by omega), if_neg (by omega), if_pos (by omega)]
    rw [if_neg (by simp; omega), readAll_append' b rest (by omega)]
    simp [Res.map]
  · obtain ⟨s1, s2, s3⟩ := size_facts (show b.length < 2 ^ 64 by rw [h2] at h; simp at h; omega)
    rw [h2] at h ⊢
    simp only [List.length_cons, List.length_append] at h
    simp only [List.cons_append, readRaw, List.append_assoc]
    rw [u8_ofNat_small (by omega), if_neg (by omega), if_neg (by omega), if_neg (by omega), if_neg (by omega)]
    rw [readAll_append' (sizeToBytes b.length) (b ++ rest) (by omega)]
    simp only [s1]
    rw [if_neg (by simp; omega), readAll_append b rest]
    simp [Res.map]

theorem readRaw_null (cap : Nat) (rest : Bytes) (hc : 2 ≤ cap) : readRaw cap (nullSeq ++ rest) = .ok nullSeq rest := by
  simp [nullSeq, readRaw, readAll, bytesToSize, Res.map, show ¬ cap < 2 by omega]

/-- Every encoding is one of: null, a byte string, a list. -/
theorem enc_shape : (t : Ty) → (v : Val t) →
    enc t v = nullSeq ∨ (∃ b, enc t v = wBytes b) ∨ (∃ b, enc t v = wList b)
  | .bool, _ => by simp only [enc]; exact Or.inr (Or.inl ⟨_, rfl⟩)
  | .uint _, _ => by simp only [enc]; exact Or.inr (Or.inl ⟨_, rfl⟩)
  | .int _, _ => by simp only [enc]; exact Or.inr (Or.inl ⟨_, rfl⟩)
  | .str, _ => by simp only [enc]; exact Or.inr (Or.inl ⟨_, rfl⟩)
  | .bytes, none => by simp only [enc]; exact Or.inl trivial
  | .bytes, some _ => by simp only [enc]; exact Or.inr (Or.inl ⟨_, rfl⟩)
  | .barr _, _ => by simp only [enc]; exact Or.inr (Or.inl ⟨_, rfl⟩)
  | .array _ _, _ => by simp only [enc]; exact Or.inr (Or.inr ⟨_, rfl⟩)
  | .slice _, none => by simp only [enc]; exact Or.inl trivial
  | .slice _, some _ => by simp only [enc]; exact Or.inr (Or.inr ⟨_, rfl⟩)
  | .ptr _, none => by simp only [enc]; exact Or.inl trivial
  | .ptr t, some v => by simp only [enc]; exact enc_shape t v
  | .struct _, _ => by simp only [enc]; exact Or.inr (Or.inr ⟨_, rfl⟩)

theorem enc_ne_nil (t : Ty) (v : Val t) : enc t v ≠ [] := by
  rcases enc_shape t v with h | ⟨b, h⟩ | ⟨b, h⟩ <;> rw [h]
  · simp [nullSeq]
  · exact wBytes_ne_nil b
  · exact wList_ne_nil b

theorem wBytes_len (b : Bytes) : b.length ≤ (wBytes b).length := by
  rcases wBytes_cases b with ⟨c, h0, _, h⟩ | ⟨_, h⟩ | ⟨_, h⟩ <;> rw [h]
  · rw [h0]; simp
  · simp
  · simp; omega

theorem wList_len (b : Bytes) : b.length ≤ (wList b).length := by
  rcases wList_cases b with ⟨_, h⟩ | ⟨_, h⟩ <;> rw [h]
  · simp
  · simp; omega

/-! ### normal form -/

/-- Is the value encoded as null? -/
def isNull : (t : Ty) → Val t → Bool
  | .bytes, none => true
  | .slice _, none => true
  | .ptr _, none => true
  | .ptr t, some v => isNull t v
  | _, _ => false

/-- What reading null into a variable of the type gives; `none` stands for `ErrNilValue`. -/
def nullDec : (t : Ty) → Option (Val t)
  | .bytes => some none
  | .slice _ => some none
  | .ptr t => (nullDec t).map some
  | _ => none

mutual
/-- The value read back. It differs from the value written only at pointers whose target can itself be nil. -/
def norm : (t : Ty) → Val t → Val t
  | .bool, v => v
  | .uint _, v => v
  | .int _, v => v
  | .str, v => v
  | .bytes, v => v
  | .barr _, v => v
  | .array _ t, l => ⟨l.val.map (norm t), by simp [l.property]⟩
  | .slice t, l => l.map (List.map (norm t))
  | .ptr t, none => nullDec t
  | .ptr t, some v => if isNull t v then nullDec t else some (norm t v)
  | .struct fs, vs => norms fs vs
def norms : (ts : Tys) → Vals ts → Vals ts
  | .nil, _ => ()
  | .cons t ts, v => (norm t v.1, norms ts v.2)
end

theorem isNull_enc : (t : Ty) → (v : Val t) → isNull t v = true → enc t v = nullSeq
  | .bytes, none, _ => by simp [enc]
  | .slice _, none, _ => by simp [enc]
  | .ptr _, none, _ => by simp [enc]
  | .ptr t, some v, h => by simp only [enc]; exact isNull_enc t v (by simpa [isNull] using h)
  | .bytes, some _, h => by simp [isNull] at h
  | .slice _, some _, h => by simp [isNull] at h
  | .bool, _, h => by simp [isNull] at h
  | .uint _, _, h => by simp [isNull] at h
  | .int _, _, h => by simp [isNull] at h
  | .str, _, h => by simp [isNull] at h
  | .barr _, _, h => by simp [isNull] at h
  | .array _ _, _, h => by simp [isNull] at h
  | .struct _, _, h => by simp [isNull] at h

/-- Outcome of reading null. -/
def nullRes (t : Ty) (rest : Bytes) : Res (Val t) :=
  match nullDec t with
  | some w => .ok w rest
  | none => .nil rest

theorem dec_null (cap : Nat) : (t : Ty) → (rest : Bytes) → dec cap t (nullSeq ++ rest) = nullRes t rest
  | .bool, rest => by simp [dec, readBytes_null, Res.map, nullRes, nullDec]
  | .uint _, rest => by simp [dec, readBytes_null, Res.map, nullRes, nullDec]
  | .int _, rest => by simp [dec, readBytes_null, Res.map, nullRes, nullDec]
  | .str, rest => by simp [dec, readBytes_null, nullRes, nullDec]
  | .bytes, rest => by simp [dec, readBytes_null, orNil, nullRes, nullDec]
  | .barr _, rest => by simp [dec, readBytes_null, Res.map, nullRes, nullDec]
  | .array _ _, rest => by simp [dec, readList_null, Res.map, inList, nullRes, nullDec]
  | .slice _, rest => by simp [dec, readList_null, orNil, inList, nullRes, nullDec]
  | .ptr t, rest => by
    have ih := dec_null cap t rest
    simp only [dec, ih, nullRes, nullDec]
    cases nullDec t <;> simp [Res.map]
  | .struct _, rest => by simp [dec, readList_null, inList, nullRes, nullDec]

theorem norm_null : (t : Ty) → (v : Val t) → isNull t v = true → norm t v = (nullDec t).getD (zero t)
  | .bytes, none, _ => by simp [norm, nullDec]
  | .slice _, none, _ => by simp [norm, nullDec]
  | .ptr t, none, _ => by simp only [norm, nullDec, zero]; cases nullDec t <;> simp
  | .ptr t, some v, h => by
    have h' : isNull t v = true := by simpa [isNull] using h
    simp only [norm, nullDec, zero, h', if_true]; cases nullDec t <;> simp
  | .bytes, some _, h => by simp [isNull] at h
  | .slice _, some _, h => by simp [isNull] at h
  | .bool, _, h => by simp [isNull] at h
  | .uint _, _, h => by simp [isNull] at h
  | .int _, _, h => by simp [isNull] at h
  | .str, _, h => by simp [isNull] at h
  | .barr _, _, h => by simp [isNull] at h
  | .array _ _, _, h => by simp [isNull] at h
  | .struct _, _, h => by simp [isNull] at h

theorem readBytes_eof (cap : Nat) : readBytes cap [] = .eof := rfl

theorem dec_eof (cap : Nat) : (t : Ty) → dec cap t [] = .eof
  | .bool => by simp [dec, readBytes, Res.map]
  | .uint _ => by simp [dec, readBytes, Res.map]
  | .int _ => by simp [dec, readBytes, Res.map]
  | .str => by simp [dec, readBytes]
  | .bytes => by simp [dec, readBytes, orNil]
  | .barr _ => by simp [dec, readBytes, Res.map]
  | .array _ _ => by simp [dec, readList, Res.map, inList]
  | .slice _ => by simp [dec, readList, orNil, inList]
  | .ptr t => by simp [dec, dec_eof cap t, Res.map]
  | .struct _ => by simp [dec, readList, inList]

/-- Expected outcome of decoding an encoding followed by `rest`. -/
def expect (t : Ty) (v : Val t) (rest : Bytes) : Res (Val t) :=
  if isNull t v then nullRes t rest else .ok (norm t v) rest

theorem nullable_expect (t : Ty) (v : Val t) (rest : Bytes) :
    nullable (zero t) (expect t v rest) = .ok (norm t v) rest := by
  unfold expect
  by_cases h : isNull t v = true
  · rw [if_pos h, norm_null t v h]
    unfold nullRes
    cases nullDec t <;> simp [nullable]
  · rw [if_neg h]; rfl

theorem decLoop_flatMap {α : Type} (f : Bytes → Res α) (e : α → Bytes) (g : α → α) (l : List α)
    (h : ∀ v ∈ l, ∀ rest, f (e v ++ rest) = .ok (g v) rest) (h0 : f [] = .eof) (n : Nat) (hn : l.length < n) :
    decLoop f n (l.flatMap e) = .ok (l.map g) [] := by
  induction l generalizing n with
  | nil =>
    cases n with
    | zero => simp at hn
    | succ n => simp [decLoop, h0]
  | cons v l ih =>
    cases n with
    | zero => simp at hn
    | succ n =>
      rw [List.flatMap_cons, decLoop, h v (by simp)]
      simp only
      rw [ih (fun w hw => h w (by simp [hw])) n (by simp at hn; omega)]
      simp [Res.map]

theorem decArr_flatMap {α : Type} (f : Bytes → Res α) (e : α → Bytes) (g : α → α) (l : List α)
    (h : ∀ v ∈ l, ∀ rest, f (e v ++ rest) = .ok (g v) rest) (n : Nat) (hn : l.length = n) :
    decArr f n (l.flatMap e) = .ok (l.map g) [] := by
  induction l generalizing n with
  | nil => subst hn; simp [decArr]
  | cons v l ih =>
    cases n with
    | zero => simp at hn
    | succ n =>
      rw [List.flatMap_cons, decArr, h v (by simp)]
      simp only
      rw [ih (fun w hw => h w (by simp [hw])) n (by simp at hn; omega)]
      simp [Res.map]

theorem fill_exact {α : Type} (n : Nat) (z : α) (l : { l : List α // l.length = n }) : fill n z l.val = l := by
  apply Subtype.ext
  unfold fill
  obtain ⟨l, rfl⟩ := l
  simp

theorem flatMap_len_ge {α : Type} (e : α → Bytes) (l : List α) (h : ∀ v, e v ≠ []) : l.length ≤ (l.flatMap e).length := by
  induction l with
  | nil => simp
  | cons v l ih =>
    have : (e v).length ≠ 0 := by simpa using h v
    simp only [List.flatMap_cons, List.length_append, List.length_cons]; omega

theorem flatMap_len_mem {α : Type} (e : α → Bytes) (l : List α) (v : α) (h : v ∈ l) :
    (e v).length ≤ (l.flatMap e).length := by
  induction l with
  | nil => simp at h
  | cons w l ih =>
    simp only [List.flatMap_cons, List.length_append]
    rcases List.mem_cons.mp h with rfl | h'
    · omega
    · have := ih h'; omega

theorem width_le (w : Width) : w.bits ≤ 64 ∧ 1 ≤ w.bits := by cases w <;> simp [Width.bits]

theorem uint_rt (w : Width) (v : BitVec w.bits) :
    BitVec.ofNat w.bits (bytesToUint64 (uint64ToBytes v.toNat)) = v := by
  have hlt : v.toNat < 2 ^ 64 :=
    Nat.lt_of_lt_of_le v.isLt (Nat.pow_le_pow_right (by omega) (width_le w).1)
  rw [(C02_uint64_roundtrip v.toNat hlt).1]; simp

theorem int_rt (w : Width) (v : BitVec w.bits) :
    BitVec.ofInt w.bits (bytesToInt64 (int64ToBytes v.toInt)) = v := by
  have h1 := BitVec.le_toInt v
  have h2 := BitVec.toInt_lt (x := v)
  have hb := width_le w
  have hp : 2 ^ (w.bits - 1) ≤ 2 ^ 63 := Nat.pow_le_pow_right (by omega) (by omega)
  have e : (2 ^ (w.bits - 1) : Int) = ((2 ^ (w.bits - 1) : Nat) : Int) := by simp only [cast2]
  rw [e] at h1 h2
  rw [(C01_int64_roundtrip v.toInt (by omega) (by omega)).1]; simp

theorem uint64ToBytes_len (v : Nat) (h : v < 2 ^ 64) : (uint64ToBytes v).length ≤ 9 := (C02_uint64_roundtrip v h).2.2.2

theorem bool_rt (v : Bool) : decide (bytesToUint64 [if v = true then (1 : UInt8) else 0] ≠ 0) = v := by
  cases v <;> decide +kernel

mutual
theorem dec_enc (cap : Nat) (hc : cap < 2 ^ 63) : (t : Ty) → (v : Val t) → (rest : Bytes) →
    (enc t v).length ≤ cap → dec cap t (enc t v ++ rest) = expect t v rest
  | .bool, v, rest, h => by
    have hl := wBytes_len [if v then (1 : UInt8) else 0]
    simp only [enc] at h
    simp only [dec, enc, expect, isNull]
    rw [readBytes_wBytes cap _ rest (by omega) hc]
    simp only [Res.map, norm, bool_rt, Bool.false_eq_true, if_false]
  | .uint w, v, rest, h => by
    have hl := wBytes_len (uint64ToBytes v.toNat)
    simp only [enc] at h
    simp only [dec, enc, expect, isNull]
    rw [readBytes_wBytes cap _ rest (by omega) hc]
    simp [Res.map, norm, uint_rt]
  | .int w, v, rest, h => by
    have hl := wBytes_len (int64ToBytes v.toInt)
    simp only [enc] at h
    simp only [dec, enc, expect, isNull]
    rw [readBytes_wBytes cap _ rest (by omega) hc]
    simp [Res.map, norm, int_rt]
  | .str, v, rest, h => by
    have hl := wBytes_len v
    simp only [enc] at h
    simp only [dec, enc, expect, isNull]
    rw [readBytes_wBytes cap _ rest (by omega) hc]
    simp [norm]
  | .bytes, none, rest, h => by
    rw [isNull_enc _ _ (by simp [isNull]), dec_null]; simp [expect, isNull]
  | .bytes, some b, rest, h => by
    have hl := wBytes_len b
    simp only [enc] at h
    simp only [dec, enc, expect, isNull]
    rw [readBytes_wBytes cap _ rest (by omega) hc]
    simp [norm, orNil]
  | .barr n, v, rest, h => by
    have hl := wBytes_len v.val
    simp only [enc] at h
    simp only [dec, enc, expect, isNull]
    rw [readBytes_wBytes cap _ rest (by omega) hc]
    simp [norm, Res.map, fill_exact]
  | .array n t, v, rest, h => by
    have hl := wList_len (v.val.flatMap (enc t))
    simp only [enc] at h
    simp only [dec, enc, expect, isNull]
    rw [readList_wList _ rest (by omega)]
    simp only [inList]
    rw [decArr_flatMap (fun c => nullable (zero t) (dec cap t c)) (enc t) (norm t) v.val
      (fun w hw rest => by
        have hm := flatMap_len_mem (enc t) v.val w hw
        rw [dec_enc cap hc t w rest (by omega), nullable_expect]) n v.property]
    simp only [Res.map, norm]
    rw [fill_exact n (zero t) ⟨v.val.map (norm t), by simp [v.property]⟩]
    simp
  | .slice t, none, rest, h => by
    rw [isNull_enc _ _ (by simp [isNull]), dec_null]; simp [expect, isNull]
  | .slice t, some l, rest, h => by
    have hl := wList_len (l.flatMap (enc t))
    simp only [enc] at h
    simp only [dec, enc, expect, isNull]
    rw [readList_wList _ rest (by omega)]
    simp only [inList]
    rw [decLoop_flatMap (fun c => nullable (zero t) (dec cap t c)) (enc t) (norm t) l
      (fun w hw rest => by
        have hm := flatMap_len_mem (enc t) l w hw
        rw [dec_enc cap hc t w rest (by omega), nullable_expect])
      (by simp [dec_eof, nullable]) _
      (by have := flatMap_len_ge (enc t) l (enc_ne_nil t); omega)]
    simp [orNil, norm]
  | .ptr t, none, rest, h => by
    rw [isNull_enc _ _ (by simp [isNull]), dec_null]; simp [expect, isNull]
  | .ptr t, some v, rest, h => by
    have ih := dec_enc cap hc t v rest (by simpa only [enc] using h)
    simp only [dec, enc, ih, expect, isNull, norm]
    by_cases hn : isNull t v = true
    · simp only [hn, if_true, nullRes, nullDec]
      cases nullDec t <;> simp [Res.map]
    · simp [hn, Res.map]
  | .struct fs, vs, rest, h => by
    have hl := wList_len (encs fs vs)
    simp only [enc] at h
    simp only [dec, enc, expect, isNull]
    rw [readList_wList _ rest (by omega)]
    simp only [inList]
    have ih := decs_encs cap hc fs vs [] (by omega)
    rw [List.append_nil] at ih
    rw [ih]
    simp [norm]
theorem decs_encs (cap : Nat) (hc : cap < 2 ^ 63) : (ts : Tys) → (vs : Vals ts) → (rest : Bytes) →
    (encs ts vs).length ≤ cap → decs cap ts (encs ts vs ++ rest) = .ok (norms ts vs) rest
  | .nil, _, rest, _ => by simp [decs, encs]
  | .cons t ts, v, rest, h => by
    simp only [encs, List.length_append] at h
    have ih1 := dec_enc cap hc t v.1 (encs ts v.2 ++ rest) (by omega)
    have ih2 := decs_encs cap hc ts v.2 rest (by omega)
    simp only [decs, encs, List.append_assoc, ih1, nullable_expect, ih2, Res.map, norms]
end

/-- Go types with a nil value. -/
def nilable : Ty → Bool
  | .bytes => true
  | .slice _ => true
  | .ptr _ => true
  | _ => false

theorem not_nilable (t : Ty) (h : nilable t = false) : nullDec t = none ∧ ∀ v, isNull t v = false := by
  cases t <;> simp [nilable] at h <;> exact ⟨by simp [nullDec], fun v => by simp [isNull]⟩

mutual
/-- Types in which a pointer never points to something that can itself be nil. -/
def Plain : Ty → Prop
  | .array _ t => Plain t
  | .slice t => Plain t
  | .ptr t => Plain t ∧ nilable t = false
  | .struct fs => Plains fs
  | _ => True
def Plains : Tys → Prop
  | .nil => True
  | .cons t ts => Plain t ∧ Plains ts
end

mutual
theorem norm_plain : (t : Ty) → Plain t → (v : Val t) → norm t v = v
  | .bool, _, v => by simp [norm]
  | .uint _, _, v => by simp [norm]
  | .int _, _, v => by simp [norm]
  | .str, _, v => by simp [norm]
  | .bytes, _, v => by simp [norm]
  | .barr _, _, v => by simp [norm]
  | .array _ t, h, v => by
    apply Subtype.ext
    simp only [norm]
    rw [List.map_congr_left (g := id) (fun w _ => norm_plain t (by simpa only [Plain] using h) w)]
    simp
  | .slice t, h, none => by simp [norm]
  | .slice t, h, some l => by
    simp only [norm, Option.map_some]
    rw [List.map_congr_left (g := id) (fun w _ => norm_plain t (by simpa only [Plain] using h) w)]
    simp
  | .ptr t, h, none => by simp only [Plain] at h; simp [norm, (not_nilable t h.2).1]
  | .ptr t, h, some v => by
    simp only [Plain] at h
    simp only [norm, (not_nilable t h.2).2 v, Bool.false_eq_true, if_false]
    rw [norm_plain t h.1 v]
  | .struct fs, h, vs => by simp only [norm]; exact norms_plain fs (by simpa only [Plain] using h) vs
theorem norms_plain : (ts : Tys) → Plains ts → (vs : Vals ts) → norms ts vs = vs
  | .nil, _, _ => rfl
  | .cons t ts, h, v => by
    simp only [Plains] at h
    simp only [norms]
    rw [norm_plain t h.1 v.1, norms_plain ts h.2 v.2]
end

/-! ### prefixes and suffixes -/

theorem readAll_ext {n : Nat} {p b r : Bytes} (s : Bytes) (h : readAll n p = .ok b r) :
    readAll n (p ++ s) = .ok b (r ++ s) := by
  unfold readAll at h
  split at h
  · simp at h
  · rename_i hl
    simp at h
    obtain ⟨rfl, rfl⟩ := h
    have : p.take n ++ p.drop n ++ s = p ++ s := by rw [List.take_append_drop]
    rw [← this, List.append_assoc]
    exact readAll_append' _ _ (by simp; omega)

theorem readBytes_ext_ok {cap : Nat} {p b r : Bytes} (s : Bytes) (h : readBytes cap p = .ok b r) :
    readBytes cap (p ++ s) = .ok b (r ++ s) := by
  cases p with
  | nil => simp [readBytes] at h
  | cons tag p =>
    simp only [List.cons_append, readBytes] at h ⊢
    split at h
    · rename_i h1; simp only [h1, if_true]; simp at h; simp [h]
    · rename_i h1; simp only [h1, if_false]
      split at h
      · rename_i h2; simp only [h2, if_true]; exact readAll_ext s h
      · rename_i h2; simp only [h2, if_false]
        split at h
        · rename_i h3; simp only [h3, if_true]
          split at h
          · rename_i szb r' hsz
            rw [readAll_ext s hsz]
            simp only at h ⊢
            split at h
            · simp at h
            · rename_i h4; simp only [h4, if_false]; exact readAll_ext s h
          · simp at h
        · rename_i h3; simp only [h3, if_false]
          split at h
          · split at h
            · simp at h
            · split at h <;> simp at h
          · simp at h

theorem readBytes_ext_nil {cap : Nat} {p r : Bytes} (s : Bytes) (h : readBytes cap p = .nil r) :
    readBytes cap (p ++ s) = .nil (r ++ s) := by
  cases p with
  | nil => simp [readBytes] at h
  | cons tag p =>
    simp only [List.cons_append, readBytes] at h ⊢
    split at h
    · simp at h
    · rename_i h1; simp only [h1, if_false]
      split at h
      · unfold readAll at h; split at h <;> simp at h
      · rename_i h2; simp only [h2, if_false]
        split at h
        · split at h
          · split at h
            · simp at h
            · unfold readAll at h; split at h <;> simp at h
          · simp at h
        · rename_i h3; simp only [h3, if_false]
          split at h
          · rename_i h4; simp only [h4, if_true]
            split at h
            · simp at h
            · rename_i b r'
              split at h
              · rename_i h5; simp at h; simp [h5, h]
              · simp at h
          · simp at h

theorem readAll_suffix {n : Nat} {p b r : Bytes} (h : readAll n p = .ok b r) : r <:+ p := by
  unfold readAll at h
  split at h
  · simp at h
  · simp at h; rw [← h.2]; exact List.drop_suffix n p

/-- `r` is what is left after consuming at least one byte of `p`. -/
def After (r p : Bytes) : Prop := r <:+ p ∧ r.length < p.length

theorem After.of_tail {r p : Bytes} {b : UInt8} (h : r <:+ p) : After r (b :: p) :=
  ⟨h.trans (List.suffix_cons b p), by have := h.length_le; simp; omega⟩

theorem readBytes_after {cap : Nat} {p r : Bytes} :
    (∀ b, readBytes cap p = .ok b r → After r p) ∧ (readBytes cap p = .nil r → After r p) := by
  cases p with
  | nil => simp [readBytes]
  | cons tag p =>
    constructor
    · intro b h
      apply After.of_tail
      simp only [readBytes] at h
      split at h
      · simp at h; simp [h]
      · split at h
        · exact readAll_suffix h
        · split at h
          · split at h
            · rename_i szb r' hsz
              split at h
              · simp at h
              · exact (readAll_suffix h).trans (readAll_suffix hsz)
            · simp at h
          · split at h
            · split at h
              · simp at h
              · split at h <;> simp at h
            · simp at h
    · intro h
      apply After.of_tail
      simp only [readBytes] at h
      split at h
      · simp at h
      · split at h
        · unfold readAll at h; split at h <;> simp at h
        · split at h
          · split at h
            · split at h
              · simp at h
              · unfold readAll at h; split at h <;> simp at h
            · simp at h
          · split at h
            · split at h
              · simp at h
              · rename_i b r'
                split at h
                · simp at h; rw [← h]; exact List.suffix_cons b r'
                · simp at h
            · simp at h

/-- The content of a list is inside the input; what follows is after it. -/
theorem readList_facts {p r : Bytes} :
    (∀ c, readList p = .ok c r → c <:+: p ∧ After r p) ∧ (readList p = .nil r → After r p) := by
  cases p with
  | nil => simp [readList]
  | cons tag p =>
    have hin : ∀ {c q : Bytes}, q <:+ p → c <+: q → c <:+: tag :: p := fun h1 h2 =>
      (h2.isInfix.trans h1.isInfix).trans (List.suffix_cons tag p).isInfix
    constructor
    · intro c h
      simp only [readList] at h
      split at h
      · simp at h
      · split at h
        · simp at h
          obtain ⟨rfl, rfl⟩ := h
          exact ⟨hin (List.suffix_refl p) (List.take_prefix _ _), After.of_tail (List.drop_suffix _ _)⟩
        · split at h
          · rename_i szb r' hsz
            have hs := readAll_suffix hsz
            split at h
            · simp at h
            · split at h
              · simp at h
                obtain ⟨rfl, rfl⟩ := h
                exact ⟨hin hs List.nil_prefix, After.of_tail hs⟩
              · simp at h
                obtain ⟨rfl, rfl⟩ := h
                exact ⟨hin hs (List.take_prefix _ _), After.of_tail ((List.drop_suffix _ _).trans hs)⟩
          · simp at h
    · intro h
      simp only [readList] at h
      split at h
      · simp at h
      · split at h
        · simp at h
        · split at h
          · rename_i szb r' hsz
            have hs := readAll_suffix hsz
            split at h
            · simp at h; rw [← h]; exact After.of_tail hs
            · split at h <;> simp at h
          · simp at h

theorem map_ok {α β : Type} {f : α → β} {x : Res α} {b : β} {r : Bytes} (h : x.map f = .ok b r) :
    ∃ a, x = .ok a r ∧ f a = b := by
  cases x <;> simp [Res.map] at h
  obtain ⟨h1, h2⟩ := h
  exact ⟨_, by rw [h2], h1⟩

theorem map_nil {α β : Type} {f : α → β} {x : Res α} {r : Bytes} (h : x.map f = .nil r) : x = .nil r := by
  cases x <;> simp [Res.map] at h
  rw [h]

theorem map_panic {α β : Type} {f : α → β} {x : Res α} (h : x.map f = .panic) : x = .panic := by
  cases x <;> simp [Res.map] at h
  rfl

theorem inList_ok {α : Type} {f : Bytes → Res α} {x : Res Bytes} {a : α} {r : Bytes} (h : inList f x = .ok a r) :
    ∃ c, x = .ok c r := by
  cases x with
  | ok c r' =>
    simp only [inList] at h
    split at h <;> simp at h
    exact ⟨c, by rw [h.2]⟩
  | _ => simp [inList] at h

theorem inList_nil {α : Type} {f : Bytes → Res α} {x : Res Bytes} {r : Bytes} (h : inList f x = .nil r) :
    x = .nil r := by
  cases x with
  | ok c r' => simp only [inList] at h; split at h <;> simp at h
  | nil r' => simp [inList] at h; rw [h]
  | _ => simp [inList] at h

theorem orNil_ok {α : Type} {x : Res α} {a : Option α} {r : Bytes} (h : orNil x = .ok a r) :
    (∃ b, x = .ok b r) ∨ x = .nil r := by
  cases x <;> simp [orNil] at h
  · left; exact ⟨_, by rw [h.2]⟩
  · right; rw [h.2]

theorem orNil_nil {α : Type} {x : Res α} {r : Bytes} : orNil x ≠ .nil r := by
  cases x <;> simp [orNil]

theorem orNil_panic {α : Type} {x : Res α} (h : orNil x = .panic) : x = .panic := by
  cases x <;> simp [orNil] at h
  rfl

/-- Every successful or nil read consumes at least one byte. -/
theorem dec_after (cap : Nat) : (t : Ty) → (bs r : Bytes) →
    (∀ v, dec cap t bs = .ok v r → After r bs) ∧ (dec cap t bs = .nil r → After r bs)
  | .bool, bs, r => by
    simp only [dec]
    exact ⟨fun v h => by obtain ⟨a, h1, _⟩ := map_ok h; exact readBytes_after.1 _ h1,
      fun h => readBytes_after.2 (map_nil h)⟩
  | .uint w, bs, r => by
    simp only [dec]
    exact ⟨fun v h => by obtain ⟨a, h1, _⟩ := map_ok h; exact readBytes_after.1 _ h1,
      fun h => readBytes_after.2 (map_nil h)⟩
  | .int w, bs, r => by
    simp only [dec]
    exact ⟨fun v h => by obtain ⟨a, h1, _⟩ := map_ok h; exact readBytes_after.1 _ h1,
      fun h => readBytes_after.2 (map_nil h)⟩
  | .str, bs, r => by
    simp only [dec]
    exact ⟨fun v h => readBytes_after.1 _ h, fun h => readBytes_after.2 h⟩
  | .bytes, bs, r => by
    simp only [dec]
    refine ⟨fun v h => ?_, fun h => absurd h orNil_nil⟩
    rcases orNil_ok h with ⟨b, h1⟩ | h1
    · exact readBytes_after.1 _ h1
    · exact readBytes_after.2 h1
  | .barr n, bs, r => by
    simp only [dec]
    exact ⟨fun v h => by obtain ⟨a, h1, _⟩ := map_ok h; exact readBytes_after.1 _ h1,
      fun h => readBytes_after.2 (map_nil h)⟩
  | .array n t, bs, r => by
    simp only [dec]
    exact ⟨fun v h => by
        obtain ⟨a, h1, _⟩ := map_ok h
        obtain ⟨c, h2⟩ := inList_ok h1
        exact (readList_facts.1 _ h2).2,
      fun h => readList_facts.2 (inList_nil (map_nil h))⟩
  | .slice t, bs, r => by
    simp only [dec]
    refine ⟨fun v h => ?_, fun h => absurd h orNil_nil⟩
    rcases orNil_ok h with ⟨b, h1⟩ | h1
    · obtain ⟨c, h2⟩ := inList_ok h1
      exact (readList_facts.1 _ h2).2
    · exact readList_facts.2 (inList_nil h1)
  | .ptr t, bs, r => by
    simp only [dec]
    have ih := dec_after cap t bs r
    exact ⟨fun v h => by obtain ⟨a, h1, _⟩ := map_ok h; exact ih.1 _ h1, fun h => ih.2 (map_nil h)⟩
  | .struct fs, bs, r => by
    simp only [dec]
    exact ⟨fun v h => by
        obtain ⟨c, h2⟩ := inList_ok h
        exact (readList_facts.1 _ h2).2,
      fun h => readList_facts.2 (inList_nil h)⟩

/-- Specification of the inputs that can make the decoder panic: somewhere in the input there is a long-string
header (0xB8..0xBF) whose length field exceeds what can be allocated. -/
def Oversize (cap : Nat) (bs : Bytes) : Prop :=
  ∃ (pre szb post : Bytes) (tag : UInt8), bs = pre ++ tag :: (szb ++ post) ∧ 0xB8 ≤ tag.toNat ∧ tag.toNat ≤ 0xBF ∧
    szb.length = tag.toNat - 0xB7 ∧ cap < beNat szb

theorem Oversize.infix {cap : Nat} {c bs : Bytes} (h : c <:+: bs) (ho : Oversize cap c) : Oversize cap bs := by
  obtain ⟨s, t, rfl⟩ := h
  obtain ⟨pre, szb, post, tag, rfl, h1, h2, h3, h4⟩ := ho
  exact ⟨s ++ pre, szb, post ++ t, tag, by simp, h1, h2, h3, h4⟩

theorem readAll_not_panic {n : Nat} {p : Bytes} : readAll n p ≠ .panic := by
  unfold readAll; split <;> simp

theorem readBytes_panic {cap : Nat} {p : Bytes} (h : readBytes cap p = .panic) : Oversize cap p := by
  cases p with
  | nil => simp [readBytes] at h
  | cons tag p =>
    simp only [readBytes] at h
    split at h
    · simp at h
    · split at h
      · exact absurd h readAll_not_panic
      · split at h
        · rename_i h1 h2 h3
          split at h
          · rename_i szb r' hsz
            split at h
            · rename_i h4
              unfold readAll at hsz
              split at hsz
              · simp at hsz
              · rename_i h5
                simp at hsz
                refine ⟨[], szb, r', tag, ?_, by omega, by omega, ?_, ?_⟩
                · rw [← hsz.1, ← hsz.2]; simp
                · rw [← hsz.1]; simp; omega
                · rw [C03_bytesToSize_value] at h4
                  have := Nat.mod_le (beNat szb) (2 ^ 64)
                  omega
            · exact absurd h readAll_not_panic
          · simp at h
        · split at h
          · split at h
            · simp at h
            · split at h <;> simp at h
          · simp at h

theorem readList_not_panic {p : Bytes} : readList p ≠ .panic := by
  cases p with
  | nil => simp [readList]
  | cons tag p =>
    simp only [readList]
    split
    · simp
    · split
      · simp
      · split
        · split
          · simp
          · split <;> simp
        · simp

theorem inList_panic {α : Type} {f : Bytes → Res α} {p : Bytes} (h : inList f (readList p) = .panic) :
    ∃ c, c <:+: p ∧ f c = .panic := by
  cases hx : readList p with
  | ok c r =>
    rw [hx] at h
    simp only [inList] at h
    split at h
    · simp at h
    · rename_i hf; exact ⟨c, (readList_facts.1 _ hx).1, hf⟩
    · simp at h
  | panic => exact absurd hx readList_not_panic
  | _ => rw [hx] at h; simp [inList] at h

theorem nullable_cases {α : Type} {z : α} {x : Res α} :
    (∀ a r, nullable z x = .ok a r → x = .ok a r ∨ x = .nil r) ∧ (nullable z x = .panic → x = .panic) := by
  cases x <;> simp [nullable]

theorem decLoop_panic {α : Type} (f : Bytes → Res α) (Q : Bytes → Prop) (n : Nat) (c : Bytes)
    (hQ : ∀ c', c' <:+ c → f c' = .panic → Q c') (hf : ∀ c' v r, c' <:+ c → f c' = .ok v r → After r c')
    (hn : c.length < n) (h : decLoop f n c = .panic) : ∃ c', c' <:+ c ∧ Q c' := by
  induction n generalizing c with
  | zero => omega
  | succ n ih =>
    rw [decLoop] at h
    split at h
    · simp at h
    · rename_i v c' hfc
      have ha := hf c v c' (List.suffix_refl c) hfc
      obtain ⟨c'', h1, h2⟩ := ih c' (fun x hx => hQ x (hx.trans ha.1)) (fun x v r hx => hf x v r (hx.trans ha.1))
        (by have := ha.2; omega) (map_panic h)
      exact ⟨c'', h1.trans ha.1, h2⟩
    · simp at h
    · simp at h
    · rename_i hp
      exact ⟨c, List.suffix_refl c, hQ c (List.suffix_refl c) hp⟩

theorem decArr_panic {α : Type} (f : Bytes → Res α) (Q : Bytes → Prop) (n : Nat) (c : Bytes)
    (hQ : ∀ c', c' <:+ c → f c' = .panic → Q c') (hf : ∀ c' v r, c' <:+ c → f c' = .ok v r → After r c')
    (h : decArr f n c = .panic) : ∃ c', c' <:+ c ∧ Q c' := by
  induction n generalizing c with
  | zero => simp [decArr] at h
  | succ n ih =>
    rw [decArr] at h
    split at h
    · simp at h
    · rename_i v c' hfc
      have ha := hf c v c' (List.suffix_refl c) hfc
      obtain ⟨c'', h1, h2⟩ := ih c' (fun x hx => hQ x (hx.trans ha.1)) (fun x v r hx => hf x v r (hx.trans ha.1))
        (map_panic h)
      exact ⟨c'', h1.trans ha.1, h2⟩
    · simp at h
    · simp at h
    · rename_i hp
      exact ⟨c, List.suffix_refl c, hQ c (List.suffix_refl c) hp⟩

theorem nullable_after (cap : Nat) (t : Ty) (c r : Bytes) (v : Val t)
    (h : nullable (zero t) (dec cap t c) = .ok v r) : After r c := by
  rcases nullable_cases.1 _ _ h with h' | h'
  · exact (dec_after cap t c r).1 _ h'
  · exact (dec_after cap t c r).2 h'

mutual
theorem dec_panic (cap : Nat) : (t : Ty) → (bs : Bytes) → dec cap t bs = .panic → Oversize cap bs
  | .bool, bs, h => by simp only [dec] at h; exact readBytes_panic (map_panic h)
  | .uint w, bs, h => by simp only [dec] at h; exact readBytes_panic (map_panic h)
  | .int w, bs, h => by simp only [dec] at h; exact readBytes_panic (map_panic h)
  | .str, bs, h => by simp only [dec] at h; exact readBytes_panic h
  | .bytes, bs, h => by simp only [dec] at h; exact readBytes_panic (orNil_panic h)
  | .barr n, bs, h => by simp only [dec] at h; exact readBytes_panic (map_panic h)
  | .array n t, bs, h => by
    simp only [dec] at h
    obtain ⟨c, h1, h2⟩ := inList_panic (map_panic h)
    obtain ⟨c', h3, h4⟩ := decArr_panic _ (Oversize cap) n c
      (fun c' _ hp => dec_panic cap t c' (nullable_cases.2 hp))
      (fun c' v r _ h => nullable_after cap t c' r v h) h2
    exact (h4.infix h3.isInfix).infix h1
  | .slice t, bs, h => by
    simp only [dec] at h
    obtain ⟨c, h1, h2⟩ := inList_panic (orNil_panic h)
    obtain ⟨c', h3, h4⟩ := decLoop_panic _ (Oversize cap) (c.length + 1) c
      (fun c' _ hp => dec_panic cap t c' (nullable_cases.2 hp))
      (fun c' v r _ h => nullable_after cap t c' r v h) (by omega) h2
    exact (h4.infix h3.isInfix).infix h1
  | .ptr t, bs, h => by simp only [dec] at h; exact dec_panic cap t bs (map_panic h)
  | .struct fs, bs, h => by
    simp only [dec] at h
    obtain ⟨c, h1, h2⟩ := inList_panic h
    exact (decs_panic cap fs c h2).infix h1
theorem decs_panic (cap : Nat) : (ts : Tys) → (c : Bytes) → decs cap ts c = .panic → Oversize cap c
  | .nil, c, h => by simp [decs] at h
  | .cons t ts, c, h => by
    simp only [decs] at h
    split at h
    · simp at h
    · rename_i v c' hf
      have ha := nullable_after cap t c c' v hf
      exact (decs_panic cap ts c' (map_panic h)).infix ha.1.isInfix
    · simp at h
    · simp at h
    · rename_i hp
      exact dec_panic cap t c (nullable_cases.2 hp)
end

end Verif.Rlp
