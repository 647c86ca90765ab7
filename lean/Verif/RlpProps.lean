import Verif.RlpLemmas
/-!
C06–C10: properties of the relay's RLP codec.
-/
namespace Verif.Rlp
open Verif Verif.IntConv

/-! ### C06 -/

/-- Specification of the wire format (RLP, Ethereum yellow paper appendix B), independent of the writer. -/
def specStr (b : Bytes) : Bytes :=
  if b.length = 1 ∧ beNat b < 128 then b
  else if b.length < 56 then UInt8.ofNat (128 + b.length) :: b
  else UInt8.ofNat (183 + (natBytes b.length).length) :: (natBytes b.length ++ b)
def specList (b : Bytes) : Bytes :=
  if b.length < 56 then UInt8.ofNat (192 + b.length) :: b
  else UInt8.ofNat (247 + (natBytes b.length).length) :: (natBytes b.length ++ b)

/-- C06: the writers produce the RLP wire format. -/
theorem C06_wire_format (b : Bytes) (h : b.length < 2 ^ 64) : wBytes b = specStr b ∧ wList b = specList b := by
  have hs : 55 < b.length → sizeToBytes b.length = natBytes b.length := fun h' => by
    rw [(C03_size_roundtrip b.length h).2.1, if_neg (by omega)]
  constructor
  · unfold specStr
    rcases wBytes_cases b with ⟨c, h1, h2, h3⟩ | ⟨h1, h2⟩ | ⟨h1, h2⟩
    · rw [h3, if_pos, h1]; rw [h1]; simp [beNat_cons, h2]
    · rw [h2]
      by_cases hc : b.length = 1 ∧ beNat b < 128
      · exfalso
        obtain ⟨hc1, hc2⟩ := hc
        match b, hc1 with
        | [c], _ =>
          have : c.toNat < 128 := by simpa [beNat_cons] using hc2
          have hlt : c < 0x80 := this
          rw [wBytes, if_pos hlt] at h2
          simp at h2
      · rw [if_neg hc, if_pos (by omega)]
    · rw [h2, if_neg (by omega), if_neg (by omega), hs h1]
  · unfold specList
    rcases wList_cases b with ⟨h1, h2⟩ | ⟨h1, h2⟩
    · rw [h2, if_pos (by omega)]
    · rw [h2, if_neg (by omega), hs h1]

/-- C06: reading back a field, list element or pointer target of a plain type gives the value written and
consumes exactly its encoding, whatever follows. -/
theorem C06_roundtrip (cap : Nat) (hc : cap < 2 ^ 63) (t : Ty) (hp : Plain t) (v : Val t) (rest : Bytes)
    (hl : (enc t v).length ≤ cap) : nullable (zero t) (dec cap t (enc t v ++ rest)) = .ok v rest := by
  rw [dec_enc cap hc t v rest hl, nullable_expect, norm_plain t hp]

/-- The value is a nil pointer. -/
def isNilPtr : (t : Ty) → Val t → Bool
  | .ptr _, none => true
  | _, _ => false

/-- C06 at top level (`UnmarshalFromBytes`): the value comes back; only a nil pointer is reported as `ErrNilValue`. -/
theorem C06_roundtrip_top (cap : Nat) (hc : cap < 2 ^ 63) (t : Ty) (hp : Plain t) (v : Val t) (rest : Bytes)
    (hl : (enc t v).length ≤ cap) :
    dec cap t (enc t v ++ rest) = if isNilPtr t v then .nil rest else .ok v rest := by
  rw [dec_enc cap hc t v rest hl]
  unfold expect
  rw [norm_plain t hp]
  cases t with
  | ptr t =>
    simp only [Plain] at hp
    cases v with
    | none => simp [isNull, isNilPtr, nullRes, nullDec, (not_nilable t hp.2).1]
    | some v => simp [isNull, isNilPtr, (not_nilable t hp.2).2 v]
  | bytes =>
    cases v <;> simp [isNull, isNilPtr, nullRes, nullDec]
  | slice t =>
    cases v <;> simp [isNull, isNilPtr, nullRes, nullDec]
  | _ => simp [isNull, isNilPtr]

/-- C06 for every type: what comes back is the value with pointers to nil-able things normalised. -/
theorem C06_normal_form (cap : Nat) (hc : cap < 2 ^ 63) (t : Ty) (v : Val t) (rest : Bytes)
    (hl : (enc t v).length ≤ cap) : nullable (zero t) (dec cap t (enc t v ++ rest)) = .ok (norm t v) rest := by
  rw [dec_enc cap hc t v rest hl, nullable_expect]

/-- C06, limits: a nil pointer to a slice comes back as a pointer to a nil slice, a pointer to a nil pointer as nil. -/
theorem C06_nilable_targets (cap : Nat) :
    nullable (zero (.ptr .bytes)) (dec cap (.ptr .bytes) (enc (.ptr .bytes) none)) = .ok (some none) [] ∧
    nullable (zero (.ptr (.ptr .str))) (dec cap (.ptr (.ptr .str)) (enc (.ptr (.ptr .str)) (some none))) = .ok none [] := by
  have h1 := dec_null cap (.ptr .bytes) []
  have h2 := dec_null cap (.ptr (.ptr .str)) []
  rw [List.append_nil] at h1 h2
  constructor
  · simp only [enc]; rw [h1]; simp [nullRes, nullDec, nullable]
  · simp only [enc]; rw [h2]; simp [nullRes, nullDec, nullable, zero]

/-- A struct of a string, a list of byte strings and a pointer to a struct: a plain type. -/
def relayMsgTy : Ty := .struct (.cons .str (.cons (.slice .bytes) (.cons (.ptr (.struct (.cons (.uint .w64) .nil))) .nil)))
example : Plain relayMsgTy := by simp [relayMsgTy, Plain, Plains, nilable]
example : enc relayMsgTy ([1, 0x80], some [none, some []], some (300#64, ()), ()) =
    [0xcb, 0x82, 1, 0x80, 0xc3, 0xf8, 0, 0x80, 0xc3, 0x82, 1, 0x2c] := by decide

/-! ### C07 -/

/-- C07: `ReadRaw` splits off exactly one encoded item, of whatever type. -/
theorem C07_readRaw (cap : Nat) (hc : cap < 2 ^ 63) (h2 : 2 ≤ cap) (t : Ty) (v : Val t) (rest : Bytes)
    (hl : (enc t v).length ≤ cap) : readRaw cap (enc t v ++ rest) = .ok (enc t v) rest := by
  rcases enc_shape t v with h | ⟨b, h⟩ | ⟨b, h⟩
  · rw [h]; exact readRaw_null cap rest h2
  · rw [h] at hl ⊢; exact readRaw_wBytes cap b rest hl hc
  · rw [h] at hl ⊢; exact readRaw_wList cap b rest hl hc

/-- C07: encodings of items of any two types are prefix free. -/
theorem C07_prefix_free (t1 t2 : Ty) (v1 : Val t1) (v2 : Val t2) (r1 r2 : Bytes)
    (h1 : (enc t1 v1).length < 2 ^ 63) (h2 : (enc t2 v2).length < 2 ^ 63)
    (h : enc t1 v1 ++ r1 = enc t2 v2 ++ r2) : enc t1 v1 = enc t2 v2 ∧ r1 = r2 := by
  have e1 := C07_readRaw (2 ^ 63 - 1) (by omega) (by omega) t1 v1 r1 (by omega)
  have e2 := C07_readRaw (2 ^ 63 - 1) (by omega) (by omega) t2 v2 r2 (by omega)
  rw [h, e2] at e1
  simp at e1
  exact ⟨e1.1.symm, e1.2.symm⟩

/-- C07: encoding is injective on plain types. -/
theorem C07_injective (t : Ty) (hp : Plain t) (v w : Val t) (h1 : (enc t v).length < 2 ^ 63)
    (h : enc t v = enc t w) : v = w := by
  have e1 := C06_roundtrip (2 ^ 63 - 1) (by omega) t hp v [] (by omega)
  have e2 := C06_roundtrip (2 ^ 63 - 1) (by omega) t hp w [] (by rw [← h]; omega)
  rw [h, e2] at e1
  simp at e1
  exact e1.symm

/-- C07: a stream of items written one after the other is read back as that sequence, leaving what follows. -/
theorem C07_stream (cap : Nat) (hc : cap < 2 ^ 63) (ts : Tys) (hp : Plains ts) (vs : Vals ts) (rest : Bytes)
    (hl : (encs ts vs).length ≤ cap) : decs cap ts (encs ts vs ++ rest) = .ok vs rest := by
  rw [decs_encs cap hc ts vs rest hl, norms_plain ts hp]

example : enc .str [1, 2] ++ [7] ≠ enc .bytes (some [1, 2, 7]) := by decide

/-! ### C08 -/

/-- Types encoded as a single byte string. -/
def scalar : Ty → Bool
  | .bool => true
  | .uint _ => true
  | .int _ => true
  | .str => true
  | .bytes => true
  | .barr _ => true
  | _ => false

theorem readBytes_ext_panic {cap : Nat} {p : Bytes} (s : Bytes) (h : readBytes cap p = .panic) :
    readBytes cap (p ++ s) = .panic := by
  cases p with
  | nil => simp [readBytes] at h
  | cons tag p =>
    simp only [List.cons_append, readBytes] at h ⊢
    split at h
    · simp at h
    · rename_i h1; simp only [h1, if_false]
      split at h
      · exact absurd h readAll_not_panic
      · rename_i h2; simp only [h2, if_false]
        split at h
        · rename_i h3; simp only [h3, if_true]
          split at h
          · rename_i szb r' hsz
            rw [readAll_ext s hsz]
            split at h
            · rename_i h4; simp only [h4, if_true]
            · exact absurd h readAll_not_panic
          · simp at h
        · split at h
          · split at h
            · simp at h
            · split at h <;> simp at h
          · simp at h

theorem enc_scalar (cap : Nat) (hc : cap < 2 ^ 63) (t : Ty) (ht : scalar t = true) (v : Val t)
    (hl : (enc t v).length ≤ cap) :
    (∃ b, readBytes cap (enc t v) = .ok b []) ∨ readBytes cap (enc t v) = .nil [] := by
  have key : ∀ b, (wBytes b).length ≤ cap → ∃ b', readBytes cap (wBytes b) = .ok b' [] := fun b hb => by
    have h1 := wBytes_len b
    have := readBytes_wBytes cap b [] (by omega) hc
    rw [List.append_nil] at this
    exact ⟨b, this⟩
  cases t with
  | bytes =>
    cases v with
    | none => right; simp only [enc]; have := readBytes_null cap []; rwa [List.append_nil] at this
    | some b => left; simp only [enc] at hl ⊢; exact key _ hl
  | bool => left; simp only [enc] at hl ⊢; exact key _ hl
  | uint w => left; simp only [enc] at hl ⊢; exact key _ hl
  | int w => left; simp only [enc] at hl ⊢; exact key _ hl
  | str => left; simp only [enc] at hl ⊢; exact key _ hl
  | barr n => left; simp only [enc] at hl ⊢; exact key _ hl
  | _ => simp [scalar] at ht

theorem readBytes_prefix (cap : Nat) (p s : Bytes) (hs : s ≠ [])
    (h : (∃ b, readBytes cap (p ++ s) = .ok b []) ∨ readBytes cap (p ++ s) = .nil []) :
    readBytes cap p = .eof ∨ readBytes cap p = .err := by
  cases hx : readBytes cap p with
  | eof => exact Or.inl rfl
  | err => exact Or.inr rfl
  | ok b r =>
    exfalso
    rw [readBytes_ext_ok s hx] at h
    rcases h with ⟨b', h⟩ | h
    · simp at h; exact hs h.2.2
    · simp at h
  | nil r =>
    exfalso
    rw [readBytes_ext_nil s hx] at h
    rcases h with ⟨b', h⟩ | h
    · simp at h
    · simp at h; exact hs h.2
  | panic =>
    exfalso
    rw [readBytes_ext_panic s hx] at h
    rcases h with ⟨b', h⟩ | h <;> simp at h

/-- C08, part: a strict prefix of an encoded boolean, integer, string or byte string is always an error. -/
theorem C08_scalar_truncation_partial (cap : Nat) (hc : cap < 2 ^ 63) (t : Ty) (ht : scalar t = true) (v : Val t)
    (hl : (enc t v).length ≤ cap) (p s : Bytes) (h : p ++ s = enc t v) (hs : s ≠ []) :
    dec cap t p = .eof ∨ dec cap t p = .err := by
  have h1 := enc_scalar cap hc t ht v hl
  rw [← h] at h1
  have h2 := readBytes_prefix cap p s hs h1
  cases t with
  | bytes => simp only [dec]; rcases h2 with h2 | h2 <;> rw [h2] <;> simp [orNil]
  | bool => simp only [dec]; rcases h2 with h2 | h2 <;> rw [h2] <;> simp [Res.map]
  | uint w => simp only [dec]; rcases h2 with h2 | h2 <;> rw [h2] <;> simp [Res.map]
  | int w => simp only [dec]; rcases h2 with h2 | h2 <;> rw [h2] <;> simp [Res.map]
  | str => simp only [dec]; exact h2
  | barr n => simp only [dec]; rcases h2 with h2 | h2 <;> rw [h2] <;> simp [Res.map]
  | _ => simp [scalar] at ht

theorem decLoop_prefix {α : Type} (f : Bytes → Res α) (e : α → Bytes) (l : List α) (n : Nat) (q s : Bytes)
    (h1 : ∀ v ∈ l, ∀ rest, f (e v ++ rest) = .ok v rest) (h0 : f [] = .eof)
    (h2 : ∀ v ∈ l, ∀ a b, a ≠ [] → b ≠ [] → a ++ b = e v → f a = .err) (he : ∀ v, e v ≠ [])
    (h : q ++ s = l.flatMap e) (hs : s ≠ []) (hn : q.length < n) :
    decLoop f n q = .err ∨ ∃ l', l' <+: l ∧ l'.length < l.length ∧ decLoop f n q = .ok l' [] := by
  induction l generalizing n q with
  | nil =>
    simp at h; exact absurd h.2 hs
  | cons v l ih =>
    cases n with
    | zero => omega
    | succ n =>
      rw [List.flatMap_cons] at h
      cases q with
      | nil => right; exact ⟨[], by simp, by simp, by simp [decLoop, h0]⟩
      | cons x q =>
        by_cases hlen : (e v).length ≤ (x :: q).length
        · -- the whole element is there
          obtain ⟨q', hq'⟩ : ∃ q', x :: q = e v ++ q' := by
            have hp : e v <+: (x :: q) ++ s := ⟨l.flatMap e, h.symm⟩
            have := List.prefix_of_prefix_length_le hp (List.prefix_append _ _) hlen
            obtain ⟨q', hq'⟩ := this; exact ⟨q', hq'.symm⟩
          rw [hq'] at h hn ⊢
          rw [decLoop, h1 v (by simp)]
          have h' : q' ++ s = l.flatMap e := by
            rw [List.append_assoc] at h; exact List.append_cancel_left h
          have hel : (e v).length ≠ 0 := by simpa using he v
          rcases ih n q' (fun w hw => h1 w (by simp [hw])) (fun w hw => h2 w (by simp [hw])) h'
            (by simp at hn; omega) with hr | ⟨l', hr1, hr2, hr3⟩
          · left; simp [hr, Res.map]
          · right
            exact ⟨v :: l', List.prefix_cons_inj v |>.mpr hr1, by simp; omega, by simp [hr3, Res.map]⟩
        · left
          obtain ⟨b, hb⟩ : ∃ b, (x :: q) ++ b = e v := by
            have hp : e v <+: (x :: q) ++ s := ⟨l.flatMap e, h.symm⟩
            exact List.prefix_of_prefix_length_le (List.prefix_append _ _) hp (by omega)
          have hbne : b ≠ [] := by
            intro hb0; subst hb0; rw [List.append_nil] at hb; rw [hb] at hlen; omega
          rw [decLoop, h2 v (by simp) (x :: q) b (by simp) hbne hb]

/-- C08, part: a strict prefix of an encoded list of scalars is an error or decodes to a strictly shorter
beginning of the list — never to other elements. -/
theorem C08_list_truncation_partial (cap : Nat) (hc : cap < 2 ^ 63) (t : Ty) (ht : scalar t = true) (l : List (Val t))
    (hl : (enc (.slice t) (some l)).length ≤ cap) (p s : Bytes) (h : p ++ s = enc (.slice t) (some l)) (hs : s ≠ []) :
    dec cap (.slice t) p = .eof ∨ dec cap (.slice t) p = .err ∨
      ∃ l', l' <+: l ∧ l'.length < l.length ∧ dec cap (.slice t) p = .ok (some l') [] := by
  have hplain : Plain t := by cases t <;> simp [scalar] at ht <;> simp [Plain]
  have hcl := wList_len (l.flatMap (enc t))
  simp only [enc] at hl h
  cases p with
  | nil => left; exact dec_eof cap _
  | cons tag p =>
    right
    -- content seen by the loop is a strict prefix of the true content
    have main : ∀ q : Bytes, readList (tag :: p) = .ok q [] → q ++ s = l.flatMap (enc t) →
        dec cap (.slice t) (tag :: p) = .err ∨
        ∃ l', l' <+: l ∧ l'.length < l.length ∧ dec cap (.slice t) (tag :: p) = .ok (some l') [] := by
      intro q hq hqs
      simp only [dec, hq, inList]
      have := decLoop_prefix (fun c => nullable (zero t) (dec cap t c)) (enc t) l (q.length + 1) q s
        (fun v hv rest => by
          have := flatMap_len_mem (enc t) l v hv
          exact C06_roundtrip cap hc t hplain v rest (by omega))
        (by simp [dec_eof, nullable])
        (fun v hv a b ha hb hab => by
          have hm := flatMap_len_mem (enc t) l v hv
          rcases C08_scalar_truncation_partial cap hc t ht v (by omega) a b hab hb with h' | h'
          · exfalso
            have : readBytes cap a = .eof := by
              cases t with
              | bytes => simp only [dec] at h'; revert h'; cases readBytes cap a <;> simp [orNil]
              | bool => simp only [dec] at h'; revert h'; cases readBytes cap a <;> simp [Res.map]
              | uint w => simp only [dec] at h'; revert h'; cases readBytes cap a <;> simp [Res.map]
              | int w => simp only [dec] at h'; revert h'; cases readBytes cap a <;> simp [Res.map]
              | str => simpa only [dec] using h'
              | barr n => simp only [dec] at h'; revert h'; cases readBytes cap a <;> simp [Res.map]
              | _ => simp [scalar] at ht
            cases a with
            | nil => exact ha rfl
            | cons c a =>
              simp only [readBytes] at this
              split at this
              · simp at this
              · split at this
                · unfold readAll at this; split at this <;> simp at this
                · split at this
                  · split at this
                    · split at this
                      · simp at this
                      · unfold readAll at this; split at this <;> simp at this
                    · simp at this
                  · split at this
                    · split at this
                      · simp at this
                      · split at this <;> simp at this
                    · simp at this
          · simp [h', nullable])
        (enc_ne_nil t) hqs hs (by omega)
      rcases this with h' | ⟨l', h1, h2, h3⟩
      · left; simp [h', orNil]
      · right; exact ⟨l', h1, h2, by simp [h3, orNil]⟩
    rcases wList_cases (l.flatMap (enc t)) with ⟨h1, h2⟩ | ⟨h1, h2⟩
    · rw [h2] at h
      simp only [List.cons_append, List.cons.injEq] at h
      obtain ⟨h3, h4⟩ := h
      have hps : p.length < (l.flatMap (enc t)).length := by
        have : s.length ≠ 0 := by simpa using hs
        have := congrArg List.length h4; simp at this; simp; omega
      apply main p _ h4
      rw [h3]
      simp only [readList]
      rw [u8_ofNat_small (by omega), if_neg (by omega), if_pos (by omega)]
      have hle : p.length ≤ 192 + (l.flatMap (enc t)).length - 192 := by omega
      rw [List.take_of_length_le hle, List.drop_of_length_le hle]
    · obtain ⟨s1, s2, s3⟩ := size_facts (show (l.flatMap (enc t)).length < 2 ^ 64 by omega)
      rw [h2] at h
      simp only [List.cons_append, List.cons.injEq] at h
      obtain ⟨h3, h4⟩ := h
      generalize hL : (l.flatMap (enc t)).length = L at *
      by_cases hsz : p.length < (sizeToBytes L).length
      · left
        rw [h3]
        simp only [dec, readList]
        rw [u8_ofNat_small (by omega), if_neg (by omega), if_neg (by omega)]
        unfold readAll
        rw [if_pos (by omega)]
        simp [inList, orNil]
      · obtain ⟨q, hq⟩ : ∃ q, p = sizeToBytes L ++ q := by
          have hp1 : sizeToBytes L <+: p ++ s := ⟨_, h4.symm⟩
          obtain ⟨q, hq⟩ := List.prefix_of_prefix_length_le hp1 (List.prefix_append _ _) (by omega)
          exact ⟨q, hq.symm⟩
        have hqs : q ++ s = l.flatMap (enc t) := by
          rw [hq, List.append_assoc] at h4; exact List.append_cancel_left h4
        have hql : q.length < L := by
          have : s.length ≠ 0 := by simpa using hs
          have := congrArg List.length hqs; rw [hL] at this; simp at this; omega
        apply main q _ hqs
        rw [h3, hq]
        simp only [readList]
        rw [u8_ofNat_small (by omega), if_neg (by omega), if_neg (by omega)]
        rw [readAll_append' (sizeToBytes L) q (by omega)]
        simp only [s1]
        rw [if_neg (by omega), if_neg (by omega)]
        rw [List.take_of_length_le (by omega), List.drop_of_length_le (by omega)]

/-- C08 is false for lists: cutting the last element off [1,2] still decodes. -/
theorem C08_list_truncation_accepted :
    ∃ (t : Ty) (v w : Val t) (p s : Bytes), Plain t ∧ p ++ s = enc t v ∧ s ≠ [] ∧ v ≠ w ∧
      ∀ cap, dec cap t p = .ok w [] := by
  refine ⟨.slice .str, some [[1], [2]], some [[1]], [0xc2, 1], [2], by simp [Plain], by decide, by simp, by simp, ?_⟩
  intro cap
  simp [dec, readList, inList, decLoop, readBytes, nullable, Res.map, orNil]

/-! ### C09 -/

/-- Specification: the header is the one canonical RLP prescribes. -/
def CanonHeader : Bytes → Prop
  | [] => True
  | tag :: r =>
    (tag.toNat = 0x81 → ∀ b, r.head? = some b → 0x80 ≤ b.toNat) ∧
    (0xB8 ≤ tag.toNat ∧ tag.toNat ≤ 0xBF → r.head? ≠ some 0 ∧ 55 < beNat (r.take (tag.toNat - 0xB7)))

/-- C09 is false: `0x05` has the second encoding `0x81 0x05`. -/
theorem C09_noncanonical_accepted :
    ¬ ∀ (cap : Nat) (bs rest : Bytes) (v : Val .str), dec cap .str bs = .ok v rest → bs = enc .str v ++ rest := by
  intro h
  have := h 10 [0x81, 5] [] [5] (by decide)
  revert this; decide

/-- C09, part: a string that was read with a canonical header is exactly what the writer produces, and vice versa. -/
theorem C09_canonical_partial (cap : Nat) (hc : cap < 2 ^ 63) (bs rest : Bytes) (b : Bytes)
    (h : dec cap .str bs = .ok b rest) : bs = enc .str b ++ rest ↔ CanonHeader bs := by
  simp only [dec] at h
  simp only [enc]
  constructor
  · intro he
    rw [he]
    rcases wBytes_cases b with ⟨c, h1, h2, h3⟩ | ⟨h1, h2⟩ | ⟨h1, h2⟩
    · rw [h3]
      simp only [List.cons_append, List.nil_append, CanonHeader]
      exact ⟨fun h => by omega, fun h => by omega⟩
    · have hcases := wBytes_cases b
      rw [h2]
      simp only [List.cons_append, CanonHeader]
      rw [u8_ofNat_small (by omega)]
      refine ⟨fun h' x hx => ?_, fun h' => by omega⟩
      have hb1 : b.length = 1 := by omega
      match b, hb1 with
      | [c], _ =>
        simp at hx; subst hx
        apply Classical.byContradiction
        intro hlt
        have hlt' : c < 0x80 := show c.toNat < 128 by omega
        rw [wBytes, if_pos hlt'] at h2
        simp at h2
    · by_cases hlt : b.length < 2 ^ 64
      · obtain ⟨s1, s2, s3⟩ := size_facts hlt
        have hs : sizeToBytes b.length = natBytes b.length := by
          rw [(C03_size_roundtrip b.length hlt).2.1, if_neg (by omega)]
        rw [h2]
        simp only [List.cons_append, CanonHeader, List.append_assoc]
        rw [u8_ofNat_small (by omega)]
        refine ⟨fun h' => by omega, fun _ => ⟨?_, ?_⟩⟩
        · rw [hs]
          cases hn : natBytes b.length with
          | nil => rw [hs, hn] at s2; simp at s2
          | cons x t => simp; exact natBytes_head x t hn
        · rw [show 183 + (sizeToBytes b.length).length - 183 = (sizeToBytes b.length).length by omega]
          rw [List.take_left, hs, beNat_natBytes]; omega
      · -- a string this long cannot have been read
        exfalso
        cases bs with
        | nil => simp [readBytes] at h
        | cons tag p =>
          have hb : b.length ≤ cap ∨ b.length ≤ 64 := by
            simp only [readBytes] at h
            split at h
            · simp at h; rw [← h.1]; simp
            · split at h
              · unfold readAll at h
                split at h
                · simp at h
                · simp at h; rw [← h.1]; right; simp; omega
              · split at h
                · split at h
                  · split at h
                    · simp at h
                    · unfold readAll at h
                      split at h
                      · simp at h
                      · simp at h; rw [← h.1]; left; simp; omega
                  · simp at h
                · split at h
                  · split at h
                    · simp at h
                    · split at h <;> simp at h
                  · simp at h
          omega
  · intro hcan
    cases bs with
    | nil => simp [readBytes] at h
    | cons tag p =>
      have htl := u8_lt tag
      simp only [CanonHeader] at hcan
      simp only [readBytes] at h
      split at h
      · rename_i h1
        simp at h
        have hlt : tag < 0x80 := h1
        rw [← h.1, ← h.2, wBytes, if_pos hlt]; rfl
      · rename_i h1
        split at h
        · rename_i h2
          unfold readAll at h
          split at h
          · simp at h
          · rename_i h3
            simp at h
            have hbl : b.length = tag.toNat - 0x80 := by rw [← h.1]; simp; omega
            have hpb : p = b ++ rest := by rw [← h.1, ← h.2]; simp
            rcases wBytes_cases b with ⟨c, g1, g2, g3⟩ | ⟨g1, g2⟩ | ⟨g1, g2⟩
            · exfalso
              rw [g1] at hbl hpb
              simp at hbl
              have := hcan.1 (by omega) c (by rw [hpb]; simp)
              omega
            · rw [g2, hpb]
              simp only [List.cons_append, List.cons.injEq, and_true]
              apply u8_eq_of_toNat
              rw [u8_ofNat_small (by omega)]; omega
            · omega
        · rename_i h2
          split at h
          · rename_i h3
            obtain ⟨hc1, hc2⟩ := hcan.2 ⟨by omega, by omega⟩
            split at h
            · rename_i szb r' hsz
              unfold readAll at hsz
              split at hsz
              · simp at hsz
              · rename_i h4
                simp at hsz
                split at h
                · simp at h
                · rename_i h5
                  unfold readAll at h
                  split at h
                  · simp at h
                  · rename_i h6
                    simp at h
                    have hszl : szb.length = tag.toNat - 0xB7 := by rw [← hsz.1]; simp; omega
                    rw [hsz.1] at hc2
                    have hszlt : beNat szb < 2 ^ 64 := by
                      have h7 := beNat_lt szb
                      rw [pow256] at h7
                      have : 2 ^ (8 * szb.length) ≤ 2 ^ 64 := Nat.pow_le_pow_right (by omega) (by omega)
                      omega
                    have hsv : bytesToSize szb = beNat szb := by
                      rw [C03_bytesToSize_value, Nat.mod_eq_of_lt hszlt]
                    have hbl : b.length = beNat szb := by rw [← h.1]; simp; omega
                    have hp1 : p = szb ++ r' := by rw [← hsz.1, ← hsz.2]; simp
                    have hp2 : r' = b ++ rest := by rw [← h.1, ← h.2]; simp
                    have hhd : szb.head? ≠ some 0 := by
                      intro h0
                      apply hc1
                      rw [hp1]
                      cases szb with
                      | nil => simp at h0
                      | cons x t => simpa using h0
                    have hsb : sizeToBytes b.length = szb := by
                      rw [(C03_size_roundtrip b.length (by omega)).2.1, if_neg (by omega), hbl]
                      exact natBytes_beNat szb hhd
                    rcases wBytes_cases b with ⟨c, g1, g2, g3⟩ | ⟨g1, g2⟩ | ⟨g1, g2⟩
                    · rw [g1] at hbl; simp at hbl; omega
                    · omega
                    · rw [g2, hsb, hp1, hp2]
                      simp only [List.cons_append, List.append_assoc, List.cons.injEq, and_true]
                      apply u8_eq_of_toNat
                      rw [u8_ofNat_small (by omega)]; omega
            · simp at h
          · split at h
            · split at h
              · simp at h
              · split at h <;> simp at h
            · simp at h

example : dec 100 .str [0x82, 0x61, 0x62, 9] = .ok [0x61, 0x62] [9] ∧ CanonHeader [0x82, 0x61, 0x62, 9] := by
  refine ⟨by decide, ?_⟩
  simp [CanonHeader]

/-! ### C10 -/

/-- C10 is false: nine bytes make the decoder panic, whatever slices can be allocated. -/
theorem C10_panic_reachable (cap : Nat) (hc : cap < 2 ^ 63) :
    dec cap .bytes [0xbf, 0x80, 0, 0, 0, 0, 0, 0, 0] = .panic := by
  have h : bytesToSize [0x80, 0, 0, 0, 0, 0, 0, 0] = 2 ^ 63 := by decide +kernel
  have h1 : readAll (0xbf - 0xB7) [0x80, 0, 0, 0, 0, 0, 0, 0] = .ok [0x80, 0, 0, 0, 0, 0, 0, 0] [] := by decide +kernel
  have : readBytes cap [0xbf, 0x80, 0, 0, 0, 0, 0, 0, 0] = .panic := by
    simp only [readBytes]
    rw [show (0xbf : UInt8).toNat = 0xbf from rfl, if_neg (by omega), if_neg (by omega), if_pos (by omega), h1]
    show (if cap < bytesToSize [0x80, 0, 0, 0, 0, 0, 0, 0] then _ else _) = _
    rw [h, if_pos (by omega)]
  simp only [dec, this, orNil]

/-- C10, part: decoding any input into any type ends with a value or an error, unless the input contains a
string header whose length field exceeds what can be allocated. (Also shows that element loops terminate.) -/
theorem C10_no_panic_partial (cap : Nat) (t : Ty) (bs : Bytes) (h : ¬ Oversize cap bs) : dec cap t bs ≠ .panic :=
  fun hp => h (dec_panic cap t bs hp)

/-- C10, part: in particular no panic if slices up to 2^48 can be allocated and the input has no byte 0xBE or 0xBF. -/
theorem C10_no_long_headers_partial (cap : Nat) (hcap : 2 ^ 48 ≤ cap) (t : Ty) (bs : Bytes)
    (h : ∀ b ∈ bs, b.toNat ≠ 0xBE ∧ b.toNat ≠ 0xBF) : dec cap t bs ≠ .panic := by
  apply C10_no_panic_partial
  rintro ⟨pre, szb, post, tag, rfl, h1, h2, h3, h4⟩
  have := h tag (by simp)
  have hl := beNat_lt szb
  rw [pow256] at hl
  have : 2 ^ (8 * szb.length) ≤ 2 ^ 48 := Nat.pow_le_pow_right (by omega) (by omega)
  omega

example : ¬ Oversize (2 ^ 48) [0xc2, 1, 2] := by
  rintro ⟨pre, szb, post, tag, h, h1, h2, h3, h4⟩
  have : tag ∈ ([0xc2, 1, 2] : Bytes) := by rw [h]; simp
  simp at this
  rcases this with rfl | rfl | rfl <;> simp at h1 h2

/-! ### C63 -/

theorem readBytes_nil {cap : Nat} {bs r : Bytes} : readBytes cap bs = .nil r ↔ bs = 0xf8 :: 0 :: r := by
  constructor
  · intro h
    cases bs with
    | nil => simp [readBytes] at h
    | cons tag p =>
      simp only [readBytes] at h
      split at h
      · simp at h
      · split at h
        · unfold readAll at h; split at h <;> simp at h
        · split at h
          · split at h
            · split at h
              · simp at h
              · unfold readAll at h; split at h <;> simp at h
            · simp at h
          · split at h
            · rename_i h4
              split at h
              · simp at h
              · rename_i b r'
                split at h
                · rename_i h5
                  simp at h; subst h
                  have e1 : tag = 0xf8 := u8_eq_of_toNat h4
                  have e2 : b = 0 := by
                    rw [C03_bytesToSize_value] at h5
                    have := u8_lt b
                    apply u8_eq_of_toNat
                    simp [beNat_cons] at h5 ⊢; omega
                  rw [e1, e2]
                · simp at h
            · simp at h
  · rintro rfl; have := readBytes_null cap r; simpa [nullSeq] using this

theorem readList_nil {bs r : Bytes} : readList bs = .nil r ↔ bs = 0xf8 :: 0 :: r := by
  constructor
  · intro h
    cases bs with
    | nil => simp [readList] at h
    | cons tag p =>
      have := u8_lt tag
      simp only [readList] at h
      split at h
      · simp at h
      · split at h
        · simp at h
        · split at h
          · rename_i szb r' hsz
            split at h
            · rename_i h3
              simp at h; subst h
              have e1 : tag = 0xf8 := u8_eq_of_toNat (by show tag.toNat = 0xf8; omega)
              subst e1
              unfold readAll at hsz
              split at hsz
              · simp at hsz
              · rename_i h4
                simp at hsz
                cases p with
                | nil => simp at h4
                | cons b p =>
                  simp at hsz
                  obtain ⟨h5, h6⟩ := hsz
                  rw [← h5, C03_bytesToSize_value] at h3
                  have hb := u8_lt b
                  have e2 : b = 0 := by
                    apply u8_eq_of_toNat
                    simp [beNat_cons] at h3 ⊢; omega
                  rw [e2, h6]
            · split at h <;> simp at h
          · simp at h
  · rintro rfl; have := readList_null r; simpa [nullSeq] using this

theorem inList_nil_iff {α : Type} (f : Bytes → Res α) (x : Res Bytes) (r : Bytes) : inList f x = .nil r ↔ x = .nil r := by
  cases x <;> simp [inList]
  rename_i c r'
  cases f c <;> simp

theorem dec_nil (cap : Nat) (bs r : Bytes) : (t : Ty) → dec cap t bs = .nil r → bs = 0xf8 :: 0 :: r
  | .bool => by
    simp only [dec]; intro h; apply (readBytes_nil (cap := cap)).mp; revert h; cases readBytes cap bs <;> simp [Res.map]
  | .uint w => by
    simp only [dec]; intro h; apply (readBytes_nil (cap := cap)).mp; revert h; cases readBytes cap bs <;> simp [Res.map]
  | .int w => by
    simp only [dec]; intro h; apply (readBytes_nil (cap := cap)).mp; revert h; cases readBytes cap bs <;> simp [Res.map]
  | .str => by simp only [dec]; exact readBytes_nil.mp
  | .bytes => by simp only [dec]; cases readBytes cap bs <;> simp [orNil]
  | .barr n => by
    simp only [dec]; intro h; apply (readBytes_nil (cap := cap)).mp; revert h; cases readBytes cap bs <;> simp [Res.map]
  | .array n t => by
    simp only [dec]; intro h; apply readList_nil.mp
    rw [← inList_nil_iff (decArr (fun c => nullable (zero t) (dec cap t c)) n)]
    revert h
    cases inList (decArr (fun c => nullable (zero t) (dec cap t c)) n) (readList bs) <;> simp [Res.map]
  | .slice t => by
    simp only [dec]
    cases inList (fun c => decLoop (fun c => nullable (zero t) (dec cap t c)) (c.length + 1) c) (readList bs) <;> simp [orNil]
  | .ptr t => by
    simp only [dec]; intro h; apply dec_nil cap bs r t; revert h; cases dec cap t bs <;> simp [Res.map]
  | .struct fs => by simp only [dec]; rw [inList_nil_iff]; exact readList_nil.mp

/-- C63: a nil is read only from the two bytes `f8 00`, for byte strings, lists and pointers; an empty string,
an empty list, or any other zero-length form is never taken for nil. -/
theorem C63_nil_only_from_marker (cap : Nat) (t : Ty) (bs r : Bytes) :
    (dec cap .bytes bs = .ok none r ↔ bs = 0xf8 :: 0 :: r) ∧
    (dec cap (.slice t) bs = .ok none r ↔ bs = 0xf8 :: 0 :: r) ∧
    (nullable (zero (.ptr t)) (dec cap (.ptr t) bs) = .ok none r → bs = 0xf8 :: 0 :: r) := by
  refine ⟨?_, ?_, ?_⟩
  · rw [← readBytes_nil (cap := cap)]
    simp only [dec]
    cases readBytes cap bs <;> simp [orNil]
  · rw [← readList_nil]
    rw [← inList_nil_iff (fun c => decLoop (fun c => nullable (zero t) (dec cap t c)) (c.length + 1) c)]
    simp only [dec]
    cases inList (fun c => decLoop (fun c => nullable (zero t) (dec cap t c)) (c.length + 1) c) (readList bs) <;> simp [orNil]
  · intro h
    apply dec_nil cap bs r (.ptr t)
    revert h
    simp only [dec]
    cases dec cap t bs <;> simp [Res.map, nullable]

example : dec 100 .bytes [0x80] = .ok (some []) [] ∧ dec 100 (.slice .str) [0xf9, 0, 0] = .ok (some []) [] := by decide

end Verif.Rlp
