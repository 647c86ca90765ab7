import Verif.RlpObj
/-!
C154: maps, custom methods, values passed by value, lists of objects, the step by step encoder and `Skip` of the relay's codec.
-/
namespace Verif.RlpObj
open Verif Verif.IntConv Verif.Rlp

/-! ### round trips -/

/-- What `e` writes is read back as a field, element or target of a pointer, whatever follows, and nothing is read at the end. -/
def Elem (c : C α) (e : α → Bytes) (cap : Nat) : Prop :=
  (∀ v, e v ≠ []) ∧ c.dec cap [] = .eof ∧
  ∀ v rest, (e v).length ≤ cap → nullable c.zero (c.dec cap (e v ++ rest)) = .ok v rest

/-- The same by itself: the value is never written as null. -/
def Whole (c : C α) (e : α → Bytes) (cap : Nat) : Prop :=
  (∀ v, e v ≠ []) ∧ c.dec cap [] = .eof ∧
  ∀ v rest, (e v).length ≤ cap → c.dec cap (e v ++ rest) = .ok v rest

/-- Fields one after the other, with either reader. -/
def Fields (fs : F α) (e : α → Bytes) (cap : Nat) : Prop :=
  ∀ v rest, (e v).length ≤ cap → fs.dec cap (e v ++ rest) = .ok v rest ∧ fs.decAll cap (e v ++ rest) = .ok v rest

/-- Passing by value or by pointer makes no difference. -/
def Same (c : C α) : Prop := ∀ v, c.encA v = c.encN v

theorem Whole.elem {c : C α} {e : α → Bytes} {cap : Nat} (h : Whole c e cap) : Elem c e cap :=
  ⟨h.1, h.2.1, fun v rest hl => by rw [h.2.2 v rest hl]; rfl⟩

theorem elem_ofTy (cap : Nat) (hc : cap < 2 ^ 63) (t : Ty) (hp : Plain t) : Elem (ofTy t) (enc t) cap :=
  ⟨enc_ne_nil t, dec_eof cap t, fun v rest hl => C06_roundtrip cap hc t hp v rest hl⟩

theorem whole_ofTy (cap : Nat) (hc : cap < 2 ^ 63) (t : Ty) (hp : Plain t) (hn : ∀ v : Val t, isNilPtr t v = false) :
    Whole (ofTy t) (enc t) cap :=
  ⟨enc_ne_nil t, dec_eof cap t, fun v rest hl => by
    have := C06_roundtrip_top cap hc t hp v rest hl
    rw [hn v] at this; exact this⟩

theorem nullSeq_ne : nullSeq ≠ [] := by decide

theorem elem_ptr (cap : Nat) (c : C α) (h : Whole c c.encA cap) (hz : ∀ rest, c.dec cap (nullSeq ++ rest) = .nil rest) :
    Elem (ptr c) (ptr c).encA cap ∧ Elem (ptr c) (ptr c).encN cap := by
  have key : Elem (ptr c) (encOpt c.encA) cap := by
    refine ⟨fun v => ?_, ?_, fun v rest hl => ?_⟩
    · cases v with
      | none => exact nullSeq_ne
      | some v => exact h.1 v
    · show (c.dec cap []).map some = _
      rw [h.2.1]; rfl
    · show nullable none ((c.dec cap _).map some) = _
      cases v with
      | none => simp only [encOpt, hz, Res.map, nullable]
      | some v => simp only [encOpt] at hl ⊢; rw [h.2.2 v rest hl]; rfl
  exact ⟨key, key⟩

theorem whole_slice (cap : Nat) (hc : cap < 2 ^ 63) (c : C α) (h : Elem c c.encA cap) :
    Whole (slice c) (slice c).encA cap ∧ Whole (slice c) (slice c).encN cap := by
  have key : Whole (slice c) (encOpt fun l => wList (l.flatMap c.encA)) cap := by
    refine ⟨fun v => ?_, rfl, fun v rest hl => ?_⟩
    · cases v with
      | none => exact nullSeq_ne
      | some v => exact wList_ne_nil _
    · cases v with
      | none => simp only [slice, encOpt, readList_null, inList, orNil]
      | some l =>
        simp only [encOpt] at hl
        have hw := wList_len (l.flatMap c.encA)
        simp only [slice, encOpt]
        rw [readList_wList _ rest (by omega)]
        simp only [inList]
        rw [decLoop_flatMap (fun x => nullable c.zero (c.dec cap x)) c.encA id l
          (fun w hw' rest => by
            have hm := flatMap_len_mem c.encA l w hw'
            exact h.2.2 w rest (by omega))
          (by simp [h.2.1, nullable]) _
          (by have := flatMap_len_ge c.encA l h.1; omega)]
        simp [orNil]
  exact ⟨key, key⟩

theorem array_key (cap : Nat) (hc : cap < 2 ^ 63) (n : Nat) (c : C α) (e : α → Bytes) (h : Elem c e cap) :
    Whole (array n c) (fun l => wList (l.val.flatMap e)) cap := by
  refine ⟨fun v => wList_ne_nil _, rfl, fun v rest hl => ?_⟩
  have hw := wList_len (v.val.flatMap e)
  simp only at hl
  simp only [array]
  rw [readList_wList _ rest (by omega)]
  simp only [inList]
  rw [decArr_flatMap (fun x => nullable c.zero (c.dec cap x)) e id v.val
    (fun w hw' rest => by
      have hm := flatMap_len_mem e v.val w hw'
      exact h.2.2 w rest (by omega)) n v.property]
  simp [Res.map, fill_exact]

theorem fields_nil (cap : Nat) : Fields fnil fnil.encA cap ∧ Fields fnil fnil.encN cap :=
  ⟨fun _ _ _ => ⟨rfl, rfl⟩, fun _ _ _ => ⟨rfl, rfl⟩⟩

theorem fields_cons_key (cap : Nat) (c : C α) (fs : F β) (e : α → Bytes) (es : β → Bytes) (h : Elem c e cap) (hs : Fields fs es cap) :
    Fields (fcons c fs) (fun v => e v.1 ++ es v.2) cap := by
  intro v rest hl
  simp only [List.length_append] at hl
  have h1 := h.2.2 v.1 (es v.2 ++ rest) (by omega)
  have h2 := hs v.2 rest (by omega)
  simp only [fcons, List.append_assoc, h1, h2.1, h2.2, Res.map, and_self]

theorem struct_key (cap : Nat) (hc : cap < 2 ^ 63) (fs : F α) (e : α → Bytes) (h : Fields fs e cap) :
    Whole (struct fs) (fun v => wList (e v)) cap ∧
    ∀ v rest, (wList (e v)).length ≤ cap → decodeListOf fs cap (wList (e v) ++ rest) = .ok v rest := by
  have h0 : ∀ v, (e v).length ≤ cap → fs.dec cap (e v) = .ok v [] ∧ fs.decAll cap (e v) = .ok v [] := fun v hv => by
    have := h v [] hv; rwa [List.append_nil] at this
  refine ⟨⟨fun v => wList_ne_nil _, rfl, fun v rest hl => ?_⟩, fun v rest hl => ?_⟩
  · have hw := wList_len (e v)
    simp only at hl
    simp only [struct]
    rw [readList_wList _ rest (by omega)]
    simp only [inList, (h0 v (by omega)).1]
  · have hw := wList_len (e v)
    simp only [decodeListOf]
    rw [readList_wList _ rest (by omega)]
    simp only [inList, (h0 v (by omega)).2]

theorem whole_binary (cap : Nat) (hc : cap < 2 ^ 63) (z : α) (p : α → Bytes) (m : α → Option Bytes) (u : Bytes → Option α)
    (h : ∀ v, ∃ b, m v = some b ∧ u b = some v) : Whole (binaryC z p m u) (binaryC z p m u).encA cap := by
  refine ⟨fun v => ?_, rfl, fun v rest hl => ?_⟩
  · obtain ⟨b, hb, _⟩ := h v
    simp only [binaryC, hb, encOpt]; exact wBytes_ne_nil b
  · obtain ⟨b, hb, hu⟩ := h v
    simp only [binaryC, hb, encOpt] at hl ⊢
    have := wBytes_len b
    rw [readBytes_wBytes cap b rest (by omega) hc]
    simp [thenOf, hu]

theorem whole_raw (cap : Nat) (hc : cap < 2 ^ 63) (z : α) (p : α → Bytes) (m : α → Bytes) (u : Bytes → Option α)
    (h : ∀ v, u (m v) = some v ∧ ∃ b, m v = wBytes b ∨ m v = wList b) : Whole (rawC z p m u) (rawC z p m u).encA cap := by
  refine ⟨fun v => ?_, rfl, fun v rest hl => ?_⟩
  · obtain ⟨_, b, hb | hb⟩ := h v
    · simp only [rawC, hb]; exact wBytes_ne_nil b
    · simp only [rawC, hb]; exact wList_ne_nil b
  · obtain ⟨hu, b, hb | hb⟩ := h v
    · simp only [rawC] at hl ⊢
      rw [hb] at hl hu ⊢
      rw [readRaw_wBytes cap b rest hl hc]; simp [thenOf, hu]
    · simp only [rawC] at hl ⊢
      rw [hb] at hl hu ⊢
      rw [readRaw_wList cap b rest hl hc]; simp [thenOf, hu]

/-! ### order of keys -/

theorem bytesLt_irrefl (a : Bytes) : bytesLt a a = false := by
  induction a with
  | nil => rfl
  | cons x a ih => simp [bytesLt, ih]

theorem bytesLt_total (a b : Bytes) (h : a ≠ b) : bytesLt a b = true ∨ bytesLt b a = true := by
  induction a generalizing b with
  | nil => cases b with
    | nil => exact absurd rfl h
    | cons y b => exact .inl rfl
  | cons x a ih => cases b with
    | nil => exact .inr rfl
    | cons y b =>
      simp only [bytesLt]
      by_cases hxy : x.toNat = y.toNat
      · have : x = y := UInt8.toNat_inj.mp hxy
        subst this
        simp only [if_true]
        exact ih b (fun hab => h (by rw [hab]))
      · rw [if_neg hxy, if_neg (fun h => hxy h.symm)]
        simp only [decide_eq_true_eq]; omega

theorem bytesLt_trans (a b c : Bytes) (h1 : bytesLt a b = true) (h2 : bytesLt b c = true) : bytesLt a c = true := by
  induction a generalizing b c with
  | nil => cases c with
    | nil => cases b <;> simp [bytesLt] at h2
    | cons z c => rfl
  | cons x a ih =>
    cases b with
    | nil => simp [bytesLt] at h1
    | cons y b => cases c with
      | nil => simp [bytesLt] at h2
      | cons z c =>
        simp only [bytesLt] at h1 h2 ⊢
        by_cases hxy : x.toNat = y.toNat
        · by_cases hyz : y.toNat = z.toNat
          · rw [if_pos hxy] at h1; rw [if_pos hyz] at h2; rw [if_pos (hxy.trans hyz)]
            exact ih b c h1 h2
          · rw [if_neg hyz] at h2; rw [if_neg (by omega)]
            simp only [decide_eq_true_eq] at *; omega
        · rw [if_neg hxy] at h1
          by_cases hyz : y.toNat = z.toNat
          · rw [if_neg (by omega)]; simp only [decide_eq_true_eq] at *; omega
          · rw [if_neg hyz] at h2
            simp only [decide_eq_true_eq] at h1 h2
            rw [if_neg (by omega)]; simp only [decide_eq_true_eq]; omega

theorem lt_irrefl (k : Key) (a : Val k.ty) : k.lt a a = false := by
  cases k with
  | str => exact bytesLt_irrefl a
  | int w => simp [Key.lt]
  | uint w => simp [Key.lt]

theorem lt_total (k : Key) (a b : Val k.ty) (h : a ≠ b) : k.lt a b = true ∨ k.lt b a = true := by
  cases k with
  | str => exact bytesLt_total a b h
  | int w =>
    simp only [Key.lt, decide_eq_true_eq]
    have : a.toInt ≠ b.toInt := fun h' => h (BitVec.eq_of_toInt_eq h')
    omega
  | uint w =>
    simp only [Key.lt, decide_eq_true_eq]
    have : a.toNat ≠ b.toNat := fun h' => h (BitVec.eq_of_toNat_eq h')
    omega

theorem lt_trans (k : Key) (a b c : Val k.ty) (h1 : k.lt a b = true) (h2 : k.lt b c = true) : k.lt a c = true := by
  cases k with
  | str => exact bytesLt_trans a b c h1 h2
  | int w => simp only [Key.lt, decide_eq_true_eq] at *; omega
  | uint w => simp only [Key.lt, decide_eq_true_eq] at *; omega

/-! ### sorting -/

theorem insertKey_perm (k : Key) (p : Val k.ty × α) (l : List (Val k.ty × α)) : (insertKey k p l).Perm (p :: l) := by
  induction l with
  | nil => exact .refl _
  | cons q l ih =>
    simp only [insertKey]
    split
    · exact (ih.cons q).trans (.swap p q l)
    · exact .refl _

theorem sortKeys_perm (k : Key) (l : List (Val k.ty × α)) : (sortKeys k l).Perm l := by
  induction l with
  | nil => exact .refl _
  | cons p l ih => exact (insertKey_perm k p _).trans (ih.cons p)

/-- Keys strictly increasing. -/
abbrev Sorted (k : Key) (l : List (Val k.ty × α)) : Prop := l.Pairwise fun p q => k.lt p.1 q.1 = true

theorem insertKey_sorted (k : Key) (p : Val k.ty × α) (l : List (Val k.ty × α)) (h : Sorted k l) (hp : ∀ q ∈ l, q.1 ≠ p.1) :
    Sorted k (insertKey k p l) := by
  induction l with
  | nil => exact List.pairwise_singleton _ _
  | cons q l ih =>
    have hq := List.pairwise_cons.mp h
    simp only [insertKey]
    by_cases hlt : k.lt q.1 p.1 = true
    · rw [if_pos hlt]
      refine List.pairwise_cons.mpr ⟨fun r hr => ?_, ih hq.2 fun r hr => hp r (List.mem_cons_of_mem _ hr)⟩
      rcases List.mem_cons.mp ((insertKey_perm k p l).mem_iff.mp hr) with rfl | hr
      · exact hlt
      · exact hq.1 r hr
    · rw [if_neg hlt]
      have hpq : k.lt p.1 q.1 = true := by
        rcases lt_total k q.1 p.1 (hp q (List.mem_cons_self)) with h' | h'
        · exact absurd h' hlt
        · exact h'
      refine List.pairwise_cons.mpr ⟨fun r hr => ?_, h⟩
      rcases List.mem_cons.mp hr with rfl | hr
      · exact hpq
      · exact lt_trans k _ _ _ hpq (hq.1 r hr)

/-- The keys of a map are different. -/
abbrev Keys (l : List (κ × α)) : Prop := l.Pairwise fun p q => p.1 ≠ q.1

theorem sortKeys_sorted (k : Key) (l : List (Val k.ty × α)) (h : Keys l) : Sorted k (sortKeys k l) := by
  induction l with
  | nil => exact List.Pairwise.nil
  | cons p l ih =>
    have hp := List.pairwise_cons.mp h
    exact insertKey_sorted k p _ (ih hp.2) fun q hq => (hp.1 q ((sortKeys_perm k l).mem_iff.mp hq)).symm

theorem sorted_unique (k : Key) (l m : List (Val k.ty × α)) (hl : Sorted k l) (hm : Sorted k m) (h : l.Perm m) : l = m := by
  induction l generalizing m with
  | nil => exact h.nil_eq
  | cons p l ih =>
    cases m with
    | nil => exact absurd h.length_eq (by simp)
    | cons q m =>
      have h1 := List.pairwise_cons.mp hl
      have h2 := List.pairwise_cons.mp hm
      have hpq : p = q := by
        rcases List.mem_cons.mp (h.mem_iff.mp (List.mem_cons_self)) with e | hp
        · exact e
        · rcases List.mem_cons.mp (h.mem_iff.mpr (List.mem_cons_self)) with e | hq
          · exact e.symm
          · have a := h2.1 p hp
            have b := h1.1 q hq
            have := lt_trans k _ _ _ a b
            rw [lt_irrefl] at this; cases this
      subst hpq
      rw [ih m h1.2 h2.2 (List.Perm.cons_inv h)]

theorem Keys.perm {l m : List (κ × α)} (h : Keys l) (hp : l.Perm m) : Keys m :=
  (hp.pairwise_iff fun h => h.symm).mp h

/-! ### maps -/

theorem put_new [DecidableEq κ] (m : List (κ × α)) (k : κ) (v : α) (h : ∀ p ∈ m, p.1 ≠ k) : put m k v = m ++ [(k, v)] := by
  induction m with
  | nil => rfl
  | cons p m ih =>
    rw [put, if_neg (h p List.mem_cons_self), ih fun q hq => h q (List.mem_cons_of_mem _ hq)]; rfl

theorem foldl_put_new [DecidableEq κ] (m l : List (κ × α)) (h : Keys (m ++ l)) :
    l.foldl (fun m p => put m p.1 p.2) m = m ++ l := by
  induction l generalizing m with
  | nil => simp
  | cons p l ih =>
    simp only [List.foldl_cons]
    have hp : put m p.1 p.2 = m ++ [p] := put_new m p.1 p.2 fun q hq => by
      have := List.pairwise_append.mp h
      exact this.2.2 q hq p List.mem_cons_self
    rw [hp, ih (m ++ [p]) (by simpa using h)]
    simp

theorem build_keys [DecidableEq κ] (l : List (κ × α)) (h : Keys l) : build l = l := by
  have := foldl_put_new [] l (by simpa using h)
  simpa [build] using this

theorem put_keys [DecidableEq κ] (m : List (κ × α)) (k : κ) (v : α) (h : Keys m) :
    Keys (put m k v) ∧ ∀ q ∈ put m k v, q = (k, v) ∨ q ∈ m := by
  induction m with
  | nil => exact ⟨List.pairwise_singleton _ _, fun q hq => by simpa [put] using hq⟩
  | cons p m ih =>
    have hp := List.pairwise_cons.mp h
    simp only [put]
    split
    case isTrue e =>
      refine ⟨List.pairwise_cons.mpr ⟨fun q hq => ?_, hp.2⟩, fun q hq => ?_⟩
      · have := hp.1 q hq; rw [e] at this; exact this
      · rcases List.mem_cons.mp hq with rfl | hq
        · exact .inl rfl
        · exact .inr (List.mem_cons_of_mem _ hq)
    case isFalse e =>
      have ih := ih hp.2
      refine ⟨List.pairwise_cons.mpr ⟨fun q hq => ?_, ih.1⟩, fun q hq => ?_⟩
      · rcases ih.2 q hq with rfl | hq
        · exact e
        · exact hp.1 q hq
      · rcases List.mem_cons.mp hq with rfl | hq
        · exact .inr List.mem_cons_self
        · rcases ih.2 q hq with h | h
          · exact .inl h
          · exact .inr (List.mem_cons_of_mem _ h)

/-- Look up in a list of pairs: the first with the key. -/
def get [DecidableEq κ] (l : List (κ × α)) (k : κ) : Option α := (l.find? fun p => p.1 = k).map Prod.snd

theorem get_put [DecidableEq κ] (m : List (κ × α)) (k j : κ) (v : α) : get (put m k v) j = if j = k then some v else get m j := by
  induction m with
  | nil =>
    by_cases h : k = j
    · subst h; simp [put, get]
    · have h' : ¬ j = k := fun h' => h h'.symm
      simp [put, get, h, h']
  | cons p m ih =>
    rw [put]
    by_cases e : p.1 = k
    · rw [if_pos e]
      by_cases h : j = k
      · subst h; simp [get]
      · have h' : ¬ k = j := fun h' => h h'.symm
        rw [if_neg h]; simp [get, e, h']
    · rw [if_neg e]
      simp only [get] at ih ⊢
      by_cases h : p.1 = j
      · have : ¬ j = k := fun h' => e (h.trans h')
        simp [h, this]
      · simp only [List.find?_cons, h, decide_false]
        exact ih

theorem foldl_build [DecidableEq κ] (l m : List (κ × α)) (hm : Keys m) (j : κ) :
    Keys (l.foldl (fun m p => put m p.1 p.2) m) ∧
    get (l.foldl (fun m p => put m p.1 p.2) m) j = ((get l.reverse j).or (get m j)) := by
  induction l generalizing m with
  | nil => exact ⟨hm, by simp [get]⟩
  | cons p l ih =>
    have hp := (put_keys m p.1 p.2 hm).1
    have := ih (put m p.1 p.2) hp
    refine ⟨this.1, ?_⟩
    rw [List.foldl_cons, this.2, get_put]
    simp only [get, List.reverse_cons, List.find?_append, List.find?_cons, List.find?_nil]
    by_cases h : p.1 = j
    · simp only [h, decide_true, if_true]
      cases List.find? (fun p => decide (p.1 = j)) l.reverse <;> simp
    · have h' : ¬ j = p.1 := fun h' => h h'.symm
      simp only [h, h', decide_false, if_false]
      cases List.find? (fun p => decide (p.1 = j)) l.reverse <;> simp

theorem decPairs_flatMap {κ α : Type} (fk : Bytes → Res κ) (fv : Bytes → Res α) (ek : κ → Bytes) (ev : α → Bytes) (l : List (κ × α))
    (hk : ∀ p ∈ l, ∀ rest, fk (ek p.1 ++ rest) = .ok p.1 rest) (hv : ∀ p ∈ l, ∀ rest, fv (ev p.2 ++ rest) = .ok p.2 rest)
    (h0 : fk [] = .eof) (n : Nat) (hn : l.length < n) :
    decPairs fk fv n (l.flatMap fun p => ek p.1 ++ ev p.2) = .ok l [] := by
  induction l generalizing n with
  | nil => cases n with
    | zero => simp at hn
    | succ n => simp [decPairs, h0]
  | cons p l ih => cases n with
    | zero => simp at hn
    | succ n =>
      rw [List.flatMap_cons, List.append_assoc, decPairs, hk p (by simp)]
      simp only
      rw [hv p (by simp)]
      simp only
      rw [ih (fun q hq => hk q (by simp [hq])) (fun q hq => hv q (by simp [hq])) n (by simp at hn; omega)]
      simp [Res.map]

theorem key_plain (k : Key) : Plain k.ty ∧ ∀ v : Val k.ty, isNilPtr k.ty v = false := by
  cases k <;> simp [Key.ty, Plain, isNilPtr]

theorem map_key (cap : Nat) (hc : cap < 2 ^ 63) (k : Key) (c : C α) (h : Elem c c.encN cap) (rest : Bytes) :
    (map k c).dec cap ((map k c).encN none ++ rest) = .ok none rest ∧
    ∀ l, Keys l → ((map k c).encN (some l)).length ≤ cap →
      (map k c).dec cap ((map k c).encN (some l) ++ rest) = .ok (some (sortKeys k l)) rest := by
  refine ⟨by simp only [map, encOpt, readList_null, inList, orNil, Res.map, Option.map], fun l hl hlen => ?_⟩
  simp only [map, encOpt] at hlen ⊢
  have hw := wList_len ((sortKeys k l).flatMap fun p => enc k.ty p.1 ++ c.encN p.2)
  rw [readList_wList _ rest (by omega)]
  simp only [inList]
  have hm : ∀ p ∈ sortKeys k l, (enc k.ty p.1).length ≤ cap ∧ (c.encN p.2).length ≤ cap := fun p hp => by
    have := flatMap_len_mem (fun p : Val k.ty × α => enc k.ty p.1 ++ c.encN p.2) (sortKeys k l) p hp
    simp only [List.length_append] at this; omega
  rw [decPairs_flatMap (Rlp.dec cap k.ty) (fun x => nullable c.zero (c.dec cap x)) (enc k.ty) c.encN (sortKeys k l)
    (fun p hp rest => (whole_ofTy cap hc k.ty (key_plain k).1 (key_plain k).2).2.2 p.1 rest (hm p hp).1)
    (fun p hp rest => h.2.2 p.2 rest (hm p hp).2) (dec_eof cap k.ty) _
    (by
      have := flatMap_len_ge (fun p : Val k.ty × α => enc k.ty p.1 ++ c.encN p.2) (sortKeys k l) (fun p => by
        simp [enc_ne_nil])
      omega)]
  simp only [orNil, Res.map, Option.map]
  rw [build_keys _ (hl.perm (sortKeys_perm k l).symm)]

/-! ### C154: values -/

/-- C154: the constructors keep the round trip. Whatever is read back at the parts is read back as a pointer, slice, array or struct;
for arrays and structs with the writer that is used for the parts. -/
theorem C154_constructors (cap : Nat) (hc : cap < 2 ^ 63) :
    (∀ t, Plain t → Elem (ofTy t) (ofTy t).encA cap ∧ Elem (ofTy t) (ofTy t).encN cap) ∧
    (∀ (α : Type) (c : C α), Whole c c.encA cap → (∀ rest, c.dec cap (nullSeq ++ rest) = .nil rest) →
      Elem (ptr c) (ptr c).encA cap ∧ Elem (ptr c) (ptr c).encN cap) ∧
    (∀ (α : Type) (c : C α), Elem c c.encA cap → Whole (slice c) (slice c).encA cap ∧ Whole (slice c) (slice c).encN cap) ∧
    (∀ (α : Type) n (c : C α), (Elem c c.encA cap → Whole (array n c) (array n c).encA cap) ∧
      (Elem c c.encN cap → Whole (array n c) (array n c).encN cap)) ∧
    (Fields fnil fnil.encA cap ∧ Fields fnil fnil.encN cap) ∧
    (∀ (α β : Type) (c : C α) (fs : F β),
      (Elem c c.encA cap → Fields fs fs.encA cap → Fields (fcons c fs) (fcons c fs).encA cap) ∧
      (Elem c c.encN cap → Fields fs fs.encN cap → Fields (fcons c fs) (fcons c fs).encN cap)) ∧
    (∀ (α : Type) (fs : F α), (Fields fs fs.encA cap → Whole (struct fs) (struct fs).encA cap) ∧
      (Fields fs fs.encN cap → Whole (struct fs) (struct fs).encN cap)) :=
  ⟨fun t hp => ⟨elem_ofTy cap hc t hp, elem_ofTy cap hc t hp⟩,
   fun _ c h hz => elem_ptr cap c h hz,
   fun _ c h => whole_slice cap hc c h,
   fun _ n c => ⟨fun h => array_key cap hc n c c.encA h, fun h => array_key cap hc n c c.encN h⟩,
   fields_nil cap,
   fun _ _ c fs => ⟨fun h hs => fields_cons_key cap c fs c.encA fs.encA h hs, fun h hs => fields_cons_key cap c fs c.encN fs.encN h hs⟩,
   fun _ fs => ⟨fun h => (struct_key cap hc fs fs.encA h).1, fun h => (struct_key cap hc fs fs.encN h).1⟩⟩

/-- C154: an object given by pointer is read back if its parts are; one given by value, if they are with the other writer. -/
theorem C154_calls (cap : Nat) (c : C α) :
    (Whole c c.encA cap → ∀ v rest, (marshalPtr c v).length ≤ cap → unmarshal c cap (marshalPtr c v ++ rest) = some (v, rest)) ∧
    (Whole c c.encN cap → ∀ v rest, (marshalValue c v).length ≤ cap → unmarshal c cap (marshalValue c v ++ rest) = some (v, rest)) := by
  refine ⟨fun h v rest hl => ?_, fun h v rest hl => ?_⟩
  · simp only [unmarshal, marshalPtr, ptr, encOpt] at hl ⊢
    rw [h.2.2 v rest hl]
  · simp only [unmarshal, marshalValue] at hl ⊢
    rw [h.2.2 v rest hl]

/-- C154: passing by value or by pointer makes no difference for types without custom methods, for pointers, slices and maps of
anything, and for arrays and structs of parts for which it makes none. -/
theorem C154_same_partial :
    (∀ t, Same (ofTy t)) ∧ (∀ (α : Type) (c : C α), Same (ptr c) ∧ Same (slice c) ∧ ∀ k, Same (map k c)) ∧
    (∀ (α : Type) n (c : C α), Same c → Same (array n c)) ∧
    (∀ (α β : Type) (c : C α) (fs : F β), Same c → (∀ v, fs.encA v = fs.encN v) → Same (struct (fcons c fs))) := by
  refine ⟨fun _ _ => rfl, fun _ c => ⟨fun _ => rfl, fun _ => rfl, fun _ _ => rfl⟩, fun _ n c h v => ?_, fun _ _ c fs h hs v => ?_⟩
  · have : c.encA = c.encN := funext h
    simp only [array, this]
  · simp only [struct, fcons, h v.1, hs v.2]

theorem enc_hexIntW (w : Width) (v : BitVec w.bits) : enc (.int .w64) (BitVec.ofInt 64 v.toInt) = enc (.int w) v := by
  simp only [enc]
  have h : (BitVec.ofInt (Width.w64).bits v.toInt).toInt = v.toInt := by
    rw [BitVec.toInt_ofInt]
    have h1 := BitVec.le_toInt v
    have h2 := BitVec.toInt_lt (x := v)
    cases w <;> simp only [Width.bits] at * <;> rw [Int.bmod_eq_of_le] <;> omega
  exact congrArg (fun i => wBytes (int64ToBytes i)) h

theorem enc_hexUintW (w : Width) (hw : w.bits < 64) (v : BitVec w.bits) :
    enc (.int .w64) (BitVec.ofNat 64 v.toNat) = enc (.uint w) v := by
  simp only [enc]
  have hv : v.toNat < 2 ^ 32 := by
    have := v.isLt
    cases w <;> simp only [Width.bits] at * <;> omega
  have h : (BitVec.ofNat (Width.w64).bits v.toNat).toInt = (v.toNat : Int) := by
    have h64 : (Width.w64).bits = 64 := rfl
    generalize v.toNat = n at hv
    rw [h64, BitVec.toInt_eq_toNat_of_lt] <;> rw [BitVec.toNat_ofNat] <;> omega
  have h1 := (C04_encoders_agree v.toNat).1 (by omega) (by omega)
  have h2 := (C04_encoders_agree v.toNat).2 (by omega) (by omega)
  have e : int64ToBytes (v.toNat : Int) = uint64ToBytes v.toNat := by rw [h1, ← h2]; simp
  refine Eq.trans (congrArg (fun i => wBytes (int64ToBytes i)) h) ?_
  exact congrArg wBytes e

/-- C154: the numbers of the relay with custom methods are read back when they are addressable. -/
theorem C154_hex (cap : Nat) (hc : cap < 2 ^ 63) :
    Whole hexInt hexInt.encA cap ∧ (∀ w, Whole (hexIntW w) (hexIntW w).encA cap) ∧
    (∀ w, w.bits < 64 → Whole (hexUintW w) (hexUintW w).encA cap) ∧ Whole hexUint64 hexUint64.encA cap := by
  refine ⟨whole_binary cap hc _ _ _ _ fun v => ⟨_, rfl, ?_⟩, fun w => ⟨fun v => enc_ne_nil _ _, dec_eof cap _, fun v rest hl => ?_⟩,
    fun w hw => ⟨fun v => enc_ne_nil _ _, dec_eof cap _, fun v rest hl => ?_⟩,
    ⟨fun v => enc_ne_nil _ _, dec_eof cap _, fun v rest hl =>
      (whole_ofTy cap hc (.uint .w64) (by simp [Plain]) (fun _ => rfl)).2.2 v rest hl⟩⟩
  · rw [(C04_bigInt_roundtrip v).1]
  · simp only [hexIntW, selfC] at hl ⊢
    rw [enc_hexIntW] at hl ⊢
    exact (whole_ofTy cap hc (.int w) (by simp [Plain]) (fun _ => rfl)).2.2 v rest hl
  · simp only [hexUintW, selfC] at hl ⊢
    rw [enc_hexUintW w hw] at hl ⊢
    exact (whole_ofTy cap hc (.uint w) (by simp [Plain]) (fun _ => rfl)).2.2 v rest hl

/-- C154, witness that a `HexInt` passed by value loses its number: all are written as the same bytes, which are not a `HexInt`. The
same holds for the values of a map and for the fields of a struct passed by value. -/
theorem C154_by_value_false (cap : Nat) :
    (∀ v w, marshalValue hexInt v = marshalValue hexInt w) ∧
    (∀ v rest, unmarshal hexInt cap (marshalValue hexInt v ++ rest) = none) ∧
    (∀ k v w, marshalPtr (map .str hexInt) (some [(k, v)]) = marshalPtr (map .str hexInt) (some [(k, w)])) ∧
    (∀ v w, marshalValue (struct (fcons hexInt fnil)) (v, ()) = marshalValue (struct (fcons hexInt fnil)) (w, ())) ∧
    (∀ v, unmarshal (struct (fcons hexInt fnil)) cap (marshalValue (struct (fcons hexInt fnil)) (v, ())) = none) := by
  have hb : ∀ rest, hexInt.dec cap ([0xc1, 0xc0] ++ rest) = .err := fun rest => by
    simp [hexInt, binaryC, readBytes, thenOf]
  have he : ∀ v, hexInt.encN v = [0xc1, 0xc0] := fun v => by
    show wList (wList []) = _
    decide
  refine ⟨fun _ _ => rfl, fun v rest => ?_, fun _ _ _ => rfl, fun _ _ => rfl, fun v => ?_⟩
  · simp only [unmarshal, marshalValue, he, hb]
  · have h0 : marshalValue (struct (fcons hexInt fnil)) (v, ()) = wList [0xc1, 0xc0] := by
      simp only [marshalValue, struct, fcons, fnil, he, List.append_nil]
    have h1 := readList_wList [0xc1, 0xc0] [] (by decide)
    have h2 := hb []
    rw [List.append_nil] at h1 h2
    rw [h0]
    simp only [unmarshal, struct, h1, inList, fcons, h2, nullable]

/-! ### C154: maps -/

/-- C154: a map is read back: the same entries, in the order of their keys. -/
theorem C154_map (cap : Nat) (hc : cap < 2 ^ 63) (k : Key) (c : C α) (h : Elem c c.encN cap) (l : List (Val k.ty × α)) (hl : Keys l)
    (rest : Bytes) (hlen : (marshalPtr (map k c) (some l)).length ≤ cap) :
    ∃ m, unmarshal (map k c) cap (marshalPtr (map k c) (some l) ++ rest) = some (some m, rest) ∧ m.Perm l ∧ Keys m ∧ Sorted k m := by
  refine ⟨sortKeys k l, ?_, sortKeys_perm k l, hl.perm (sortKeys_perm k l).symm, sortKeys_sorted k l hl⟩
  have := (map_key cap hc k c h rest).2 l hl hlen
  have he : marshalPtr (map k c) (some l) = (map k c).encN (some l) := rfl
  unfold unmarshal
  rw [he, this]

/-- C154: the bytes of a map do not depend on the order in which the runtime goes through it, and maps with other entries have
other bytes. -/
theorem C154_map_bytes (cap : Nat) (hc : cap < 2 ^ 63) (k : Key) (c : C α) (l m : List (Val k.ty × α)) (hl : Keys l) (hm : Keys m) :
    (l.Perm m → marshalPtr (map k c) (some l) = marshalPtr (map k c) (some m)) ∧
    (Elem c c.encN cap → (marshalPtr (map k c) (some l)).length ≤ cap →
      marshalPtr (map k c) (some l) = marshalPtr (map k c) (some m) → l.Perm m) := by
  constructor
  · intro h
    have : sortKeys k l = sortKeys k m :=
      sorted_unique k _ _ (sortKeys_sorted k l hl) (sortKeys_sorted k m hm)
        ((sortKeys_perm k l).trans (h.trans (sortKeys_perm k m).symm))
    simp only [marshalPtr, ptr, encOpt, map, this]
  · intro h hlen he
    have h1 := (map_key cap hc k c h []).2 l hl hlen
    have h2 := (map_key cap hc k c h []).2 m hm (by
      have : (map k c).encN (some l) = (map k c).encN (some m) := he
      rw [← this]; exact hlen)
    have : (map k c).encN (some l) = (map k c).encN (some m) := he
    rw [this, h2] at h1
    simp only [Res.ok.injEq, Option.some.injEq, and_true] at h1
    exact (sortKeys_perm k l).symm.trans (h1 ▸ sortKeys_perm k m)

/-- C154: entries in any order are accepted; of several with one key the last counts. So a map has more than one encoding that is
accepted. -/
theorem C154_map_last (cap : Nat) (hc : cap < 2 ^ 63) (k : Key) (c : C α) (h : Elem c c.encN cap) (l : List (Val k.ty × α))
    (rest : Bytes) (hlen : (wList (l.flatMap fun p => enc k.ty p.1 ++ c.encN p.2)).length ≤ cap) :
    ∃ m, (map k c).dec cap (wList (l.flatMap fun p => enc k.ty p.1 ++ c.encN p.2) ++ rest) = .ok (some m) rest ∧ Keys m ∧
      ∀ j, get m j = get l.reverse j := by
  refine ⟨build l, ?_, (foldl_build l [] List.Pairwise.nil (zero k.ty)).1, fun j => ?_⟩
  · have hw := wList_len (l.flatMap fun p => enc k.ty p.1 ++ c.encN p.2)
    simp only [map]
    rw [readList_wList _ rest (by omega)]
    simp only [inList]
    have hm : ∀ p ∈ l, (enc k.ty p.1).length ≤ cap ∧ (c.encN p.2).length ≤ cap := fun p hp => by
      have := flatMap_len_mem (fun p : Val k.ty × α => enc k.ty p.1 ++ c.encN p.2) l p hp
      simp only [List.length_append] at this; omega
    rw [decPairs_flatMap (Rlp.dec cap k.ty) (fun x => nullable c.zero (c.dec cap x)) (enc k.ty) c.encN l
      (fun p hp rest => (whole_ofTy cap hc k.ty (key_plain k).1 (key_plain k).2).2.2 p.1 rest (hm p hp).1)
      (fun p hp rest => h.2.2 p.2 rest (hm p hp).2) (dec_eof cap k.ty) _
      (by
        have := flatMap_len_ge (fun p : Val k.ty × α => enc k.ty p.1 ++ c.encN p.2) l (fun p => by simp [enc_ne_nil])
        omega)]
    simp only [orNil, Res.map, Option.map]
  · rw [build, (foldl_build l [] List.Pairwise.nil j).2]
    simp [get]

/-- C154: a key without a value and a null key are refused. -/
theorem C154_map_refused (cap : Nat) (hc : cap < 2 ^ 63) (k : Key) (c : C α) (h : c.dec cap [] = .eof) (a : Val k.ty) (x rest : Bytes)
    (hl : (wList (enc k.ty a)).length ≤ cap) (hx : (nullSeq ++ x).length < 2 ^ 63) :
    (map k c).dec cap (wList (enc k.ty a) ++ rest) = .err ∧ (map k c).dec cap (wList (nullSeq ++ x) ++ rest) = .err := by
  have hw := wList_len (enc k.ty a)
  have hk : Rlp.dec cap k.ty (enc k.ty a) = .ok a [] := by
    have := (whole_ofTy cap hc k.ty (key_plain k).1 (key_plain k).2).2.2 a [] (by omega)
    rwa [List.append_nil] at this
  have hn : Rlp.dec cap k.ty (nullSeq ++ x) = .nil x := by
    rw [dec_null]; cases k <;> rfl
  constructor
  · simp only [map]
    rw [readList_wList _ rest (by omega)]
    simp only [inList, decPairs, hk, h, nullable, orNil, Res.map]
  · simp only [map]
    rw [readList_wList _ rest (by omega)]
    simp only [inList, decPairs, hn, orNil, Res.map]

/-! ### C154: lists of objects -/

/-- C154: objects written by `EncodeListOf` are read back by `DecodeListOf`; a list that ends before all have been read is refused (a
struct with the same fields would be accepted, the fields that are missing being zero). -/
theorem C154_listOf (cap : Nat) (hc : cap < 2 ^ 63) :
    (∀ (α : Type) (fs : F α) v rest, Fields fs fs.encN cap → (encodeListOf fs v).length ≤ cap →
      decodeListOf fs cap (encodeListOf fs v ++ rest) = .ok v rest) ∧
    (∀ (α β : Type) (c : C α) (fs : F β), c.dec cap [] = .eof → (fcons c fs).decAll cap [] = .err) ∧
    (∀ (α β : Type) (c : C α) (fs : F β) v rest, Elem c c.encN cap → fs.decAll cap [] = .err → (wList (c.encN v)).length ≤ cap →
      decodeListOf (fcons c fs) cap (wList (c.encN v) ++ rest) = .err) ∧
    (∀ (α β γ : Type) (c : C α) (d : C β) (fs : F γ) v rest, Elem c c.encN cap → d.dec cap [] = .eof → (wList (c.encN v)).length ≤ cap →
      (struct (fcons c (fcons d fs))).dec cap (wList (c.encN v) ++ rest) = .ok (v, d.zero, fs.zero) rest) := by
  refine ⟨fun _ fs v rest h hl => (struct_key cap hc fs fs.encN h).2 v rest hl, fun _ _ c fs h => ?_, fun _ _ c fs v rest h hs hl => ?_,
    fun _ _ _ c d fs v rest h hd hl => ?_⟩
  · simp only [fcons, h, nullable]
  · have hw := wList_len (c.encN v)
    simp only [decodeListOf]
    rw [readList_wList _ rest (by omega)]
    have := h.2.2 v [] (by omega)
    rw [List.append_nil] at this
    simp only [inList, fcons, this, hs, Res.map]
  · have hw := wList_len (c.encN v)
    simp only [struct]
    rw [readList_wList _ rest (by omega)]
    have := h.2.2 v [] (by omega)
    rw [List.append_nil] at this
    have hd' : nullable d.zero (d.dec cap []) = .eof := by rw [hd]; rfl
    simp only [inList, fcons, this, hd', Res.map]

/-! ### C154: Skip -/

theorem skipN_readAll {n : Nat} {r b r' : Bytes} (hn : n < 2 ^ 63) (h : readAll n r = .ok b r') : skipN n r = .ok () r' := by
  unfold readAll at h
  unfold skipN
  rw [if_neg (by omega)]
  split at h
  · cases h
  · rw [if_neg (by assumption)]; cases h; rfl

/-- C154: `Skip` goes past exactly what `ReadRaw` returns. -/
theorem C154_skip_raw (cap : Nat) (hc : cap < 2 ^ 63) (bs b r : Bytes) (h : readRaw cap bs = .ok b r) : skipOne bs = .ok () r := by
  cases bs with
  | nil => simp [readRaw] at h
  | cons tag bs =>
    have more : ∀ (hd : Bytes) (n : Nat) (x : Bytes),
        (if hd.length + n > cap then Res.panic else (readAll n x).map (hd ++ ·)) = .ok b r → skipN n x = .ok () r := by
      intro hd n x h
      by_cases hcap : hd.length + n > cap
      · rw [if_pos hcap] at h; cases h
      · rw [if_neg hcap] at h
        obtain ⟨y, hy, _⟩ := map_ok h
        exact skipN_readAll (by omega) hy
    simp only [readRaw] at h
    simp only [skipOne]
    split
    · rename_i h1; rw [if_pos h1] at h; cases h; rfl
    · rename_i h1
      rw [if_neg h1] at h
      split
      · rename_i h2; rw [if_pos h2] at h; exact more _ _ _ h
      · rename_i h2
        rw [if_neg h2] at h
        split
        · rename_i h3
          rw [if_pos h3] at h
          split
          · rename_i szb r' hr; rw [hr] at h; exact more _ _ _ h
          · rename_i hno; split at h
            · rename_i szb r' hr; exact absurd hr (hno szb r')
            · cases h
        · rename_i h3
          rw [if_neg h3] at h
          split
          · rename_i h4; rw [if_pos h4] at h; exact more _ _ _ h
          · rename_i h4
            rw [if_neg h4] at h
            split
            · rename_i szb r' hr; rw [hr] at h; exact more _ _ _ h
            · rename_i hno; split at h
              · rename_i szb r' hr; exact absurd hr (hno szb r')
              · cases h

/-- C154: the other way round: what `Skip` goes past is what `ReadRaw` returns, or a size that `ReadRaw` does not survive. -/
theorem C154_skip_only (cap : Nat) (hc : cap < 2 ^ 63) (bs r : Bytes) (h : skipOne bs = .ok () r) :
    readRaw cap bs = .panic ∨ ∃ b, readRaw cap bs = .ok b r ∧ bs = b ++ r := by
  cases bs with
  | nil => simp [skipOne] at h
  | cons tag bs =>
    have more : ∀ (hd : Bytes) (n : Nat) (x : Bytes), tag :: bs = hd ++ x → skipN n x = .ok () r →
        (if hd.length + n > cap then Res.panic else (readAll n x).map (hd ++ ·)) = .panic ∨
        ∃ b, (if hd.length + n > cap then Res.panic else (readAll n x).map (hd ++ ·)) = .ok b r ∧ tag :: bs = b ++ r := by
      intro hd n x hx h
      by_cases hcap : hd.length + n > cap
      · exact .inl (if_pos hcap)
      · rw [if_neg hcap]
        unfold skipN at h
        rw [if_neg (by omega)] at h
        split at h
        · cases h
        · rename_i hn
          cases h
          exact .inr ⟨hd ++ x.take n, by simp [readAll, hn, Res.map], by simp [hx]⟩
    have size : ∀ (n : Nat) (szb x : Bytes), readAll n bs = .ok szb x → tag :: bs = (tag :: szb) ++ x := by
      intro n szb x hr
      unfold readAll at hr
      split at hr
      · cases hr
      · cases hr; simp
    simp only [skipOne] at h
    simp only [readRaw]
    split at h
    · rename_i h1; rw [if_pos h1]; cases h; exact .inr ⟨[tag], rfl, rfl⟩
    · rename_i h1
      rw [if_neg h1]
      split at h
      · rename_i h2; rw [if_pos h2]; exact more _ _ _ rfl h
      · rename_i h2
        rw [if_neg h2]
        split at h
        · rename_i h3
          rw [if_pos h3]
          split at h
          · rename_i szb r' hr; rw [hr]; exact more _ _ _ (size _ _ _ hr) h
          · cases h
        · rename_i h3
          rw [if_neg h3]
          split at h
          · rename_i h4; rw [if_pos h4]; exact more _ _ _ rfl h
          · rename_i h4
            rw [if_neg h4]
            split at h
            · rename_i szb r' hr; rw [hr]; exact more _ _ _ (size _ _ _ hr) h
            · cases h

/-- Number of fields. -/
def len : Tys → Nat
  | .nil => 0
  | .cons _ ts => len ts + 1

/-- C154: `Skip(n)` goes past n values of whatever types. -/
theorem C154_skip (ts : Tys) (vs : Vals ts) (rest : Bytes) (h : (encs ts vs).length < 2 ^ 63 - 2) :
    skip (len ts) (encs ts vs ++ rest) = .ok () rest :=
  match ts, vs with
  | .nil, _ => rfl
  | .cons t ts, v => by
    simp only [encs, List.length_append] at h
    have h1 := C154_skip_raw (2 ^ 63 - 1) (by omega) _ _ _
      (C07_readRaw (2 ^ 63 - 1) (by omega) (by omega) t v.1 (encs ts v.2 ++ rest) (by omega))
    simp only [len, skip, encs, List.append_assoc, h1]
    exact C154_skip ts v.2 rest (by omega)

/-- C154, witness that `Skip` accepts what is no value: a byte string said to have 2^63 bytes is skipped as if it had none. -/
theorem C154_skip_false : skipOne [0xbf, 0x80, 0, 0, 0, 0, 0, 0, 0, 7] = .ok () [7] ∧
    ∀ cap, cap < 2 ^ 63 → readRaw cap [0xbf, 0x80, 0, 0, 0, 0, 0, 0, 0, 7] = .panic := by
  constructor
  · decide +kernel
  · intro cap hc
    have h1 : readAll (191 - 183) [0x80, 0, 0, 0, 0, 0, 0, 0, 7] = .ok [0x80, 0, 0, 0, 0, 0, 0, 0] [7] := by decide
    have h2 : bytesToSize [0x80, 0, 0, 0, 0, 0, 0, 0] = 2 ^ 63 := by decide
    have h3 : (0xbf : UInt8).toNat = 191 := by decide
    simp only [readRaw, h3]
    rw [if_neg (by omega), if_neg (by omega), if_pos (by omega), h1]
    simp only [h2]
    rw [if_pos (by simp only [List.length_cons, List.length_nil]; omega)]

/-! ### C154: the encoder used step by step -/

mutual
/-- What is meant to be written: a value (its bytes), or a list. -/
inductive Tree where
  | value (bs : Bytes)
  | list (ts : Trees)
inductive Trees where
  | nil
  | cons (t : Tree) (ts : Trees)
end

mutual
/-- The bytes meant. -/
def encT : Tree → Bytes
  | .value bs => bs
  | .list ts => wList (encTs ts)
def encTs : Trees → Bytes
  | .nil => []
  | .cons t ts => encT t ++ encTs ts
end

mutual
/-- The calls that write it with encoder `id`, the next list getting number `n`; and the number after them. -/
def calls (id n : Nat) : Tree → List (Nat × Call) × Nat
  | .value bs => ([(id, .value bs)], n)
  | .list ts => ((id, .list) :: (callss n (n + 1) ts).1, (callss n (n + 1) ts).2)
def callss (id n : Nat) : Trees → List (Nat × Call) × Nat
  | .nil => ([], n)
  | .cons t ts =>
    ((calls id n t).1 ++ (callss id (calls id n t).2 ts).1, (callss id (calls id n t).2 ts).2)
end

/-- What the open lists `inner` come to when they are closed. -/
def col (inner : List (Nat × Bytes)) : Bytes := inner.foldl (fun acc f => wList (f.2 ++ acc)) []

theorem closeTo_here (id : Nat) (b : Bytes) (outer : List (Nat × Bytes)) : closeTo id ((id, b) :: outer) = (id, b) :: outer := by
  cases outer with
  | nil => rw [closeTo]; intro i b j b' fs h; cases h
  | cons f fs => rw [closeTo, if_pos rfl]

theorem closeTo_inner (id : Nat) (b : Bytes) (outer inner : List (Nat × Bytes)) (h : ∀ f ∈ inner, f.1 ≠ id) :
    closeTo id (inner ++ (id, b) :: outer) = (id, b ++ col inner) :: outer := by
  have key : ∀ (inner : List (Nat × Bytes)) (i : Nat) (x : Bytes), i ≠ id → (∀ f ∈ inner, f.1 ≠ id) →
      closeTo id ((i, x) :: (inner ++ (id, b) :: outer)) =
        (id, b ++ inner.foldl (fun acc f => wList (f.2 ++ acc)) (wList x)) :: outer := by
    intro inner
    induction inner with
    | nil =>
      intro i x hi _
      rw [List.nil_append, closeTo, if_neg hi, closeTo_here]; rfl
    | cons f inner ih =>
      intro i x hi hf
      obtain ⟨j, y⟩ := f
      rw [List.cons_append, closeTo, if_neg hi, ih j _ (hf (j, y) List.mem_cons_self) fun g hg => hf g (List.mem_cons_of_mem _ hg)]
      rfl
  cases inner with
  | nil => rw [List.nil_append, closeTo_here]; simp [col]
  | cons f inner =>
    obtain ⟨i, x⟩ := f
    rw [List.cons_append, key inner i x (h (i, x) List.mem_cons_self) fun g hg => h g (List.mem_cons_of_mem _ hg)]
    simp [col]

theorem run_append (s : Enc) (xs ys : List (Nat × Call)) : s.run (xs ++ ys) = (s.run xs).run ys := by
  induction xs generalizing s with
  | nil => rfl
  | cons x xs ih => simp only [List.cons_append, Enc.run, ih]

theorem call_value (n id : Nat) (inner outer : List (Nat × Bytes)) (b bs : Bytes) (h : ∀ f ∈ inner, f.1 ≠ id) :
    Enc.call ⟨n, inner ++ (id, b) :: outer⟩ id (.value bs) = ⟨n, (id, b ++ col inner ++ bs) :: outer⟩ := by
  have : (inner ++ (id, b) :: outer).any (fun f => f.1 = id) = true := by simp
  simp only [Enc.call, this, if_true, closeTo_inner id b outer inner h]

theorem call_list (n id : Nat) (inner outer : List (Nat × Bytes)) (b : Bytes) (h : ∀ f ∈ inner, f.1 ≠ id) :
    Enc.call ⟨n, inner ++ (id, b) :: outer⟩ id .list = ⟨n + 1, (n, []) :: (id, b ++ col inner) :: outer⟩ := by
  have : (inner ++ (id, b) :: outer).any (fun f => f.1 = id) = true := by simp
  simp only [Enc.call, this, if_true, closeTo_inner id b outer inner h]

theorem col_snoc (inner : List (Nat × Bytes)) (n : Nat) (b : Bytes) : col (inner ++ [(n, b)]) = wList (b ++ col inner) := by
  simp [col]

mutual
theorem run_calls (t : Tree) (id n : Nat) (inner outer : List (Nat × Bytes)) (b : Bytes) (h : ∀ f ∈ inner, f.1 ≠ id) :
    ∃ inner' b', (Enc.mk n (inner ++ (id, b) :: outer)).run (calls id n t).1 = ⟨(calls id n t).2, inner' ++ (id, b') :: outer⟩ ∧
      b' ++ col inner' = b ++ col inner ++ encT t ∧ (∀ f ∈ inner', n ≤ f.1) ∧ n ≤ (calls id n t).2 := by
  cases t with
  | value bs =>
    refine ⟨[], b ++ col inner ++ bs, ?_, ?_, by simp, Nat.le_refl _⟩
    · simp only [calls, Enc.run, call_value n id inner outer b bs h, List.nil_append]
    · simp [col, encT]
  | list ts =>
    obtain ⟨inner', b', h1, h2, h3, h4⟩ := run_callss ts n (n + 1) [] ((id, b ++ col inner) :: outer) [] (by omega) (by simp)
    refine ⟨inner' ++ [(n, b')], b ++ col inner, ?_, ?_, ?_, ?_⟩
    · simp only [calls, Enc.run, call_list n id inner outer b h]
      rw [List.nil_append] at h1
      rw [h1]; simp
    · rw [col_snoc, h2]
      simp [encT, col]
    · intro f hf
      rcases List.mem_append.mp hf with hf | hf
      · rcases h3 f hf with hf | hf
        · cases hf
        · omega
      · simp at hf; subst hf; exact Nat.le_refl _
    · simp only [calls]; omega
theorem run_callss (ts : Trees) (id n : Nat) (inner outer : List (Nat × Bytes)) (b : Bytes) (hid : id < n)
    (h : ∀ f ∈ inner, f.1 ≠ id) :
    ∃ inner' b', (Enc.mk n (inner ++ (id, b) :: outer)).run (callss id n ts).1 = ⟨(callss id n ts).2, inner' ++ (id, b') :: outer⟩ ∧
      b' ++ col inner' = b ++ col inner ++ encTs ts ∧ (∀ f ∈ inner', f ∈ inner ∨ n ≤ f.1) ∧ n ≤ (callss id n ts).2 := by
  cases ts with
  | nil => exact ⟨inner, b, rfl, by simp [encTs], fun f hf => .inl hf, Nat.le_refl _⟩
  | cons t ts =>
    obtain ⟨i1, b1, h1, h2, h3, h4⟩ := run_calls t id n inner outer b h
    obtain ⟨i2, b2, g1, g2, g3, g4⟩ := run_callss ts id (calls id n t).2 i1 outer b1 (by omega) (fun f hf => by
      have := h3 f hf; omega)
    refine ⟨i2, b2, ?_, ?_, ?_, ?_⟩
    · simp only [callss, run_append, h1, g1]
    · rw [g2, h2]; simp [encTs]
    · intro f hf
      rcases g3 f hf with hf | hf
      · exact .inr (h3 f hf)
      · exact .inr (by omega)
    · simp only [callss]; omega
end

/-- C154: writing values and nested lists step by step, each list finished before its parent goes on, gives the bytes meant. -/
theorem C154_steps (ts : Trees) : (Enc.start.run (callss 0 1 ts).1).out = encTs ts := by
  obtain ⟨i, b, h1, h2, h3, _⟩ := run_callss ts 0 1 [] [] [] (by omega) (by simp)
  rw [List.nil_append] at h1
  have h1 : Enc.start.run (callss 0 1 ts).1 = ⟨(callss 0 1 ts).2, i ++ [(0, b)]⟩ := h1
  rw [h1]
  simp only [Enc.out]
  rw [closeTo_inner 0 b [] i (fun f hf => by
    rcases h3 f hf with hf | hf
    · cases hf
    · omega)]
  simp only [h2]
  simp [col]

/-- Bytes that consist of values of `vs` and of lists of such. -/
inductive Made (vs : List Bytes) : Bytes → Prop
  | nil : Made vs []
  | value {x v} : Made vs x → v ∈ vs → Made vs (x ++ v)
  | list {x y} : Made vs x → Made vs y → Made vs (x ++ wList y)

theorem closeTo_made (vs : List Bytes) (id : Nat) (fs : List (Nat × Bytes)) (h : ∀ f ∈ fs, Made vs f.2) :
    ∀ f ∈ closeTo id fs, Made vs f.2 := by
  induction hn : fs.length generalizing fs with
  | zero =>
    have : fs = [] := List.length_eq_zero_iff.mp hn
    subst this; rw [closeTo]
    · exact h
    · intro i b j b' fs h; cases h
  | succ n ih =>
    match fs, hn with
    | [f], _ =>
      rw [closeTo]
      · exact h
      · intro i b j b' fs h; cases h
    | (i, b) :: (j, b') :: fs, hn =>
      rw [closeTo]
      split
      · exact h
      · refine ih _ (fun f hf => ?_) (by simpa using hn)
        rcases List.mem_cons.mp hf with rfl | hf
        · exact .list (h (j, b') (by simp)) (h (i, b) (by simp))
        · exact h f (by simp [hf])

/-- The values given in calls. -/
def given (cs : List (Nat × Call)) : List Bytes :=
  cs.filterMap fun c => match c.2 with
    | .value bs => some bs
    | .list => none

theorem call_made (vs : List Bytes) (s : Enc) (id : Nat) (c : Call) (hs : ∀ f ∈ s.frames, Made vs f.2)
    (hc : ∀ bs, c = .value bs → bs ∈ vs) : ∀ f ∈ (s.call id c).frames, Made vs f.2 := by
  have hcl := closeTo_made vs id s.frames hs
  unfold Enc.call
  split
  · cases c with
    | value bs =>
      cases hfr : closeTo id s.frames with
      | nil => exact hs
      | cons f fs =>
        rw [hfr] at hcl
        intro g hg
        rcases List.mem_cons.mp hg with rfl | hg
        · exact .value (hcl f List.mem_cons_self) (hc bs rfl)
        · exact hcl g (List.mem_cons_of_mem _ hg)
    | list =>
      intro g hg
      rcases List.mem_cons.mp hg with rfl | hg
      · exact .nil
      · exact hcl g hg
  · cases c <;> exact hs

/-- C154: whatever calls are made in whatever order, also of encoders whose list has been closed: the output consists of given values and of
lists of such. -/
theorem C154_any_calls (cs : List (Nat × Call)) : Made (given cs) (Enc.start.run cs).out := by
  have key : ∀ (ds : List (Nat × Call)) (s : Enc), (∀ bs, bs ∈ given ds → bs ∈ given cs) → (∀ f ∈ s.frames, Made (given cs) f.2) →
      ∀ f ∈ (s.run ds).frames, Made (given cs) f.2 := by
    intro ds
    induction ds with
    | nil => intro s _ hs; exact hs
    | cons d ds ih =>
      intro s hd hs
      refine ih _ (fun bs hb => hd bs ?_) (call_made _ s d.1 d.2 hs fun bs hbs => hd bs ?_)
      · simp only [given, List.filterMap_cons] at hb ⊢
        split
        · exact hb
        · exact List.mem_cons_of_mem _ hb
      · simp [given, hbs]
  have := closeTo_made (given cs) 0 _ (key cs Enc.start (fun _ h => h) (fun f hf => by
    simp only [Enc.start, List.mem_singleton] at hf; subst hf; exact .nil))
  unfold Enc.out
  cases hfr : closeTo 0 (Enc.start.run cs).frames with
  | nil => exact .nil
  | cons f fs => exact this f (by rw [hfr]; exact List.mem_cons_self)

/-- C154, witness that a value is lost when it is given to an encoder whose parent has gone on. -/
theorem C154_late_false :
    (Enc.start.run [(0, .list), (1, .value [1]), (0, .value [2]), (1, .value [3])]).out = wList [1] ++ [2] := by
  have h1 := call_list 1 0 [] [] [] (by simp)
  have h2 := call_value 2 1 [] [(0, [])] [] [1] (by simp)
  have h3 := call_value 2 0 [(1, [1])] [] [] [2] (by simp)
  simp only [List.nil_append, List.cons_append, List.append_nil, col, List.foldl] at h1 h2 h3
  simp only [Enc.run, Enc.start, h1, h2, h3]
  have h4 : Enc.call ⟨2, [(0, wList [1] ++ [2])]⟩ 1 (.value [3]) = ⟨2, [(0, wList [1] ++ [2])]⟩ := by
    simp [Enc.call]
  rw [h4]
  simp only [Enc.out, closeTo_here]

/-! ### examples -/

/-- A map from names to pointers to numbers, and a struct with a number and a list of numbers: what the relay can read back. -/
example : Whole (ptr hexInt) (ptr hexInt).encN 1000 = Whole (ptr hexInt) (ptr hexInt).encA 1000 := rfl
example : Elem (ptr hexInt) (ptr hexInt).encN 1000 :=
  (elem_ptr 1000 hexInt (C154_hex 1000 (by omega)).1 (fun rest => by
    simp only [hexInt, binaryC, readBytes_null, thenOf])).2
example : Whole (struct (fcons hexInt (fcons (slice hexInt) fnil))) (struct (fcons hexInt (fcons (slice hexInt) fnil))).encA 1000 :=
  (struct_key 1000 (by omega) _ _ (fields_cons_key 1000 _ _ _ _ (C154_hex 1000 (by omega)).1.elem
    (fields_cons_key 1000 _ _ _ _ (whole_slice 1000 (by omega) _ (C154_hex 1000 (by omega)).1.elem).1.elem (fields_nil 1000).1))).1
example : marshalPtr (map .str (ofTy (.uint .w64))) (some [([98], 5#64), ([97, 97], 1#64), ([97], 200#64)]) =
    [0xca, 97, 0x82, 0, 200, 0x82, 97, 97, 1, 98, 5] := by decide +kernel
example : Keys [(([98] : Bytes), 5#64), ([97, 97], 1#64), ([97], 200#64)] := by decide
example : (map .str (ofTy (.uint .w64))).dec 1000 [0xc6, 98, 1, 97, 2, 98, 3] = .ok (some [([98], 3#64), ([97], 2#64)]) [] := by
  decide +kernel
example : skip 2 [0x82, 1, 2, 0xc1, 5, 9] = .ok () [9] := by decide +kernel
example : encTs (.cons (.value [1]) (.cons (.list (.cons (.list .nil) (.cons (.value [2]) .nil))) .nil)) = [1, 0xc2, 0xc0, 2] := by
  decide +kernel

end Verif.RlpObj
