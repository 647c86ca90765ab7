import Verif.Serialize
/-!
C25: the signed text determines the transaction content. False as stated (lists that begin with an empty string, numbers
next to their decimal text); true for content without numbers in which no list begins with an empty string.
-/
namespace Verif.Serialize
open Verif

mutual
/-- No numbers, no booleans, and no list begins with the empty string. -/
def Plain : Val → Prop
  | .null => True
  | .str _ => True
  | .num _ => False
  | .list l => (∀ t, l ≠ .cons (.str []) t) ∧ PlainL l
  | .dict d => PlainD d
  | .other => False
def PlainL : Vals → Prop
  | .nil => True
  | .cons v t => Plain v ∧ PlainL t
def PlainD : Dict → Prop
  | .nil => True
  | .cons _ v t => Plain v ∧ PlainD t
end

/-- What may follow a value. -/
def Delim : Bytes → Prop
  | [] => True
  | b :: _ => b = 0x2e ∨ b = 0x5d ∨ b = 0x7d

/-- All elements, each preceded by the separator. -/
def tailL : Vals → Option Bytes
  | .nil => some []
  | .cons v t => match ser v with
    | none => none
    | some f => (tailL t).map (fun r => 0x2e :: f ++ r)

def tailD : Dict → Option Bytes
  | .nil => some []
  | .cons k v t => match ser v with
    | none => none
    | some f => (tailD t).map (fun r => 0x2e :: (serStr k ++ 0x2e :: f) ++ r)

theorem serList_ne : ∀ (l : Vals) (buf : Bytes), buf ≠ [] → serList l buf = (tailL l).map (fun r => buf ++ r)
  | .nil, buf, _ => by simp [serList, tailL]
  | .cons v t, buf, hb => by
    have hlen : buf.length > 0 := List.length_pos_iff.2 hb
    simp only [serList, tailL]
    cases hv : ser v with
    | none => rfl
    | some f =>
      simp only [if_pos hlen]
      rw [serList_ne t _ (by simp)]
      cases tailL t <;> simp

theorem serDict_ne : ∀ (l : Dict) (buf : Bytes), buf ≠ [] → serDict l buf = (tailD l).map (fun r => buf ++ r)
  | .nil, buf, _ => by simp [serDict, tailD]
  | .cons k v t, buf, hb => by
    have hlen : buf.length > 0 := List.length_pos_iff.2 hb
    simp only [serDict, tailD]
    cases hv : ser v with
    | none => rfl
    | some f =>
      simp only [if_pos hlen]
      rw [serDict_ne t _ (by simp)]
      cases tailD t <;> simp

/-- Escaped text followed by something that may follow a value is read back in one way. -/
theorem serStr_inj : ∀ (s s' r r' : Bytes), Delim r → Delim r' → serStr s ++ r = serStr s' ++ r' → s = s' ∧ r = r'
  | [], [], r, r', _, _, h => ⟨rfl, by simpa [serStr] using h⟩
  | [], c :: t, r, r', hr, _, h => by
    exfalso
    simp only [serStr, List.nil_append] at h
    by_cases hc : special c = true
    · rw [if_pos hc] at h
      rw [h] at hr
      simp only [List.cons_append, Delim] at hr
      revert hr; decide
    · rw [if_neg hc] at h
      rw [h] at hr
      simp only [List.cons_append, Delim] at hr
      rcases hr with e | e | e <;> · subst e; exact hc (by decide)
  | c :: t, [], r, r', _, hr', h => by
    exfalso
    simp only [serStr, List.nil_append] at h
    by_cases hc : special c = true
    · rw [if_pos hc] at h
      rw [← h] at hr'
      simp only [List.cons_append, Delim] at hr'
      revert hr'; decide
    · rw [if_neg hc] at h
      rw [← h] at hr'
      simp only [List.cons_append, Delim] at hr'
      rcases hr' with e | e | e <;> · subst e; exact hc (by decide)
  | c :: t, c' :: t', r, r', hr, hr', h => by
    simp only [serStr] at h
    by_cases hc : special c = true <;> by_cases hc' : special c' = true
    · rw [if_pos hc, if_pos hc'] at h
      simp only [List.cons_append, List.cons.injEq, true_and] at h
      have := serStr_inj t t' r r' hr hr' h.2
      exact ⟨by rw [h.1, this.1], this.2⟩
    · rw [if_pos hc, if_neg hc'] at h
      simp only [List.cons_append, List.cons.injEq] at h
      exact absurd (by rw [← h.1]; decide) hc'
    · rw [if_neg hc, if_pos hc'] at h
      simp only [List.cons_append, List.cons.injEq] at h
      exact absurd (by rw [h.1]; decide) hc
    · rw [if_neg hc, if_neg hc'] at h
      simp only [List.cons_append, List.cons.injEq] at h
      have := serStr_inj t t' r r' hr hr' h.2
      exact ⟨by rw [h.1, this.1], this.2⟩

/-- First byte of escaped text followed by a delimiter: never an opening bracket, and a backslash only before a special byte. -/
theorem serStr_head (s r : Bytes) (hr : Delim r) (b : UInt8) (x : Bytes) (h : serStr s ++ r = b :: x) :
    b ≠ 0x5b ∧ b ≠ 0x7b ∧ (b = 0x5c → ∀ y, x ≠ 0x30 :: y) ∧ (s ≠ [] → b ≠ 0x5d) := by
  cases s with
  | nil =>
    simp only [serStr, List.nil_append] at h
    subst h
    simp only [Delim] at hr
    rcases hr with e | e | e <;> subst e <;> simp
  | cons c t =>
    simp only [serStr] at h
    by_cases hc : special c = true
    · rw [if_pos hc] at h
      simp only [List.cons_append, List.cons.injEq] at h
      refine ⟨by rw [← h.1]; decide, by rw [← h.1]; decide, fun _ y hy => ?_, fun _ => by rw [← h.1]; decide⟩
      rw [← h.2] at hy
      simp only [List.cons.injEq] at hy
      rw [hy.1] at hc
      revert hc; decide
    · rw [if_neg hc] at h
      simp only [List.cons_append, List.cons.injEq] at h
      rw [← h.1]
      refine ⟨?_, ?_, fun e => ?_, fun _ => ?_⟩ <;> intros <;> (try intro e) <;> subst_vars <;> first
        | exact hc (by decide)
        | (rename_i e; subst e; exact hc (by decide))

/-- Text of a value other than the empty string does not begin with a closing bracket. -/
theorem ser_head (v : Val) (hp : Plain v) (hne : v ≠ .str []) (f : Bytes) (hf : ser v = some f) (r : Bytes) (x : Bytes)
    (hr : Delim r) : f ++ r ≠ 0x5d :: x := by
  intro h
  cases v with
  | null => simp [ser] at hf; subst hf; simp at h
  | str s =>
    simp [ser] at hf; subst hf
    exact (serStr_head s r hr _ _ h).2.2.2 (fun e => hne (by rw [e])) rfl
  | num n => exact hp.elim
  | list l =>
    simp only [ser, Option.map_eq_some_iff] at hf
    obtain ⟨b, _, hb⟩ := hf; subst hb; simp at h
  | dict l =>
    simp only [ser, Option.map_eq_some_iff] at hf
    obtain ⟨b, _, hb⟩ := hf; subst hb; simp at h
  | other => exact hp.elim

theorem delim_dot (x : Bytes) : Delim (0x2e :: x) := Or.inl rfl

theorem tailL_delim (l : Vals) (b : Bytes) (h : tailL l = some b) (r : Bytes) (hr : Delim r) : Delim (b ++ r) := by
  cases l with
  | nil => simp [tailL] at h; subst h; simpa using hr
  | cons v t =>
    simp only [tailL] at h
    cases hv : ser v with
    | none => simp [hv] at h
    | some f =>
      simp only [hv, Option.map_eq_some_iff] at h
      obtain ⟨c, _, hc⟩ := h
      subst hc
      simp [Delim]

theorem tailD_delim (l : Dict) (b : Bytes) (h : tailD l = some b) (r : Bytes) (hr : Delim r) : Delim (b ++ r) := by
  cases l with
  | nil => simp [tailD] at h; subst h; simpa using hr
  | cons k v t =>
    simp only [tailD] at h
    cases hv : ser v with
    | none => simp [hv] at h
    | some f =>
      simp only [hv, Option.map_eq_some_iff] at h
      obtain ⟨c, _, hc⟩ := h
      subst hc
      simp [Delim]

/-- A list's text is its first element's text and the rest. -/
theorem serList_cons (v : Val) (t : Vals) (f : Bytes) (hf : ser v = some f) (hne : f ≠ []) (b : Bytes)
    (h : serList (.cons v t) [] = some b) : ∃ c, tailL t = some c ∧ b = f ++ c := by
  simp only [serList, hf, List.length_nil, Nat.lt_irrefl, if_false, List.nil_append, gt_iff_lt] at h
  rw [serList_ne t f hne] at h
  obtain ⟨c, hc, hb⟩ := Option.map_eq_some_iff.1 h
  exact ⟨c, hc, hb.symm⟩

theorem serDict_cons (k : Bytes) (v : Val) (t : Dict) (f : Bytes) (hf : ser v = some f) (b : Bytes)
    (h : serDict (.cons k v t) [] = some b) : ∃ c, tailD t = some c ∧ b = (serStr k ++ 0x2e :: f) ++ c := by
  simp only [serDict, hf, List.length_nil, Nat.lt_irrefl, if_false, List.nil_append, gt_iff_lt] at h
  rw [serDict_ne t _ (by simp)] at h
  obtain ⟨c, hc, hb⟩ := Option.map_eq_some_iff.1 h
  exact ⟨c, hc, by rw [← hb]; simp⟩

theorem ser_ne_nil (v : Val) (hp : Plain v) (hne : v ≠ .str []) (f : Bytes) (hf : ser v = some f) : f ≠ [] := by
  cases v with
  | null => simp [ser] at hf; subst hf; simp
  | str s =>
    simp [ser] at hf; subst hf
    cases s with
    | nil => exact absurd rfl hne
    | cons c t => simp only [serStr]; split <;> simp
  | num n => exact hp.elim
  | list l =>
    simp only [ser, Option.map_eq_some_iff] at hf
    obtain ⟨b, _, hb⟩ := hf; subst hb; simp
  | dict l =>
    simp only [ser, Option.map_eq_some_iff] at hf
    obtain ⟨b, _, hb⟩ := hf; subst hb; simp
  | other => exact hp.elim

theorem list_text (l : Vals) (f r : Bytes) (hf : ser (.list l) = some f) :
    ∃ b, serList l [] = some b ∧ f ++ r = 0x5b :: (b ++ 0x5d :: r) := by
  simp only [ser, Option.map_eq_some_iff] at hf
  obtain ⟨b, hb, e⟩ := hf
  exact ⟨b, hb, by rw [← e]; simp⟩

theorem dict_text (l : Dict) (f r : Bytes) (hf : ser (.dict l) = some f) :
    ∃ b, serDict l [] = some b ∧ f ++ r = 0x7b :: (b ++ 0x7d :: r) := by
  simp only [ser, Option.map_eq_some_iff] at hf
  obtain ⟨b, hb, e⟩ := hf
  exact ⟨b, hb, by rw [← e]; simp⟩

theorem tailL_cons (v : Val) (t : Vals) (b : Bytes) (h : tailL (.cons v t) = some b) :
    ∃ f c, ser v = some f ∧ tailL t = some c ∧ b = 0x2e :: (f ++ c) := by
  simp only [tailL] at h
  cases hv : ser v with
  | none => simp [hv] at h
  | some f =>
    simp only [hv, Option.map_eq_some_iff] at h
    obtain ⟨c, hc, e⟩ := h
    exact ⟨f, c, rfl, hc, by rw [← e]; simp⟩

theorem tailD_cons (k : Bytes) (v : Val) (t : Dict) (b : Bytes) (h : tailD (.cons k v t) = some b) :
    ∃ f c, ser v = some f ∧ tailD t = some c ∧ b = 0x2e :: (serStr k ++ 0x2e :: (f ++ c)) := by
  simp only [tailD] at h
  cases hv : ser v with
  | none => simp [hv] at h
  | some f =>
    simp only [hv, Option.map_eq_some_iff] at h
    obtain ⟨c, hc, e⟩ := h
    exact ⟨f, c, rfl, hc, by rw [← e]; simp⟩

theorem serList_some_cons (v : Val) (t : Vals) (b : Bytes) (h : serList (.cons v t) [] = some b) : ∃ f, ser v = some f := by
  simp only [serList] at h
  cases hv : ser v with
  | none => simp [hv] at h
  | some f => exact ⟨f, rfl⟩

theorem serDict_some_cons (k : Bytes) (v : Val) (t : Dict) (b : Bytes) (h : serDict (.cons k v t) [] = some b) : ∃ f, ser v = some f := by
  simp only [serDict] at h
  cases hv : ser v with
  | none => simp [hv] at h
  | some f => exact ⟨f, rfl⟩

/-- What the text of a value followed by a delimiter looks like. -/
theorem ser_kind (v : Val) (hp : Plain v) (f r : Bytes) (hf : ser v = some f) :
    (v = .null ∧ f ++ r = 0x5c :: 0x30 :: r) ∨
    (∃ s, v = .str s ∧ f = serStr s) ∨
    (∃ l, v = .list l ∧ ∃ b, serList l [] = some b ∧ f ++ r = 0x5b :: (b ++ 0x5d :: r)) ∨
    (∃ d, v = .dict d ∧ ∃ b, serDict d [] = some b ∧ f ++ r = 0x7b :: (b ++ 0x7d :: r)) := by
  cases v with
  | null => simp [ser] at hf; subst hf; simp
  | str s => simp [ser] at hf; subst hf; simp
  | num n => exact hp.elim
  | list l => exact .inr (.inr (.inl ⟨l, rfl, list_text l f r hf⟩))
  | dict l => exact .inr (.inr (.inr ⟨l, rfl, dict_text l f r hf⟩))
  | other => exact hp.elim

mutual
theorem ser_inj (v w : Val) (hv : Plain v) (hw : Plain w) (f g r r' : Bytes) (hr : Delim r) (hr' : Delim r')
    (hf : ser v = some f) (hg : ser w = some g) (h : f ++ r = g ++ r') : v = w ∧ r = r' := by
  have K' := ser_kind w hw g r' hg
  cases v with
  | null =>
    have hf' : f ++ r = 0x5c :: 0x30 :: r := by simp [ser] at hf; subst hf; rfl
    rcases K' with ⟨e, k⟩ | ⟨s, e, k⟩ | ⟨l, e, b, _, k⟩ | ⟨l, e, b, _, k⟩
    · rw [hf', k] at h; simp at h; exact ⟨e.symm, h⟩
    · rw [hf', k] at h
      exact absurd rfl ((serStr_head s r' hr' _ _ h.symm).2.2.1 rfl r)
    · rw [hf', k] at h; simp at h
    · rw [hf', k] at h; simp at h
  | str s =>
    have hf' : f = serStr s := by simp [ser] at hf; exact hf.symm
    rcases K' with ⟨e, k⟩ | ⟨s', e, k⟩ | ⟨l, e, b, _, k⟩ | ⟨l, e, b, _, k⟩
    · rw [hf', k] at h
      exact absurd rfl ((serStr_head s r hr _ _ h).2.2.1 rfl r')
    · rw [hf', k] at h
      have := serStr_inj s s' r r' hr hr' h
      exact ⟨by rw [e, this.1], this.2⟩
    · rw [hf', k] at h
      exact absurd rfl (serStr_head s r hr _ _ h).1
    · rw [hf', k] at h
      exact absurd rfl (serStr_head s r hr _ _ h).2.1
  | num n => exact hv.elim
  | list l =>
    obtain ⟨b, hb, hf'⟩ := list_text l f r hf
    rcases K' with ⟨e, k⟩ | ⟨s', e, k⟩ | ⟨l', e, b', hb', k⟩ | ⟨l', e, b', hb', k⟩
    · rw [hf', k] at h; simp at h
    · rw [hf', k] at h
      exact absurd rfl (serStr_head s' r' hr' _ _ h.symm).1
    · rw [hf', k] at h
      simp only [List.cons.injEq, true_and] at h
      subst e
      have := list_inj l l' hv hw b b' r r' hb hb' h
      exact ⟨by rw [this.1], this.2⟩
    · rw [hf', k] at h; simp at h
  | dict l =>
    obtain ⟨b, hb, hf'⟩ := dict_text l f r hf
    rcases K' with ⟨e, k⟩ | ⟨s', e, k⟩ | ⟨l', e, b', hb', k⟩ | ⟨l', e, b', hb', k⟩
    · rw [hf', k] at h; simp at h
    · rw [hf', k] at h
      exact absurd rfl (serStr_head s' r' hr' _ _ h.symm).2.1
    · rw [hf', k] at h; simp at h
    · rw [hf', k] at h
      simp only [List.cons.injEq, true_and] at h
      subst e
      have := dict_inj l l' hv hw b b' (0x7d :: r) (0x7d :: r') (.inl ⟨r, r', rfl, rfl⟩) hb hb' h
      exact ⟨by rw [this.1], by simpa using this.2⟩
  | other => exact hv.elim
theorem list_inj (l l' : Vals) (hl : Plain (.list l)) (hl' : Plain (.list l')) (b b' r r' : Bytes)
    (hb : serList l [] = some b) (hb' : serList l' [] = some b') (h : b ++ 0x5d :: r = b' ++ 0x5d :: r') : l = l' ∧ r = r' := by
  have dl : ∀ x, Delim (0x5d :: x) := fun x => .inr (.inl rfl)
  cases l with
  | nil =>
    simp [serList] at hb; subst hb
    cases l' with
    | nil => simp [serList] at hb'; subst hb'; exact ⟨rfl, by simpa using h⟩
    | cons w t' =>
      exfalso
      have hne : w ≠ .str [] := fun e => hl'.1 t' (by rw [e])
      obtain ⟨g, hg⟩ := serList_some_cons w t' b' hb'
      obtain ⟨c, hc, e⟩ := serList_cons w t' g hg (ser_ne_nil w hl'.2.1 hne g hg) b' hb'
      subst e
      exact ser_head w hl'.2.1 hne g hg (c ++ 0x5d :: r') r (tailL_delim t' c hc _ (dl _)) (by simpa using h.symm)
  | cons v t =>
    have hne : v ≠ .str [] := fun e => hl.1 t (by rw [e])
    obtain ⟨f, hf⟩ := serList_some_cons v t b hb
    obtain ⟨c, hc, e⟩ := serList_cons v t f hf (ser_ne_nil v hl.2.1 hne f hf) b hb
    subst e
    cases l' with
    | nil =>
      exfalso
      simp [serList] at hb'; subst hb'
      exact ser_head v hl.2.1 hne f hf (c ++ 0x5d :: r) r' (tailL_delim t c hc _ (dl _)) (by simpa using h)
    | cons w t' =>
      have hne' : w ≠ .str [] := fun e => hl'.1 t' (by rw [e])
      obtain ⟨g, hg⟩ := serList_some_cons w t' b' hb'
      obtain ⟨c', hc', e⟩ := serList_cons w t' g hg (ser_ne_nil w hl'.2.1 hne' g hg) b' hb'
      subst e
      have h' : f ++ (c ++ 0x5d :: r) = g ++ (c' ++ 0x5d :: r') := by simpa using h
      obtain ⟨e1, e2⟩ := ser_inj v w hl.2.1 hl'.2.1 f g _ _ (tailL_delim t c hc _ (dl _)) (tailL_delim t' c' hc' _ (dl _)) hf hg h'
      obtain ⟨e3, e4⟩ := tailL_inj t t' hl.2.2 hl'.2.2 c c' r r' hc hc' e2
      exact ⟨by rw [e1, e3], e4⟩
theorem tailL_inj (l l' : Vals) (hl : PlainL l) (hl' : PlainL l') (b b' r r' : Bytes)
    (hb : tailL l = some b) (hb' : tailL l' = some b') (h : b ++ 0x5d :: r = b' ++ 0x5d :: r') : l = l' ∧ r = r' := by
  have dl : ∀ x, Delim (0x5d :: x) := fun x => .inr (.inl rfl)
  cases l with
  | nil =>
    simp [tailL] at hb; subst hb
    cases l' with
    | nil => simp [tailL] at hb'; subst hb'; exact ⟨rfl, by simpa using h⟩
    | cons w t' =>
      obtain ⟨g, c, _, _, e⟩ := tailL_cons w t' b' hb'
      subst e; simp at h
  | cons v t =>
    obtain ⟨f, c, hf, hc, e⟩ := tailL_cons v t b hb
    subst e
    cases l' with
    | nil => simp [tailL] at hb'; subst hb'; simp at h
    | cons w t' =>
      obtain ⟨g, c', hg, hc', e⟩ := tailL_cons w t' b' hb'
      subst e
      have h' : f ++ (c ++ 0x5d :: r) = g ++ (c' ++ 0x5d :: r') := by simpa using h
      obtain ⟨e1, e2⟩ := ser_inj v w hl.1 hl'.1 f g _ _ (tailL_delim t c hc _ (dl _)) (tailL_delim t' c' hc' _ (dl _)) hf hg h'
      obtain ⟨e3, e4⟩ := tailL_inj t t' hl.2 hl'.2 c c' r r' hc hc' e2
      exact ⟨by rw [e1, e3], e4⟩
/-- A dictionary's entries followed by the closing bracket, or by nothing at the top. -/
theorem dict_inj (l l' : Dict) (hl : PlainD l) (hl' : PlainD l') (b b' r r' : Bytes)
    (hr : (∃ x x', r = 0x7d :: x ∧ r' = 0x7d :: x') ∨ (r = [] ∧ r' = []))
    (hb : serDict l [] = some b) (hb' : serDict l' [] = some b') (h : b ++ r = b' ++ r') : l = l' ∧ r = r' := by
  have dr : Delim r := by rcases hr with ⟨x, x', e, e'⟩ | ⟨e, e'⟩ <;> subst e <;> simp [Delim]
  have dr' : Delim r' := by rcases hr with ⟨x, x', e, e'⟩ | ⟨e, e'⟩ <;> subst e' <;> simp [Delim]
  cases l with
  | nil =>
    simp [serDict] at hb; subst hb
    cases l' with
    | nil => simp [serDict] at hb'; subst hb'; exact ⟨rfl, by simpa using h⟩
    | cons k' w t' =>
      exfalso
      obtain ⟨g, hg⟩ := serDict_some_cons k' w t' b' hb'
      obtain ⟨c, hc, e⟩ := serDict_cons k' w t' g hg b' hb'
      subst e
      have h' : serStr [] ++ r = serStr k' ++ (0x2e :: (g ++ (c ++ r'))) := by simpa [serStr] using h
      have := (serStr_inj [] k' _ _ dr (delim_dot _) h').2
      rcases hr with ⟨x, x', e, e'⟩ | ⟨e, e'⟩ <;> subst e <;> simp at this
  | cons k v t =>
    obtain ⟨f, hf⟩ := serDict_some_cons k v t b hb
    obtain ⟨c, hc, e⟩ := serDict_cons k v t f hf b hb
    subst e
    cases l' with
    | nil =>
      exfalso
      simp [serDict] at hb'; subst hb'
      have h' : serStr k ++ (0x2e :: (f ++ (c ++ r))) = serStr [] ++ r' := by simpa [serStr] using h
      have := (serStr_inj k [] _ _ (delim_dot _) dr' h').2
      rcases hr with ⟨x, x', e, e'⟩ | ⟨e, e'⟩ <;> subst e' <;> simp at this
    | cons k' w t' =>
      obtain ⟨g, hg⟩ := serDict_some_cons k' w t' b' hb'
      obtain ⟨c', hc', e⟩ := serDict_cons k' w t' g hg b' hb'
      subst e
      have h' : serStr k ++ (0x2e :: (f ++ (c ++ r))) = serStr k' ++ (0x2e :: (g ++ (c' ++ r'))) := by simpa using h
      obtain ⟨e0, e1⟩ := serStr_inj k k' _ _ (delim_dot _) (delim_dot _) h'
      simp only [List.cons.injEq, true_and] at e1
      obtain ⟨e2, e3⟩ := ser_inj v w hl.1 hl'.1 f g _ _ (tailD_delim t c hc _ dr) (tailD_delim t' c' hc' _ dr') hf hg e1
      obtain ⟨e4, e5⟩ := tailD_inj t t' hl.2 hl'.2 c c' r r' hr hc hc' e3
      exact ⟨by rw [e0, e2, e4], e5⟩
theorem tailD_inj (l l' : Dict) (hl : PlainD l) (hl' : PlainD l') (b b' r r' : Bytes)
    (hr : (∃ x x', r = 0x7d :: x ∧ r' = 0x7d :: x') ∨ (r = [] ∧ r' = []))
    (hb : tailD l = some b) (hb' : tailD l' = some b') (h : b ++ r = b' ++ r') : l = l' ∧ r = r' := by
  have dr : Delim r := by rcases hr with ⟨x, x', e, e'⟩ | ⟨e, e'⟩ <;> subst e <;> simp [Delim]
  have dr' : Delim r' := by rcases hr with ⟨x, x', e, e'⟩ | ⟨e, e'⟩ <;> subst e' <;> simp [Delim]
  cases l with
  | nil =>
    simp [tailD] at hb; subst hb
    cases l' with
    | nil => simp [tailD] at hb'; subst hb'; exact ⟨rfl, by simpa using h⟩
    | cons k' w t' =>
      obtain ⟨g, c, _, _, e⟩ := tailD_cons k' w t' b' hb'
      subst e
      rcases hr with ⟨x, x', e, e'⟩ | ⟨e, e'⟩ <;> subst e <;> simp at h
  | cons k v t =>
    obtain ⟨f, c, hf, hc, e⟩ := tailD_cons k v t b hb
    subst e
    cases l' with
    | nil =>
      simp [tailD] at hb'; subst hb'
      rcases hr with ⟨x, x', e, e'⟩ | ⟨e, e'⟩ <;> subst e' <;> simp at h
    | cons k' w t' =>
      obtain ⟨g, c', hg, hc', e⟩ := tailD_cons k' w t' b' hb'
      subst e
      have h' : serStr k ++ (0x2e :: (f ++ (c ++ r))) = serStr k' ++ (0x2e :: (g ++ (c' ++ r'))) := by simpa using h
      obtain ⟨e0, e1⟩ := serStr_inj k k' _ _ (delim_dot _) (delim_dot _) h'
      simp only [List.cons.injEq, true_and] at e1
      obtain ⟨e2, e3⟩ := ser_inj v w hl.1 hl'.1 f g _ _ (tailD_delim t c hc _ dr) (tailD_delim t' c' hc' _ dr') hf hg e1
      obtain ⟨e4, e5⟩ := tailD_inj t t' hl.2 hl'.2 c c' r r' hr hc hc' e3
      exact ⟨by rw [e0, e2, e4], e5⟩
end

/-- C25, restricted: of two transactions without numbers in which no list begins with an empty string, the same signed text
    means the same (unfiltered) content. -/
theorem C25_serialize_injective_partial (d d' : Dict) (inc exc : Option (Bytes → Bool))
    (hd : PlainD (filterDict inc exc d)) (hd' : PlainD (filterDict inc exc d')) (b : Bytes)
    (h : serMap d inc exc = some b) (h' : serMap d' inc exc = some b) : filterDict inc exc d = filterDict inc exc d' :=
  (dict_inj _ _ hd hd' b b [] [] (.inr ⟨rfl, rfl⟩) h h' rfl).1

/-- The filter keeps exactly the entries whose key is in the include set (if there is one) and not in the exclude set. -/
def entries : Dict → List (Bytes × Val)
  | .nil => []
  | .cons k v t => (k, v) :: entries t

theorem C25_filter (inc exc : Option (Bytes → Bool)) (k : Bytes) (v : Val) : ∀ d : Dict,
    (k, v) ∈ entries (filterDict inc exc d) ↔
      (k, v) ∈ entries d ∧ (∀ f, inc = some f → f k = true) ∧ (∀ f, exc = some f → f k = false)
  | .nil => by simp [filterDict, entries]
  | .cons k' v' t => by
    have ih := C25_filter inc exc k v t
    simp only [filterDict]
    by_cases hc : (inc.isSome ∧ (inc.getD (fun _ => true)) k' = false) ∨ (exc.isSome ∧ (exc.getD (fun _ => false)) k' = true)
    · rw [if_pos hc, ih]
      simp only [entries, List.mem_cons, Prod.mk.injEq]
      constructor
      · rintro ⟨a, b⟩; exact ⟨.inr a, b⟩
      · rintro ⟨⟨rfl, rfl⟩ | a, b, c⟩
        · exfalso
          rcases hc with ⟨h1, h2⟩ | ⟨h1, h2⟩
          · obtain ⟨f, rfl⟩ := Option.isSome_iff_exists.1 h1
            have := b f rfl; simp at h2; simp [this] at h2
          · obtain ⟨f, rfl⟩ := Option.isSome_iff_exists.1 h1
            have := c f rfl; simp at h2; simp [this] at h2
        · exact ⟨a, b, c⟩
    · rw [if_neg hc]
      simp only [entries, List.mem_cons, Prod.mk.injEq, ih]
      constructor
      · rintro (⟨rfl, rfl⟩ | ⟨a, b⟩)
        · refine ⟨.inl ⟨rfl, rfl⟩, ?_, ?_⟩
          · rintro f rfl
            by_cases hf : f k = true
            · exact hf
            · exact absurd (.inl ⟨rfl, by simpa using hf⟩) hc
          · rintro f rfl
            by_cases hf : f k = true
            · exact absurd (.inr ⟨rfl, by simpa using hf⟩) hc
            · simpa using hf
        · exact ⟨.inr a, b⟩
      · rintro ⟨⟨rfl, rfl⟩ | a, b⟩
        · exact .inl ⟨rfl, rfl⟩
        · exact .inr ⟨a, b⟩

/-- C25 is false: an empty string at the front of any list leaves no trace in the signed text. -/
theorem C25_leading_empty_lost (l : Vals) : ser (.list (.cons (.str []) l)) = ser (.list l) := by
  simp [ser, serList, serStr]

theorem dec_plain (n : Int) : ∀ b ∈ decInt n, special b = false := by
  have key : ∀ b ∈ (Nat.toDigits 10 n.natAbs).map (fun c => c.toNat.toUInt8), special b = false := by
    intro b hb
    obtain ⟨c, hc, rfl⟩ := List.mem_map.1 hb
    have hd := Nat.isDigit_of_mem_toDigits (by decide) (by decide) hc
    simp [Char.isDigit] at hd
    have h1 : 48 ≤ c.toNat := by have := hd.1; rw [UInt32.le_iff_toNat_le] at this; exact this
    have h2 : c.toNat ≤ 57 := by have := hd.2; rw [UInt32.le_iff_toNat_le] at this; exact this
    generalize c.toNat = k at h1 h2
    have : ∀ k : Nat, k < 58 → 48 ≤ k → special k.toUInt8 = false := by decide +kernel
    exact this k (by omega) h1
  intro b hb
  simp only [decInt] at hb
  split at hb
  · rcases List.mem_cons.1 hb with e | e
    · subst e; decide
    · exact key b e
  · exact key b hb

/-- C25 is false: a number and its decimal text are signed alike. -/
theorem C25_number_as_text (n : Int) : ser (.num n) = ser (.str (decInt n)) := by
  have : ∀ s : Bytes, (∀ b ∈ s, special b = false) → serStr s = s := by
    intro s
    induction s with
    | nil => intro _; rfl
    | cons c t ih =>
      intro hs
      simp only [serStr, hs c (by simp), Bool.false_eq_true, if_false]
      rw [ih (fun b hb => hs b (List.mem_cons_of_mem _ hb))]
  simp [ser, this _ (dec_plain n)]

/-- Concrete: `{"params":["x"]}`, `{"params":["","x"]}` and the pair 5, "5". -/
theorem C25_not_injective :
    serMap (.cons [0x70] (.list (.cons (.str [0x78]) .nil)) .nil) none none =
      serMap (.cons [0x70] (.list (.cons (.str []) (.cons (.str [0x78]) .nil))) .nil) none none ∧
    serMap (.cons [0x70] (.num 5) .nil) none none = serMap (.cons [0x70] (.str [0x35]) .nil) none none ∧
    (serMap (.cons [0x70] (.num 5) .nil) none none).isSome := by
  refine ⟨by decide +kernel, by decide +kernel, by decide +kernel⟩

/-- Non-vacuity: `{"a.b":{"":null},"p":["x",""]}` is plain and has a text. -/
example : PlainD (.cons [0x61, 0x2e, 0x62] (.dict (.cons [] .null .nil))
    (.cons [0x70] (.list (.cons (.str [0x78]) (.cons (.str []) .nil))) .nil)) ∧
    serMap (.cons [0x61, 0x2e, 0x62] (.dict (.cons [] .null .nil))
      (.cons [0x70] (.list (.cons (.str [0x78]) (.cons (.str []) .nil))) .nil)) none none =
    some [0x61, 0x5c, 0x2e, 0x62, 0x2e, 0x7b, 0x2e, 0x5c, 0x30, 0x7d, 0x2e, 0x70, 0x2e, 0x5b, 0x78, 0x2e, 0x5d] := by
  refine ⟨?_, by decide +kernel⟩
  simp [PlainD, Plain, PlainL]

end Verif.Serialize
