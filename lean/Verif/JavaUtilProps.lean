import Verif.JavaUtil
import Verif.HexJsonProps
import Verif.JavaIconBmvProps
/-!
C150: the helper classes of the Java contracts and the validators given at deployment of the ICON verifier.

Specification: `Text d` are pieces of text: words without delimiters and the delimiters behind them.
-/
namespace Verif.JavaUtil
open Verif Verif.IntText

/-! ### tokens -/

/-- Specification: a word: not empty and without delimiters. -/
def Word (d : List Char) (w : Str) : Prop := w ≠ [] ∧ ∀ c ∈ w, c ∉ d

/-- Specification: only delimiters. -/
def Gap (d : List Char) (g : Str) : Prop := ∀ c ∈ g, c ∈ d

/-- Specification: `Text d s ws`: `s` is made of the words `ws` with delimiters between them, and any delimiters before and after. -/
inductive Text (d : List Char) : Str → List Str → Prop
  | none {g : Str} : Gap d g → Text d g []
  | last {g w e : Str} : Gap d g → Word d w → Gap d e → Text d (g ++ w ++ e) [w]
  | more {g w e s : Str} {v : Str} {ws : List Str} : Gap d g → Word d w → Gap d e → e ≠ [] → Text d s (v :: ws) →
      Text d (g ++ w ++ e ++ s) (w :: v :: ws)

theorem tok_gap {d : List Char} (g s : Str) (h : Gap d g) : tok d [] (g ++ s) = tok d [] s := by
  induction g with
  | nil => rfl
  | cons c t ih =>
    rw [List.cons_append, tok, if_pos (h c (by simp)), if_pos rfl, List.nil_append]
    exact ih (fun x hx => h x (by simp [hx]))

theorem tok_word {d : List Char} (w s cur : Str) (h : ∀ c ∈ w, c ∉ d) : tok d cur (w ++ s) = tok d (cur ++ w) s := by
  induction w generalizing cur with
  | nil => simp
  | cons c t ih =>
    rw [List.cons_append, tok, if_neg (h c (by simp)), ih _ (fun x hx => h x (by simp [hx]))]
    simp

theorem tok_flush {d : List Char} (w e s : Str) (hw : w ≠ []) (he : e ≠ []) (hg : Gap d e) :
    tok d w (e ++ s) = w :: tok d [] s := by
  cases e with
  | nil => exact absurd rfl he
  | cons c t =>
    rw [List.cons_append, tok, if_pos (hg c (by simp)), if_neg hw]
    rw [tok_gap t s (fun x hx => hg x (by simp [hx]))]
    rfl

/-- C150: the tokens are the words of the text, in order, with empty ones left out. -/
theorem C150_tokenize (d : List Char) (s : Str) (ws : List Str) (h : Text d s ws) : tokenize d s = ws := by
  unfold tokenize
  induction h with
  | none hg =>
    have := tok_gap _ [] hg
    rw [List.append_nil] at this
    rw [this]; rfl
  | @last g w e hg hw he =>
    rw [List.append_assoc, tok_gap _ _ hg, tok_word w e [] hw.2, List.nil_append]
    cases e with
    | nil => rw [tok, if_neg hw.1]
    | cons c t =>
      have := tok_flush w (c :: t) [] hw.1 (by simp) he
      rw [List.append_nil] at this
      rw [this]; rfl
  | @more g w e s v ws hg hw he hne _ ih =>
    rw [List.append_assoc, List.append_assoc, tok_gap _ _ hg, tok_word w _ [] hw.2, List.nil_append, tok_flush w e s hw.1 hne he, ih]

/-- C150: every string is such a text, of its tokens: nothing but delimiters is lost. -/
theorem C150_tokenize_text (d : List Char) (s : Str) : Text d s (tokenize d s) := by
  unfold tokenize
  have key : ∀ (s cur : Str), (∀ c ∈ cur, c ∉ d) → Text d (cur ++ s) (tok d cur s) := by
    intro s
    induction s with
    | nil =>
      intro cur hc
      rw [tok, List.append_nil]
      by_cases h : cur = []
      · rw [if_pos h, h]; exact .none (by intro c hc; simp at hc)
      · rw [if_neg h]
        have : Text d ([] ++ cur ++ []) [cur] := .last (by intro c hc; simp at hc) ⟨h, hc⟩ (by intro c hc; simp at hc)
        simpa using this
    | cons c t ih =>
      intro cur hc
      rw [tok]
      by_cases hd : c ∈ d
      · rw [if_pos hd]
        have ht := ih [] (by simp)
        rw [List.nil_append] at ht
        have front : ∀ (e : Str) (ws : List Str), Text d e ws → Text d (c :: e) ws := by
          intro e ws h
          have hg : ∀ g, Gap d g → Gap d (c :: g) := by
            intro g hg x hx
            rcases List.mem_cons.mp hx with hx | hx
            · rw [hx]; exact hd
            · exact hg x hx
          cases h with
          | none h => exact .none (hg _ h)
          | last h1 h2 h3 => exact .last (g := c :: _) (hg _ h1) h2 h3
          | more h1 h2 h3 h4 h5 => exact .more (g := c :: _) (hg _ h1) h2 h3 h4 h5
        by_cases h : cur = []
        · rw [if_pos h, h]; exact front _ _ ht
        · rw [if_neg h]
          have hg0 : Gap d [] := by intro x hx; simp at hx
          have hgc : Gap d [c] := by intro x hx; simp at hx; rw [hx]; exact hd
          generalize tok d [] t = ws at ht ⊢
          cases ws with
          | nil =>
            have hgt : Gap d t := by cases ht with | none h => exact h
            have : Text d ([] ++ cur ++ (c :: t)) [cur] := .last hg0 ⟨h, hc⟩ (by
              intro x hx
              rcases List.mem_cons.mp hx with hx | hx
              · rw [hx]; exact hd
              · exact hgt x hx)
            simpa using this
          | cons v ws =>
            have : Text d ([] ++ cur ++ [c] ++ t) (cur :: v :: ws) := .more hg0 ⟨h, hc⟩ hgc (by simp) ht
            simpa using this
      · rw [if_neg hd]
        have := ih (cur ++ [c]) (by
          intro x hx
          rcases List.mem_append.mp hx with hx | hx
          · exact hc x hx
          · simp at hx; rw [hx]; exact hd)
        simpa using this
  have := key s [] (by simp)
  simpa using this

/-! ### validators -/

theorem mapM_map {A : Type} (parse : Str → Option A) (show' : A → Str) (l : List A) (h : ∀ a ∈ l, parse (show' a) = some a) :
    (l.map show').mapM parse = some l := by
  induction l with
  | nil => rfl
  | cons a t ih =>
    rw [List.map_cons, List.mapM_cons, h a (by simp), ih (fun x hx => h x (by simp [hx]))]
    rfl

/-- C150: addresses written with commas between them are the validators, in order. -/
theorem C150_validators {A : Type} (parse : Str → Option A) (decode : Str → Option (List A)) (show' : A → Str)
    (l : List A) (s : Str) (hp : ∀ a ∈ l, parse (show' a) = some a) (ht : Text [','] s (l.map show')) :
    fromString parse decode s = some l := by
  unfold fromString
  rw [C150_tokenize _ _ _ ht, mapM_map parse show' l hp]

/-- C150: what is accepted: either every token is an address, or there is one token, it is no address, and the text decodes. -/
theorem C150_validators_iff {A : Type} (parse : Str → Option A) (decode : Str → Option (List A)) (s : Str) (l : List A) :
    fromString parse decode s = some l ↔
      (∃ ws, Text [','] s ws ∧ ws.mapM parse = some l) ∨
      (∃ w, Text [','] s [w] ∧ parse w = none ∧ decode s = some l) := by
  unfold fromString
  have ht := C150_tokenize_text [','] s
  have hu : ∀ ws, Text [','] s ws → ws = tokenize [','] s := fun ws h => (C150_tokenize _ _ _ h).symm
  constructor
  · intro h
    cases hm : (tokenize [','] s).mapM parse with
    | some l' => rw [hm] at h; exact Or.inl ⟨_, ht, by rw [hm]; exact h⟩
    | none =>
      rw [hm] at h
      simp only at h
      split at h
      · rename_i h1
        generalize tokenize [','] s = ws at *
        cases ws with
        | nil => simp at h1
        | cons w t =>
          have : t = [] := by cases t with | nil => rfl | cons _ _ => simp at h1
          subst this
          refine Or.inr ⟨w, ht, ?_, h⟩
          cases hp : parse w with
          | none => rfl
          | some a => simp [hp] at hm
      · simp at h
  · rintro (⟨ws, h1, h2⟩ | ⟨w, h1, h2, h3⟩)
    · rw [← hu ws h1, h2]
    · rw [← hu _ h1]
      simp [h2, h3]

/-- C150, witness that a verifier can be deployed without validators: the empty text, and a text of commas, are accepted. -/
theorem C150_empty {A : Type} (parse : Str → Option A) (decode : Str → Option (List A)) (n : Nat) :
    fromString parse decode (List.replicate n ',') = some [] := by
  have : Text [','] (List.replicate n ',') [] := .none (by intro c hc; simp [List.mem_replicate] at hc; simp [hc.2])
  exact (C150_validators_iff _ _ _ _).mpr (Or.inl ⟨[], this, rfl⟩)

/-- C150: duplicates are kept, and a verifier deployed with no validators, or with a list in which at most two thirds are different,
never accepts a block. -/
theorem C150_dead (E : JavaIconBmv.Env) (vals ds : List Bytes) (hd : ∀ a ∈ vals, a ∈ ds) (hl : 3 * ds.length ≤ 2 * vals.length)
    (vs : Option JavaIconBmv.Votes) (height : Int) (hash : Bytes) : JavaIconBmv.verifyVotes E vs height hash vals ≠ .ok () := by
  intro h
  obtain ⟨as, hn, hm, hc⟩ := JavaIconBmv.votes_quorum (K := ⟨fun _ _ _ _ => True, fun _ => True, fun _ => True⟩) (fun _ _ _ _ => trivial) h
  have := hn.length_le_of_subset (l₂ := ds) (fun a ha => hd a (hm a ha).1)
  omega

/-! ### names and hexadecimal text -/

/-- C150: a name is accepted exactly if it has only letters and digits; so the empty name is accepted, and `addService` registers it. -/
theorem C150_name (ld : Char → Bool) (s : Str) : isAlphaNumeric ld s = true ↔ ∀ c ∈ s, ld c = true := by
  unfold isAlphaNumeric; simp

theorem C150_empty_name (ld : Char → Bool) : isAlphaNumeric ld [] = true := rfl

theorem hexByte_eq (x y : Nat) (hx : x < 16) (hy : y < 16) : hexByte x y = UInt8.ofNat (x * 16 + y) := by
  have key : ∀ x y : Fin 16, hexByte (x.val : Int) (y.val : Int) = UInt8.ofNat (x.val * 16 + y.val) := by decide +kernel
  exact key ⟨x, hx⟩ ⟨y, hy⟩

/-- C150: on hexadecimal digits of even number `hexToBytes` gives the bytes they denote (any case); odd length is refused. -/
theorem C150_hex_partial (s : Str) (bs : Bytes) (h : s.map lower = bytesToHex bs) : hexToBytes s = some bs := by
  rw [bytesToHex, ← HexJson.hexDecode_iff] at h
  have key : ∀ (s : Str) (bs : Bytes), hexDecode s = some bs → s.length % 2 = 0 ∧ hexBytes s = bs := by
    intro s
    induction s using hexDecode.induct with
    | case1 => intro bs h; simp [hexDecode] at h; simp [hexBytes, h]
    | case2 c => intro bs h; simp [hexDecode] at h
    | case3 a b t ih =>
      intro bs h
      rw [hexDecode] at h
      cases hx : hexVal a with
      | none => simp [hx] at h
      | some x =>
        cases hy : hexVal b with
        | none => simp [hx, hy] at h
        | some y =>
          cases hr : hexDecode t with
          | none => simp [hx, hy, hr] at h
          | some r =>
            simp [hx, hy, hr] at h
            obtain ⟨h1, h2⟩ := ih r hr
            refine ⟨by simp; omega, ?_⟩
            rw [hexBytes, digit16, digit16, hx, hy, h2]
            simp only
            rw [hexByte_eq x y (hexVal_lt hx) (hexVal_lt hy), ← h]
            simp
  obtain ⟨h1, h2⟩ := key s bs h
  unfold hexToBytes
  rw [if_neg (by omega), h2]

/-- C150: hexadecimal text written by `bytesToHex` is read again. -/
theorem C150_hex_roundtrip (bs : Bytes) : hexToBytes (bytesToHex bs) = some bs :=
  C150_hex_partial _ bs (HexJson.hexEncode_lower bs)

/-- C150: every text of even length is accepted, digits or not. A text with another character is read as bytes with all bits set
in its place. -/
theorem C150_hex_any (s : Str) : (hexToBytes s).isSome = true ↔ s.length % 2 = 0 := by
  unfold hexToBytes
  by_cases h : s.length % 2 > 0
  · rw [if_pos h]; simp; omega
  · rw [if_neg h]; simp; omega

/-- C150, witness that the prefix is not refused and not removed: `0x11`, as given in RelayMessageTest.java:27, is ff 11. -/
theorem C150_hex_prefix : hexToBytes ['0', 'x', '1', '1'] = some [0xff, 0x11] := by decide +kernel

/-- C150, witness that `toLowerCamelCase` does not lower the first letter. -/
theorem C150_camel : toLowerCamelCase ['M', 'Y', '_', 'n', 'a', 'm', 'e'] = ['M', 'y', 'N', 'a', 'm', 'e'] := by decide +kernel

/-! ### arrays -/

theorem sel_length {α : Type} (cmp : α → α → Int) (xs : List α) : ∀ v, (sel cmp v xs).2.length = xs.length := by
  induction xs with
  | nil => intro v; rfl
  | cons x t ih => intro v; rw [sel]; split <;> simp [ih]

theorem sel_perm {α : Type} (cmp : α → α → Int) (xs : List α) : ∀ v, ((sel cmp v xs).1 :: (sel cmp v xs).2).Perm (v :: xs) := by
  induction xs with
  | nil => intro v; exact List.Perm.refl _
  | cons x t ih =>
    intro v
    rw [sel]
    split
    · refine (List.Perm.swap _ _ _).trans ?_
      exact List.Perm.cons v (ih x)
    · refine (List.Perm.swap _ _ _).trans ?_
      refine (List.Perm.cons x (ih v)).trans (List.Perm.swap _ _ _)

theorem sel_least {α : Type} (cmp : α → α → Int) (htr : ∀ a b c, cmp a b ≤ 0 → cmp b c ≤ 0 → cmp a c ≤ 0)
    (hto : ∀ a b, cmp a b > 0 → cmp b a ≤ 0) (hre : ∀ a, cmp a a ≤ 0) (xs : List α) :
    ∀ v, cmp (sel cmp v xs).1 v ≤ 0 ∧ ∀ y ∈ (sel cmp v xs).2, cmp (sel cmp v xs).1 y ≤ 0 := by
  induction xs with
  | nil => intro v; exact ⟨hre v, by intro y hy; simp [sel] at hy⟩
  | cons x t ih =>
    intro v
    rw [sel]
    split
    · rename_i h
      obtain ⟨h1, h2⟩ := ih x
      have h3 := htr _ _ _ h1 (hto _ _ h)
      refine ⟨h3, ?_⟩
      intro y hy
      rcases List.mem_cons.mp hy with rfl | hy
      · exact h3
      · exact h2 y hy
    · rename_i h
      obtain ⟨h1, h2⟩ := ih v
      refine ⟨h1, ?_⟩
      intro y hy
      rcases List.mem_cons.mp hy with rfl | hy
      · exact htr _ _ _ h1 (by omega)
      · exact h2 y hy

/-- C150: `sort` gives the same elements in ascending order, for every comparison that is a total preorder. -/
theorem C150_sort {α : Type} (cmp : α → α → Int) (htr : ∀ a b c, cmp a b ≤ 0 → cmp b c ≤ 0 → cmp a c ≤ 0)
    (hto : ∀ a b, cmp a b > 0 → cmp b a ≤ 0) (hre : ∀ a, cmp a a ≤ 0) (l : List α) :
    (sort cmp l).Perm l ∧ (sort cmp l).Pairwise (fun a b => cmp a b ≤ 0) := by
  have key : ∀ (n : Nat) (l : List α), l.length ≤ n →
      (sortN cmp n l).Perm l ∧ (sortN cmp n l).Pairwise (fun a b => cmp a b ≤ 0) := by
    intro n
    induction n with
    | zero =>
      intro l h
      have : l = [] := List.length_eq_zero_iff.mp (by omega)
      subst this
      exact ⟨List.Perm.refl _, List.Pairwise.nil⟩
    | succ n ih =>
      intro l h
      cases l with
      | nil => exact ⟨List.Perm.refl _, List.Pairwise.nil⟩
      | cons v xs =>
        rw [sortN]
        obtain ⟨h1, h2⟩ := ih (sel cmp v xs).2 (by rw [sel_length]; simp at h; omega)
        refine ⟨(List.Perm.cons _ h1).trans (sel_perm cmp xs v), List.Pairwise.cons ?_ h2⟩
        intro y hy
        exact (sel_least cmp htr hto hre xs v).2 y (h1.mem_iff.mp hy)
  exact key l.length l (Nat.le_refl _)

/-- C150: `sum` adds all values, in any order; `copyOf` has the asked length and the old values in front. -/
theorem C150_arrays (a b : List Int) (v : Int) (n : Nat) :
    sum [] = 0 ∧ sum (a ++ v :: b) = v + sum (a ++ b) ∧ (copyOf a n).length = n ∧
    (∀ i, i < n → (copyOf a n)[i]? = some a[i]?) := by
  have hs : ∀ (l : List Int) (x : Int), l.foldl (· + ·) x = x + l.foldl (· + ·) 0 := by
    intro l
    induction l with
    | nil => intro x; simp
    | cons y t ih => intro x; rw [List.foldl_cons, List.foldl_cons, ih, ih (0 + y)]; omega
  refine ⟨rfl, ?_, ?_, ?_⟩
  · unfold sum
    rw [List.foldl_append, List.foldl_append, List.foldl_cons, hs b, hs b (a.foldl (· + ·) 0)]
    omega
  · unfold copyOf; simp; omega
  · intro i hi
    unfold copyOf
    by_cases h : i < a.length
    · rw [List.getElem?_append_left (by simp; omega), List.getElem?_map, List.getElem?_take, if_pos (by omega),
        List.getElem?_eq_getElem h]
      rfl
    · rw [List.getElem?_append_right (by simp; omega), List.getElem?_replicate, if_pos (by simp; omega),
        List.getElem?_eq_none (by omega)]

/-! ### examples -/

example : tokenize [','] [',', 'a', ',', ',', 'b', 'c', ','] = [['a'], ['b', 'c']] := by decide +kernel
example : sort (fun a b : Int => a - b) [3, 1, 2, 1] = [1, 1, 2, 3] := by decide +kernel
example : fromString (fun s => if s = ['h', 'x'] then some 1 else none) (fun _ => some [7]) ['h', 'x', ',', 'h', 'x'] = some [1, 1] := by
  decide +kernel
example : fromString (fun s => if s = ['h', 'x'] then some 1 else none) (fun _ => some [7]) ['A', 'A'] = some [7] ∧
    fromString (fun s => if s = ['h', 'x'] then some 1 else none) (fun _ => some [7]) ['h', 'x', ',', 'A'] = none := by
  decide +kernel
example : copyOf [5, 6] 3 = [some 5, some 6, none] := by decide +kernel

/-- C150: upper case, letter by letter; all else stays. -/
theorem C150_upper (c : Char) :
    (∀ x ∈ "abcdefghijklmnopqrstuvwxyz".toList.zip "ABCDEFGHIJKLMNOPQRSTUVWXYZ".toList, upper x.1 = x.2) ∧
      (c ∉ "abcdefghijklmnopqrstuvwxyz".toList → upper c = c) := by
  refine ⟨by decide +kernel, fun h => ?_⟩
  unfold upper
  by_cases q : 97 ≤ c.toNat ∧ c.toNat ≤ 122
  · have all : ∀ k : Fin 26, Char.ofNat (97 + k.val) ∈ "abcdefghijklmnopqrstuvwxyz".toList := by decide +kernel
    have := all ⟨c.toNat - 97, by omega⟩
    rw [show 97 + (⟨c.toNat - 97, by omega⟩ : Fin 26).val = c.toNat from by show 97 + (c.toNat - 97) = c.toNat; omega, Char.ofNat_toNat] at this
    exact absurd this h
  · rw [if_neg q]

end Verif.JavaUtil
