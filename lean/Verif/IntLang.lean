import Verif.IntTextProps
/-!
C134: the texts accepted by `ParseInt` and `ParseUint` of /repo/common/intconv/string.go:60-102, and what they mean.

Specification: `Digs b s` are digits of base `b` with single underscores between them, `numOf b s` is the number they denote,
`Lit s n` is the grammar of integer literals of the Go specification, `IntLit` adds a sign.
-/
namespace Verif.IntText
open Verif Verif.IntConv

/-- Specification: a digit of base `b`. -/
def IsDig (b : Nat) (c : Char) : Prop := ∃ d, hexVal c = some d ∧ d < b

/-- Specification: digits of base `b`, single underscores allowed between two digits. -/
inductive Digs (b : Nat) : Str → Prop
  | one {c : Char} : IsDig b c → Digs b [c]
  | more {c : Char} {s : Str} : IsDig b c → Digs b s → Digs b (c :: s)
  | gap {c : Char} {s : Str} : IsDig b c → Digs b s → Digs b (c :: '_' :: s)

/-- Specification: the number denoted by digits of base `b`; underscores do not count. -/
def numFrom (b : Nat) : Nat → Str → Nat
  | a, [] => a
  | a, c :: t => if c = '_' then numFrom b a t else numFrom b (a * b + (hexVal c).getD 0) t

def numOf (b : Nat) (s : Str) : Nat := numFrom b 0 s

/-- Specification: the letters that name a base. -/
def markBase (c : Char) : Option Nat :=
  if c = 'b' ∨ c = 'B' then some 2 else if c = 'o' ∨ c = 'O' then some 8 else if c = 'x' ∨ c = 'X' then some 16 else none

/-- Specification: integer literals of the Go language and their values. -/
inductive Lit : Str → Nat → Prop
  | zero : Lit ['0'] 0
  | dec {ds : Str} : Digs 10 ds → ds.head? ≠ some '0' → Lit ds (numOf 10 ds)
  | oct {ds : Str} : Digs 8 ds → Lit ('0' :: ds) (numOf 8 ds)
  | octU {ds : Str} : Digs 8 ds → Lit ('0' :: '_' :: ds) (numOf 8 ds)
  | pre {m : Char} {b : Nat} {ds : Str} : markBase m = some b → Digs b ds → Lit ('0' :: m :: ds) (numOf b ds)
  | preU {m : Char} {b : Nat} {ds : Str} : markBase m = some b → Digs b ds → Lit ('0' :: m :: '_' :: ds) (numOf b ds)

/-- Specification: a literal with an optional sign. -/
inductive IntLit : Str → Int → Prop
  | plain {s : Str} {n : Nat} : Lit s n → IntLit s n
  | plus {s : Str} {n : Nat} : Lit s n → IntLit ('+' :: s) n
  | minus {s : Str} {n : Nat} : Lit s n → IntLit ('-' :: s) (-(n : Int))

/-! ### characters -/

theorem lower_toNat (c : Char) : (lower c).toNat = if 65 ≤ c.toNat ∧ c.toNat ≤ 90 then c.toNat + 32 else c.toNat := by
  unfold lower
  by_cases h : 65 ≤ c.toNat ∧ c.toNat ≤ 90
  · rw [if_pos h, if_pos h]
    have key : ∀ k : Fin 26, (Char.ofNat (65 + k.val + 32)).toNat = 65 + k.val + 32 := by decide
    have := key ⟨c.toNat - 65, by omega⟩
    simpa [show 65 + (c.toNat - 65) = c.toNat by omega] using this
  · rw [if_neg h, if_neg h]

theorem char_eq {a b : Char} : a = b ↔ a.toNat = b.toNat :=
  ⟨fun h => h ▸ rfl, fun h => Char.toNat_inj.mp h⟩

theorem hexVal_of_digitVal {c : Char} {d : Nat} (h : digitVal c = some d) (hd : d < 16) : hexVal c = some d := by
  unfold digitVal at h
  simp only [lower_toNat] at h
  unfold hexVal
  simp only
  by_cases h1 : 48 ≤ c.toNat ∧ c.toNat ≤ 57
  · rw [if_pos h1] at h ⊢; exact h
  · rw [if_neg h1] at h ⊢
    by_cases h2 : 65 ≤ c.toNat ∧ c.toNat ≤ 90
    · simp only [if_pos h2] at h
      rw [if_pos (by omega)] at h
      simp at h
      rw [if_neg (by omega), if_pos (by omega)]
      simp; omega
    · simp only [if_neg h2] at h
      by_cases h3 : 97 ≤ c.toNat ∧ c.toNat ≤ 122
      · rw [if_pos h3] at h
        simp at h
        rw [if_pos (by omega)]
        simp; omega
      · rw [if_neg h3] at h; simp at h

theorem lower_b (c : Char) : lower c = 'b' ↔ c = 'b' ∨ c = 'B' := by
  simp only [char_eq, lower_toNat]; simp; split <;> omega
theorem lower_o (c : Char) : lower c = 'o' ↔ c = 'o' ∨ c = 'O' := by
  simp only [char_eq, lower_toNat]; simp; split <;> omega
theorem lower_x (c : Char) : lower c = 'x' ↔ c = 'x' ∨ c = 'X' := by
  simp only [char_eq, lower_toNat]; simp; split <;> omega

theorem isDig_ne {b : Nat} {c : Char} (h : IsDig b c) : c ≠ '_' ∧ c ≠ '+' ∧ c ≠ '-' := by
  obtain ⟨d, h, _⟩ := h
  refine ⟨?_, ?_, ?_⟩ <;> (rintro rfl; revert h; simp [hexVal])

/-- A digit of base 2, 8, 10 is a character 0-9; of base 16 also a letter. -/
theorem isDig_us {b : Nat} (hb : b ≤ 10 ∨ b = 16) {c : Char} (h : IsDig b c) :
    (48 ≤ c.toNat ∧ c.toNat ≤ 57) ∨ (decide (b = 16) = true ∧ 97 ≤ (lower c).toNat ∧ (lower c).toNat ≤ 102) := by
  obtain ⟨d, h, hd⟩ := h
  unfold hexVal at h
  simp only at h
  rw [lower_toNat]
  split at h
  · left; assumption
  · split at h
    · simp at h
      right
      refine ⟨by simp; omega, ?_⟩
      split <;> omega
    · split at h
      · simp at h
        right
        refine ⟨by simp; omega, ?_⟩
        split <;> omega
      · simp at h

/-! ### the loops -/

/-- A character of the body of a number: an underscore or a digit. -/
def Body (b : Nat) (s : Str) : Prop := ∀ c ∈ s, c = '_' ∨ IsDig b c

theorem numFrom_ge (b : Nat) (hb : 1 ≤ b) (s : Str) (a : Nat) : a ≤ numFrom b a s := by
  induction s generalizing a with
  | nil => exact Nat.le_refl _
  | cons c t ih =>
    rw [numFrom]
    split
    · exact ih a
    · have := ih (a * b + (hexVal c).getD 0)
      have := Nat.le_mul_of_pos_right a hb
      omega

theorem uintLoop_iff (b M : Nat) (hb : 2 ≤ b) (hb2 : b ≤ 16) (hM : M ≤ 2 ^ 64 - 1) (s : Str) (a : Nat) (ha : a ≤ M) (us : Bool)
    (r : Nat × Bool) :
    uintLoop b M s a us = .ok r ↔ Body b s ∧ numFrom b a s ≤ M ∧ r = (numFrom b a s, us || decide ('_' ∈ s)) := by
  induction s generalizing a us with
  | nil => simp [uintLoop, numFrom, Body, ha, eq_comm]
  | cons c t ih =>
    rw [uintLoop, numFrom]
    by_cases hc : c = '_'
    · rw [if_pos hc, if_pos hc, ih a ha true]
      simp [Body, hc]
    · rw [if_neg hc, if_neg hc]
      have hbody : Body b (c :: t) ↔ IsDig b c ∧ Body b t := by simp [Body, hc]
      have hmem : ('_' ∈ c :: t) ↔ '_' ∈ t := by simp [Ne.symm hc]
      cases hd : digitVal c with
      | none =>
        simp only [hbody]
        refine ⟨fun h => (nomatch h), ?_⟩
        rintro ⟨⟨⟨d, h1, h2⟩, _⟩, _⟩
        rw [(digitVal_of_hexVal h1).1] at hd
        simp at hd
      | some d =>
        simp only
        by_cases hdb : d ≥ b
        · rw [if_pos hdb, hbody]
          refine ⟨fun h => (nomatch h), ?_⟩
          rintro ⟨⟨⟨d', h1, h2⟩, _⟩, _⟩
          rw [(digitVal_of_hexVal h1).1] at hd
          simp at hd
          omega
        · have hx := hexVal_of_digitVal hd (by omega)
          have hdig : IsDig b c := ⟨d, hx, by omega⟩
          rw [if_neg hdb, hx]
          simp only [Option.getD_some]
          have hge := numFrom_ge b (by omega) t (a * b + d)
          by_cases h1 : a * b + d ≤ M
          · have h2 : ¬ a ≥ (2 ^ 64 - 1) / b + 1 := by
              intro h3
              have h4 := Nat.mul_le_mul_right b h3
              have h5 := Nat.div_add_mod (2 ^ 64 - 1) b
              have h6 := Nat.mod_lt (2 ^ 64 - 1) (show b > 0 by omega)
              rw [Nat.add_mul, Nat.mul_comm ((2 ^ 64 - 1) / b) b] at h4
              omega
            rw [if_neg h2, if_neg (by omega), ih _ h1 us, hbody]
            simp only [hdig, true_and, hmem]
          · refine ⟨fun h => ?_, fun h => absurd h.2.1 (by omega)⟩
            split at h
            · exact nomatch h
            · rw [if_pos (by omega)] at h
              exact nomatch h

theorem digs_body {b : Nat} {s : Str} (h : Digs b s) : Body b s ∧ s ≠ [] ∧ ∃ c t, s = c :: t ∧ IsDig b c := by
  induction h with
  | one h => exact ⟨by intro x hx; simp at hx; subst hx; exact Or.inr h, by simp, _, _, rfl, h⟩
  | more h _ ih =>
    refine ⟨?_, by simp, _, _, rfl, h⟩
    intro x hx
    rcases List.mem_cons.mp hx with hx | hx
    · subst hx; exact Or.inr h
    · exact ih.1 x hx
  | gap h _ ih =>
    refine ⟨?_, by simp, _, _, rfl, h⟩
    intro x hx
    rcases List.mem_cons.mp hx with hx | hx
    · subst hx; exact Or.inr h
    · rcases List.mem_cons.mp hx with hx | hx
      · exact Or.inl hx
      · exact ih.1 x hx

theorem digs_of_plain {b : Nat} {s : Str} (h : Body b s) (hu : '_' ∉ s) (hne : s ≠ []) : Digs b s := by
  induction s with
  | nil => exact absurd rfl hne
  | cons c t ih =>
    have hc : IsDig b c := (h c (by simp)).resolve_left (by rintro rfl; simp at hu)
    cases t with
    | nil => exact .one hc
    | cons d t =>
      exact .more hc (ih (fun x hx => h x (List.mem_cons_of_mem _ hx)) (fun hx => hu (List.mem_cons_of_mem _ hx)) (by simp))

/-- What `underscoreOK` checks of the body of a number. -/
theorem usLoop_iff {b : Nat} (hb : b ≤ 10 ∨ b = 16) (s : Str) (h : Body b s) :
    (usLoop (decide (b = 16)) s 1 = true ↔ s = [] ∨ Digs b s ∨ ∃ t, s = '_' :: t ∧ Digs b t) ∧
    (usLoop (decide (b = 16)) s 2 = true ↔ Digs b s) ∧ (usLoop (decide (b = 16)) s 0 = true ↔ s = [] ∨ Digs b s) := by
  induction s with
  | nil =>
    refine ⟨by simp [usLoop], ?_, by simp [usLoop]⟩
    simp only [usLoop]
    exact ⟨fun h => by simp at h, fun h => absurd rfl (digs_body h).2.1⟩
  | cons c t ih =>
    obtain ⟨i1, i2, _⟩ := ih (fun x hx => h x (List.mem_cons_of_mem _ hx))
    rcases h c (by simp) with hc | hc
    · subst hc
      have hnd : ¬ Digs b ('_' :: t) := by
        intro hd
        obtain ⟨_, _, c, t', he, hc⟩ := digs_body hd
        simp at he
        exact (isDig_ne hc).1 he.1.symm
      have hn : ¬ ((48 ≤ '_'.toNat ∧ '_'.toNat ≤ 57) ∨
          (decide (b = 16) = true ∧ 97 ≤ (lower '_').toNat ∧ (lower '_').toNat ≤ 102)) := by
        have : (lower '_').toNat = 95 := by decide
        have h2 : '_'.toNat = 95 := by decide
        omega
      refine ⟨?_, ?_, ?_⟩
      · rw [usLoop, if_neg hn, if_pos rfl, if_neg (by simp), i2]
        constructor
        · intro hd; exact Or.inr (Or.inr ⟨t, rfl, hd⟩)
        · rintro (he | hd | ⟨t', he, hd⟩)
          · simp at he
          · exact absurd hd hnd
          · simp at he; rw [he]; exact hd
      · rw [usLoop, if_neg hn, if_pos rfl, if_pos (by simp)]
        simp [hnd]
      · rw [usLoop, if_neg hn, if_pos rfl, if_pos (by simp)]
        simp [hnd]
    · have hk := isDig_us hb hc
      have key : (t = [] ∨ Digs b t ∨ ∃ t', t = '_' :: t' ∧ Digs b t') ↔ Digs b (c :: t) := by
        constructor
        · rintro (he | hd | ⟨t', he, hd⟩)
          · subst he; exact .one hc
          · exact .more hc hd
          · subst he; exact .gap hc hd
        · intro hd
          cases hd with
          | one _ => exact Or.inl rfl
          | more _ hd => exact Or.inr (Or.inl hd)
          | gap _ hd => exact Or.inr (Or.inr ⟨_, rfl, hd⟩)
      have hx : ¬ ∃ t', c :: t = '_' :: t' ∧ Digs b t' := by
        rintro ⟨t', he, _⟩
        simp at he
        exact (isDig_ne hc).1 he.1
      refine ⟨?_, ?_, ?_⟩
      · rw [usLoop, if_pos hk, i1, key]
        constructor
        · intro h; exact Or.inr (Or.inl h)
        · rintro (h | h | h)
          · simp at h
          · exact h
          · exact absurd h hx
      · rw [usLoop, if_pos hk, i1, key]
      · rw [usLoop, if_pos hk, i1, key]
        simp

/-! ### strconv.ParseUint -/

theorem goParseUint_ok (s : Str) (bits : Nat) (hb : 1 ≤ bits) (hb2 : bits ≤ 64) (n : Nat) (b : Nat) (t : Str)
    (hp : basePrefix s = (b, t)) (h2 : 2 ≤ b) (h16 : b ≤ 16) :
    goParseUint s bits = .ok n ↔ s ≠ [] ∧ Body b t ∧ ('_' ∈ t → underscoreOK s = true) ∧ n = numOf b t ∧ n < 2 ^ bits := by
  obtain ⟨p1, p2, p3⟩ := two_pow_bits hb hb2
  unfold goParseUint
  by_cases hs : s = []
  · simp [hs]
  · rw [if_neg hs]
    simp only [hp]
    have hl := uintLoop_iff b (2 ^ bits - 1) h2 h16 (by omega) t 0 (by omega) false
    cases hu : uintLoop b (2 ^ bits - 1) t 0 false with
    | error e =>
      simp only
      refine ⟨fun h => (nomatch h), ?_⟩
      rintro ⟨_, h1, _, h3, h4⟩
      have := (hl (numFrom b 0 t, false || decide ('_' ∈ t))).mpr ⟨h1, by rw [h3] at h4; unfold numOf at h4; omega, rfl⟩
      rw [hu] at this
      exact nomatch this
    | ok r =>
      obtain ⟨m, us⟩ := r
      obtain ⟨h1, h3, h4⟩ := (hl (m, us)).mp hu
      simp only [Bool.false_or, Prod.mk.injEq] at h4
      obtain ⟨h4, h5⟩ := h4
      simp only
      rw [show numOf b t = m from h4.symm]
      have hm : m < 2 ^ bits := by omega
      by_cases hmem : '_' ∈ t
      · have : us = true := by simp [h5, hmem]
        subst this
        by_cases hk : underscoreOK s = true
        · simp [hk, hs, h1]
          constructor
          · rintro rfl; exact ⟨rfl, hm⟩
          · rintro ⟨rfl, _⟩; rfl
        · simp [hk, hmem]
      · have : us = false := by simp [h5, hmem]
        subst this
        simp [hs, h1, hmem]
        constructor
        · rintro rfl; exact ⟨rfl, hm⟩
        · rintro ⟨rfl, _⟩; rfl

theorem body_iff {b : Nat} {t : Str} (hb : b ≤ 10 ∨ b = 16) (ht : t ≠ []) :
    (Body b t ∧ ('_' ∈ t → usLoop (decide (b = 16)) t 1 = true)) ↔ (Digs b t ∨ ∃ t', t = '_' :: t' ∧ Digs b t') := by
  constructor
  · rintro ⟨h1, h2⟩
    by_cases hm : '_' ∈ t
    · exact ((usLoop_iff hb t h1).1.mp (h2 hm)).resolve_left ht
    · exact Or.inl (digs_of_plain h1 hm ht)
  · intro h
    have h1 : Body b t := by
      rcases h with h | ⟨t', rfl, h⟩
      · exact (digs_body h).1
      · intro c hc
        rcases List.mem_cons.mp hc with hc | hc
        · exact Or.inl hc
        · exact (digs_body h).1 c hc
    exact ⟨h1, fun _ => (usLoop_iff hb t h1).1.mpr (Or.inr h)⟩

theorem numOf_us (b : Nat) (t : Str) : numOf b ('_' :: t) = numOf b t := by simp [numOf, numFrom]

theorem markBase_cases {c : Char} {b : Nat} (h : markBase c = some b) :
    (b = 2 ∧ lower c = 'b') ∨ (b = 8 ∧ lower c = 'o') ∨ (b = 16 ∧ lower c = 'x') := by
  unfold markBase at h
  split at h
  · simp at h; exact Or.inl ⟨h.symm, (lower_b c).mpr (by assumption)⟩
  · split at h
    · simp at h; exact Or.inr (Or.inl ⟨h.symm, (lower_o c).mpr (by assumption)⟩)
    · split at h
      · simp at h; exact Or.inr (Or.inr ⟨h.symm, (lower_x c).mpr (by assumption)⟩)
      · simp at h

theorem markBase_none {c : Char} (h : markBase c = none) : lower c ≠ 'b' ∧ lower c ≠ 'o' ∧ lower c ≠ 'x' := by
  rw [ne_eq, ne_eq, ne_eq, lower_b, lower_o, lower_x]
  unfold markBase at h
  split at h
  · simp at h
  · split at h
    · simp at h
    · split at h
      · simp at h
      · exact ⟨by assumption, by assumption, by assumption⟩

theorem basePrefix_mark {c : Char} {b : Nat} (h : markBase c = some b) {t : Str} (ht : t ≠ []) :
    basePrefix ('0' :: c :: t) = (b, t) := by
  cases t with
  | nil => exact absurd rfl ht
  | cons d t =>
    simp only [basePrefix]
    rcases markBase_cases h with ⟨h1, h2⟩ | ⟨h1, h2⟩ | ⟨h1, h2⟩
    · rw [if_pos h2, h1]
    · rw [if_neg (by rw [h2]; decide), if_pos h2, h1]
    · rw [if_neg (by rw [h2]; decide), if_neg (by rw [h2]; decide), if_pos h2, h1]

theorem underscoreOK_mark {c : Char} {b : Nat} (h : markBase c = some b) (t : Str) :
    underscoreOK ('0' :: c :: t) = usLoop (decide (b = 16)) t 1 := by
  unfold underscoreOK
  simp only
  rw [if_neg (by decide)]
  simp only
  rcases markBase_cases h with ⟨h1, h2⟩ | ⟨h1, h2⟩ | ⟨h1, h2⟩ <;> simp [h1, h2]

theorem basePrefix_oct {t : Str} (h : ∀ c t', t = c :: t' → t' ≠ [] → markBase c = none) : basePrefix ('0' :: t) = (8, t) := by
  match t, h with
  | [], _ => rfl
  | [c], _ => rfl
  | c :: d :: t', h =>
    have hn := markBase_none (h c (d :: t') rfl (by simp))
    simp only [basePrefix]
    rw [if_neg hn.1, if_neg hn.2.1, if_neg hn.2.2]

theorem underscoreOK_oct {t : Str} (h : ∀ c t', t = c :: t' → markBase c = none) :
    underscoreOK ('0' :: t) = usLoop false t 1 := by
  have h0 : usLoop false ('0' :: t) 0 = usLoop false t 1 := by
    rw [usLoop, if_pos (by left; decide)]
  unfold underscoreOK
  simp only
  rw [if_neg (by decide)]
  match t, h with
  | [], _ => exact h0
  | c :: t', h =>
    have hn := markBase_none (h c t' rfl)
    simp only
    rw [if_neg (by simp [hn]), h0]

theorem mark_not_digit {c : Char} {b : Nat} (h : markBase c = some b) : ¬ IsDig 8 c ∧ ¬ IsDig 10 c ∧ c ≠ '_' := by
  have key : ∀ x ∈ ['b', 'B', 'o', 'O', 'x', 'X'], x ≠ '_' ∧ ((hexVal x).getD 10) ≥ 10 := by decide
  have hc : c ∈ ['b', 'B', 'o', 'O', 'x', 'X'] := by
    unfold markBase at h
    split at h
    · rename_i hq; rcases hq with hq | hq <;> (subst hq; decide)
    · split at h
      · rename_i hq; rcases hq with hq | hq <;> (subst hq; decide)
      · split at h
        · rename_i hq; rcases hq with hq | hq <;> (subst hq; decide)
        · simp at h
  obtain ⟨k1, k2⟩ := key c hc
  refine ⟨?_, ?_, k1⟩ <;> (rintro ⟨d, h1, h2⟩; simp [h1] at k2; omega)

/-- Which literals start with a zero. -/
theorem lit_zero_cons (t : Str) (n : Nat) : Lit ('0' :: t) n ↔
    (t = [] ∧ n = 0) ∨ (t ≠ [] ∧ (Digs 8 t ∨ ∃ t', t = '_' :: t' ∧ Digs 8 t') ∧ n = numOf 8 t) ∨
    (∃ m b u, t = m :: u ∧ u ≠ [] ∧ markBase m = some b ∧ (Digs b u ∨ ∃ u', u = '_' :: u' ∧ Digs b u') ∧ n = numOf b u) := by
  constructor
  · intro h
    generalize hs : '0' :: t = s at h
    cases h with
    | zero => simp at hs; exact Or.inl ⟨hs, rfl⟩
    | dec hd hh => rw [← hs] at hh; simp at hh
    | oct hd =>
      simp at hs; subst hs
      exact Or.inr (Or.inl ⟨(digs_body hd).2.1, Or.inl hd, rfl⟩)
    | octU hd =>
      simp at hs; subst hs
      exact Or.inr (Or.inl ⟨by simp, Or.inr ⟨_, rfl, hd⟩, (numOf_us _ _).symm⟩)
    | pre hm hd =>
      simp at hs; subst hs
      exact Or.inr (Or.inr ⟨_, _, _, rfl, (digs_body hd).2.1, hm, Or.inl hd, rfl⟩)
    | preU hm hd =>
      simp at hs; subst hs
      exact Or.inr (Or.inr ⟨_, _, _, rfl, by simp, hm, Or.inr ⟨_, rfl, hd⟩, (numOf_us _ _).symm⟩)
  · rintro (⟨rfl, rfl⟩ | ⟨_, hd | ⟨t', rfl, hd⟩, rfl⟩ | ⟨m, b, u, rfl, _, hm, hd | ⟨u', rfl, hd⟩, rfl⟩)
    · exact .zero
    · exact .oct hd
    · rw [numOf_us]; exact .octU hd
    · exact .pre hm hd
    · rw [numOf_us]; exact .preU hm hd

/-- C134: `strconv.ParseUint(s, 0, bits)` accepts exactly the literals of the Go language below `2^bits`, and returns their value. -/
theorem C134_go_uint (s : Str) (bits : Nat) (hb : 1 ≤ bits) (hb2 : bits ≤ 64) (n : Nat) :
    goParseUint s bits = .ok n ↔ Lit s n ∧ n < 2 ^ bits := by
  match s with
  | [] =>
    refine ⟨fun h => by simp [goParseUint] at h, ?_⟩
    rintro ⟨h, _⟩
    generalize hs : ([] : Str) = s at h
    cases h with
    | dec hd _ => exact absurd hs.symm (digs_body hd).2.1
    | _ => simp at hs
  | c0 :: t =>
    by_cases hc0 : c0 = '0'
    · subst hc0
      by_cases hmk : ∃ m b u, t = m :: u ∧ u ≠ [] ∧ markBase m = some b
      · obtain ⟨m, b, u, rfl, hu, hm⟩ := hmk
        have hbb : b = 2 ∨ b = 8 ∨ b = 16 := by
          rcases markBase_cases hm with h | h | h <;> simp [h.1]
        rw [goParseUint_ok _ bits hb hb2 n b u (basePrefix_mark hm hu) (by omega) (by omega), underscoreOK_mark hm,
          lit_zero_cons]
        have hbi := body_iff (b := b) (t := u) (by omega) hu
        constructor
        · rintro ⟨_, h1, h2, h3, h4⟩
          exact ⟨Or.inr (Or.inr ⟨m, b, u, rfl, hu, hm, hbi.mp ⟨h1, h2⟩, h3⟩), h4⟩
        · rintro ⟨h | ⟨_, h, _⟩ | ⟨m', b', u', he, _, hm', h, h3⟩, h4⟩
          · simp at h
          · exfalso
            have hk := mark_not_digit hm
            rcases h with h | ⟨t', he, h⟩
            · obtain ⟨_, _, c, t', he, hd⟩ := digs_body h
              simp at he
              rw [← he.1] at hd
              exact hk.1 hd
            · simp at he
              exact hk.2.2 he.1
          · simp at he
            obtain ⟨rfl, rfl⟩ := he
            rw [hm] at hm'
            simp at hm'
            subst hm'
            have := hbi.mpr h
            exact ⟨by simp, this.1, this.2, h3, h4⟩
      · have hno : ∀ c t', t = c :: t' → t' ≠ [] → markBase c = none := by
          intro c t' he hne
          cases hm : markBase c with
          | none => rfl
          | some b => exact absurd ⟨c, b, t', he, hne, hm⟩ hmk
        rw [goParseUint_ok _ bits hb hb2 n 8 t (basePrefix_oct hno) (by omega) (by omega), lit_zero_cons]
        by_cases ht : t = []
        · subst ht
          constructor
          · rintro ⟨_, _, _, h3, h4⟩; exact ⟨Or.inl ⟨rfl, h3⟩, h4⟩
          · rintro ⟨⟨_, h3⟩ | ⟨h, _⟩ | ⟨_, _, _, h, _⟩, h4⟩
            · exact ⟨by simp, by simp [Body], by simp, h3, h4⟩
            · exact absurd rfl h
            · simp at h
        · have hbi := body_iff (b := 8) (t := t) (by omega) ht
          have hus : Body 8 t → underscoreOK ('0' :: t) = usLoop (decide (8 = 16)) t 1 := by
            intro hbd
            refine underscoreOK_oct ?_
            intro c t' he
            cases hm : markBase c with
            | none => rfl
            | some b =>
              have hk := mark_not_digit hm
              rcases hbd c (by simp [he]) with h | h
              · exact absurd h hk.2.2
              · exact absurd h hk.1
          constructor
          · rintro ⟨_, h1, h2, h3, h4⟩
            rw [hus h1] at h2
            exact ⟨Or.inr (Or.inl ⟨ht, hbi.mp ⟨h1, h2⟩, h3⟩), h4⟩
          · rintro ⟨⟨h, _⟩ | ⟨_, h, h3⟩ | ⟨m, b, u, he, hu, hm, _⟩, h4⟩
            · exact absurd h ht
            · have := hbi.mpr h
              refine ⟨by simp, this.1, ?_, h3, h4⟩
              rw [hus this.1]
              exact this.2
            · exact absurd ⟨m, b, u, he, hu, hm⟩ hmk
    · have hp : basePrefix (c0 :: t) = (10, c0 :: t) := by
        unfold basePrefix
        split
        · rename_i h; simp at h; exact absurd h.1 hc0
        · rename_i h; simp at h; exact absurd h.1 hc0
        · rfl
      rw [goParseUint_ok _ bits hb hb2 n 10 _ hp (by omega) (by omega)]
      have hus : Body 10 (c0 :: t) → underscoreOK (c0 :: t) = usLoop (decide (10 = 16)) (c0 :: t) 0 := by
        intro hbd
        have hns : ¬ (c0 = '-' ∨ c0 = '+') := by
          rcases hbd c0 (by simp) with h | h
          · subst h; decide
          · have := isDig_ne h; simp [this]
        unfold underscoreOK
        simp only [if_neg hns]
        split
        · rename_i h; simp at h; exact absurd h.1 hc0
        · rfl
      constructor
      · rintro ⟨_, h1, h2, h3, h4⟩
        refine ⟨?_, h4⟩
        rw [h3]
        refine .dec ?_ (by simpa using hc0)
        by_cases hm : '_' ∈ c0 :: t
        · have := h2 hm
          rw [hus h1] at this
          exact ((usLoop_iff (b := 10) (by omega) _ h1).2.2.mp this).resolve_left (by simp)
        · exact digs_of_plain h1 hm (by simp)
      · rintro ⟨h, h4⟩
        generalize hs : c0 :: t = s at h
        cases h with
        | dec hd _ =>
          subst hs
          have h1 := (digs_body hd).1
          refine ⟨by simp, h1, ?_, rfl, h4⟩
          intro _
          rw [hus h1]
          exact (usLoop_iff (b := 10) (by omega) _ h1).2.2.mpr (Or.inr hd)
        | _ => simp at hs; exact absurd hs.1 hc0

/-- Specification: the signed range of a width. -/
def InRange (bits : Nat) (v : Int) : Prop := -(2 ^ (bits - 1) : Nat) ≤ v ∧ v < (2 ^ (bits - 1) : Nat)

theorem lit_head {s : Str} {n : Nat} (h : Lit s n) : ∃ c t, s = c :: t ∧ c ≠ '+' ∧ c ≠ '-' := by
  cases h with
  | dec hd _ =>
    obtain ⟨_, _, c, t, he, hc⟩ := digs_body hd
    exact ⟨c, t, he, (isDig_ne hc).2⟩
  | _ => exact ⟨_, _, rfl, by decide, by decide⟩

/-- C134: `strconv.ParseInt(s, 0, bits)` accepts exactly the literals with an optional sign in the signed range. -/
theorem C134_go_int (s : Str) (bits : Nat) (hb : 1 ≤ bits) (hb2 : bits ≤ 64) (v : Int) :
    goParseInt s bits = .ok v ↔ IntLit s v ∧ InRange bits v := by
  obtain ⟨p1, p2, p3⟩ := two_pow_bits hb hb2
  unfold goParseInt InRange
  match s with
  | [] =>
    refine ⟨fun h => (nomatch h), ?_⟩
    rintro ⟨h, _⟩
    generalize hs : ([] : Str) = s at h
    cases h with
    | plain h => obtain ⟨_, _, he, _⟩ := lit_head h; rw [← hs] at he; simp at he
    | _ => simp at hs
  | c :: t =>
    simp only
    by_cases hm : c = '-'
    · subst hm
      have hno : ∀ n, ¬ Lit ('-' :: t) n := by
        intro n h; obtain ⟨c, _, he, _, h2⟩ := lit_head h; simp at he; exact h2 he.1.symm
      have hi : IntLit ('-' :: t) v ↔ ∃ n : Nat, Lit t n ∧ v = -(n : Int) := by
        constructor
        · intro h
          generalize hs : '-' :: t = s at h
          cases h with
          | plain h => rw [← hs] at h; exact absurd h (hno _)
          | plus _ => simp at hs
          | minus h => simp at hs; subst hs; exact ⟨_, h, rfl⟩
        · rintro ⟨n, h, rfl⟩; exact .minus h
      rw [if_pos (by simp), hi]
      cases hu : goParseUint t bits with
      | error e =>
        refine ⟨fun h => (nomatch h), ?_⟩
        rintro ⟨⟨n, h, rfl⟩, h2, _⟩
        have := (C134_go_uint t bits hb hb2 n).mpr ⟨h, by omega⟩
        rw [hu] at this
        exact nomatch this
      | ok un =>
        obtain ⟨h1, h2⟩ := (C134_go_uint t bits hb hb2 un).mp hu
        simp only [decide_true, Bool.true_eq_false, false_and, if_false, true_and, if_true]
        constructor
        · intro h
          split at h
          · exact nomatch h
          · simp at h
            subst h
            exact ⟨⟨un, h1, rfl⟩, by omega, by omega⟩
        · rintro ⟨⟨n, h, rfl⟩, h3, _⟩
          have := (C134_go_uint t bits hb hb2 n).mpr ⟨h, by omega⟩
          rw [hu] at this
          simp at this
          subst this
          rw [if_neg (by omega)]
    · have hd : decide (c = '-') = false := by simp [hm]
      have hi : ∃ u, u = (if c = '+' ∨ c = '-' then t else c :: t) ∧ (∀ v, IntLit (c :: t) v ↔ ∃ n : Nat, Lit u n ∧ v = (n : Int)) := by
        refine ⟨_, rfl, ?_⟩
        intro v
        by_cases hp : c = '+'
        · rw [if_pos (Or.inl hp)]
          subst hp
          constructor
          · intro h
            generalize hs : '+' :: t = s at h
            cases h with
            | plain h => rw [← hs] at h; obtain ⟨c, _, he, h2, _⟩ := lit_head h; simp at he; exact absurd he.1.symm h2
            | plus h => simp at hs; subst hs; exact ⟨_, h, rfl⟩
            | minus _ => simp at hs
          · rintro ⟨n, h, rfl⟩; exact .plus h
        · rw [if_neg (by simp [hp, hm])]
          constructor
          · intro h
            generalize hs : c :: t = s at h
            cases h with
            | plain h => exact ⟨_, h, rfl⟩
            | plus h => simp at hs; exact absurd hs.1 hp
            | minus _ => simp at hs; exact absurd hs.1 hm
          · rintro ⟨n, h, rfl⟩; exact .plain h
      obtain ⟨u, hu0, hi⟩ := hi
      rw [← hu0, hi v, hd]
      cases hu : goParseUint u bits with
      | error e =>
        refine ⟨fun h => (nomatch h), ?_⟩
        rintro ⟨⟨n, h, rfl⟩, h2, _⟩
        have := (C134_go_uint u bits hb hb2 n).mpr ⟨h, by omega⟩
        rw [hu] at this
        exact nomatch this
      | ok un =>
        obtain ⟨h1, h2⟩ := (C134_go_uint u bits hb hb2 un).mp hu
        simp only [true_and, Bool.false_eq_true, false_and, if_false]
        constructor
        · intro h
          split at h
          · exact nomatch h
          · simp at h
            subst h
            exact ⟨⟨un, h1, rfl⟩, by omega, by omega⟩
        · rintro ⟨⟨n, h, rfl⟩, _, h3⟩
          have := (C134_go_uint u bits hb hb2 n).mpr ⟨h, by omega⟩
          rw [hu] at this
          simp at this
          subst this
          rw [if_neg (by omega)]

/-! ### the fallback to hexadecimal digits without prefix -/

theorem decodeHexNumber_some {s : Str} {neg : Bool} {bs : Bytes} (h : decodeHexNumber s = some (neg, bs)) :
    ∃ ds, IsHex ds ∧ (s = (if neg then ['-'] else []) ++ ds ∨ (ds ≠ [] ∧ s = (if neg then ['-'] else []) ++ '0' :: 'x' :: ds)) ∧
      beNat bs = hexNum ds ∧ bs.length = (ds.length + 1) / 2 := by
  unfold decodeHexNumber at h
  simp only at h
  cases hd : hexDecode (if (strip0x (stripNeg s).2).length % 2 = 1 then '0' :: strip0x (stripNeg s).2 else strip0x (stripNeg s).2) with
  | none => simp [hd] at h
  | some bs0 =>
    have hx : IsHex (strip0x (stripNeg s).2) := by
      have := hexDecode_isHex _ _ hd
      split at this
      · exact fun c hc => this c (by simp [hc])
      · exact this
    obtain ⟨bs', h1, h2, h3⟩ := padded _ hx
    rw [hd] at h1 h
    simp at h1 h
    obtain ⟨h4, h5⟩ := h
    subst h1 h5
    refine ⟨strip0x (stripNeg s).2, hx, ?_, h2, h3⟩
    rcases strip0x_eq (stripNeg s).2 with h6 | ⟨h6, h7⟩
    · left; rw [h6, ← h4]; exact stripNeg_eq s
    · right; refine ⟨h7, ?_⟩; rw [← h6, ← h4]; exact stripNeg_eq s

theorem decodeHexNumber_plain (neg : Bool) {ds : Str} (hx : IsHex ds) :
    ∃ bs, decodeHexNumber ((if neg then ['-'] else []) ++ ds) = some (neg, bs) ∧ beNat bs = hexNum ds ∧
      bs.length = (ds.length + 1) / 2 := by
  obtain ⟨bs, h1, h2, h3⟩ := padded ds hx
  refine ⟨bs, ?_, h2, h3⟩
  have hsn : stripNeg ((if neg then ['-'] else []) ++ ds) = (neg, ds) := by
    cases neg
    · have := (isHex_not_special hx).1
      cases ds with
      | nil => rfl
      | cons c t =>
        have hc : c ≠ '-' := by rintro rfl; simp at this
        simp only [Bool.false_eq_true, if_false, List.nil_append]
        unfold stripNeg
        split
        · rename_i h; simp at h; exact absurd h.1 hc
        · rfl
    · rfl
  unfold decodeHexNumber
  simp only [hsn, strip0x_hex ds hx, h1, Option.map_some]

/-- Specification: minus or nothing. -/
def signed (neg : Bool) (n : Nat) : Int := if neg then -(n : Int) else n

theorem numFrom_lt {b : Nat} (hb : 1 ≤ b) (s : Str) (h : Body b s) (a : Nat) : numFrom b a s < (a + 1) * b ^ s.length := by
  induction s generalizing a with
  | nil => simp [numFrom]
  | cons c t ih =>
    have ht : Body b t := fun x hx => h x (List.mem_cons_of_mem _ hx)
    have hp : 1 ≤ b ^ t.length := Nat.pow_pos (by omega)
    rw [numFrom]
    rcases h c (by simp) with hc | hc
    · rw [if_pos hc, List.length_cons, Nat.pow_succ]
      have h1 := ih ht a
      have h2 : (a + 1) * b ^ t.length ≤ (a + 1) * (b ^ t.length * b) := Nat.mul_le_mul_left _ (Nat.le_mul_of_pos_right _ hb)
      omega
    · rw [if_neg (isDig_ne hc).1]
      obtain ⟨d, hd, hlt⟩ := hc
      rw [hd]
      simp only [Option.getD_some]
      have h1 := ih ht (a * b + d)
      have h2 : (a * b + d + 1) * b ^ t.length ≤ ((a + 1) * b) * b ^ t.length := by
        refine Nat.mul_le_mul_right _ ?_
        rw [Nat.add_mul]; omega
      have h3 : ((a + 1) * b) * b ^ t.length = (a + 1) * b ^ (c :: t).length := by
        rw [List.length_cons, Nat.pow_succ, Nat.mul_assoc, Nat.mul_comm b]
      omega

theorem numOf_lt {b : Nat} (hb : 1 ≤ b) {s : Str} (h : Body b s) : numOf b s < b ^ s.length := by
  have := numFrom_lt hb s h 0
  simpa [numOf] using this

/-- A literal that could also be read as hexadecimal digits is below ten to the number of its characters. -/
theorem lit_hex_lt {ds : Str} {n : Nat} (hx : IsHex ds) (h : Lit ds n) : n < 10 ^ ds.length := by
  cases h with
  | zero => decide
  | dec hd _ => exact numOf_lt (by omega) (digs_body hd).1
  | @oct ds hd =>
    have h1 := numOf_lt (b := 8) (by omega) (digs_body hd).1
    have h2 : 8 ^ ds.length ≤ 10 ^ ds.length := Nat.pow_le_pow_left (by omega) _
    have h3 : 10 ^ ds.length ≤ 10 ^ ('0' :: ds).length := Nat.pow_le_pow_right (by omega) (by simp)
    omega
  | octU hd => exact absurd (by simp) (isHex_not_special hx).2.2.1
  | @pre m b ds hm hd =>
    have hb : b = 2 := by
      have h1 : (hexVal m).isSome := hx m (by simp)
      unfold markBase at hm
      split at hm
      · simp at hm; exact hm.symm
      · split at hm
        · rename_i hq; exfalso; rcases hq with hq | hq <;> (subst hq; revert h1; decide)
        · split at hm
          · rename_i hq; exfalso; rcases hq with hq | hq <;> (subst hq; revert h1; decide)
          · simp at hm
    subst hb
    have h1 := numOf_lt (b := 2) (by omega) (digs_body hd).1
    have h2 : 2 ^ ds.length ≤ 10 ^ ds.length := Nat.pow_le_pow_left (by omega) _
    have h3 : 10 ^ ds.length ≤ 10 ^ ('0' :: m :: ds).length := Nat.pow_le_pow_right (by omega) (by simp; omega)
    omega
  | preU _ hd => exact absurd (by simp) (isHex_not_special hx).2.2.1

theorem lit_ne_nil {n : Nat} : ¬ Lit [] n := by
  intro h; obtain ⟨_, _, he, _⟩ := lit_head h; simp at he

theorem lit_hex_range {ds : Str} {n bits : Nat} (hb2 : bits ≤ 64) (hx : IsHex ds) (h : Lit ds n)
    (hl : (ds.length + 1) / 2 * 8 ≤ bits) : n < 2 ^ (bits - 1) := by
  have h1 := lit_hex_lt hx h
  have hne : ds.length ≠ 0 := by
    intro h0
    have : ds = [] := by simpa using h0
    subst this
    exact lit_ne_nil h
  generalize hL : ds.length = L at *
  have h2 : (10 : Nat) ^ L ≤ 10 ^ (2 * ((L + 1) / 2)) := Nat.pow_le_pow_right (by omega) (by omega)
  generalize hm : (L + 1) / 2 = m at *
  have h3 : 2 ^ (8 * m - 1) ≤ 2 ^ (bits - 1) := Nat.pow_le_pow_right (by omega) (by omega)
  have h4 : 10 ^ (2 * m) ≤ 2 ^ (8 * m - 1) := by
    have key : ∀ k : Fin 9, k.val ≠ 0 → 10 ^ (2 * k.val) ≤ 2 ^ (8 * k.val - 1) := by decide
    exact key ⟨m, by omega⟩ (by simp; omega)
  omega

theorem bytesToSize_eq (bs : Bytes) (h : bs.length * 8 ≤ 64) : bytesToSize bs = beNat bs := by
  rw [C03_bytesToSize_value]
  have h1 := beNat_lt bs
  rw [pow256] at h1
  have h2 : 2 ^ (8 * bs.length) ≤ 2 ^ 64 := Nat.pow_le_pow_right (by omega) (by omega)
  exact Nat.mod_eq_of_lt (by omega)

theorem hex_lit {ds : Str} (hx : IsHex ds) (hne : ds ≠ []) : Lit ('0' :: 'x' :: ds) (hexNum ds) := by
  have hd : Digs 16 ds := by
    refine digs_of_plain ?_ (isHex_not_special hx).2.2.1 hne
    intro c hc
    obtain ⟨d, h⟩ := Option.isSome_iff_exists.mp (hx c hc)
    exact Or.inr ⟨d, h, hexVal_lt h⟩
  have hn : numOf 16 ds = hexNum ds := by
    have : ∀ (s : Str) (a : Nat), '_' ∉ s → numFrom 16 a s = s.foldl (fun a c => a * 16 + (hexVal c).getD 0) a := by
      intro s
      induction s with
      | nil => intro a _; rfl
      | cons c t ih =>
        intro a h
        simp only [List.mem_cons, not_or] at h
        rw [numFrom, if_neg (Ne.symm h.1), List.foldl_cons, ih _ h.2]
    exact this ds 0 (isHex_not_special hx).2.2.1
  rw [← hn]
  exact .pre (by decide) hd

theorem signLit {neg : Bool} {s : Str} {n : Nat} (h : Lit s n) : IntLit ((if neg then ['-'] else []) ++ s) (signed neg n) := by
  cases neg
  · exact .plain h
  · exact .minus h

theorem signLit_inv {neg : Bool} {ds : Str} (hx : IsHex ds) {w : Int} (h : IntLit ((if neg then ['-'] else []) ++ ds) w) :
    ∃ n, Lit ds n ∧ w = signed neg n := by
  have hsp := isHex_not_special hx
  generalize hs : (if neg then ['-'] else []) ++ ds = s at h
  cases h with
  | plain h =>
    cases neg
    · simp at hs; subst hs; exact ⟨_, h, rfl⟩
    · simp at hs
      obtain ⟨c, t, he, _, h2⟩ := lit_head h
      rw [← hs] at he
      simp at he
      exact absurd he.1.symm h2
  | plus h =>
    cases neg
    · simp at hs; subst hs; exact absurd (by simp) hsp.2.1
    · simp at hs
  | minus h =>
    cases neg
    · simp at hs; subst hs; exact absurd (by simp) hsp.1
    · simp at hs; subst hs; exact ⟨_, h, rfl⟩

theorem signed_range {neg : Bool} {n bits : Nat} (h : n < 2 ^ (bits - 1)) : InRange bits (signed neg n) := by
  unfold InRange signed; cases neg <;> simp only [Bool.false_eq_true, if_false, if_true] <;> omega

/-- C134: `ParseInt(s, bits)` of the project accepts exactly: an integer literal of the Go language with an optional sign, in the
signed range; or, when the text is no literal, an optional minus and hexadecimal digits without prefix that fit the width in whole
bytes, in the signed range. A literal out of range is refused, it is never read again as hexadecimal digits. -/
theorem C134_parseInt (s : Str) (bits : Nat) (hb : 1 ≤ bits) (hb2 : bits ≤ 64) (v : Int) :
    parseInt s bits = some v ↔ InRange bits v ∧ (IntLit s v ∨ ((∀ w, ¬ IntLit s w) ∧ ∃ neg ds, IsHex ds ∧
      s = (if neg then ['-'] else []) ++ ds ∧ (ds.length + 1) / 2 * 8 ≤ bits ∧ v = signed neg (hexNum ds))) := by
  obtain ⟨p1, p2, p3⟩ := two_pow_bits hb hb2
  have hgo := C134_go_int s bits hb hb2
  have fb : ∀ neg bs, decodeHexNumber s = some (neg, bs) → (∀ w, goParseInt s bits ≠ .ok w) →
      (parseInt s bits = some v ↔ bs.length * 8 ≤ bits ∧ v = signed neg (beNat bs) ∧ InRange bits v) := by
    intro neg bs hd herr
    unfold parseInt
    cases hg : goParseInt s bits with
    | ok w => exact absurd hg (herr w)
    | error e =>
      simp only [hd]
      by_cases hl : bs.length * 8 > bits
      · rw [if_pos hl]
        exact ⟨fun h => (nomatch h), fun h => by omega⟩
      · rw [if_neg hl, bytesToSize_eq bs (by omega)]
        unfold signed InRange
        cases neg
        · simp only [Bool.false_eq_true, if_false]
          constructor
          · intro h
            split at h
            · exact nomatch h
            · rename_i hlt
              simp only [Option.some.injEq] at h
              unfold toInt64 at h
              simp only at h
              split at h <;> (refine ⟨?_, ?_, ?_, ?_⟩ <;> omega)
          · rintro ⟨_, h1, _, h2⟩
            rw [if_neg (by omega)]
            unfold toInt64
            simp only [Option.some.injEq]
            split <;> omega
        · simp only [if_true]
          constructor
          · intro h
            split at h
            · exact nomatch h
            · rename_i hlt
              simp only [Option.some.injEq] at h
              unfold toInt64 at h
              simp only at h
              split at h <;> split at h <;> (refine ⟨?_, ?_, ?_, ?_⟩ <;> omega)
          · rintro ⟨_, h1, h2, _⟩
            rw [if_neg (by omega)]
            unfold toInt64
            simp only [Option.some.injEq]
            split <;> split <;> omega
  constructor
  · intro h
    cases hg : goParseInt s bits with
    | ok w =>
      have hw : w = v := by
        unfold parseInt at h; rw [hg] at h; simpa using h
      subst hw
      obtain ⟨h1, h2⟩ := (hgo w).mp hg
      exact ⟨h2, Or.inl h1⟩
    | error e =>
      have herr : ∀ w, goParseInt s bits ≠ .ok w := by intro w hw; rw [hg] at hw; exact nomatch hw
      cases hd : decodeHexNumber s with
      | none => unfold parseInt at h; rw [hg] at h; simp [hd] at h
      | some r =>
        obtain ⟨neg, bs⟩ := r
        obtain ⟨h1, h2, h3⟩ := (fb neg bs hd herr).mp h
        obtain ⟨ds, hx, hs, hn, hlen⟩ := decodeHexNumber_some hd
        rcases hs with hs | ⟨hne, hs⟩
        · refine ⟨h3, Or.inr ⟨?_, neg, ds, hx, hs, by omega, by rw [h2, hn]⟩⟩
          intro w hw
          have hw' := hw
          rw [hs] at hw'
          obtain ⟨n, hl, rfl⟩ := signLit_inv hx hw'
          have := signed_range (neg := neg) (lit_hex_range hb2 hx hl (by omega))
          exact herr _ ((hgo _).mpr ⟨hw, this⟩)
        · exfalso
          refine herr v ((hgo v).mpr ⟨?_, h3⟩)
          rw [hs, h2, hn]
          exact signLit (hex_lit hx hne)
  · rintro ⟨hr, h | ⟨hno, neg, ds, hx, hs, hlen, hv⟩⟩
    · have := (hgo v).mpr ⟨h, hr⟩
      unfold parseInt; rw [this]
    · have herr : ∀ w, goParseInt s bits ≠ .ok w := by
        intro w hw
        exact hno w ((hgo w).mp hw).1
      obtain ⟨bs, h1, h2, h3⟩ := decodeHexNumber_plain neg hx
      rw [← hs] at h1
      exact (fb neg bs h1 herr).mpr ⟨by omega, by rw [hv, h2], hr⟩

/-- C134: `ParseUint(s, bits)`: the literals without sign below `2^bits`; or, when the text is no literal, hexadecimal digits
without prefix that fit the width in whole bytes. -/
theorem C134_parseUint (s : Str) (bits : Nat) (hb : 1 ≤ bits) (hb2 : bits ≤ 64) (v : Nat) :
    parseUint s bits = some v ↔ (Lit s v ∧ v < 2 ^ bits) ∨
      ((∀ w, ¬ Lit s w) ∧ IsHex s ∧ (s.length + 1) / 2 * 8 ≤ bits ∧ v = hexNum s) := by
  obtain ⟨p1, p2, p3⟩ := two_pow_bits hb hb2
  have hgo := C134_go_uint s bits hb hb2
  unfold parseUint
  cases hg : goParseUint s bits with
  | ok w =>
    obtain ⟨h1, h2⟩ := (hgo w).mp hg
    simp only [Option.some.injEq]
    constructor
    · rintro rfl; exact Or.inl ⟨h1, h2⟩
    · rintro (h | ⟨h, _⟩)
      · have := (hgo v).mpr h
        rw [hg] at this
        simpa using this
      · exact absurd h1 (h w)
  | error e =>
    have herr : ∀ w, goParseUint s bits ≠ .ok w := by intro w hw; rw [hg] at hw; exact nomatch hw
    simp only
    constructor
    · intro h
      split at h
      · rename_i bs hd
        split at h
        · exact nomatch h
        · rename_i hl
          simp only [Option.some.injEq] at h
          rw [bytesToSize_eq bs (by omega)] at h
          obtain ⟨ds, hx, hs, hn, hlen⟩ := decodeHexNumber_some hd
          simp only [Bool.false_eq_true, if_false, List.nil_append] at hs
          have hlt : v < 2 ^ bits := by
            have h1 := beNat_lt bs
            rw [pow256] at h1
            have h2 : 2 ^ (8 * bs.length) ≤ 2 ^ bits := Nat.pow_le_pow_right (by omega) (by omega)
            omega
          rcases hs with hs | ⟨hne, hs⟩
          · subst hs
            refine Or.inr ⟨?_, hx, by omega, by omega⟩
            intro w hw
            have := lit_hex_range hb2 hx hw (by omega)
            exact herr w ((hgo w).mpr ⟨hw, by omega⟩)
          · exact absurd ((hgo v).mpr ⟨by rw [hs, ← h, hn]; exact hex_lit hx hne, hlt⟩) (herr v)
      · exact nomatch h
    · rintro (h | ⟨_, hx, hlen, hv⟩)
      · exact absurd ((hgo v).mpr h) (herr v)
      · obtain ⟨bs, h1, h2, h3⟩ := decodeHexNumber_plain false hx
        simp only [Bool.false_eq_true, if_false, List.nil_append] at h1
        rw [h1]
        simp only
        rw [if_neg (by omega), bytesToSize_eq bs (by omega), h2, hv]

/-- C134, witness that the meaning of a text depends on the digits in it: `010` is eight, `019` is twenty-five and `19` nineteen;
`0b1` is one and `0b2` is 178. -/
theorem C134_meaning_witness : parseInt ['0', '1', '0'] 64 = some 8 ∧ parseInt ['0', '1', '9'] 64 = some 25 ∧
    parseInt ['1', '9'] 64 = some 19 ∧ parseInt ['0', 'b', '1'] 64 = some 1 ∧ parseInt ['0', 'b', '2'] 64 = some 178 := by
  decide +kernel

/-! ### examples -/

example : Lit ['0', 'x', '_', 'F', '_', 'f'] 255 := by
  have : Digs 16 ['F', '_', 'f'] := .gap ⟨15, by decide, by decide⟩ (.one ⟨15, by decide, by decide⟩)
  exact .preU (by decide) this

example : parseInt ['1', '_', '0'] 64 = some 10 ∧ parseInt ['1', '_', '_', '0'] 64 = none ∧ parseInt ['+', '7'] 64 = some 7 ∧
    parseInt ['+', 'f'] 64 = none ∧ parseInt ['-', 'f', 'f'] 16 = some (-255) ∧ parseInt ['2', '0', '0'] 8 = none ∧
    parseInt [] 64 = some 0 ∧ parseUint ['0', 'B', '1', '1'] 8 = some 3 ∧ parseUint ['0', '0', 'f', 'f', 'f'] 16 = none := by
  decide +kernel

end Verif.IntText
