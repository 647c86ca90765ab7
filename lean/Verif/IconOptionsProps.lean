import Verif.IconOptions
import Verif.SenderProps
/-! C58: the option header of the ICON client. -/
namespace Verif.IconOptions
open Verif Verif.IntText

/-- The entries survive the header: the key is not empty and holds no separator, the value holds no comma. -/
def Admissible (p : Str × Str) : Prop := p.1 ≠ [] ∧ ',' ∉ p.1 ∧ '=' ∉ p.1 ∧ ',' ∉ p.2

theorem split_ne (s : Str) : split s ≠ [] := by
  cases s with
  | nil => simp [split]
  | cons c cs =>
    unfold split
    split
    · simp
    · split <;> simp

theorem split_nocomma (s : Str) : ∀ p ∈ split s, ',' ∉ p := by
  induction s with
  | nil => simp [split]
  | cons c cs ih =>
    unfold split
    by_cases h : c = ','
    · rw [if_pos h]
      intro p hp
      rcases List.mem_cons.1 hp with rfl | hp
      · simp
      · exact ih p hp
    · rw [if_neg h]
      cases e : split cs with
      | nil => intro p hp; simp only [List.mem_singleton] at hp; subst hp; simp [Ne.symm h]
      | cons q qs =>
        rw [e] at ih
        intro p hp
        rcases List.mem_cons.1 hp with rfl | hp
        · have := ih q (by simp)
          simp only [List.mem_cons, not_or]
          exact ⟨fun x => h x.symm, this⟩
        · exact ih p (by simp [hp])

theorem split_plain (p : Str) (h : ',' ∉ p) : split p = [p] := by
  induction p with
  | nil => rfl
  | cons c cs ih =>
    simp only [List.mem_cons, not_or] at h
    unfold split
    rw [if_neg (fun x => h.1 x.symm), ih h.2]

theorem split_append (p q : Str) (h : ',' ∉ p) : split (p ++ ',' :: q) = p :: split q := by
  induction p with
  | nil => simp [split]
  | cons c cs ih =>
    simp only [List.mem_cons, not_or] at h
    rw [List.cons_append]
    rw [split, if_neg (fun x => h.1 x.symm), ih h.2]

theorem split_join (l : List Str) (hne : l ≠ []) (h : ∀ p ∈ l, ',' ∉ p) : split (join l) = l := by
  induction l with
  | nil => exact absurd rfl hne
  | cons s l ih =>
    cases l with
    | nil => exact split_plain s (h s (by simp))
    | cons t l =>
      show split (s ++ ',' :: join (t :: l)) = _
      rw [split_append s _ (h s (by simp)), ih (by simp) (fun p hp => h p (by simp [hp]))]

theorem indexEq_none (s : Str) : indexEq s = none ↔ '=' ∉ s := by
  induction s with
  | nil => simp [indexEq]
  | cons c cs ih =>
    unfold indexEq
    by_cases h : c = '='
    · simp [h]
    · rw [if_neg h]
      simp only [Option.map_eq_none_iff, ih, List.mem_cons, not_or]
      exact ⟨fun x => ⟨fun e => h e.symm, x⟩, fun x => x.2⟩

theorem indexEq_some (s : Str) (i : Nat) (h : indexEq s = some i) : '=' ∉ s.take i ∧ s = s.take i ++ '=' :: s.drop (i + 1) := by
  induction s generalizing i with
  | nil => cases h
  | cons c cs ih =>
    unfold indexEq at h
    by_cases hc : c = '='
    · rw [if_pos hc] at h; cases h; simp [hc]
    · rw [if_neg hc] at h
      cases e : indexEq cs with
      | none => rw [e] at h; cases h
      | some j =>
        rw [e] at h
        simp only [Option.map_some, Option.some.injEq] at h
        subst h
        obtain ⟨h1, h2⟩ := ih j e
        constructor
        · simp only [List.take_succ_cons, List.mem_cons, not_or]
          exact ⟨fun x => hc x.symm, h1⟩
        · simp only [List.take_succ_cons, List.drop_succ_cons, List.cons_append]
          exact congrArg (c :: ·) h2

theorem indexEq_pair (k v : Str) (h : '=' ∉ k) : indexEq (k ++ '=' :: v) = some k.length := by
  induction k with
  | nil => simp [indexEq]
  | cons c cs ih =>
    simp only [List.mem_cons, not_or] at h
    rw [List.cons_append]
    unfold indexEq
    rw [if_neg (fun x => h.1 x.symm), ih h.2]
    rfl

/-- What a piece is: key and value. -/
def pieceOf (kv : Str) : Option (Str × Str) :=
  if kv = [] then none
  else
    match indexEq kv with
    | some (i + 1) => some (kv.take (i + 1), kv.drop (i + 2))
    | _ => some (kv, [])

theorem addPiece_eq (m : Opts) (kv : Str) :
    addPiece m kv = match pieceOf kv with | none => m | some p => set p.1 p.2 m := by
  unfold addPiece pieceOf
  by_cases h : kv = []
  · rw [if_pos h, if_pos h]
  · rw [if_neg h, if_neg h]
    cases indexEq kv with
    | none => rfl
    | some i => cases i <;> rfl

/-- A piece has a key that is not empty; the key either holds no '=' or begins with one, and then is the whole piece. -/
theorem pieceOf_spec (kv : Str) (p : Str × Str) (h : pieceOf kv = some p) (hc : ',' ∉ kv) :
    p.1 ≠ [] ∧ ',' ∉ p.1 ∧ ',' ∉ p.2 ∧ ('=' ∉ p.1 ∨ (p.1 = kv ∧ kv.head? = some '=')) := by
  unfold pieceOf at h
  by_cases h0 : kv = []
  · rw [if_pos h0] at h; cases h
  · rw [if_neg h0] at h
    cases e : indexEq kv with
    | none =>
      rw [e] at h; cases h
      exact ⟨h0, hc, by simp, Or.inl ((indexEq_none kv).1 e)⟩
    | some i =>
      rw [e] at h
      obtain ⟨h1, h2⟩ := indexEq_some kv i e
      cases i with
      | zero =>
        cases h
        refine ⟨h0, hc, by simp, Or.inr ⟨rfl, ?_⟩⟩
        rw [h2]; rfl
      | succ i =>
        cases h
        refine ⟨?_, ?_, ?_, Or.inl h1⟩
        · cases kv with
          | nil => exact absurd rfl h0
          | cons c cs => simp
        · exact fun hm => hc (List.mem_of_mem_take hm)
        · exact fun hm => hc (List.mem_of_mem_drop hm)

theorem pieceOf_pair (k v : Str) (hk : k ≠ []) (he : '=' ∉ k) : pieceOf (k ++ '=' :: v) = some (k, v) := by
  unfold pieceOf
  rw [if_neg (by simp), indexEq_pair k v he]
  cases k with
  | nil => exact absurd rfl hk
  | cons c cs =>
    simp only [List.length_cons]
    congr 2
    · rw [List.take_left' (by simp)]
    · rw [show cs.length + 2 = (c :: cs).length + 1 by simp, List.drop_append]
      simp

theorem lookup_set (k k' v : Str) (m : Opts) : lookup k' (set k v m) = if k = k' then some v else lookup k' m := by
  induction m with
  | nil => simp only [set, lookup]
  | cons p l ih =>
    obtain ⟨a, w⟩ := p
    unfold set
    by_cases h : a = k
    · subst h
      rw [if_pos rfl]
      simp only [lookup]
      by_cases h2 : a = k' <;> simp [h2]
    · rw [if_neg h]
      simp only [lookup, ih]
      by_cases h2 : a = k'
      · rw [if_pos h2, if_pos h2, if_neg (fun x => h (h2.trans x.symm))]
      · rw [if_neg h2, if_neg h2]

/-- What is in the result comes from a piece. -/
theorem fold_mem (pieces : List Str) (m : Opts) (k v : Str) (h : lookup k (pieces.foldl addPiece m) = some v) :
    lookup k m = some v ∨ ∃ kv ∈ pieces, pieceOf kv = some (k, v) := by
  induction pieces generalizing m with
  | nil => exact Or.inl h
  | cons kv l ih =>
    rw [List.foldl_cons] at h
    rcases ih _ h with h | ⟨x, hx, hp⟩
    · rw [addPiece_eq] at h
      cases e : pieceOf kv with
      | none => rw [e] at h; exact Or.inl h
      | some p =>
        rw [e] at h
        dsimp only at h
        rw [lookup_set] at h
        by_cases hk : p.1 = k
        · rw [if_pos hk] at h
          cases h
          subst hk
          exact Or.inr ⟨kv, by simp, e⟩
        · rw [if_neg hk] at h; exact Or.inl h
    · exact Or.inr ⟨x, by simp [hx], hp⟩

theorem lookup_mem (l : Opts) (hd : (l.map (·.1)).Nodup) (p : Str × Str) (hp : p ∈ l) : lookup p.1 l = some p.2 := by
  induction l with
  | nil => cases hp
  | cons q l ih =>
    obtain ⟨a, v⟩ := q
    simp only [List.map_cons, List.nodup_cons] at hd
    unfold lookup
    rcases List.mem_cons.1 hp with rfl | hp'
    · rw [if_pos rfl]
    · rw [if_neg (fun e => hd.1 (List.mem_map.2 ⟨p, hp', e.symm⟩)), ih hd.2 hp']

theorem fold_pairs (l : Opts) (m : Opts) (h : ∀ p ∈ l, Admissible p) (hd : (l.map (·.1)).Nodup) (k : Str) :
    lookup k ((l.map (fun p => p.1 ++ '=' :: p.2)).foldl addPiece m) =
      match lookup k l with | some v => some v | none => lookup k m := by
  induction l generalizing m with
  | nil => rfl
  | cons p l ih =>
    obtain ⟨a, v⟩ := p
    obtain ⟨h1, h2, h3, h4⟩ := h (a, v) (by simp)
    dsimp only at h1 h2 h3 h4
    simp only [List.map_cons, List.nodup_cons] at hd
    rw [List.map_cons, List.foldl_cons, addPiece_eq, pieceOf_pair a v h1 h3]
    dsimp only
    rw [ih _ (fun p hp => h p (by simp [hp])) hd.2]
    by_cases hk : a = k
    · subst hk
      have hn : lookup a l = none := by
        have hnm := hd.1
        clear ih h hd
        induction l with
        | nil => rfl
        | cons q l ihq =>
          simp only [List.map_cons, List.mem_cons, not_or] at hnm
          unfold lookup
          rw [if_neg (fun e => hnm.1 e.symm)]
          exact ihq hnm.2
      rw [hn]
      simp only [lookup, lookup_set, if_true]
    · simp only [lookup, if_neg hk]
      cases lookup k l with
      | some w => rfl
      | none => simp only [lookup_set, if_neg hk]

/-- **C58**, the part that holds: if no key is empty or holds ',' or '=', and no value holds ',', the options read from the
header are the options written, whatever the order in which the map is walked. -/
theorem C58_roundtrip_partial (l : Opts) (hd : (l.map (·.1)).Nodup) (h : ∀ p ∈ l, Admissible p) (k : Str) :
    lookup k ((ofHeader (toHeader (some l))).getD []) = lookup k l := by
  cases hl : l with
  | nil => rfl
  | cons p t =>
    rw [← hl]
    have hne : l ≠ [] := by rw [hl]; simp
    have hs : toHeader (some l) ≠ [] := by
      unfold toHeader
      dsimp only
      rw [hl, List.map_cons]
      cases t <;> simp [join]
    unfold ofHeader
    rw [if_pos hs]
    show lookup k ((split (join (l.map (fun p => p.1 ++ '=' :: p.2)))).foldl addPiece []) = lookup k l
    rw [split_join _ (by simpa using hne) (by
      intro x hx
      obtain ⟨q, hq, rfl⟩ := List.mem_map.1 hx
      obtain ⟨_, h2, _, h4⟩ := h q hq
      simp only [List.mem_append, List.mem_cons, not_or]
      exact ⟨h2, by decide, h4⟩)]
    rw [fold_pairs l [] h hd]
    cases lookup k l <;> rfl

/-- **C58** is false for every other map: if an entry has an empty key, a separator in its key or a comma in its value, the
options read are not the options written. With `C58_roundtrip_partial` this is exact. -/
theorem C58_exact (l : Opts) (hd : (l.map (·.1)).Nodup) :
    (∀ k, lookup k ((ofHeader (toHeader (some l))).getD []) = lookup k l) ↔ ∀ p ∈ l, Admissible p := by
  constructor
  · intro hr
    have from_piece : ∀ p ∈ l, ∃ kv ∈ split (toHeader (some l)), pieceOf kv = some p := by
      intro p hp
      have h1 := hr p.1
      rw [lookup_mem l hd p hp] at h1
      unfold ofHeader at h1
      by_cases hs : toHeader (some l) ≠ []
      · rw [if_pos hs] at h1
        rcases fold_mem _ _ _ _ h1 with h2 | h2
        · cases h2
        · exact h2
      · rw [if_neg hs] at h1; cases h1
    have basic : ∀ p ∈ l, p.1 ≠ [] ∧ ',' ∉ p.1 ∧ ',' ∉ p.2 ∧ ('=' ∉ p.1 ∨ (p.1 ∈ split (toHeader (some l)) ∧ p.1.head? = some '=')) := by
      intro p hp
      obtain ⟨kv, hkv, hpo⟩ := from_piece p hp
      obtain ⟨h1, h2, h3, h4⟩ := pieceOf_spec kv p hpo (split_nocomma _ kv hkv)
      refine ⟨h1, h2, h3, ?_⟩
      rcases h4 with h4 | ⟨h4, h5⟩
      · exact Or.inl h4
      · rw [h4]; exact Or.inr ⟨hkv, h5⟩
    -- a key that begins with '=' is a whole piece, which is a shorter key that begins with '=', and its value
    have descent : ∀ (n : Nat) (p : Str × Str), p ∈ l → p.1.length = n → '=' ∉ p.1 := by
      intro n
      induction n using Nat.strongRecOn with
      | ind n ih =>
        intro p hp hn
        rcases (basic p hp).2.2.2 with h | ⟨h, hh⟩
        · exact h
        · exfalso
          have hne : l ≠ [] := by rintro rfl; cases hp
          have hsp : split (toHeader (some l)) = l.map (fun p => p.1 ++ '=' :: p.2) := by
            unfold toHeader
            refine split_join _ (by simpa using hne) ?_
            intro x hx
            obtain ⟨q, hq, rfl⟩ := List.mem_map.1 hx
            obtain ⟨_, h2, h3, _⟩ := basic q hq
            simp only [List.mem_append, List.mem_cons, not_or]
            exact ⟨h2, by decide, h3⟩
          rw [hsp] at h
          obtain ⟨q, hq, hqe⟩ := List.mem_map.1 h
          have hlen : q.1.length < p.1.length := by rw [← hqe]; simp
          have hq2 := ih q.1.length (by omega) q hq rfl
          have hqne := (basic q hq).1
          rw [← hqe] at hh
          cases hq1 : q.1 with
          | nil => exact hqne hq1
          | cons c cs =>
            rw [hq1] at hh hq2
            simp only [List.cons_append, List.head?_cons, Option.some.injEq] at hh
            exact hq2 (by simp [hh])
    intro p hp
    obtain ⟨h1, h2, h3, _⟩ := basic p hp
    exact ⟨h1, h2, descent _ p hp rfl, h3⟩
  · intro h k
    exact C58_roundtrip_partial l hd h k

/-- **C58** for the typed options: a boolean or a number set under an admissible key is read back from the header, next to any
other admissible options. -/
theorem C58_typed (l : Opts) (hd : (l.map (·.1)).Nodup) (h : ∀ p ∈ l, Admissible p) (k : Str) :
    (∀ b, lookup k l = some (formatBool b) → parseBool (get (ofHeader (toHeader (some l))) k) = some b) ∧
    (∀ v : Int, -2 ^ 63 ≤ v → v < 2 ^ 63 → lookup k l = some (formatDec v) →
      Sender.atoi (get (ofHeader (toHeader (some l))) k) = some v) := by
  have hg : get (ofHeader (toHeader (some l))) k = (lookup k l).getD [] := by
    unfold get
    rw [C58_roundtrip_partial l hd h k]
  constructor
  · intro b hb
    rw [hg, hb]
    cases b <;> decide +kernel
  · intro v h1 h2 hv
    rw [hg, hv]
    show Sender.atoi (formatDec v) = some v
    unfold formatDec
    by_cases hneg : v < 0
    · rw [if_pos hneg]
      have e0 : Sender.atoi ('-' :: Nat.toDigits 10 v.natAbs) = match Sender.digits (Nat.toDigits 10 v.natAbs) with
        | some n => if n ≤ 2 ^ 63 then some (-(n : Int)) else none
        | none => none := rfl
      rw [e0, Sender.digits_toDigits]
      dsimp only
      rw [if_pos (by omega)]
      congr 1; omega
    · rw [if_neg hneg, Sender.atoi_toDigits _ (by omega)]
      congr 1; omega

/-- A number or boolean under an admissible key is an admissible entry. -/
theorem C58_typed_admissible (k : Str) (hk : k ≠ []) (hc : ',' ∉ k) (he : '=' ∉ k) (b : Bool) (v : Int) :
    Admissible (k, formatBool b) ∧ Admissible (k, formatDec v) := by
  refine ⟨⟨hk, hc, he, ?_⟩, ⟨hk, hc, he, ?_⟩⟩
  · show ',' ∉ formatBool b
    cases b <;> decide +kernel
  · have hd : ',' ∉ Nat.toDigits 10 v.natAbs := Sender.toDigits_not (by decide)
    show ',' ∉ formatDec v
    unfold formatDec
    split
    · simp only [List.mem_cons, not_or]
      exact ⟨by decide, hd⟩
    · exact hd

/-! ### Examples -/

def exL : Opts := [("debug".toList, "true".toList), ("timeout".toList, "-30".toList), ("x".toList, "a=b".toList)]
example : toHeader (some exL) = "debug=true,timeout=-30,x=a=b".toList := by decide +kernel
example : ofHeader (toHeader (some exL)) = some exL := by decide +kernel
example : toHeader (some [("debug".toList, formatBool true)]) = "debug=true".toList := by decide +kernel
example : Sender.atoi (get (ofHeader (toHeader (some exL))) "timeout".toList) = some (-30) := by decide +kernel
-- a comma in a value, an '=' in a key, an empty key
example : ofHeader (toHeader (some [("a".toList, "1,2".toList)])) = some [("a".toList, "1".toList), ("2".toList, [])] := by
  decide +kernel
example : ofHeader (toHeader (some [("a=b".toList, "c".toList)])) = some [("a".toList, "b=c".toList)] := by decide +kernel
example : ofHeader (toHeader (some [([], "c".toList)])) = some [("=c".toList, [])] := by decide +kernel

end Verif.IconOptions
