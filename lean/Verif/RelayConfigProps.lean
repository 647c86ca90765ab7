import Verif.RelayConfig
/-!
Properties of RelayConfig (C155).

The meaning of a path is stated apart from Go's functions: `place d s` is the directory reached from the directory `d` (the list of
names from the root) by following the text `s` name by name.
-/
namespace Verif.RelayConfig
open Verif Verif.IntText

/-- Following one name from a directory. -/
def cd (d : List Str) (n : Str) : List Str :=
  if n = [] ∨ n = dot then d else if n = dotdot then d.dropLast else d ++ [n]

/-- The place a path names, seen from the directory `d`. -/
def place (d : List Str) (s : Str) : List Str := (pieces s).foldl cd (if isAbs s then [] else d)

def Plain (n : Str) : Prop := n ≠ [] ∧ n ≠ dot ∧ n ≠ dotdot ∧ '/' ∉ n

/-- A name that can be written between separators. -/
def Name (n : Str) : Prop := n ≠ [] ∧ '/' ∉ n

theorem Plain.name {n : Str} (h : Plain n) : Name n := ⟨h.1, h.2.2.2⟩

theorem name_dotdot : Name dotdot := by unfold Name; decide +kernel

/-! ### Pieces -/

theorem pieces_ne (s : Str) : pieces s ≠ [] := by
  cases s with
  | nil => simp [pieces]
  | cons c t =>
    rw [pieces]
    split
    · simp
    · split <;> simp

theorem pieces_noslash (s : Str) : ∀ p ∈ pieces s, '/' ∉ p := by
  induction s with
  | nil => simp [pieces]
  | cons c t ih =>
    rw [pieces]
    by_cases h : c = '/'
    · rw [if_pos h]
      intro p hp
      rcases List.mem_cons.1 hp with rfl | hp
      · simp
      · exact ih p hp
    · rw [if_neg h]
      cases hq : pieces t with
      | nil => intro p hp; simp at hp; subst hp; simp; exact fun e => h e.symm
      | cons q qs =>
        intro p hp
        rw [hq] at ih
        rcases List.mem_cons.1 hp with rfl | hp
        · have := ih q (List.mem_cons_self ..)
          simp only [List.mem_cons, not_or]
          exact ⟨fun e => h e.symm, this⟩
        · exact ih p (List.mem_cons_of_mem _ hp)

theorem pieces_append (a b : Str) : pieces (a ++ '/' :: b) = pieces a ++ pieces b := by
  induction a with
  | nil => simp [pieces]
  | cons c t ih =>
    show pieces (c :: (t ++ '/' :: b)) = _
    rw [pieces, pieces, ih]
    by_cases h : c = '/'
    · rw [if_pos h, if_pos h]; rfl
    · rw [if_neg h, if_neg h]
      cases hq : pieces t with
      | nil => exact absurd hq (pieces_ne t)
      | cons q qs => rfl

theorem pieces_name (n : Str) (h : '/' ∉ n) : pieces n = [n] := by
  induction n with
  | nil => rfl
  | cons c t ih =>
    simp only [List.mem_cons, not_or] at h
    rw [pieces, if_neg (fun e => h.1 e.symm), ih h.2]

theorem pieces_join (ns : List Str) (h : ∀ n ∈ ns, '/' ∉ n) (hne : ns ≠ []) : pieces (joinNames ns) = ns := by
  induction ns with
  | nil => exact absurd rfl hne
  | cons n t ih =>
    cases t with
    | nil => exact pieces_name n (h n (List.mem_cons_self ..))
    | cons m u =>
      have e : joinNames (n :: m :: u) = n ++ '/' :: joinNames (m :: u) := rfl
      rw [e, pieces_append, pieces_name n (h n (List.mem_cons_self ..)),
        ih (fun x hx => h x (List.mem_cons_of_mem _ hx)) (by simp)]
      rfl

theorem isAbs_slash (t : Str) : isAbs ('/' :: t) = true := rfl

theorem isAbs_iff (s : Str) : isAbs s = true ↔ ∃ t, s = '/' :: t := by
  unfold isAbs
  split
  · exact ⟨fun _ => ⟨_, rfl⟩, fun _ => rfl⟩
  · rename_i h
    constructor
    · intro e; cases e
    · rintro ⟨t, rfl⟩; exact absurd rfl (h t)

theorem isAbs_append {a : Str} (h : isAbs a = true) (b : Str) : isAbs (a ++ b) = true := by
  rw [isAbs_iff] at h ⊢
  obtain ⟨t, rfl⟩ := h
  exact ⟨t ++ b, rfl⟩

theorem isAbs_append_ne {a : Str} (h : a ≠ []) (b : Str) : isAbs (a ++ b) = isAbs a := by
  rw [Bool.eq_iff_iff, isAbs_iff, isAbs_iff]
  cases a with
  | nil => exact absurd rfl h
  | cons c t =>
    constructor
    · rintro ⟨u, hu⟩
      exact ⟨t, by rw [(List.cons.inj hu).1]⟩
    · rintro ⟨u, hu⟩
      exact ⟨t ++ b, by rw [(List.cons.inj hu).1]; rfl⟩

/-- The text of names that are not rooted is not rooted. -/
theorem joinNames_ne (ns : List Str) (h : ∀ n ∈ ns, Name n) (hne : ns ≠ []) :
    joinNames ns ≠ [] ∧ isAbs (joinNames ns) = false := by
  cases ns with
  | nil => exact absurd rfl hne
  | cons n t =>
    have hn := h n (List.mem_cons_self ..)
    cases hc : n with
    | nil => exact absurd hc hn.1
    | cons c u =>
      have hs : c ≠ '/' := by
        intro e; apply hn.2; rw [hc, e]; exact List.mem_cons_self ..
      have e : ∃ v, joinNames ((c :: u) :: t) = c :: v := by
        cases t with
        | nil => exact ⟨u, rfl⟩
        | cons m w => exact ⟨u ++ '/' :: joinNames (m :: w), rfl⟩
      obtain ⟨v, hv⟩ := e
      rw [hv]
      refine ⟨by simp, ?_⟩
      cases hq : isAbs (c :: v) with
      | false => rfl
      | true =>
        rw [isAbs_iff] at hq
        obtain ⟨w, hw⟩ := hq
        exact absurd (List.cons.inj hw).1 hs

theorem render_rel (ns : List Str) (h : ∀ n ∈ ns, Name n) :
    render ⟨false, ns⟩ ≠ [] ∧ isAbs (render ⟨false, ns⟩) = false := by
  unfold render
  simp only [Bool.false_eq_true, if_false]
  by_cases hn : ns = []
  · rw [if_pos hn]; decide +kernel
  · rw [if_neg hn]; exact joinNames_ne ns h hn

/-! ### Following names -/

theorem cd_skip (d : List Str) (n : Str) (h : n = [] ∨ n = dot) : cd d n = d := by unfold cd; rw [if_pos h]

theorem foldl_render_rel (f : List Str → Str → List Str) (hf : ∀ d n, n = [] ∨ n = dot → f d n = d) (d : List Str)
    (ns : List Str) (h : ∀ n ∈ ns, '/' ∉ n) : (pieces (render ⟨false, ns⟩)).foldl f d = ns.foldl f d := by
  unfold render
  simp only [Bool.false_eq_true, if_false]
  by_cases hn : ns = []
  · rw [if_pos hn, hn]
    have : pieces dot = [dot] := by decide +kernel
    rw [this]
    exact hf d dot (.inr rfl)
  · rw [if_neg hn, pieces_join ns h hn]

theorem foldl_render_root (f : List Str → Str → List Str) (hf : ∀ d n, n = [] ∨ n = dot → f d n = d) (d : List Str)
    (ns : List Str) (h : ∀ n ∈ ns, '/' ∉ n) : (pieces (render ⟨true, ns⟩)).foldl f d = ns.foldl f d := by
  have e : render ⟨true, ns⟩ = '/' :: joinNames ns := rfl
  rw [e, pieces, if_pos rfl, List.foldl_cons, hf d [] (.inl rfl)]
  by_cases hn : ns = []
  · rw [hn]
    show List.foldl f d (pieces []) = d
    have : pieces [] = [[]] := rfl
    rw [this]
    exact hf d [] (.inl rfl)
  · rw [pieces_join ns h hn]

/-- The names kept by `push`. -/
theorem push_names (r : Bool) (acc : List Str) (n : Str) (ha : ∀ m ∈ acc, Name m) (hn : '/' ∉ n) :
    ∀ m ∈ push r acc n, Name m := by
  unfold push
  by_cases h0 : n = [] ∨ n = dot
  · rw [if_pos h0]; exact ha
  · rw [if_neg h0]
    by_cases h1 : n = dotdot
    · rw [if_pos h1]
      cases acc with
      | nil =>
        cases r with
        | true => simp
        | false => intro m hm; simp at hm; rw [hm]; exact name_dotdot
      | cons a t =>
        dsimp only
        by_cases h2 : a = dotdot
        · rw [if_pos h2]
          intro m hm
          rcases List.mem_cons.1 hm with rfl | hm
          · exact name_dotdot
          · exact ha m hm
        · rw [if_neg h2]; exact fun m hm => ha m (List.mem_cons_of_mem _ hm)
    · rw [if_neg h1]
      intro m hm
      rcases List.mem_cons.1 hm with rfl | hm
      · exact ⟨fun e => h0 (.inl e), hn⟩
      · exact ha m hm

theorem foldl_push_names (r : Bool) (ns : List Str) : ∀ acc : List Str, (∀ m ∈ acc, Name m) → (∀ n ∈ ns, '/' ∉ n) →
    ∀ m ∈ ns.foldl (push r) acc, Name m := by
  induction ns with
  | nil => intro acc ha _; exact ha
  | cons n t ih =>
    intro acc ha hn
    exact ih _ (push_names r acc n ha (hn n (List.mem_cons_self ..))) (fun x hx => hn x (List.mem_cons_of_mem _ hx))

theorem cleanNames_names (r : Bool) (s : Str) : ∀ m ∈ cleanNames r (pieces s), Name m := by
  intro m hm
  exact foldl_push_names r (pieces s) [] (by simp) (pieces_noslash s) m (List.mem_reverse.1 hm)

/-- On rooted paths no `..` is left. -/
theorem push_plain (acc : List Str) (n : Str) (ha : ∀ m ∈ acc, Plain m) (hn : '/' ∉ n) : ∀ m ∈ push true acc n, Plain m := by
  unfold push
  by_cases h0 : n = [] ∨ n = dot
  · rw [if_pos h0]; exact ha
  · rw [if_neg h0]
    by_cases h1 : n = dotdot
    · rw [if_pos h1]
      cases acc with
      | nil => simp
      | cons a t =>
        dsimp only
        rw [if_neg (ha a (List.mem_cons_self ..)).2.2.1]
        exact fun m hm => ha m (List.mem_cons_of_mem _ hm)
    · rw [if_neg h1]
      intro m hm
      rcases List.mem_cons.1 hm with rfl | hm
      · exact ⟨fun e => h0 (.inl e), fun e => h0 (.inr e), h1, hn⟩
      · exact ha m hm

/-- Pushing names on a rooted path is following them. -/
theorem push_cd (acc : List Str) (n : Str) (ha : ∀ m ∈ acc, Plain m) : (push true acc n).reverse = cd acc.reverse n := by
  unfold push cd
  by_cases h0 : n = [] ∨ n = dot
  · rw [if_pos h0, if_pos h0]
  · rw [if_neg h0, if_neg h0]
    by_cases h1 : n = dotdot
    · rw [if_pos h1, if_pos h1]
      cases acc with
      | nil => rfl
      | cons a t =>
        dsimp only
        rw [if_neg (ha a (List.mem_cons_self ..)).2.2.1]
        simp
    · rw [if_neg h1, if_neg h1]; simp

theorem foldl_push_cd (ns : List Str) : ∀ acc : List Str, (∀ m ∈ acc, Plain m) → (∀ n ∈ ns, '/' ∉ n) →
    (ns.foldl (push true) acc).reverse = ns.foldl cd acc.reverse ∧ ∀ m ∈ ns.foldl (push true) acc, Plain m := by
  induction ns with
  | nil => intro acc ha _; exact ⟨rfl, ha⟩
  | cons n t ih =>
    intro acc ha hn
    have := ih (push true acc n) (push_plain acc n ha (hn n (List.mem_cons_self ..))) (fun x hx => hn x (List.mem_cons_of_mem _ hx))
    rw [push_cd acc n ha] at this
    exact this

/-- Following the names that `Clean` keeps of a path that is not rooted. -/
theorem push_follow (d : List Str) (acc : List Str) (n : Str) (ha : ∀ m ∈ acc, Name m ∧ m ≠ dot) :
    (push false acc n).reverse.foldl cd d = cd (acc.reverse.foldl cd d) n := by
  unfold push
  by_cases h0 : n = [] ∨ n = dot
  · rw [if_pos h0, cd_skip _ _ h0]
  · rw [if_neg h0]
    by_cases h1 : n = dotdot
    · rw [if_pos h1]
      cases acc with
      | nil => simp [h1]
      | cons a t =>
        dsimp only
        by_cases h2 : a = dotdot
        · rw [if_pos h2, h1]; simp [List.foldl_append]
        · rw [if_neg h2]
          have hp := ha a (List.mem_cons_self ..)
          have e : (a :: t).reverse.foldl cd d = t.reverse.foldl cd d ++ [a] := by
            simp only [List.reverse_cons, List.foldl_append, List.foldl_cons, List.foldl_nil]
            unfold cd
            rw [if_neg (show ¬(a = [] ∨ a = dot) from fun e => e.elim hp.1.1 hp.2), if_neg h2]
          rw [e]
          unfold cd
          rw [if_neg h0, if_pos h1]
          simp
    · rw [if_neg h1]
      simp [List.foldl_append]

theorem push_nodot (r : Bool) (acc : List Str) (n : Str) (ha : ∀ m ∈ acc, Name m ∧ m ≠ dot) (hn : '/' ∉ n) :
    ∀ m ∈ push r acc n, Name m ∧ m ≠ dot := by
  intro m hm
  refine ⟨push_names r acc n (fun m hm => (ha m hm).1) hn m hm, ?_⟩
  unfold push at hm
  by_cases h0 : n = [] ∨ n = dot
  · rw [if_pos h0] at hm; exact (ha m hm).2
  · rw [if_neg h0] at hm
    by_cases h1 : n = dotdot
    · rw [if_pos h1] at hm
      have hd : dotdot ≠ dot := by decide +kernel
      cases acc with
      | nil =>
        cases r with
        | true => simp at hm
        | false => simp at hm; rw [hm]; exact hd
      | cons a t =>
        dsimp only at hm
        by_cases h2 : a = dotdot
        · rw [if_pos h2] at hm
          rcases List.mem_cons.1 hm with rfl | hm
          · exact hd
          · exact (ha m hm).2
        · rw [if_neg h2] at hm; exact (ha m (List.mem_cons_of_mem _ hm)).2
    · rw [if_neg h1] at hm
      rcases List.mem_cons.1 hm with rfl | hm
      · exact fun e => h0 (.inr e)
      · exact (ha m hm).2

theorem foldl_push_follow (d : List Str) (ns : List Str) : ∀ acc : List Str, (∀ m ∈ acc, Name m ∧ m ≠ dot) →
    (∀ n ∈ ns, '/' ∉ n) → (ns.foldl (push false) acc).reverse.foldl cd d = ns.foldl cd (acc.reverse.foldl cd d) := by
  induction ns with
  | nil => intro acc _ _; rfl
  | cons n t ih =>
    intro acc ha hn
    rw [List.foldl_cons, ih _ (push_nodot false acc n ha (hn n (List.mem_cons_self ..)))
      (fun x hx => hn x (List.mem_cons_of_mem _ hx)), push_follow d acc n ha]
    rfl

/-- Following plain names appends them. -/
theorem foldl_cd_plain (ns : List Str) : ∀ d : List Str, (∀ n ∈ ns, Plain n) → ns.foldl cd d = d ++ ns := by
  induction ns with
  | nil => intro d _; simp
  | cons n t ih =>
    intro d h
    have hp := h n (List.mem_cons_self ..)
    rw [List.foldl_cons, ih _ (fun x hx => h x (List.mem_cons_of_mem _ hx))]
    unfold cd
    rw [if_neg (show ¬(n = [] ∨ n = dot) from fun e => e.elim hp.1 hp.2.1), if_neg hp.2.2.1]
    simp

/-! ### The functions of Go -/

theorem isAbs_clean (s : Str) : isAbs (clean s) = isAbs s := by
  unfold clean parse
  cases h : isAbs s with
  | true => rfl
  | false => exact (render_rel _ (cleanNames_names false s)).2

/-- `Clean` does not change what a path names. -/
theorem place_clean (d : List Str) (s : Str) : place d (clean s) = place d s := by
  have hi := isAbs_clean s
  unfold place
  rw [hi]
  cases h : isAbs s with
  | true =>
    simp only [if_true]
    have e : clean s = render ⟨true, cleanNames true (pieces s)⟩ := by unfold clean parse; rw [h]
    rw [e, foldl_render_root cd cd_skip [] _ (fun n hn => (cleanNames_names true s n hn).2)]
    have := foldl_push_cd (pieces s) [] (by simp) (pieces_noslash s)
    have hp : ∀ m ∈ cleanNames true (pieces s), Plain m := fun m hm => this.2 m (List.mem_reverse.1 hm)
    rw [foldl_cd_plain _ [] hp]
    exact this.1
  | false =>
    simp only [Bool.false_eq_true, if_false]
    have e : clean s = render ⟨false, cleanNames false (pieces s)⟩ := by unfold clean parse; rw [h]
    rw [e, foldl_render_rel cd cd_skip d _ (fun n hn => (cleanNames_names false s n hn).2)]
    exact foldl_push_follow d (pieces s) [] (by simp) (pieces_noslash s)

/-- The names of a rooted path are the place it names, and they are plain. -/
theorem parse_place (s : Str) (h : isAbs s = true) : (parse s).names = place [] s ∧ ∀ n ∈ place [] s, Plain n := by
  have := foldl_push_cd (pieces s) [] (by simp) (pieces_noslash s)
  have e : (parse s).names = place [] s := by
    unfold parse place cleanNames
    rw [h]
    simp only [if_true]
    exact this.1
  refine ⟨e, fun n hn => ?_⟩
  rw [← e] at hn
  unfold parse cleanNames at hn
  rw [h] at hn
  exact this.2 n (List.mem_reverse.1 hn)

theorem clean_root (s : Str) (h : isAbs s = true) : clean s = render ⟨true, place [] s⟩ := by
  unfold clean
  rw [← (parse_place s h).1]
  unfold parse
  rw [h]

theorem place_abs_any (d e : List Str) (s : Str) (h : isAbs s = true) : place d s = place e s := by
  unfold place; rw [h]; rfl

theorem isAbs_join (a b : Str) (h : isAbs a = true) : isAbs (join a b) = true := by
  have ha : a ≠ [] := by intro e; rw [e] at h; cases h
  unfold join
  rw [if_neg ha]
  split
  · rw [isAbs_clean]; exact h
  · rw [isAbs_clean]; exact isAbs_append h _

theorem place_join (d : List Str) (a b : Str) (ha : a ≠ []) (hb : isAbs b = false) :
    place d (join a b) = place (place d a) b := by
  unfold join
  rw [if_neg ha]
  by_cases h : b = []
  · rw [if_pos h, place_clean, h]
    show _ = List.foldl cd _ (pieces [])
    rfl
  · rw [if_neg h, place_clean]
    have hi : isAbs (a ++ '/' :: b) = isAbs a := isAbs_append_ne ha _
    unfold place
    rw [hi, pieces_append, List.foldl_append, hb]
    rfl

theorem ne_of_isAbs {s : Str} (h : isAbs s = true) : s ≠ [] := by intro e; rw [e] at h; cases h

theorem isAbs_abs (cwd s : Str) (h : isAbs cwd = true) : isAbs (abs cwd s) = true := by
  unfold abs
  cases hs : isAbs s with
  | true => simp only [if_true]; rw [isAbs_clean]; exact hs
  | false => simp only [Bool.false_eq_true, if_false]; exact isAbs_join cwd s h

/-- `Abs` names what the path names in the working directory. -/
theorem place_abs (d : List Str) (cwd s : Str) (h : isAbs cwd = true) : place d (abs cwd s) = place (place [] cwd) s := by
  unfold abs
  cases hs : isAbs s with
  | true => simp only [if_true]; rw [place_clean]; exact place_abs_any _ _ s hs
  | false =>
    simp only [Bool.false_eq_true, if_false]
    rw [place_join d cwd s (ne_of_isAbs h) hs, place_abs_any d [] cwd h]

/-- `Abs` gives a clean path: it is the text of the place. -/
theorem abs_text (cwd s : Str) (h : isAbs cwd = true) : abs cwd s = render ⟨true, place (place [] cwd) s⟩ := by
  have hc : ∀ t, isAbs (clean t) = true → clean t = render ⟨true, place [] (clean t)⟩ := by
    intro t ht
    rw [isAbs_clean] at ht
    rw [place_clean]
    exact clean_root t ht
  have hp := place_abs [] cwd s h
  have hi := isAbs_abs cwd s h
  rw [← hp]
  unfold abs at hi ⊢
  cases hs : isAbs s with
  | true => simp only [hs, if_true] at hi ⊢; exact hc s hi
  | false =>
    simp only [hs, Bool.false_eq_true, if_false] at hi ⊢
    unfold join at hi ⊢
    rw [if_neg (ne_of_isAbs h)] at hi ⊢
    by_cases hb : s = []
    · rw [if_pos hb] at hi ⊢; exact hc _ hi
    · rw [if_neg hb] at hi ⊢; exact hc _ hi

/-! ### Relative names -/

theorem foldl_up (es : List Str) : ∀ d : List Str, (List.replicate es.length dotdot).foldl cd (d ++ es) = d := by
  generalize hk : es.length = k
  induction k generalizing es with
  | zero => intro d; simp [List.length_eq_zero_iff.1 hk]
  | succ k ih =>
    intro d
    have hne : es ≠ [] := by intro e; rw [e] at hk; cases hk
    rw [List.replicate_succ, List.foldl_cons]
    have e : cd (d ++ es) dotdot = d ++ es.dropLast := by
      unfold cd
      rw [if_neg (by decide +kernel), if_pos rfl, List.dropLast_append_of_ne_nil hne]
    rw [e]
    exact ih es.dropLast (by rw [List.length_dropLast, hk]; rfl) d

theorem relNames_follow (bs : List Str) : ∀ (ts d : List Str), (∀ t ∈ ts, Plain t) →
    (relNames bs ts).foldl cd (d ++ bs) = d ++ ts := by
  induction bs with
  | nil =>
    intro ts d ht
    have e : relNames [] ts = ts := by cases ts <;> rfl
    rw [e, List.append_nil]
    exact foldl_cd_plain ts d ht
  | cons b bs ih =>
    intro ts d ht
    cases ts with
    | nil =>
      have e : relNames (b :: bs) [] = List.replicate (b :: bs).length dotdot := by
        unfold relNames; simp
      rw [e, foldl_up]; simp
    | cons t ts =>
      unfold relNames
      by_cases h : b = t
      · rw [if_pos h]
        have := ih ts (d ++ [b]) (fun x hx => ht x (List.mem_cons_of_mem _ hx))
        rw [h] at this ⊢
        simpa [List.append_assoc] using this
      · rw [if_neg h, List.foldl_append]
        have := foldl_up (b :: bs) d
        rw [List.length_cons] at this
        rw [this]
        exact foldl_cd_plain (t :: ts) d ht

theorem relNames_names (bs : List Str) : ∀ ts : List Str, (∀ t ∈ ts, Plain t) → ∀ n ∈ relNames bs ts, Name n := by
  induction bs with
  | nil =>
    intro ts ht n hn
    have e : relNames [] ts = ts := by cases ts <;> rfl
    rw [e] at hn
    exact (ht n hn).name
  | cons b bs ih =>
    intro ts ht n hn
    cases ts with
    | nil =>
      have e : relNames (b :: bs) [] = List.replicate (b :: bs).length dotdot := by
        unfold relNames; simp
      rw [e] at hn
      rw [(List.mem_replicate.1 hn).2]; exact name_dotdot
    | cons t ts =>
      unfold relNames at hn
      by_cases h : b = t
      · rw [if_pos h] at hn; exact ih ts (fun x hx => ht x (List.mem_cons_of_mem _ hx)) n hn
      · rw [if_neg h] at hn
        rcases List.mem_append.1 hn with hn | hn
        · rw [(List.mem_replicate.1 hn).2]; exact name_dotdot
        · exact (ht n hn).name

theorem rel_facts (base targ : Str) (hb : isAbs base = true) (ht : isAbs targ = true) :
    rel base targ ≠ [] ∧ isAbs (rel base targ) = false ∧ place (place [] base) (rel base targ) = place [] targ := by
  have pb := parse_place base hb
  have pt := parse_place targ ht
  have hn := relNames_names (place [] base) (place [] targ) pt.2
  have e : rel base targ = render ⟨false, relNames (place [] base) (place [] targ)⟩ := by
    unfold rel; rw [pb.1, pt.1]
  rw [e]
  have hr := render_rel _ hn
  refine ⟨hr.1, hr.2, ?_⟩
  have key : ∀ (d ns : List Str), (∀ n ∈ ns, Name n) → place d (render ⟨false, ns⟩) = ns.foldl cd d := by
    intro d ns h
    unfold place
    rw [(render_rel ns h).2]
    exact foldl_render_rel cd cd_skip _ _ (fun n hn => (h n hn).2)
  rw [key _ _ hn]
  exact relNames_follow (place [] base) (place [] targ) [] pt.2

/-! ### The directory of a file -/

theorem upToSlash_abs (s : Str) (h : isAbs s = true) : isAbs (upToSlash s) = true := by
  rw [isAbs_iff] at h
  obtain ⟨t, rfl⟩ := h
  unfold upToSlash
  have : ∃ u, (('/' :: t).reverse.dropWhile (· ≠ '/')) = u ++ ['/'] := by
    rw [List.reverse_cons]
    generalize t.reverse = r
    induction r with
    | nil => exact ⟨[], by simp⟩
    | cons c r ih =>
      rw [List.cons_append, List.dropWhile_cons]
      split
      · exact ih
      · exact ⟨c :: r, rfl⟩
  obtain ⟨u, hu⟩ := this
  rw [hu]
  simp [isAbs]

theorem isAbs_dir (s : Str) (h : isAbs s = true) : isAbs (dir s) = true := by
  unfold dir; rw [isAbs_clean]; exact upToSlash_abs s h

/-- The directory of `p/n` is `p`. -/
theorem place_dir (d : List Str) (p n : Str) (hp : p ≠ []) (hn : '/' ∉ n) : place d (dir (p ++ '/' :: n)) = place d p := by
  have e : upToSlash (p ++ '/' :: n) = p ++ ['/'] := by
    unfold upToSlash
    rw [List.reverse_append, List.reverse_cons, List.append_assoc]
    have : ∀ (r q : Str), '/' ∉ r → (r ++ (['/'] ++ q)).dropWhile (· ≠ '/') = ['/'] ++ q := by
      intro r q hr
      induction r with
      | nil => simp
      | cons c r ih =>
        simp only [List.mem_cons, not_or] at hr
        rw [List.cons_append, List.dropWhile_cons, if_pos (by simpa using fun e => hr.1 e.symm)]
        exact ih hr.2
    rw [this _ _ (by simpa using hn)]
    simp
  unfold dir
  rw [e, place_clean]
  have hi : isAbs (p ++ ['/']) = isAbs p := isAbs_append_ne hp _
  unfold place
  rw [hi]
  have := pieces_append p []
  rw [this, List.foldl_append]
  show List.foldl cd _ [[]] = _
  rfl

theorem dir_nil : dir [] = dot := by decide +kernel

theorem place_dot (d : List Str) : place d dot = d := by
  unfold place
  have : pieces dot = [dot] := by decide +kernel
  rw [this]
  exact cd_skip d dot (.inr rfl)

theorem place_empty (d : List Str) : place d [] = d := rfl

/-- The directory that relative names of a configuration are seen from: the one of its file, or the working directory. -/
def home (cwd fp : Str) : List Str := if fp = [] then place [] cwd else place [] (dir fp)

theorem resolveRelative_facts (cwd fp s : Str) (hc : isAbs cwd = true) (hf : fp = [] ∨ isAbs fp = true) :
    resolveRelative cwd fp s ≠ [] ∧ isAbs (resolveRelative cwd fp s) = false ∧
      place (home cwd fp) (resolveRelative cwd fp s) = place (place [] cwd) s := by
  have h := rel_facts (abs cwd (dir fp)) (abs cwd s) (isAbs_abs cwd _ hc) (isAbs_abs cwd s hc)
  refine ⟨h.1, h.2.1, ?_⟩
  have hh : place [] (abs cwd (dir fp)) = home cwd fp := by
    rw [place_abs [] cwd _ hc]
    unfold home
    rcases hf with rfl | hf
    · rw [if_pos rfl, dir_nil, place_dot]
    · rw [if_neg (ne_of_isAbs hf)]
      exact place_abs_any _ _ _ (isAbs_dir fp hf)
  have h3 := h.2.2
  rw [hh, place_abs [] cwd s hc] at h3
  exact h3

theorem resolveAbsolute_facts (cwd fp s : Str) (hc : isAbs cwd = true) (hf : fp = [] ∨ isAbs fp = true) :
    isAbs (resolveAbsolute cwd fp s) = true ∧ place [] (resolveAbsolute cwd fp s) = place (home cwd fp) s := by
  unfold resolveAbsolute
  cases hs : isAbs s with
  | true => simp only [if_true]; exact ⟨hs, place_abs_any _ _ s hs⟩
  | false =>
    simp only [Bool.false_eq_true, if_false]
    unfold home
    rcases hf with rfl | hf
    · rw [if_pos rfl, if_pos rfl]
      exact ⟨isAbs_abs cwd s hc, place_abs [] cwd s hc⟩
    · rw [if_neg (ne_of_isAbs hf), if_neg (ne_of_isAbs hf)]
      have hd := isAbs_dir fp hf
      refine ⟨by rw [isAbs_clean]; exact isAbs_join _ s hd, ?_⟩
      rw [place_clean, place_join [] _ s (ne_of_isAbs hd) hs]

/-! ### The theorems -/

/-- A name stored relative to the configuration file is found again from any working directory, and is the place that was meant;
the result is the clean absolute path. -/
theorem C155_round (cwd cwd' fp s : Str) (hc : isAbs cwd = true) (hc' : isAbs cwd' = true) (hf : isAbs fp = true) :
    isAbs (resolveAbsolute cwd' fp (resolveRelative cwd fp s)) = true ∧
    place [] (resolveAbsolute cwd' fp (resolveRelative cwd fp s)) = place (place [] cwd) s ∧
    resolveAbsolute cwd' fp (resolveRelative cwd fp s) = abs cwd s := by
  have h1 := resolveRelative_facts cwd fp s hc (.inr hf)
  have h2 := resolveAbsolute_facts cwd' fp (resolveRelative cwd fp s) hc' (.inr hf)
  have hh : home cwd' fp = home cwd fp := by unfold home; rw [if_neg (ne_of_isAbs hf), if_neg (ne_of_isAbs hf)]
  rw [hh, h1.2.2] at h2
  refine ⟨h2.1, h2.2, ?_⟩
  rw [abs_text cwd s hc, ← h2.2]
  unfold resolveAbsolute
  rw [h1.2.1, if_neg (by simp), if_neg (ne_of_isAbs hf)]
  have hj := isAbs_join (dir fp) (resolveRelative cwd fp s) (isAbs_dir fp hf)
  rw [place_clean]
  exact clean_root _ hj

theorem preRun_filePath (cwd : Str) (a : Args) (f : File) (hc : isAbs cwd = true) :
    (preRun cwd a f).filePath = [] ∨ isAbs (preRun cwd a f).filePath = true := by
  unfold preRun
  by_cases h : a.config = []
  · exact .inl (by simp [h])
  · exact .inr (by simp only [ne_eq, h, not_false_eq_true, if_true]; exact isAbs_abs cwd _ hc)

/-- A log file or base directory given on the command line is the one meant in the working directory, with or without a
configuration file. -/
theorem C155_start (cwd : Str) (a : Args) (f : File) (hc : isAbs cwd = true) :
    (a.logFile ≠ [] → ∃ p, logTarget cwd (preRun cwd a f) = some p ∧ isAbs p = true ∧ place [] p = place (place [] cwd) a.logFile) ∧
    (a.baseDir ≠ [] → ∃ p, baseTarget cwd (preRun cwd a f) = some p ∧ isAbs p = true ∧ place [] p = place (place [] cwd) a.baseDir) := by
  have hf := preRun_filePath cwd a f hc
  constructor
  · intro h
    have e : (preRun cwd a f).logFile = resolveRelative cwd (preRun cwd a f).filePath a.logFile := by
      unfold preRun; simp [h]
    have h1 := resolveRelative_facts cwd (preRun cwd a f).filePath a.logFile hc hf
    have h2 := resolveAbsolute_facts cwd (preRun cwd a f).filePath (resolveRelative cwd (preRun cwd a f).filePath a.logFile) hc hf
    rw [h1.2.2] at h2
    unfold logTarget
    rw [e, if_neg h1.1]
    exact ⟨_, rfl, h2⟩
  · intro h
    have e : (preRun cwd a f).baseDir = resolveRelative cwd (preRun cwd a f).filePath a.baseDir := by
      unfold preRun; simp [h]
    have h1 := resolveRelative_facts cwd (preRun cwd a f).filePath a.baseDir hc hf
    have h2 := resolveAbsolute_facts cwd (preRun cwd a f).filePath (resolveRelative cwd (preRun cwd a f).filePath a.baseDir) hc hf
    rw [h1.2.2] at h2
    unfold baseTarget
    rw [e, if_neg h1.1]
    exact ⟨_, rfl, h2⟩

/-- Names of a configuration file are seen from the directory of that file, wherever the relay is started; without a name there is
no log file. -/
theorem C155_start_file (cwd : Str) (conf : Str) (f : File) (hc : isAbs cwd = true) (hconf : conf ≠ []) :
    (f.logFile ≠ [] → ∃ p, logTarget cwd (preRun cwd ⟨conf, [], []⟩ f) = some p ∧ isAbs p = true ∧
      place [] p = place (place [] (dir (abs cwd conf))) f.logFile) ∧
    (f.baseDir ≠ [] → ∃ p, baseTarget cwd (preRun cwd ⟨conf, [], []⟩ f) = some p ∧ isAbs p = true ∧
      place [] p = place (place [] (dir (abs cwd conf))) f.baseDir) ∧
    (f.logFile = [] → logTarget cwd (preRun cwd ⟨conf, [], []⟩ f) = none) := by
  have e : preRun cwd ⟨conf, [], []⟩ f = ⟨abs cwd conf, f.baseDir, f.logFile⟩ := by unfold preRun; simp [hconf]
  have ha := isAbs_abs cwd conf hc
  have hh : home cwd (abs cwd conf) = place [] (dir (abs cwd conf)) := by unfold home; rw [if_neg (ne_of_isAbs ha)]
  rw [e]
  refine ⟨fun h => ?_, fun h => ?_, fun h => ?_⟩
  · have h2 := resolveAbsolute_facts cwd (abs cwd conf) f.logFile hc (.inr ha)
    rw [hh] at h2
    exact ⟨_, by unfold logTarget; rw [if_neg h], h2⟩
  · have h2 := resolveAbsolute_facts cwd (abs cwd conf) f.baseDir hc (.inr ha)
    rw [hh] at h2
    exact ⟨_, by unfold baseTarget; rw [if_neg h], h2⟩
  · unfold logTarget; rw [if_pos h]

/-- What a saved configuration names when it is loaded from any working directory: what the names of the configuration name in the
working directory of `save`. -/
theorem C155_save_names (cwd cwd' : Str) (c : Cfg) (target conf : Str) (hc : isAbs cwd = true) (hc' : isAbs cwd' = true)
    (hconf : conf ≠ []) (hsame : abs cwd' conf = (save cwd c target).1) :
    (∃ p, logTarget cwd' (preRun cwd' ⟨conf, [], []⟩ (save cwd c target).2) = some p ∧ place [] p = place (place [] cwd) c.logFile) ∧
    (∃ p, baseTarget cwd' (preRun cwd' ⟨conf, [], []⟩ (save cwd c target).2) = some p ∧ place [] p = place (place [] cwd) c.baseDir) := by
  have e : preRun cwd' ⟨conf, [], []⟩ (save cwd c target).2 =
      ⟨abs cwd' conf, (save cwd c target).2.baseDir, (save cwd c target).2.logFile⟩ := by unfold preRun; simp [hconf]
  have hf : isAbs (save cwd c target).1 = true := isAbs_abs cwd target hc
  rw [e, hsame]
  have e1 : (save cwd c target).2.logFile = resolveRelative cwd (save cwd c target).1 c.logFile := rfl
  have e2 : (save cwd c target).2.baseDir = resolveRelative cwd (save cwd c target).1 c.baseDir := rfl
  rw [e1, e2]
  refine ⟨⟨_, ?_, (C155_round cwd cwd' _ c.logFile hc hc' hf).2.1⟩, ⟨_, ?_, (C155_round cwd cwd' _ c.baseDir hc hc' hf).2.1⟩⟩
  · unfold logTarget; dsimp only; rw [if_neg (resolveRelative_facts cwd _ c.logFile hc (.inr hf)).1]
  · unfold baseTarget; dsimp only; rw [if_neg (resolveRelative_facts cwd _ c.baseDir hc (.inr hf)).1]

/-- Saving keeps the log file and the base directory, for names given on the command line and no configuration file: a relay
started from the saved file, in any directory, uses the ones the relay would have used where the command was given.
Missing: configurations taken from a file (`C155_save_moved`, `C155_save_false`) and names left empty (`C155_save_empty`). -/
theorem C155_save_partial (cwd cwd' : Str) (a : Args) (f : File) (target conf : Str) (hc : isAbs cwd = true) (hc' : isAbs cwd' = true)
    (hconf : conf ≠ []) (hsame : abs cwd' conf = (save cwd (preRun cwd a f) target).1) (hnone : a.config = [])
    (hl : a.logFile ≠ []) (hb : a.baseDir ≠ []) :
    (∃ p q, logTarget cwd (preRun cwd a f) = some p ∧
      logTarget cwd' (preRun cwd' ⟨conf, [], []⟩ (save cwd (preRun cwd a f) target).2) = some q ∧ place [] q = place [] p) ∧
    (∃ p q, baseTarget cwd (preRun cwd a f) = some p ∧
      baseTarget cwd' (preRun cwd' ⟨conf, [], []⟩ (save cwd (preRun cwd a f) target).2) = some q ∧ place [] q = place [] p) := by
  have hs := C155_save_names cwd cwd' (preRun cwd a f) target conf hc hc' hconf hsame
  have hst := C155_start cwd a f hc
  have e0 : (preRun cwd a f).filePath = [] := by unfold preRun; simp [hnone]
  have e1 : (preRun cwd a f).logFile = resolveRelative cwd [] a.logFile := by
    rw [← e0]; unfold preRun; simp [hl]
  have e2 : (preRun cwd a f).baseDir = resolveRelative cwd [] a.baseDir := by
    rw [← e0]; unfold preRun; simp [hb]
  have hh : home cwd [] = place [] cwd := by unfold home; rw [if_pos rfl]
  constructor
  · obtain ⟨q, hq, hq'⟩ := hs.1
    obtain ⟨p, hp, _, hp'⟩ := hst.1 hl
    refine ⟨p, q, hp, hq, ?_⟩
    have := (resolveRelative_facts cwd [] a.logFile hc (.inl rfl)).2.2
    rw [hq', hp', e1, ← hh, this, hh]
  · obtain ⟨q, hq, hq'⟩ := hs.2
    obtain ⟨p, hp, _, hp'⟩ := hst.2 hb
    refine ⟨p, q, hp, hq, ?_⟩
    have := (resolveRelative_facts cwd [] a.baseDir hc (.inl rfl)).2.2
    rw [hq', hp', e2, ← hh, this, hh]

/-- A configuration taken from a file in another directory: for a log file named by plain names, saving keeps it exactly if the
file lies in the working directory (`place [] (dir …)` is the directory of the file). -/
theorem C155_save_moved (cwd cwd' conf0 : Str) (f : File) (target conf : Str) (hc : isAbs cwd = true) (hc' : isAbs cwd' = true)
    (h0 : conf0 ≠ []) (hconf : conf ≠ []) (hsame : abs cwd' conf = (save cwd (preRun cwd ⟨conf0, [], []⟩ f) target).1)
    (hl : f.logFile ≠ []) (hplain : ∀ n ∈ pieces f.logFile, Plain n) :
    ∃ p q, logTarget cwd (preRun cwd ⟨conf0, [], []⟩ f) = some p ∧
      logTarget cwd' (preRun cwd' ⟨conf, [], []⟩ (save cwd (preRun cwd ⟨conf0, [], []⟩ f) target).2) = some q ∧
      (place [] q = place [] p ↔ place [] (dir (abs cwd conf0)) = place [] cwd) := by
  obtain ⟨q, hq, hq'⟩ := (C155_save_names cwd cwd' (preRun cwd ⟨conf0, [], []⟩ f) target conf hc hc' hconf hsame).1
  obtain ⟨p, hp, _, hp'⟩ := (C155_start_file cwd conf0 f hc h0).1 hl
  refine ⟨p, q, hp, hq, ?_⟩
  have e : (preRun cwd ⟨conf0, [], []⟩ f).logFile = f.logFile := by unfold preRun; simp [h0]
  rw [hq', hp', e]
  have hr : isAbs f.logFile = false := by
    cases h : isAbs f.logFile with
    | false => rfl
    | true =>
      rw [isAbs_iff] at h
      obtain ⟨t, ht⟩ := h
      have : [] ∈ pieces f.logFile := by rw [ht, pieces, if_pos rfl]; exact List.mem_cons_self ..
      exact absurd rfl (hplain [] this).1
  have hp2 : ∀ d, place d f.logFile = d ++ pieces f.logFile := by
    intro d
    unfold place
    rw [hr]
    exact foldl_cd_plain _ _ hplain
  rw [hp2, hp2]
  constructor
  · intro h; exact (List.append_cancel_right h).symm
  · intro h; rw [h]

/-- So saving a configuration can change its log file: read from `/etc/relay/c.json` in `/home/op`, `log/relay.log` of `/etc/relay`
becomes `log/relay.log` of `/home/op`. -/
theorem C155_save_false : ¬ ∀ (cwd cwd' conf0 : Str) (f : File) (target conf : Str), isAbs cwd = true → isAbs cwd' = true →
    conf0 ≠ [] → conf ≠ [] → abs cwd' conf = (save cwd (preRun cwd ⟨conf0, [], []⟩ f) target).1 → f.logFile ≠ [] →
    logTarget cwd' (preRun cwd' ⟨conf, [], []⟩ (save cwd (preRun cwd ⟨conf0, [], []⟩ f) target).2) =
      logTarget cwd (preRun cwd ⟨conf0, [], []⟩ f) := by
  intro h
  have := h "/home/op".toList "/home/op".toList "/etc/relay/c.json".toList ⟨[], "log/relay.log".toList⟩ "new.json".toList
    "new.json".toList (by decide +kernel) (by decide +kernel) (by decide +kernel) (by decide +kernel) (by decide +kernel)
    (by decide +kernel)
  revert this
  decide +kernel

/-- A relay without a log file: after `save` its log file is the working directory of `save`, and so is its base directory. -/
theorem C155_save_empty (cwd cwd' target conf : Str) (hc : isAbs cwd = true) (hc' : isAbs cwd' = true) (hconf : conf ≠ [])
    (f : File) (hsame : abs cwd' conf = (save cwd (preRun cwd ⟨[], [], []⟩ f) target).1) :
    logTarget cwd (preRun cwd ⟨[], [], []⟩ f) = none ∧ baseTarget cwd (preRun cwd ⟨[], [], []⟩ f) = none ∧
    (∃ p, logTarget cwd' (preRun cwd' ⟨conf, [], []⟩ (save cwd (preRun cwd ⟨[], [], []⟩ f) target).2) = some p ∧
      place [] p = place [] cwd) ∧
    (∃ p, baseTarget cwd' (preRun cwd' ⟨conf, [], []⟩ (save cwd (preRun cwd ⟨[], [], []⟩ f) target).2) = some p ∧
      place [] p = place [] cwd) := by
  have hs := C155_save_names cwd cwd' (preRun cwd ⟨[], [], []⟩ f) target conf hc hc' hconf hsame
  have e : preRun cwd ⟨[], [], []⟩ f = ⟨[], [], []⟩ := rfl
  refine ⟨rfl, rfl, ?_, ?_⟩
  · obtain ⟨p, hp, hp'⟩ := hs.1
    exact ⟨p, hp, hp'⟩
  · obtain ⟨p, hp, hp'⟩ := hs.2
    exact ⟨p, hp, hp'⟩

/-- No accepted command line of `save` writes a key store: the flags read are not the one that is defined. -/
theorem C155_keystore_false (given : List (Str × Str)) : keyStoreFiles given = [] ∧
    (flagsOk saveFlags given = true → ∀ n v, (n, v) ∈ given → n = "save_key_store".toList) ∧
    flagsOk saveFlags [("save_key_store".toList, "ks.json".toList)] = true := by
  have hs : getString saveFlags given "save_src_key_store".toList = [] := by unfold getString; rw [if_neg (by decide +kernel)]
  have hd : getString saveFlags given "save_dst_key_store".toList = [] := by unfold getString; rw [if_neg (by decide +kernel)]
  refine ⟨by unfold keyStoreFiles; rw [hs, hd]; rfl, ?_, by decide +kernel⟩
  intro h n v hm
  unfold flagsOk at h
  have := List.all_eq_true.1 h (n, v) hm
  simpa [saveFlags] using this

/-! ### Links -/

theorem newLink_ok {s d : Side} {w : Bool} {l : LinkSpec} (h : newLink s d w = .ok l) :
    l.recvAddr = s.address ∧ l.recvEndpoint = s.endpoint ∧ l.sendAddr = d.address ∧ l.sendEndpoint = d.endpoint ∧
    l.srcWallet = w ∧ newReceiver s.chain s = .ok l.recv ∧ newSender d.chain s d = .ok (l.iconSender, l.step) := by
  unfold newLink at h
  cases hr : newReceiver s.chain s with
  | error e => rw [hr] at h; cases h
  | ok r =>
    cases hs : newSender d.chain s d with
    | error e => rw [hr, hs] at h; cases h
    | ok x =>
      rw [hr, hs] at h
      cases h
      exact ⟨rfl, rfl, rfl, rfl, rfl, rfl, rfl⟩

/-- The links of a relay: `front` reads the source side and writes to the destination side with the wallet of the destination
side, `reverse` the other way round, `both` is the two of them; the receiver and the sender are those of their chains. -/
theorem C155_links (direction : Str) (src dst : Side) (ls : List LinkSpec) (h : newLinks direction src dst = .ok ls) :
    ls.map (·.srcWallet) = (if direction = "front".toList then [false] else if direction = "reverse".toList then [true]
      else [false, true]) ∧
    ∀ l ∈ ls,
      let s := if l.srcWallet then dst else src
      let d := if l.srcWallet then src else dst
      l.recvAddr = s.address ∧ l.recvEndpoint = s.endpoint ∧ l.sendAddr = d.address ∧ l.sendEndpoint = d.endpoint ∧
      (s.chain = "icon".toList → l.recv = if s.bridge then .bridge else .btp2) ∧
      (s.chain ≠ "icon".toList → l.recv = .eth ∧ (s.chain = "eth".toList ∨ s.chain = "hardhat".toList)) ∧
      (l.iconSender = true ↔ d.chain = "icon".toList) ∧
      (l.iconSender = false → (d.chain = "eth".toList ∨ d.chain = "hardhat".toList)) := by
  have key : ∀ (s d : Side) (w : Bool) (l : LinkSpec), newLink s d w = .ok l →
      l.recvAddr = s.address ∧ l.recvEndpoint = s.endpoint ∧ l.sendAddr = d.address ∧ l.sendEndpoint = d.endpoint ∧
      (s.chain = "icon".toList → l.recv = if s.bridge then .bridge else .btp2) ∧
      (s.chain ≠ "icon".toList → l.recv = .eth ∧ (s.chain = "eth".toList ∨ s.chain = "hardhat".toList)) ∧
      (l.iconSender = true ↔ d.chain = "icon".toList) ∧
      (l.iconSender = false → (d.chain = "eth".toList ∨ d.chain = "hardhat".toList)) := by
    intro s d w l hl
    obtain ⟨h1, h2, h3, h4, _, h6, h7⟩ := newLink_ok hl
    refine ⟨h1, h2, h3, h4, ?_, ?_, ?_, ?_⟩
    · intro hi
      unfold newReceiver at h6
      rw [if_pos (show s.chain = icon from hi)] at h6
      injection h6 with h6
      exact h6.symm
    · intro hi
      unfold newReceiver at h6
      rw [if_neg (show ¬ s.chain = icon from hi)] at h6
      by_cases he : s.chain = eth ∨ s.chain = hardhat
      · rw [if_pos he] at h6
        injection h6 with h6
        exact ⟨h6.symm, he⟩
      · rw [if_neg he] at h6; cases h6
    · unfold newSender at h7
      by_cases hi : d.chain = icon
      · rw [if_pos hi] at h7
        injection h7 with h7
        have := congrArg Prod.fst h7
        exact ⟨fun _ => hi, fun _ => this.symm⟩
      · rw [if_neg hi] at h7
        by_cases he : d.chain = eth ∨ d.chain = hardhat
        · rw [if_pos he] at h7
          injection h7 with h7
          have := congrArg Prod.fst h7
          exact ⟨(fun e => by rw [e] at this; cases this), fun e => absurd e hi⟩
        · rw [if_neg he] at h7; cases h7
    · intro hf
      unfold newSender at h7
      by_cases hi : d.chain = icon
      · rw [if_pos hi] at h7
        injection h7 with h7
        have := congrArg Prod.fst h7
        rw [hf] at this; cases this
      · rw [if_neg hi] at h7
        by_cases he : d.chain = eth ∨ d.chain = hardhat
        · exact he
        · rw [if_neg he] at h7; cases h7
  unfold newLinks at h
  by_cases hF : direction = "front".toList
  · rw [if_pos hF] at h ⊢
    cases hl : newLink src dst false with
    | error e => rw [hl] at h; cases h
    | ok l =>
      rw [hl] at h
      cases h
      have hw := (newLink_ok hl).2.2.2.2.1
      refine ⟨by simp [hw], ?_⟩
      intro m hm
      obtain rfl := List.mem_singleton.1 hm
      simp only [hw, Bool.false_eq_true, if_false]
      exact key _ _ _ _ hl
  · rw [if_neg hF] at h ⊢
    by_cases hR : direction = "reverse".toList
    · rw [if_pos hR] at h ⊢
      cases hl : newLink dst src true with
      | error e => rw [hl] at h; cases h
      | ok l =>
        rw [hl] at h
        cases h
        have hw := (newLink_ok hl).2.2.2.2.1
        refine ⟨by simp [hw], ?_⟩
        intro m hm
        obtain rfl := List.mem_singleton.1 hm
        simp only [hw, if_true]
        exact key _ _ _ _ hl
    · rw [if_neg hR] at h ⊢
      by_cases hB : direction = "both".toList
      · rw [if_pos hB] at h
        cases hl : newLink src dst false with
        | error e => rw [hl] at h; cases h
        | ok l =>
          cases hk : newLink dst src true with
          | error e => rw [hl, hk] at h; cases h
          | ok k =>
            rw [hl, hk] at h
            cases h
            have hw := (newLink_ok hl).2.2.2.2.1
            have hv := (newLink_ok hk).2.2.2.2.1
            refine ⟨by simp [hw, hv], ?_⟩
            intro m hm
            rcases List.mem_cons.1 hm with rfl | hm
            · simp only [hw, Bool.false_eq_true, if_false]; exact key _ _ _ _ hl
            · obtain rfl := List.mem_singleton.1 hm
              simp only [hv, if_true]; exact key _ _ _ _ hk
      · rw [if_neg hB] at h; cases h

/-- Every supported pair of chains can be linked, in each of the three directions and no other. -/
theorem C155_links_total (direction : Str) (src dst : Side)
    (hs : src.chain ∈ ["icon".toList, "eth".toList, "hardhat".toList]) (hd : dst.chain ∈ ["icon".toList, "eth".toList, "hardhat".toList]) :
    (∃ ls, newLinks direction src dst = .ok ls) ↔ direction ∈ ["front".toList, "reverse".toList, "both".toList] := by
  have key : ∀ (s d : Side) (w : Bool), s.chain ∈ ["icon".toList, "eth".toList, "hardhat".toList] →
      d.chain ∈ ["icon".toList, "eth".toList, "hardhat".toList] → ∃ l, newLink s d w = .ok l := by
    intro s d w h1 h2
    have hr : ∃ r, newReceiver s.chain s = .ok r := by
      unfold newReceiver
      by_cases hi : s.chain = icon
      · rw [if_pos hi]; exact ⟨_, rfl⟩
      · rw [if_neg hi]
        have : s.chain = eth ∨ s.chain = hardhat := by
          simp only [List.mem_cons, List.not_mem_nil, or_false] at h1
          rcases h1 with h | h | h
          · exact absurd h hi
          · exact .inl h
          · exact .inr h
        rw [if_pos this]; exact ⟨_, rfl⟩
    have hx : ∃ x, newSender d.chain s d = .ok x := by
      unfold newSender
      by_cases hi : d.chain = icon
      · rw [if_pos hi]; exact ⟨_, rfl⟩
      · rw [if_neg hi]
        have : d.chain = eth ∨ d.chain = hardhat := by
          simp only [List.mem_cons, List.not_mem_nil, or_false] at h2
          rcases h2 with h | h | h
          · exact absurd h hi
          · exact .inl h
          · exact .inr h
        rw [if_pos this]; exact ⟨_, rfl⟩
    obtain ⟨r, hr⟩ := hr
    obtain ⟨x, hx⟩ := hx
    exact ⟨_, by unfold newLink; rw [hr, hx]; rfl⟩
  obtain ⟨l, hl⟩ := key src dst false hs hd
  obtain ⟨k, hk⟩ := key dst src true hd hs
  unfold newLinks
  simp only [List.mem_cons, List.not_mem_nil, or_false]
  by_cases hF : direction = "front".toList
  · rw [if_pos hF, hl]; exact ⟨fun _ => .inl hF, fun _ => ⟨_, rfl⟩⟩
  · rw [if_neg hF]
    by_cases hR : direction = "reverse".toList
    · rw [if_pos hR, hk]; exact ⟨fun _ => .inr (.inl hR), fun _ => ⟨_, rfl⟩⟩
    · rw [if_neg hR]
      by_cases hB : direction = "both".toList
      · rw [if_pos hB, hl, hk]; exact ⟨fun _ => .inr (.inr hB), fun _ => ⟨_, rfl⟩⟩
      · rw [if_neg hB]
        constructor
        · rintro ⟨ls, h⟩; cases h
        · rintro (h | h | h)
          · exact absurd h hF
          · exact absurd h hR
          · exact absurd h hB

/-- The step limit set for the chain a link writes to has no effect; the one of the other side is used instead. -/
theorem C155_options_false (src dst : Side) (o : Option Int) (hs : src.chain = "icon".toList) (hd : dst.chain = "icon".toList) :
    newLinks "front".toList src { dst with step := o } = newLinks "front".toList src dst ∧
    ∃ l, newLinks "front".toList src dst = .ok [l] ∧ l.sendAddr = dst.address ∧
      l.step = some (if 0 < src.step.getD 0 then src.step.getD 0 else 2500000000) := by
  have hr : newReceiver src.chain src = .ok (if src.bridge then .bridge else .btp2) := by unfold newReceiver; rw [if_pos (show src.chain = icon from hs)]
  have hn : newSender dst.chain src dst = .ok (true, some (stepLimit src.step)) := by unfold newSender; rw [if_pos (show dst.chain = icon from hd)]
  have hn' : newSender dst.chain src { dst with step := o } = .ok (true, some (stepLimit src.step)) := by
    unfold newSender; rw [if_pos (show dst.chain = icon from hd)]
  have e : ∀ d' : Side, newLinks "front".toList src d' = (do let l ← newLink src d' false; return [l]) := by
    intro d'; unfold newLinks; rw [if_pos rfl]
  have hst : stepLimit src.step = if 0 < src.step.getD 0 then src.step.getD 0 else 2500000000 := by
    unfold stepLimit defaultStep
    by_cases h : src.step.getD 0 ≤ 0
    · rw [if_pos h, if_neg (by omega)]
    · rw [if_neg h, if_pos (by omega)]
  constructor
  · rw [e, e]; unfold newLink; rw [hr]; dsimp only; rw [hn, hn']
  · rw [e]
    unfold newLink
    rw [hr, hn]
    exact ⟨_, rfl, rfl, by rw [← hst]⟩

/-! ### Cases -/

example : clean "/a/./b//../c/".toList = "/a/c".toList := by decide +kernel
example : clean "../x/../../y".toList = "../../y".toList := by decide +kernel
example : clean "/../a".toList = "/a".toList := by decide +kernel
example : clean [] = ".".toList := by decide +kernel
example : rel "/a/b".toList "/a/c/d".toList = "../c/d".toList := by decide +kernel
example : rel "/".toList "/a".toList = "a".toList ∧ rel "/a".toList "/".toList = "..".toList ∧ rel "/a".toList "/a".toList = ".".toList := by
  decide +kernel
example : dir "/a/b/c.json".toList = "/a/b".toList ∧ dir "c.json".toList = ".".toList ∧ dir "/c".toList = "/".toList := by decide +kernel
/-- The hypotheses of `C155_save_partial`. -/
example : abs "/".toList "data/conf/r.json".toList =
    (save "/data/run".toList (preRun "/data/run".toList ⟨[], "db".toList, "log/r.log".toList⟩ ⟨[], []⟩) "../conf/r.json".toList).1 := by
  decide +kernel
/-- What is written then. -/
example : (save "/data/run".toList (preRun "/data/run".toList ⟨[], "db".toList, "log/r.log".toList⟩ ⟨[], []⟩) "../conf/r.json".toList).2 =
    ⟨"../run/db".toList, "../run/log/r.log".toList⟩ := by decide +kernel
/-- Without a log file, what is written is the working directory. -/
example : (save "/data/run".toList (preRun "/data/run".toList ⟨[], [], []⟩ ⟨[], []⟩) "r.json".toList).2 = ⟨".".toList, ".".toList⟩ := by
  decide +kernel
/-- The hypotheses of `C155_save_moved`, of a file elsewhere. -/
example : ∀ n ∈ pieces "log/relay.log".toList, n ≠ [] ∧ n ≠ dot ∧ n ≠ dotdot ∧ '/' ∉ n := by decide +kernel
/-- A step limit for the destination is not used. -/
example : (newLinks "front".toList ⟨"s".toList, "icon".toList, "e1".toList, true, none⟩
    ⟨"d".toList, "icon".toList, "e2".toList, false, some 7⟩).toOption = some [⟨.bridge, "s".toList, "e1".toList, true, "d".toList, "e2".toList, some 2500000000, false⟩] := by decide +kernel

end Verif.RelayConfig
