import Verif.IntLang
/-!
C171: options given to the relay on the command line.

Modelled: /repo/common/cli/helper.go:231-265 (`StringToStringConv`) and 269-298 (`ViperDecodeOptJson`, the case of a text for a map). The text comes
from the flags `src.options`, `dst.options` and `log_forwarder.options` (/repo/cmd/relay/main.go:172, 180, 202), which pflag writes as
`[key=value,key=value]`.

Parameters: `json` is the reader of JSON objects, `csv` the first record of `encoding/csv`, `isFloat` whether `strconv.ParseFloat` reads a text; a
floating point number is kept as its text. `encoding/csv` splits a text without quotes and line breaks at the commas (`Csv`). A Go map is a list
of pairs with distinct keys, in which the last value set counts.
-/
namespace Verif.CliOptions
open Verif.IntText

abbrev Str := List Char

inductive Val where
  | int (v : Int)
  | float (t : Str)
  | str (t : Str)
deriving DecidableEq, Repr

abbrev Map := List (Str × Val)

/-- Setting a key of a map. -/
def put (m : Map) (k : Str) (v : Val) : Map := (k, v) :: m.filter (·.1 ≠ k)

/-- strings.Trim(s, "[]"). -/
def bracket (c : Char) : Bool := c = '[' || c = ']'
def trim (s : Str) : Str := ((s.dropWhile bracket).reverse.dropWhile bracket).reverse

/-- strings.SplitN(s, "=", 2) of two parts; `none`: there is no '='. -/
def splitEq : Str → Option (Str × Str)
  | [] => none
  | c :: r => if c = '=' then some ([], r) else (splitEq r).map fun (a, b) => (c :: a, b)

/-- helper.go:255-262: the value of an option. -/
def value (isFloat : Str → Bool) (s : Str) : Val :=
  match goParseInt s 64 with
  | .ok v => .int v
  | .error _ => if isFloat s then .float s else .str s

/-- helper.go:249-263: the loop. -/
def pairs (isFloat : Str → Bool) : List Str → Map → Option Map
  | [], m => some m
  | p :: ps, m => match splitEq p with
    | none => none
    | some (k, v) => pairs isFloat ps (put m k (value isFloat v))

/-- helper.go:231-265 `StringToStringConv`. -/
def conv (json : Str → Option Map) (csv : Str → Option (List Str)) (isFloat : Str → Bool) (val : Str) : Option Map :=
  if val.head? = some '{' then json val
  else
    let val := if val.head? = some '[' then trim val else val
    if val = [] then some []
    else match csv val with
      | none => none
      | some ss => pairs isFloat ss []

/-- helper.go:283-294: a text for a map of raw JSON: numbers are left out, and an error is dropped. -/
def raw (r : Option Map) : Option (List (Str × Str)) :=
  some ((r.getD []).filterMap fun (k, v) => match v with
    | .str s => some (k, s)
    | _ => none)

/-! ### Specification -/

/-- Parts between commas. -/
def split : Str → List Str
  | [] => [[]]
  | c :: r => if c = ',' then [] :: split r else match split r with
    | [] => [[c]]
    | x :: xs => (c :: x) :: xs

/-- What is used of `encoding/csv`. -/
def Csv (csv : Str → Option (List Str)) : Prop := ∀ t, t ≠ [] → (∀ c ∈ t, c ≠ '"' ∧ c ≠ '\n' ∧ c ≠ '\r') → csv t = some (split t)

def join : List (Str × Str) → Str
  | [] => []
  | [(k, v)] => k ++ '=' :: v
  | (k, v) :: r => k ++ '=' :: v ++ ',' :: join r

/-- The text pflag makes of options that need no quotes. -/
def render (o : List (Str × Str)) : Str := '[' :: join o ++ [']']

/-- Options that need no quotes: no comma, quote, line break; no '=' in keys. -/
structure Plain (o : List (Str × Str)) : Prop where
  key : ∀ k v, (k, v) ∈ o → ∀ c ∈ k, c ≠ ',' ∧ c ≠ '"' ∧ c ≠ '\n' ∧ c ≠ '\r' ∧ c ≠ '='
  val : ∀ k v, (k, v) ∈ o → ∀ c ∈ v, c ≠ ',' ∧ c ≠ '"' ∧ c ≠ '\n' ∧ c ≠ '\r'

variable {json : Str → Option Map} {csv : Str → Option (List Str)} {isFloat : Str → Bool}

/-! ### Lemmas -/

theorem split_plain (p : Str) (h : ',' ∉ p) : split p = [p] := by
  induction p with
  | nil => rfl
  | cons c r ih =>
    rw [split, if_neg fun hc => h (by rw [hc]; exact List.mem_cons_self ..), ih fun hc => h (List.mem_cons_of_mem _ hc)]

theorem split_append (p r : Str) (h : ',' ∉ p) : split (p ++ ',' :: r) = p :: split r := by
  induction p with
  | nil => rw [List.nil_append, split, if_pos rfl]
  | cons c q ih =>
    rw [List.cons_append, split, if_neg fun hc => h (by rw [hc]; exact List.mem_cons_self ..), ih fun hc => h (List.mem_cons_of_mem _ hc)]

theorem splitEq_append (k v : Str) (h : '=' ∉ k) : splitEq (k ++ '=' :: v) = some (k, v) := by
  induction k with
  | nil => rw [List.nil_append, splitEq, if_pos rfl]
  | cons c r ih =>
    rw [List.cons_append, splitEq, if_neg fun hc => h (by rw [hc]; exact List.mem_cons_self ..), ih fun hc => h (List.mem_cons_of_mem _ hc)]
    rfl

theorem Plain.tail {x : Str × Str} {o : List (Str × Str)} (h : Plain (x :: o)) : Plain o :=
  ⟨fun k v hm => h.key k v (List.mem_cons_of_mem _ hm), fun k v hm => h.val k v (List.mem_cons_of_mem _ hm)⟩

theorem Plain.pair {k v : Str} {o : List (Str × Str)} (h : Plain ((k, v) :: o)) : ',' ∉ k ++ '=' :: v := by
  intro hc
  rcases List.mem_append.1 hc with hc | hc
  · exact (h.key k v (List.mem_cons_self ..) _ hc).1 rfl
  · rcases List.mem_cons.1 hc with hc | hc
    · exact absurd hc (by decide)
    · exact (h.val k v (List.mem_cons_self ..) _ hc).1 rfl

theorem split_join (o : List (Str × Str)) (h : Plain o) (hn : o ≠ []) : split (join o) = o.map fun x => x.1 ++ '=' :: x.2 := by
  induction o with
  | nil => exact absurd rfl hn
  | cons x r ih =>
    obtain ⟨k, v⟩ := x
    cases r with
    | nil => exact split_plain _ h.pair
    | cons y ys =>
      show split (k ++ '=' :: v ++ ',' :: join (y :: ys)) = _
      rw [split_append _ _ h.pair, ih h.tail (by simp)]
      rfl

theorem join_chars (o : List (Str × Str)) (h : Plain o) : ∀ c ∈ join o, c ≠ '"' ∧ c ≠ '\n' ∧ c ≠ '\r' := by
  induction o with
  | nil => intro c hc; cases hc
  | cons x r ih =>
    obtain ⟨k, v⟩ := x
    have hp : ∀ c ∈ k ++ '=' :: v, c ≠ '"' ∧ c ≠ '\n' ∧ c ≠ '\r' := by
      intro c hc
      rcases List.mem_append.1 hc with hc | hc
      · exact ⟨(h.key k v (List.mem_cons_self ..) _ hc).2.1, (h.key k v (List.mem_cons_self ..) _ hc).2.2.1, (h.key k v (List.mem_cons_self ..) _ hc).2.2.2.1⟩
      · rcases List.mem_cons.1 hc with hc | hc
        · subst hc; decide
        · exact ⟨(h.val k v (List.mem_cons_self ..) _ hc).2.1, (h.val k v (List.mem_cons_self ..) _ hc).2.2.1, (h.val k v (List.mem_cons_self ..) _ hc).2.2.2⟩
    cases r with
    | nil => exact hp
    | cons y ys =>
      intro c hc
      rcases List.mem_append.1 (show c ∈ (k ++ '=' :: v) ++ ',' :: join (y :: ys) from hc) with hc | hc
      · exact hp c hc
      · rcases List.mem_cons.1 hc with hc | hc
        · subst hc; decide
        · exact ih h.tail c hc

theorem join_ne (o : List (Str × Str)) (hn : o ≠ []) : join o ≠ [] := by
  cases o with
  | nil => exact absurd rfl hn
  | cons x r =>
    obtain ⟨k, v⟩ := x
    cases r with
    | nil => intro h; have := congrArg List.length h; simp [join] at this
    | cons y ys => intro h; have := congrArg List.length h; simp [join] at this

theorem lookup_put (m : Map) (k x : Str) (v : Val) : (put m k v).lookup x = if x = k then some v else m.lookup x := by
  unfold put
  rw [List.lookup_cons]
  by_cases h : x = k
  · subst h; rw [beq_self_eq_true, if_pos rfl]
  · rw [show (x == k) = false by simpa using h, if_neg h]
    dsimp only
    induction m with
    | nil => rfl
    | cons y ys ih =>
      obtain ⟨a, b⟩ := y
      by_cases ha : a = k
      · subst ha
        rw [List.filter_cons_of_neg (by simp), ih, List.lookup_cons, show (x == a) = false by simpa using h]
      · rw [List.filter_cons_of_pos (by simpa using ha), List.lookup_cons, List.lookup_cons, ih]

theorem pairs_some (o : List (Str × Str)) (h : Plain o) (nd : (o.map (·.1)).Nodup) (m : Map) :
    ∃ m', pairs isFloat (o.map fun x => x.1 ++ '=' :: x.2) m = some m' ∧
      (∀ k v, (k, v) ∈ o → m'.lookup k = some (value isFloat v)) ∧ ∀ k, k ∉ o.map (·.1) → m'.lookup k = m.lookup k := by
  induction o generalizing m with
  | nil => exact ⟨m, rfl, fun _ _ hm => (by cases hm), fun _ _ => rfl⟩
  | cons x r ih =>
    obtain ⟨k, v⟩ := x
    have nd' := List.nodup_cons.1 (show (k :: r.map (·.1)).Nodup from nd)
    obtain ⟨m', h1, h2, h3⟩ := ih h.tail nd'.2 (put m k (value isFloat v))
    refine ⟨m', ?_, fun k' v' hm => ?_, fun k' hk => ?_⟩
    · rw [List.map_cons, pairs, splitEq_append _ _ fun hc => (h.key k v (List.mem_cons_self ..) _ hc).2.2.2.2 rfl]
      exact h1
    · rcases List.mem_cons.1 hm with hm | hm
      · cases hm
        rw [h3 _ nd'.1, lookup_put, if_pos rfl]
      · exact h2 k' v' hm
    · have := not_or.1 (fun hc => hk (List.mem_cons.2 hc))
      rw [h3 k' this.2, lookup_put, if_neg this.1]

theorem dropWhile_head (s : Str) (h : ∀ c, s.head? = some c → bracket c = false) : s.dropWhile bracket = s := by
  cases s with
  | nil => rfl
  | cons x xs => rw [List.dropWhile_cons_of_neg (by simpa using h x rfl)]

/-- The brackets of the flag are taken away, and nothing else, if the text between them neither begins nor ends with one. -/
theorem trim_render (s : Str) (h1 : ∀ c, s.head? = some c → bracket c = false) (h2 : ∀ c, s.getLast? = some c → bracket c = false) :
    trim ('[' :: s ++ [']']) = s := by
  unfold trim
  cases s with
  | nil => decide
  | cons x xs =>
    have e : List.dropWhile bracket ('[' :: (x :: xs) ++ [']']) = (x :: xs) ++ [']'] := by
      rw [List.cons_append, List.dropWhile_cons_of_pos (by decide)]
      exact dropWhile_head _ fun c hc => h1 c (by simpa using hc)
    rw [e, List.reverse_append]
    show (List.dropWhile bracket (']' :: (x :: xs).reverse)).reverse = _
    rw [List.dropWhile_cons_of_pos (by decide), dropWhile_head _ fun c hc => h2 c (by rw [List.getLast?_eq_head?_reverse]; exact hc), List.reverse_reverse]

theorem conv_list (t : Str) (s : Str) (ht : trim ('[' :: t) = s) (hs : s ≠ []) (l : List Str) (hc : csv s = some l) :
    conv json csv isFloat ('[' :: t) = pairs isFloat l [] := by
  unfold conv
  rw [if_neg (by simp)]
  dsimp only
  rw [if_pos (show ('[' :: t).head? = some '[' from rfl), ht, if_neg hs, hc]

/-! ### C171 -/

/-- **C171**: options that need no quotes are read back under their keys, each with its value: as an integer if the text is a Go literal of 64 bits, as a
floating point number if it is one, as the text otherwise; provided the first key does not begin with a bracket and the last value does not end
with one. -/
theorem C171_read_partial (hcsv : Csv csv) (o : List (Str × Str)) (hp : Plain o) (nd : (o.map (·.1)).Nodup)
    (h1 : ∀ c, (join o).head? = some c → c ≠ '[' ∧ c ≠ ']') (h2 : ∀ c, (join o).getLast? = some c → c ≠ '[' ∧ c ≠ ']') :
    ∃ m, conv json csv isFloat (render o) = some m ∧ (∀ k, k ∉ o.map (·.1) → m.lookup k = none) ∧
      ∀ k v, (k, v) ∈ o → ∃ w, m.lookup k = some w ∧
        ((∃ n : Int, w = .int n ∧ IntLit v n ∧ -2 ^ 63 ≤ n ∧ n < 2 ^ 63) ∨
          ((∀ n : Int, IntLit v n → n < -2 ^ 63 ∨ 2 ^ 63 ≤ n) ∧ w = if isFloat v then .float v else .str v)) := by
  have hb : ∀ c, (c ≠ '[' ∧ c ≠ ']') → bracket c = false := by
    intro c hc; simp [bracket, hc.1, hc.2]
  by_cases hn : o = []
  · subst hn
    exact ⟨[], by rfl, fun _ _ => rfl, fun _ _ hm => (by cases hm)⟩
  · obtain ⟨m, p1, p2, p3⟩ := pairs_some (isFloat := isFloat) o hp nd []
    refine ⟨m, ?_, p3, fun k v hm => ⟨_, p2 k v hm, ?_⟩⟩
    · unfold render
      have ht := trim_render (join o) (fun c hc => hb c (h1 c hc)) (fun c hc => hb c (h2 c hc))
      have := conv_list (json := json) (csv := csv) (isFloat := isFloat) (join o ++ [']']) (join o) ht (join_ne o hn) _ (hcsv _ (join_ne o hn) (join_chars o hp))
      rw [split_join o hp hn, p1] at this
      exact this
    · unfold value
      cases hg : goParseInt v 64 with
      | ok n =>
        have := (C134_go_int v 64 (by decide) (by decide) n).1 hg
        exact .inl ⟨n, rfl, this.1, this.2.1, this.2.2⟩
      | error e =>
        refine .inr ⟨fun n hl => ?_, rfl⟩
        by_cases h1 : n < -2 ^ 63
        · exact .inl h1
        · by_cases h2 : 2 ^ 63 ≤ n
          · exact .inr h2
          · have := (C134_go_int v 64 (by decide) (by decide) n).2 ⟨hl, by omega, by omega⟩
            rw [hg] at this; cases this

/-- **C171**: an option whose text is no number keeps it. -/
theorem C171_text {v : Str} (h1 : ∀ n, ¬ IntLit v n) (h2 : isFloat v = false) : value isFloat v = .str v := by
  unfold value
  cases hg : goParseInt v 64 with
  | ok n => exact absurd ((C134_go_int v 64 (by decide) (by decide) n).1 hg).1 (h1 n)
  | error e => simp [h2]

/-- **C171**: false in general: closing brackets at the end of the last value are lost, for every option. -/
theorem C171_bracket_lost (hcsv : Csv csv) (k v : Str) (hp : Plain [(k, v)]) (n : Nat) (h1 : ∀ c, k.head? = some c → c ≠ '[' ∧ c ≠ ']')
    (h2 : ∀ c, v.getLast? = some c → c ≠ '[' ∧ c ≠ ']') :
    conv json csv isFloat (render [(k, v ++ List.replicate n ']')]) = some [(k, value isFloat v)] := by
  have hb : ∀ c, (c ≠ '[' ∧ c ≠ ']') → bracket c = false := by
    intro c hc; simp [bracket, hc.1, hc.2]
  have hk : '=' ∉ k := fun hc => (hp.key k v (List.mem_cons_self ..) _ hc).2.2.2.2 rfl
  have hne : k ++ '=' :: v ≠ [] := by simp
  have rep : ∀ (n : Nat) (s : Str), List.dropWhile bracket (List.replicate n ']' ++ s) = List.dropWhile bracket s := by
    intro n s
    induction n with
    | zero => rfl
    | succ n ih => rw [List.replicate_succ, List.cons_append, List.dropWhile_cons_of_pos (by decide), ih]
  have ht : trim (render [(k, v ++ List.replicate n ']')]) = k ++ '=' :: v := by
    unfold trim render
    have e : '[' :: join [(k, v ++ List.replicate n ']')] ++ [']'] = '[' :: ((k ++ '=' :: v) ++ List.replicate (n + 1) ']') := by
      rw [List.replicate_succ']
      simp [join]
    have hd : ∀ c, ((k ++ '=' :: v) ++ List.replicate (n + 1) ']').head? = some c → bracket c = false := by
      intro c hc
      cases k with
      | nil => cases hc; decide
      | cons x xs => cases hc; exact hb _ (h1 _ rfl)
    rw [e, List.dropWhile_cons_of_pos (by decide), dropWhile_head _ hd, List.reverse_append, List.reverse_replicate, rep,
      dropWhile_head _ ?_, List.reverse_reverse]
    intro c hc
    rw [← List.getLast?_eq_head?_reverse, List.getLast?_append, List.getLast?_cons, Option.some_or, Option.some.injEq] at hc
    cases hv : v.getLast? with
    | none => rw [hv] at hc; cases hc; decide
    | some x => rw [hv] at hc; cases hc; exact hb _ (h2 _ hv)
  have hs : split (k ++ '=' :: v) = [k ++ '=' :: v] := split_plain _ hp.pair
  have := conv_list (json := json) (csv := csv) (isFloat := isFloat) _ _ ht hne _ (hcsv _ hne (join_chars [(k, v)] hp))
  rw [hs] at this
  refine Eq.trans this ?_
  rw [pairs, splitEq_append _ _ hk]
  rfl

/-- **C171**: for a map of raw JSON the options that are numbers are left out, and an unreadable text is an empty map. -/
theorem C171_raw (r : Option Map) : (r = none → raw r = some []) ∧
    ∀ m, r = some m → ∃ l, raw r = some l ∧ ∀ k s, (k, s) ∈ l ↔ (k, Val.str s) ∈ m := by
  refine ⟨fun h => by rw [h]; rfl, fun m h => ⟨_, rfl, fun k s => ?_⟩⟩
  subst h
  simp only [Option.getD_some, List.mem_filterMap]
  constructor
  · rintro ⟨⟨a, b⟩, hm, he⟩
    cases b with
    | str t => cases he; exact hm
    | int t => cases he
    | float t => cases he
  · intro hm
    exact ⟨(k, .str s), hm, rfl⟩

/-- **C171**: false in general: the text of a value is not what it stands for as an integer literal of another base, and an option without '=' makes
all of them unreadable. -/
theorem C171_literals : value (fun _ => false) "010".toList = .int 8 ∧ value (fun _ => false) "1_000".toList = .int 1000 ∧
    value (fun _ => false) "0b11".toList = .int 3 ∧ value (fun _ => false) "10".toList = .int 10 := by decide +kernel

theorem C171_no_value (isFloat : Str → Bool) (p : Str) (h : '=' ∉ p) (l r : List Str) (m : Map) : pairs isFloat (l ++ p :: r) m = none := by
  have hs : splitEq p = none := by
    induction p with
    | nil => rfl
    | cons c q ih => rw [splitEq, if_neg fun hc => h (by rw [hc]; exact List.mem_cons_self ..), ih fun hc => h (List.mem_cons_of_mem _ hc)]; rfl
  induction l generalizing m with
  | nil => rw [List.nil_append, pairs, hs]
  | cons x xs ih =>
    rw [List.cons_append, pairs]
    cases splitEq x with
    | none => rfl
    | some kv => exact ih _

/-! ### Examples -/
namespace Ex

def csv1 (t : Str) : Option (List Str) := some (split t)
theorem csv1_ok : Csv csv1 := fun _ _ _ => rfl
def opts : List (Str × Str) := [("stepLimit".toList, "2500000000".toList), ("name".toList, "icon".toList), ("rate".toList, "1.5".toList)]
def float1 (s : Str) : Bool := s.contains '.'

example : conv (fun _ => none) csv1 float1 (render opts) =
    some [("rate".toList, .float "1.5".toList), ("name".toList, .str "icon".toList), ("stepLimit".toList, .int 2500000000)] := by decide +kernel
example : Plain opts := by
  constructor
  · intro k v h
    simp only [opts, List.mem_cons, List.not_mem_nil, or_false] at h
    rcases h with h | h | h <;> (cases h; decide +kernel)
  · intro k v h
    simp only [opts, List.mem_cons, List.not_mem_nil, or_false] at h
    rcases h with h | h | h <;> (cases h; decide +kernel)
example : (opts.map (·.1)).Nodup := by decide +kernel
example : (join opts).head? = some 's' ∧ (join opts).getLast? = some '5' := by decide +kernel
example : conv (fun _ => none) csv1 float1 "[list=[1]]".toList = some [("list".toList, .str "[1".toList)] := by decide +kernel
example : conv (fun _ => none) csv1 float1 "[a=1,b]".toList = none := by decide +kernel
example : raw (conv (fun _ => none) csv1 float1 (render opts)) = some [("name".toList, "icon".toList)] := by decide +kernel

end Ex

end Verif.CliOptions
