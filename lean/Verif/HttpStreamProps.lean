import Verif.HttpStream
/-! Properties of the HTTP client (C175). -/
namespace Verif.HttpStream

variable {D V : Type}

/-- The value behind the pointer after the first `k` documents. -/
def after (dec : V → D → V) (v : V) (all : List D) (k : Nat) : V := (all.take k).foldl dec v

/-- What holds in every state of a stream. -/
structure Inv (dec : V → D → V) (v : V) (all : List D) (s : St D V) : Prop where
  src : s.src = all.drop s.got
  le : s.got ≤ all.length
  cell : s.cell = after dec v all s.got
  decoding : s.prod = .decoding → s.got = s.gave
  offering : s.prod = .offering → s.got = s.gave + 1
  err : s.prod = .offeringErr → s.got = s.gave ∧ s.got = all.length
  fin : s.prod = .done ↔ s.cons = .returned .decode
  doneAll : s.prod = .done → s.got = s.gave ∧ s.got = all.length
  idle : s.cons ≠ .calling → s.seen.length = s.gave
  busy : s.cons = .calling → s.seen.length + 1 = s.gave
  seen : ∀ k x, s.seen[k]? = some x → x = after dec v all (k + 1) ∨ (x = after dec v all (k + 2) ∧ k + 2 ≤ all.length)

theorem inv_init (dec : V → D → V) (v : V) (all : List D) : Inv dec v all (init v all) :=
  ⟨rfl, Nat.zero_le _, rfl, fun _ => rfl, (fun h => by cases h), (fun h => by cases h), ⟨(fun h => by cases h), (fun h => by cases h)⟩, (fun h => by cases h), fun _ => rfl,
    (fun h => by cases h), (fun k x h => by cases h)⟩

theorem after_succ (dec : V → D → V) (v : V) (all : List D) (k : Nat) (d : D) (t : List D) (h : all.drop k = d :: t) :
    after dec v all (k + 1) = dec (after dec v all k) d := by
  unfold after
  have e : all.take (k + 1) = all.take k ++ [d] := by
    have : all[k]? = some d := by rw [← List.head?_drop, h]; rfl
    rw [List.take_add_one, this]; rfl
  rw [e, List.foldl_append]
  rfl

theorem step_inv (dec : V → D → V) (v : V) (all : List D) (s : St D V) (h : Inv dec v all s) (e : Ev) : Inv dec v all (step dec s e) := by
  have hin : s.got = s.gave ∨ s.got = s.gave + 1 := by
    cases p : s.prod with
    | decoding => exact .inl (h.decoding p)
    | offering => exact .inr (h.offering p)
    | offeringErr => exact .inl (h.err p).1
    | done => exact .inl (h.doneAll p).1
  cases e with
  | decode =>
    unfold step
    dsimp only
    by_cases c : s.prod = .decoding
    · rw [if_pos c]
      have hg := h.decoding c
      have nd : s.cons ≠ .returned .decode := fun x => by rw [h.fin.mpr x] at c; cases c
      cases q : s.src with
      | nil =>
        have hl : s.got = all.length := by
          have := h.src; rw [q] at this
          have := List.drop_eq_nil_iff.mp this.symm
          have := h.le
          omega
        exact ⟨(by rw [← h.src, q]), h.le, h.cell, (fun x => by cases x), (fun x => by cases x), fun _ => ⟨hg, hl⟩, ⟨(fun x => by cases x), fun x => absurd x nd⟩,
          (fun x => by cases x), h.idle, h.busy, h.seen⟩
      | cons d t =>
        have hd : all.drop s.got = d :: t := by rw [← h.src, q]
        have ht : t = all.drop (s.got + 1) := by rw [← List.tail_drop, hd]; rfl
        have hl : s.got + 1 ≤ all.length := by
          have := congrArg List.length hd
          simp at this
          omega
        exact ⟨ht, hl, by dsimp only; rw [after_succ dec v all s.got d t hd, h.cell], (fun x => by cases x), fun _ => by dsimp only; omega, (fun x => by cases x),
          ⟨(fun x => by cases x), fun x => absurd x nd⟩, (fun x => by cases x), h.idle, h.busy, h.seen⟩
    · rw [if_neg c]; exact h
  | hand =>
    unfold step
    dsimp only
    by_cases c : s.cons = .waiting
    · rw [if_pos c]
      have hs := h.idle (by rw [c]; simp)
      cases p : s.prod with
      | decoding => exact h
      | offering =>
        have hg := h.offering p
        exact ⟨h.src, h.le, h.cell, fun _ => hg, (fun x => by cases x), (fun x => by cases x), ⟨(fun x => by cases x), (fun x => by cases x)⟩, (fun x => by cases x),
          fun x => absurd rfl x, fun _ => by dsimp only; omega, h.seen⟩
      | offeringErr =>
        exact ⟨h.src, h.le, h.cell, (fun x => by cases x), (fun x => by cases x), (fun x => by cases x), ⟨fun _ => rfl, fun _ => rfl⟩, fun _ => h.err p, fun _ => hs,
          (fun x => by cases x), h.seen⟩
      | done => exact h
    · rw [if_neg c]; exact h
  | callback ok =>
    unfold step
    dsimp only
    by_cases c : s.cons = .calling
    · rw [if_pos c]
      have hb := h.busy c
      have np : s.prod ≠ .done := fun x => by rw [h.fin.mp x] at c; cases c
      refine ⟨h.src, h.le, h.cell, h.decoding, h.offering, h.err, ⟨fun x => absurd x np, fun x => ?_⟩, h.doneAll, fun _ => ?_, fun x => ?_, ?_⟩
      · dsimp only at x
        cases ok <;> cases x
      · dsimp only
        rw [List.length_append]
        exact hb
      · dsimp only at x
        cases ok <;> cases x
      · intro k x hk
        dsimp only at hk
        by_cases kl : k < s.seen.length
        · rw [List.getElem?_append_left kl] at hk
          exact h.seen k x hk
        · have hle : s.seen.length ≤ k := Nat.le_of_not_lt kl
          rw [List.getElem?_append_right hle] at hk
          have k0 : k = s.seen.length := by
            have := (List.getElem?_eq_some_iff.mp hk).1
            simp at this
            omega
          subst k0
          rw [Nat.sub_self] at hk
          have hx : x = s.cell := (Option.some.inj hk).symm
          rw [hx, h.cell]
          rcases hin with q | q
          · exact .inl (by rw [q, hb])
          · refine .inr ⟨by rw [q, ← hb], ?_⟩
            have := h.le
            omega
    · rw [if_neg c]; exact h
  | cancel =>
    unfold step
    dsimp only
    by_cases c : s.cons = .waiting
    · rw [if_pos c]
      have np : s.prod ≠ .done := fun x => by rw [h.fin.mp x] at c; cases c
      exact ⟨h.src, h.le, h.cell, h.decoding, h.offering, h.err, ⟨fun x => absurd x np, (fun x => by cases x)⟩, h.doneAll, fun _ => h.idle (by rw [c]; simp), (fun x => by cases x), h.seen⟩
    · rw [if_neg c]; exact h

theorem run_inv (dec : V → D → V) (v : V) (all : List D) (l : List Ev) (s : St D V) (h : Inv dec v all s) : Inv dec v all (run dec s l) := by
  induction l generalizing s with
  | nil => exact h
  | cons e l ih => exact ih _ (step_inv dec v all s h e)

theorem reach (dec : V → D → V) (v : V) (all : List D) (l : List Ev) : Inv dec v all (run dec (init v all) l) := run_inv dec v all l _ (inv_init dec v all)

theorem run_append (dec : V → D → V) (s : St D V) (l m : List Ev) : run dec s (l ++ m) = run dec (run dec s l) m := by
  induction l generalizing s with
  | nil => rfl
  | cons e l ih => exact ih _

/-! ### C175: what the callback is given -/

/-- The callback for document `k` sees the state of the value after that document or after the next one, never anything else; and it is
called for no more documents than there are. -/
theorem C175_seen_partial (dec : V → D → V) (v : V) (all : List D) (l : List Ev) :
    (run dec (init v all) l).seen.length ≤ all.length ∧
    ∀ k x, (run dec (init v all) l).seen[k]? = some x →
      x = (all.take (k + 1)).foldl dec v ∨ (x = (all.take (k + 2)).foldl dec v ∧ k + 2 ≤ all.length) := by
  have h := reach dec v all l
  refine ⟨?_, h.seen⟩
  generalize run dec (init v all) l = s at h
  have hl := h.le
  have h1 : s.seen.length ≤ s.gave := by
    by_cases c : s.cons = .calling
    · have := h.busy c; omega
    · exact Nat.le_of_eq (h.idle c)
  have h2 : s.gave ≤ s.got := by
    cases p : s.prod with
    | decoding => exact Nat.le_of_eq (h.decoding p).symm
    | offering => have := h.offering p; omega
    | offeringErr => exact Nat.le_of_eq (h.err p).1.symm
    | done => exact Nat.le_of_eq (h.doneAll p).1.symm
  omega

/-- No document is decoded while a callback has not returned. -/
def polite (dec : V → D → V) (s : St D V) : List Ev → Prop
  | [] => True
  | e :: l => (e = .decode → s.cons ≠ .calling) ∧ polite dec (step dec s e) l

theorem polite_exact (dec : V → D → V) (v : V) (all : List D) (l : List Ev) (s : St D V) (h : Inv dec v all s)
    (hc : s.cons = .calling → s.got = s.gave) (hs : s.seen = (List.range s.seen.length).map fun k => after dec v all (k + 1))
    (hp : polite dec s l) :
    (run dec s l).seen = (List.range (run dec s l).seen.length).map fun k => after dec v all (k + 1) := by
  induction l generalizing s with
  | nil => exact hs
  | cons e l ih =>
    obtain ⟨p1, p2⟩ := hp
    refine ih _ (step_inv dec v all s h e) ?_ ?_ p2
    · cases e with
      | decode =>
        intro x
        have hne := p1 rfl
        exfalso
        unfold step at x
        dsimp only at x
        by_cases c : s.prod = .decoding
        · rw [if_pos c] at x
          cases q : s.src with
          | nil => rw [q] at x; exact hne x
          | cons d t => rw [q] at x; exact hne x
        · rw [if_neg c] at x; exact hne x
      | hand =>
        unfold step
        dsimp only
        by_cases c : s.cons = .waiting
        · rw [if_pos c]
          cases p : s.prod with
          | decoding => exact hc
          | offering => intro _; exact h.offering p
          | offeringErr => intro x; cases x
          | done => exact hc
        · rw [if_neg c]; exact hc
      | callback ok =>
        unfold step
        dsimp only
        by_cases c : s.cons = .calling
        · rw [if_pos c]
          intro _
          exact hc c
        · rw [if_neg c]; exact hc
      | cancel =>
        unfold step
        dsimp only
        by_cases c : s.cons = .waiting
        · rw [if_pos c]
          intro x; cases x
        · rw [if_neg c]; exact hc
    · cases e with
      | decode =>
        unfold step
        dsimp only
        split
        · split <;> exact hs
        · exact hs
      | hand =>
        unfold step
        dsimp only
        split
        · split <;> exact hs
        · exact hs
      | callback ok =>
        unfold step
        dsimp only
        by_cases c : s.cons = .calling
        · rw [if_pos c]
          dsimp only
          rw [List.length_append, List.length_singleton, List.range_succ, List.map_append, ← hs]
          simp only [List.map_cons, List.map_nil]
          have hb := h.busy c
          rw [h.cell, hc c, hb]
        · rw [if_neg c]; exact hs
      | cancel =>
        unfold step
        dsimp only
        split <;> exact hs

/-- If no document is decoded while a callback has not returned, and decoding replaces the value, then the callback is given the documents,
each once and in order. -/
theorem C175_in_order_partial (val : D → V) (v : V) (all : List D) (l : List Ev) (hp : polite (fun _ d => val d) (init v all) l) :
    (run (fun _ d => val d) (init v all) l).seen = (all.take (run (fun _ d => val d) (init v all) l).seen.length).map val := by
  have h := polite_exact (fun _ d => val d) v all l _ (inv_init _ v all) (fun x => by cases x) rfl hp
  have hl := (C175_seen_partial (fun _ d => val d) v all l).1
  generalize (run (fun _ d => val d) (init v all) l).seen = s at h hl ⊢
  apply List.ext_getElem?
  intro k
  by_cases hk : k < s.length
  · rw [h]
    have hk2 : k < all.length := Nat.lt_of_lt_of_le hk hl
    simp only [List.getElem?_map, List.length_map, List.length_range, List.getElem?_range hk, List.getElem?_take_of_lt hk, Option.map_some,
      List.getElem?_eq_getElem hk2]
    unfold after
    have e : all.take (k + 1) = all.take k ++ [all[k]] := by rw [List.take_add_one, List.getElem?_eq_getElem hk2]; rfl
    rw [e, List.foldl_append]
    rfl
  · rw [List.getElem?_eq_none (by omega), List.getElem?_eq_none (by simp; omega)]

/-- If the call returns the error of the decoder, there was a callback for every document. -/
theorem C175_end_after_all (dec : V → D → V) (v : V) (all : List D) (l : List Ev) (h : (run dec (init v all) l).cons = .returned .decode) :
    (run dec (init v all) l).seen.length = all.length := by
  have i := reach dec v all l
  have h2 := i.doneAll (i.fin.mpr h)
  have h3 := i.idle (by rw [h]; simp)
  omega

/-- Once the call has returned there is no further callback, and the result stays. -/
theorem C175_returned_is_final (dec : V → D → V) (s : St D V) (r : Res) (h : s.cons = .returned r) (l : List Ev) :
    (run dec s l).cons = .returned r ∧ (run dec s l).seen = s.seen := by
  induction l generalizing s with
  | nil => exact ⟨h, rfl⟩
  | cons e l ih =>
    have e2 : (step dec s e).cons = .returned r ∧ (step dec s e).seen = s.seen := by
      cases e with
      | decode =>
        unfold step
        dsimp only
        split
        · split <;> exact ⟨h, rfl⟩
        · exact ⟨h, rfl⟩
      | hand => unfold step; dsimp only; rw [if_neg (by rw [h]; simp)]; exact ⟨h, rfl⟩
      | callback ok => unfold step; dsimp only; rw [if_neg (by rw [h]; simp)]; exact ⟨h, rfl⟩
      | cancel => unfold step; dsimp only; rw [if_neg (by rw [h]; simp)]; exact ⟨h, rfl⟩
    obtain ⟨i1, i2⟩ := ih _ e2.1
    exact ⟨i1, i2.trans e2.2⟩

/-- A callback that fails ends the call with its error, and a call that is cancelled while it waits ends; a callback that succeeds does not
end it. -/
theorem C175_ends (dec : V → D → V) (v : V) (all : List D) (l m : List Ev) :
    ((run dec (init v all) l).cons = .calling →
      (run dec (init v all) (l ++ .callback false :: m)).cons = .returned .callback ∧ (run dec (init v all) (l ++ [.callback true])).cons = .waiting) ∧
    ((run dec (init v all) l).cons = .waiting → (run dec (init v all) (l ++ .cancel :: m)).cons = .returned .cancelled) := by
  simp only [run_append]
  generalize run dec (init v all) l = s
  refine ⟨fun h => ⟨?_, ?_⟩, fun h => ?_⟩
  · refine (C175_returned_is_final dec (step dec s (.callback false)) .callback ?_ m).1
    unfold step
    dsimp only
    rw [if_pos h]
    rfl
  · simp [run, step, h]
  · refine (C175_returned_is_final dec (step dec s .cancel) .cancelled ?_ m).1
    unfold step
    dsimp only
    rw [if_pos h]

/-- And it ends with these only if a callback failed or it was cancelled. -/
theorem C175_ends_only (dec : V → D → V) (v : V) (all : List D) (l : List Ev) :
    ((run dec (init v all) l).cons = .returned .callback → .callback false ∈ l) ∧ ((run dec (init v all) l).cons = .returned .cancelled → .cancel ∈ l) := by
  have go : ∀ (l : List Ev) (s : St D V),
      ((run dec s l).cons = .returned .callback → s.cons = .returned .callback ∨ .callback false ∈ l) ∧
        ((run dec s l).cons = .returned .cancelled → s.cons = .returned .cancelled ∨ .cancel ∈ l) := by
    intro l
    induction l with
    | nil => intro s; exact ⟨.inl, .inl⟩
    | cons e l ih =>
      intro s
      obtain ⟨i1, i2⟩ := ih (step dec s e)
      have k : ((step dec s e).cons = .returned .callback → s.cons = .returned .callback ∨ e = .callback false) ∧
          ((step dec s e).cons = .returned .cancelled → s.cons = .returned .cancelled ∨ e = .cancel) := by
        cases e with
        | decode =>
          unfold step
          dsimp only
          split
          · split <;> exact ⟨.inl, .inl⟩
          · exact ⟨.inl, .inl⟩
        | hand =>
          unfold step
          dsimp only
          split
          · split
            · exact ⟨(fun x => by cases x), (fun x => by cases x)⟩
            · exact ⟨(fun x => by cases x), (fun x => by cases x)⟩
            · exact ⟨.inl, .inl⟩
          · exact ⟨.inl, .inl⟩
        | callback ok =>
          unfold step
          dsimp only
          split
          · cases ok with
            | true => exact ⟨(fun x => by cases x), (fun x => by cases x)⟩
            | false => exact ⟨fun _ => .inr rfl, (fun x => by cases x)⟩
          · exact ⟨.inl, .inl⟩
        | cancel =>
          unfold step
          dsimp only
          split
          · exact ⟨(fun x => by cases x), fun _ => .inr rfl⟩
          · exact ⟨.inl, .inl⟩
      refine ⟨fun h => ?_, fun h => ?_⟩
      · rcases i1 h with h | h
        · rcases k.1 h with h | h
          · exact .inl h
          · exact .inr (h ▸ List.mem_cons_self)
        · exact .inr (List.mem_cons_of_mem _ h)
      · rcases i2 h with h | h
        · rcases k.2 h with h | h
          · exact .inl h
          · exact .inr (h ▸ List.mem_cons_self)
        · exact .inr (List.mem_cons_of_mem _ h)
  exact ⟨fun h => ((go l _).1 h).resolve_left (fun x => by cases x), fun h => ((go l _).2 h).resolve_left (fun x => by cases x)⟩

/-- The goroutine that decodes ends only with the call that returns its error. After a cancelled call, or one that the callback ended, it
never ends, whatever happens. -/
theorem C175_goroutine_stays (dec : V → D → V) (v : V) (all : List D) (l m : List Ev) (r : Res) (hr : r ≠ .decode)
    (h : (run dec (init v all) l).cons = .returned r) : (run dec (init v all) (l ++ m)).prod ≠ .done := by
  intro hd
  have h1 := (reach dec v all (l ++ m)).fin.mp hd
  rw [run_append, (C175_returned_is_final dec _ r h m).1] at h1
  injection h1 with h1
  exact hr h1

/-- A call that is not disturbed returns the error of the decoder, from every state in which it has not returned. -/
theorem C175_comes_to_an_end (dec : V → D → V) (v : V) (all : List D) (l : List Ev) (h : ∀ r, (run dec (init v all) l).cons ≠ .returned r) :
    ∃ m, (run dec (init v all) (l ++ m)).cons = .returned .decode := by
  have i := reach dec v all l
  simp only [run_append]
  generalize run dec (init v all) l = s at h i
  -- from a state that waits
  have wait : ∀ (n : Nat) (s : St D V), Inv dec v all s → s.cons = .waiting → s.src.length = n → ∃ m, (run dec s m).cons = .returned .decode := by
    intro n
    induction n with
    | zero =>
      intro s i c hn
      have hz : s.src = [] := List.eq_nil_of_length_eq_zero hn
      cases p : s.prod with
      | decoding => exact ⟨[.decode, .hand], by simp [run, step, p, hz, c]⟩
      | offering => exact ⟨[.hand, .callback true, .decode, .hand], by simp [run, step, p, hz, c]⟩
      | offeringErr => exact ⟨[.hand], by simp [run, step, p, c]⟩
      | done => have := i.fin.mp p; rw [c] at this; cases this
    | succ n ih =>
      intro s i c hn
      cases q : s.src with
      | nil => rw [q] at hn; cases hn
      | cons d t =>
        have hn' : t.length = n := by rw [q] at hn; exact Nat.succ.inj hn
        have go : ∀ pre : List Ev, (run dec s pre).cons = .waiting → (run dec s pre).src = t → ∃ m, (run dec s m).cons = .returned .decode := by
          intro pre c2 e2
          obtain ⟨m, hm⟩ := ih (run dec s pre) (run_inv dec v all pre s i) c2 (by rw [e2]; exact hn')
          exact ⟨pre ++ m, by rw [run_append]; exact hm⟩
        cases p : s.prod with
        | decoding => exact go [.decode] (by simp [run, step, p, q, c]) (by simp [run, step, p, q])
        | offering => exact go [.hand, .callback true, .decode] (by simp [run, step, p, q, c]) (by simp [run, step, p, q, c])
        | offeringErr => exact ⟨[.hand], by simp [run, step, p, c]⟩
        | done => have := i.fin.mp p; rw [c] at this; cases this
  cases c : s.cons with
  | waiting => exact wait _ s i c rfl
  | calling =>
    have c2 : (run dec s [.callback true]).cons = .waiting := by simp [run, step, c]
    obtain ⟨m, hm⟩ := wait _ _ (run_inv dec v all [.callback true] s i) c2 rfl
    exact ⟨.callback true :: m, hm⟩
  | returned r => exact absurd c (h r)

/-! ### C175: negations -/

/-- Without the condition the callback misses a document and is given another one twice. -/
theorem C175_overwritten_false :
    (run (fun _ d => d) (init 0 [1, 2]) [.decode, .hand, .decode, .callback true, .hand, .callback true, .decode, .hand]).seen = [2, 2] ∧
      (run (fun _ d => d) (init 0 [1, 2]) [.decode, .hand, .decode, .callback true, .hand, .callback true, .decode, .hand]).cons = .returned .decode := by
  decide +kernel

/-- A document is `(hash, error)` with fields that may be missing; decoding leaves what is missing. -/
def exDec (old : Nat × Nat) (d : Option Nat × Option Nat) : Nat × Nat := (d.1.getD old.1, d.2.getD old.2)

/-- Fields that a document lacks come from the documents before, even with a callback between. -/
theorem C175_leftover_false :
    (run exDec (init (0, 0) [(some 1, some 7), (some 2, none)]) [.decode, .hand, .callback true, .decode, .hand, .callback true]).seen = [(1, 7), (2, 7)] := by
  decide +kernel

/-- A polite history with two documents and a cancelled end. -/
example : polite (fun _ d => d) (init 0 [1, 2]) [.decode, .hand, .callback true, .decode, .hand, .callback true, .cancel] ∧
    (run (fun _ d => d) (init 0 [1, 2]) [.decode, .hand, .callback true, .decode, .hand, .callback true, .cancel]).seen = [1, 2] ∧
    (run (fun _ d => d) (init 0 [1, 2]) [.decode, .hand, .callback true, .decode, .hand, .callback true, .cancel]).cons = .returned .cancelled := by
  refine ⟨?_, by decide +kernel, by decide +kernel⟩
  simp [polite, step, init]

/-! ### C175: addresses -/

theorem cut_some {a n t : List Char} (h : cut a = some (n, t)) : a = n ++ "://".toList ++ t := by
  fun_induction cut a generalizing n with
  | case1 t' => cases h; rfl
  | case2 => cases h
  | case3 c t' _ ih =>
    cases e : cut t' with
    | none => rw [e] at h; cases h
    | some p =>
      rw [e] at h
      cases h
      rw [ih e]
      rfl

/-- An address with one `://` is parted there, and is put together again by `Address`. -/
theorem C175_address (a : List Char) (h : (cut a).isSome) (h2 : ∀ n t, cut a = some (n, t) → cut t = none) :
    (parseAddress a).1 ++ "://".toList ++ (parseAddress a).2 = a := by
  obtain ⟨⟨n, t⟩, e⟩ := Option.isSome_iff_exists.mp h
  unfold parseAddress
  rw [e]
  dsimp only
  rw [h2 n t e]
  exact (cut_some e).symm

/-- Addresses of http and https are used as they are, those of unix sockets as localhost, others as http. -/
theorem C175_base (a ctx n t : List Char) (h : cut a = some (n, t)) (h2 : cut t = none) :
    ("http".toList <+: n → baseUrl a ctx = a ++ ctx) ∧ ("unix".toList <+: n → baseUrl a ctx = "http://localhost".toList ++ ctx) ∧
      (n = "tcp".toList → baseUrl a ctx = "http://".toList ++ t ++ ctx) := by
  have e : parseAddress a = (n, t) := by unfold parseAddress; rw [h]; dsimp only; rw [h2]
  unfold baseUrl
  rw [e]
  dsimp only
  refine ⟨fun x => ?_, fun x => ?_, fun x => ?_⟩
  · have nu : "unix".toList.isPrefixOf n = false := by
      obtain ⟨r, hr⟩ := x
      rw [← hr]
      rfl
    rw [nu, if_neg (by simp), if_pos (List.isPrefixOf_iff_prefix.mpr x)]
  · rw [if_pos (List.isPrefixOf_iff_prefix.mpr x)]
  · subst x
    rfl

/-- An address that has `://` twice, as in a query, is taken for a host. -/
theorem C175_two_schemes_false :
    baseUrl "http://a/?u=http://b".toList "/x".toList = "http://http://a/?u=http://b/x".toList := by
  decide +kernel

/-- An address of another network has no base at all. -/
theorem C175_no_base_false : baseUrl "tcp4://a:80".toList "/x".toList = "/x".toList := by
  decide +kernel

/-- The parameters follow one `?`, parted by `&`. -/
theorem C175_params (u : List Char) (l : List (List Char)) :
    withParams u l = if l = [] then u else u ++ '?' :: ("&".toList).intercalate l := by
  cases l with
  | nil => rfl
  | cons p l =>
    rw [if_neg (by simp)]
    show u ++ '?' :: p ++ _ = _
    have : ∀ (p : List Char) (l : List (List Char)), p ++ l.flatMap (fun q => '&' :: q) = ("&".toList).intercalate (p :: l) := by
      intro p l
      induction l generalizing p with
      | nil => simp [List.intercalate]
      | cons q l ih =>
        rw [List.flatMap_cons, List.cons_append, ih q]
        simp [List.intercalate]
    rw [← this]
    simp

end Verif.HttpStream
