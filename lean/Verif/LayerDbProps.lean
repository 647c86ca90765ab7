import Verif.LayerDb
/-!
C28 (the layered database) and C29 (isolation of buckets).
-/
namespace Verif.LayerDb
open Verif
set_option linter.unusedSectionVars false

section
variable {S : Type} [DecidableEq S]

/-! ### Association lists -/

theorem lookup_insert (k k' : Bytes) (v : α) (l : List (Bytes × α)) :
    lookup k' (insert k v l) = if k' = k then some v else lookup k' l := by
  induction l with
  | nil =>
    simp only [insert, lookup]
    by_cases h : k' = k
    · simp [h]
    · simp [h, Ne.symm h]
  | cons p l ih =>
    obtain ⟨a, w⟩ := p
    unfold insert
    by_cases ha : a = k
    · subst ha; simp only [if_pos, lookup]; by_cases h : k' = a
      · simp [h]
      · simp [h, Ne.symm h]
    · rw [if_neg ha]; simp only [lookup]; rw [ih]
      by_cases h : k' = k
      · subst h; simp [ha]
      · simp [h]

theorem mem_keys_insert (k : Bytes) (v : α) (l : List (Bytes × α)) (x : Bytes) :
    x ∈ (insert k v l).map (·.1) ↔ x = k ∨ x ∈ l.map (·.1) := by
  induction l with
  | nil => simp [insert]
  | cons p l ih =>
    obtain ⟨a, w⟩ := p
    unfold insert
    by_cases ha : a = k
    · subst ha; simp
    · rw [if_neg ha]; simp only [List.map_cons, List.mem_cons, ih]
      constructor <;> (intro h; rcases h with h | h | h <;> simp [h])

theorem nodup_insert (k : Bytes) (v : α) (l : List (Bytes × α)) (h : (l.map (·.1)).Nodup) :
    ((insert k v l).map (·.1)).Nodup := by
  induction l with
  | nil => simp [insert]
  | cons p l ih =>
    obtain ⟨a, w⟩ := p
    simp only [List.map_cons, List.nodup_cons] at h
    unfold insert
    by_cases ha : a = k
    · rw [if_pos ha]; simpa using h
    · rw [if_neg ha]
      simp only [List.map_cons, List.nodup_cons, mem_keys_insert]
      refine ⟨fun hh => ?_, ih h.2⟩
      rcases hh with hh | hh
      · exact ha hh
      · exact h.1 hh

theorem lookup_mem {k : Bytes} {l : List (Bytes × α)} {v : α} (h : lookup k l = some v) : (k, v) ∈ l := by
  induction l with
  | nil => simp [lookup] at h
  | cons p l ih =>
    obtain ⟨a, w⟩ := p
    unfold lookup at h
    by_cases ha : a = k
    · rw [if_pos ha] at h; simp only [Option.some.injEq] at h; simp [ha, h]
    · rw [if_neg ha] at h; exact List.mem_cons_of_mem _ (ih h)

theorem mem_lookup {k : Bytes} {l : List (Bytes × α)} {v : α} (hn : (l.map (·.1)).Nodup) (h : (k, v) ∈ l) :
    lookup k l = some v := by
  induction l with
  | nil => simp at h
  | cons p l ih =>
    obtain ⟨a, w⟩ := p
    simp only [List.map_cons, List.nodup_cons] at hn
    unfold lookup
    rcases List.mem_cons.1 h with h | h
    · cases h; simp
    · have : a ≠ k := by
        intro e; subst e; exact hn.1 (List.mem_map.2 ⟨_, h, rfl⟩)
      rw [if_neg this]; exact ih hn.2 h

theorem lookup_none {k : Bytes} {l : List (Bytes × α)} : lookup k l = none ↔ k ∉ l.map (·.1) := by
  induction l with
  | nil => simp [lookup]
  | cons p l ih =>
    obtain ⟨a, w⟩ := p
    unfold lookup
    by_cases ha : a = k
    · simp [ha]
    · rw [if_neg ha, ih]; simp [Ne.symm ha]

/-! ### What is seen through the layer -/

/-- What the layer shows of bucket `id` under key `k`. -/
def view (B : Backend S) (L : Layer S) (id k : Bytes) : Option Bytes :=
  match lookup id L.buckets with
  | some (some d) => match lookup k d with | some v => v | none => L.real (B.slot id k)
  | _ => L.real (B.slot id k)

/-- A write of `v` (`none`: a deletion) is pending for the pair. -/
def Pending (L : Layer S) (id k : Bytes) (v : Option Bytes) : Prop :=
  ∃ d, lookup id L.buckets = some (some d) ∧ lookup k d = some v

/-- Data structure invariant: Go maps have no duplicate keys. -/
structure WF (L : Layer S) : Prop where
  ids : (L.buckets.map (·.1)).Nodup
  keys : ∀ id d, lookup id L.buckets = some (some d) → (d.map (·.1)).Nodup

/-- The backend keeps the buckets with ids in `I` apart. -/
def Apart (B : Backend S) (I : Bytes → Prop) : Prop :=
  ∀ id id' k k', I id → I id' → B.slot id k = B.slot id' k' → id = id' ∧ k = k'

theorem getBucket_cases (L : Layer S) (id : Bytes) :
    (∃ d, lookup id L.buckets = some d ∧ getBucket L id = (d, L)) ∨
    (lookup id L.buckets = none ∧ L.flushed = true ∧ getBucket L id = (none, L)) ∨
    (lookup id L.buckets = none ∧ L.flushed = false ∧
      getBucket L id = (some [], { L with buckets := insert id (some []) L.buckets })) := by
  unfold getBucket
  cases h : lookup id L.buckets with
  | some d => exact Or.inl ⟨d, rfl, rfl⟩
  | none =>
    cases hf : L.flushed
    · exact Or.inr (Or.inr ⟨rfl, rfl, by simp⟩)
    · exact Or.inr (Or.inl ⟨rfl, rfl, by simp⟩)

theorem getBucket_keeps (B : Backend S) (L : Layer S) (id : Bytes) :
    (getBucket L id).2.real = L.real ∧ (getBucket L id).2.flushed = L.flushed ∧
    (∀ id' k, view B (getBucket L id).2 id' k = view B L id' k) ∧
    (WF L → WF (getBucket L id).2) ∧
    (∀ id' k v, Pending (getBucket L id).2 id' k v ↔ Pending L id' k v) := by
  rcases getBucket_cases L id with ⟨d, h, e⟩ | ⟨h, hf, e⟩ | ⟨h, hf, e⟩ <;> rw [e]
  · exact ⟨rfl, rfl, fun _ _ => rfl, fun h => h, fun _ _ _ => Iff.rfl⟩
  · exact ⟨rfl, rfl, fun _ _ => rfl, fun h => h, fun _ _ _ => Iff.rfl⟩
  · refine ⟨rfl, rfl, ?_, ?_, ?_⟩
    · intro id' k
      unfold view
      simp only [lookup_insert]
      by_cases e : id' = id
      · subst e; simp [h, lookup]
      · simp [e]
    · intro hw
      refine ⟨nodup_insert _ _ _ hw.ids, ?_⟩
      intro id' d' h'
      simp only [lookup_insert] at h'
      by_cases e : id' = id
      · simp only [e, if_pos, Option.some.injEq] at h'; subst h'; simp
      · rw [if_neg e] at h'; exact hw.keys _ _ h'
    · intro id' k v
      unfold Pending
      simp only [lookup_insert]
      by_cases e : id' = id
      · subst e; simp [h, lookup]
      · simp [e]

/-- `get` returns the view and changes nothing. -/
theorem get_eq (B : Backend S) (L : Layer S) (id k : Bytes) :
    get B L id k = (.val (view B L id k), (getBucket L id).2) := by
  unfold get view
  rcases getBucket_cases L id with ⟨d, h, e⟩ | ⟨h, hf, e⟩ | ⟨h, hf, e⟩ <;> rw [e, h]
  · cases d with
    | none => rfl
    | some d => dsimp only; cases lookup k d <;> rfl
  · rfl
  · simp [lookup, realGet]

theorem has_eq (B : Backend S) (L : Layer S) (id k : Bytes) :
    has B L id k = (.bool (view B L id k).isSome, (getBucket L id).2) := by
  unfold has view
  rcases getBucket_cases L id with ⟨d, h, e⟩ | ⟨h, hf, e⟩ | ⟨h, hf, e⟩ <;> rw [e, h]
  · cases d with
    | none => rfl
    | some d => dsimp only; cases lookup k d <;> rfl
  · rfl
  · simp [lookup, realHas]

/-- Storing into the pending map of a bucket. -/
def stage (L : Layer S) (id k : Bytes) (v : Option Bytes) : Layer S :=
  { L with buckets := insert id (some (insert k v ((lookup id L.buckets).getD none |>.getD []))) L.buckets }

theorem stage_view (B : Backend S) (L : Layer S) (id k : Bytes) (v : Option Bytes) (d : Data)
    (h : lookup id L.buckets = some (some d)) (id' k' : Bytes) :
    view B { L with buckets := insert id (some (insert k v d)) L.buckets } id' k' =
      if id' = id ∧ k' = k then v else view B L id' k' := by
  unfold view
  simp only [lookup_insert]
  by_cases e : id' = id
  · subst e
    simp only [if_pos, h, lookup_insert]
    by_cases ek : k' = k
    · simp [ek]
    · simp [ek]
  · simp [e]

theorem stage_pending (L : Layer S) (id k : Bytes) (v : Option Bytes) (d : Data)
    (h : lookup id L.buckets = some (some d)) (id' k' : Bytes) (w : Option Bytes) :
    Pending { L with buckets := insert id (some (insert k v d)) L.buckets } id' k' w ↔
      if id' = id ∧ k' = k then w = v else Pending L id' k' w := by
  unfold Pending
  simp only [lookup_insert]
  by_cases e : id' = id
  · subst e
    simp only [if_pos, h, Option.some.injEq, exists_eq_left', lookup_insert]
    by_cases ek : k' = k
    · simp [ek, eq_comm]
    · simp [ek]
  · simp [e]

theorem stage_wf (L : Layer S) (id k : Bytes) (v : Option Bytes) (d : Data)
    (h : lookup id L.buckets = some (some d)) (hw : WF L) :
    WF { L with buckets := insert id (some (insert k v d)) L.buckets } := by
  refine ⟨nodup_insert _ _ _ hw.ids, ?_⟩
  intro id' d' h'
  simp only [lookup_insert] at h'
  by_cases e : id' = id
  · simp only [e, if_pos, Option.some.injEq] at h'; subst h'; exact nodup_insert _ _ _ (hw.keys _ _ h)
  · rw [if_neg e] at h'; exact hw.keys _ _ h'

/-! ### Writing back -/

theorem put_get (st : Store S) (s s' : S) (v : Option Bytes) : st.put s v s' = if s' = s then v else st s' := rfl

/-- The walk over the entries writes only their slots. -/
theorem writeAll_other (B : Backend S) (id : Bytes) (d : Data) (st : Store S) (s : S)
    (h : ∀ k v, (k, v) ∈ d → B.slot id k ≠ s) : (writeAll B id d st).2 s = st s := by
  induction d generalizing st with
  | nil => rfl
  | cons p d ih =>
    obtain ⟨k, v⟩ := p
    have h1 : s ≠ B.slot id k := fun e => h k v (by simp) e.symm
    have h2 : ∀ k v, (k, v) ∈ d → B.slot id k ≠ s := fun k v hm => h k v (List.mem_cons_of_mem _ hm)
    cases v with
    | none => simp only [writeAll]; rw [ih _ h2]; simp [realDelete, put_get, h1]
    | some v =>
      simp only [writeAll, realSet]
      by_cases hb : B.bad (B.slot id k) = true
      · simp [hb]
      · simp only [hb]; rw [if_neg (by simp)]; dsimp only; rw [ih _ h2]; simp [put_get, h1]

theorem writeAll_ok (B : Backend S) (id : Bytes) (d : Data) (st : Store S) :
    (writeAll B id d st).1 = true ↔ ∀ k v, (k, some v) ∈ d → B.bad (B.slot id k) = false := by
  induction d generalizing st with
  | nil => simp [writeAll]
  | cons p d ih =>
    obtain ⟨k, v⟩ := p
    cases v with
    | none => simp only [writeAll]; rw [ih]; simp
    | some v =>
      simp only [writeAll, realSet]
      by_cases hb : B.bad (B.slot id k) = true
      · simp only [hb, if_pos]
        constructor
        · intro h; exact absurd h (by simp)
        · intro h; have := h k v (by simp); rw [hb] at this; exact absurd this (by simp)
      · simp only [hb]; rw [if_neg (by simp)]; dsimp only; rw [ih]
        constructor
        · intro h k' v' hm
          rcases List.mem_cons.1 hm with e | hm
          · cases e; simpa using hb
          · exact h k' v' hm
        · intro h k' v' hm; exact h k' v' (List.mem_cons_of_mem _ hm)

theorem writeAll_writes (B : Backend S) (id : Bytes) (d : Data) (st : Store S)
    (inj : ∀ k k', B.slot id k = B.slot id k' → k = k') (hn : (d.map (·.1)).Nodup)
    (hok : (writeAll B id d st).1 = true) (k : Bytes) (v : Option Bytes) (hm : (k, v) ∈ d) :
    (writeAll B id d st).2 (B.slot id k) = v := by
  induction d generalizing st with
  | nil => simp at hm
  | cons p d ih =>
    obtain ⟨a, w⟩ := p
    simp only [List.map_cons, List.nodup_cons] at hn
    have hne : a = k → ∀ k' v', (k', v') ∈ d → B.slot id k' ≠ B.slot id k := by
      intro e k' v' hm' es
      have := inj _ _ es; subst this; subst e
      exact hn.1 (List.mem_map.2 ⟨_, hm', rfl⟩)
    cases w with
    | none =>
      simp only [writeAll] at hok ⊢
      rcases List.mem_cons.1 hm with e | hm
      · cases e; rw [writeAll_other _ _ _ _ _ (hne rfl)]; simp [realDelete, put_get]
      · exact ih _ hn.2 hok hm
    | some w =>
      simp only [writeAll, realSet] at hok ⊢
      by_cases hb : B.bad (B.slot id a) = true
      · simp only [hb, if_pos] at hok; exact absurd hok (by simp)
      · simp only [hb] at hok ⊢
        rw [if_neg (by simp)] at hok ⊢
        dsimp only at hok ⊢
        rcases List.mem_cons.1 hm with e | hm
        · cases e; rw [writeAll_other _ _ _ _ _ (hne rfl)]; simp [put_get]
        · exact ih _ hn.2 hok hm

/-- The map orders of one flush are orders of the maps. -/
structure Orders.Valid (o : Orders) : Prop where
  ids : ∀ l, (o.ids l).Perm l
  entries : ∀ l, (o.entries l).Perm l

theorem perm_mem {o : Orders} (ho : o.Valid) (d : Data) (p) : p ∈ o.entries d ↔ p ∈ d := (ho.entries d).mem_iff

theorem perm_nodup {o : Orders} (ho : o.Valid) {d : Data} (h : (d.map (·.1)).Nodup) : ((o.entries d).map (·.1)).Nodup :=
  ((ho.entries d).map _).nodup_iff.2 h

/-- What a flush has done to the layer, whatever its outcome. -/
structure Flushed (B : Backend S) (write : Bool) (ids : List Bytes) (I : Bytes → Prop) (L : Layer S) (ok : Bool) (L' : Layer S) :
    Prop where
  flag : L'.flushed = L.flushed
  wf : WF L'
  dom : ∀ id, (lookup id L'.buckets).isSome = (lookup id L.buckets).isSome
  same : ∀ id, lookup id L'.buckets = lookup id L.buckets ∨ lookup id L'.buckets = some none
  done : ok = true → ∀ id ∈ ids, ∀ d, lookup id L'.buckets ≠ some (some d)
  seen : write = true → Apart B I → (∀ id, (lookup id L.buckets).isSome → I id) →
    ∀ id k, I id → view B L' id k = view B L id k
  kept : write = false → L'.real = L.real
  other : ∀ s, (∀ id k v, Pending L id k v → B.slot id k ≠ s) → L'.real s = L.real s

theorem flushIds_spec (B : Backend S) {o : Orders} (ho : o.Valid) (write : Bool) (I : Bytes → Prop) (ids : List Bytes)
    (L : Layer S) (hw : WF L) :
    Flushed B write ids I L (flushIds B o.entries write ids L).1 (flushIds B o.entries write ids L).2 := by
  induction ids generalizing L with
  | nil => exact ⟨rfl, hw, fun _ => rfl, fun _ => Or.inl rfl, by simp, fun _ _ _ _ _ _ => rfl, fun _ => rfl, fun _ _ => rfl⟩
  | cons id ids ih =>
    unfold flushIds
    -- closing one bucket
    have close : ∀ (st : Store S) (d : Data), lookup id L.buckets = some (some d) →
        (write = false → st = L.real) →
        (∀ s, (∀ k v, (k, v) ∈ d → B.slot id k ≠ s) → st s = L.real s) →
        (write = true → Apart B I → (∀ id, (lookup id L.buckets).isSome → I id) → ∀ k v, (k, v) ∈ d → st (B.slot id k) = v) →
        Flushed B write (id :: ids) I L
          (flushIds B o.entries write ids { L with real := st, buckets := insert id none L.buckets }).1
          (flushIds B o.entries write ids { L with real := st, buckets := insert id none L.buckets }).2 := by
      intro st d hl hkeep hoth hwr
      have hlk : ∀ id', lookup id' (insert id (none : Option Data) L.buckets) =
          if id' = id then some none else lookup id' L.buckets := fun id' => lookup_insert _ _ _ _
      have hw1 : WF ({ L with real := st, buckets := insert id none L.buckets } : Layer S) := by
        refine ⟨nodup_insert _ _ _ hw.ids, ?_⟩
        intro id' d' h'
        simp only [hlk] at h'
        by_cases e : id' = id
        · rw [if_pos e] at h'; simp at h'
        · rw [if_neg e] at h'; exact hw.keys _ _ h'
      have r := ih _ hw1
      have hpend : ∀ id' k v, Pending ({ L with real := st, buckets := insert id none L.buckets } : Layer S) id' k v →
          Pending L id' k v := by
        intro id' k v ⟨d', h1, h2⟩
        simp only [hlk] at h1
        by_cases e : id' = id
        · rw [if_pos e] at h1; simp at h1
        · rw [if_neg e] at h1; exact ⟨d', h1, h2⟩
      refine ⟨r.flag, r.wf, ?_, ?_, ?_, ?_, ?_, ?_⟩
      · intro id'
        rw [r.dom id']; simp only [hlk]
        by_cases e : id' = id
        · simp [e, hl]
        · simp [e]
      · intro id'
        rcases r.same id' with h | h
        · rw [h]; simp only [hlk]
          by_cases e : id' = id
          · simp [e]
          · simp [e]
        · exact Or.inr h
      · intro hok id' hm d'
        rcases List.mem_cons.1 hm with e | hm
        · subst e
          rcases r.same id' with h | h
          · rw [h]; simp [hlk]
          · rw [h]; simp
        · exact r.done hok id' hm d'
      · intro hwt ha hI id' k hi
        rw [r.seen hwt ha ?_ id' k hi]
        · have hsame : id' ≠ id → st (B.slot id' k) = L.real (B.slot id' k) := by
            intro e
            refine hoth _ (fun k' v' _ es => ?_)
            exact e ((ha _ _ _ _ (hI id (by simp [hl])) hi es).1.symm)
          unfold view
          simp only [hlk]
          by_cases e : id' = id
          · subst e
            simp only [if_pos, hl]
            cases hk : lookup k d with
            | some v => exact hwr hwt ha hI k v (lookup_mem hk)
            | none =>
              dsimp only
              refine hoth _ (fun k' v' hm es => ?_)
              have := (ha _ _ _ _ hi hi es).2
              subst this
              exact (lookup_none.1 hk) (List.mem_map.2 ⟨_, hm, rfl⟩)
          · simp only [e, if_false]
            rw [hsame e]
        · intro id'' h''
          simp only [hlk] at h''
          by_cases e : id'' = id
          · subst e; exact hI _ (by simp [hl])
          · rw [if_neg e] at h''; exact hI _ h''
      · intro hf; rw [r.kept hf]; exact hkeep hf
      · intro s hs
        rw [r.other s (fun id' k v hp => hs id' k v (hpend _ _ _ hp))]
        exact hoth s (fun k v hm => hs id k v ⟨d, hl, mem_lookup (hw.keys _ _ hl) hm⟩)
    have skip : (∀ d, lookup id L.buckets ≠ some (some d)) →
        Flushed B write (id :: ids) I L (flushIds B o.entries write ids L).1 (flushIds B o.entries write ids L).2 := by
      intro hno
      have r := ih L hw
      refine ⟨r.flag, r.wf, r.dom, r.same, ?_, r.seen, r.kept, r.other⟩
      intro hok id' hm d'
      rcases List.mem_cons.1 hm with e | hm
      · subst e
        rcases r.same id' with h | h
        · rw [h]; exact hno d'
        · rw [h]; simp
      · exact r.done hok id' hm d'
    cases hl : lookup id L.buckets with
    | none => exact skip (by simp [hl])
    | some x =>
      cases x with
      | none => exact skip (by simp [hl])
      | some d =>
        dsimp only
        cases write with
        | false =>
          rw [if_neg (by simp)]
          exact close L.real d hl (fun _ => rfl) (fun _ _ => rfl) (fun h => absurd h (by simp))
        | true =>
          rw [if_pos rfl]
          have hoth : ∀ s, (∀ k v, (k, v) ∈ d → B.slot id k ≠ s) → (writeAll B id (o.entries d) L.real).2 s = L.real s :=
            fun s hs => writeAll_other _ _ _ _ _ (fun k v hm => hs k v ((perm_mem ho d _).1 hm))
          have hwrites : (writeAll B id (o.entries d) L.real).1 = true → Apart B I →
              (∀ id, (lookup id L.buckets).isSome → I id) → ∀ k v, (k, v) ∈ d →
              (writeAll B id (o.entries d) L.real).2 (B.slot id k) = v := by
            intro hok ha hI k v hm
            have hi := hI id (by simp [hl])
            exact writeAll_writes B id _ _ (fun k k' es => (ha _ _ _ _ hi hi es).2) (perm_nodup ho (hw.keys _ _ hl)) hok k v
              ((perm_mem ho d _).2 hm)
          generalize hr : writeAll B id (o.entries d) L.real = r at hoth hwrites
          obtain ⟨ok, st⟩ := r
          cases ok with
          | true => exact close st d hl (fun h => absurd h (by simp)) hoth (fun _ => hwrites rfl)
          | false =>
            dsimp only
            refine ⟨rfl, ⟨hw.ids, hw.keys⟩, fun _ => rfl, fun _ => Or.inl rfl, fun h => absurd h (by simp), ?_, fun h => absurd h (by simp), ?_⟩
            · intro _ ha hI id' k hi
              have hsame : (id' = id → lookup k d = none) → st (B.slot id' k) = L.real (B.slot id' k) := by
                intro e
                refine hoth _ (fun k' v' hm es => ?_)
                have := ha _ _ _ _ (hI id (by simp [hl])) hi es
                obtain ⟨e1, e2⟩ := this
                subst e1; subst e2
                exact (lookup_none.1 (e rfl)) (List.mem_map.2 ⟨_, hm, rfl⟩)
              unfold view
              dsimp only
              by_cases e : id' = id
              · subst e
                rw [hl]
                dsimp only
                cases hk : lookup k d with
                | some v => rfl
                | none => exact hsame (fun _ => hk)
              · rw [hsame (fun h => absurd h e)]
            · intro s hs
              exact hoth s (fun k v hm => hs id k v ⟨d, hl, mem_lookup (hw.keys _ _ hl) hm⟩)

theorem flushIds_ok (B : Backend S) {o : Orders} (ho : o.Valid) (write : Bool) (ids : List Bytes) (hnd : ids.Nodup)
    (L : Layer S) (hw : WF L) :
    (flushIds B o.entries write ids L).1 = true ↔
      (write = true → ∀ id ∈ ids, ∀ k v, Pending L id k (some v) → B.bad (B.slot id k) = false) := by
  induction ids generalizing L with
  | nil => simp [flushIds]
  | cons id ids ih =>
    have hnd' := List.nodup_cons.1 hnd
    unfold flushIds
    have close : ∀ (st : Store S) (d : Data), lookup id L.buckets = some (some d) →
        ((flushIds B o.entries write ids { L with real := st, buckets := insert id none L.buckets }).1 = true ↔
          (write = true → ∀ id' ∈ ids, ∀ k v, Pending L id' k (some v) → B.bad (B.slot id' k) = false)) := by
      intro st d hl
      have hlk : ∀ id', lookup id' (insert id (none : Option Data) L.buckets) =
          if id' = id then some none else lookup id' L.buckets := fun id' => lookup_insert _ _ _ _
      have hw1 : WF ({ L with real := st, buckets := insert id none L.buckets } : Layer S) := by
        refine ⟨nodup_insert _ _ _ hw.ids, ?_⟩
        intro id' d' h'
        simp only [hlk] at h'
        by_cases e : id' = id
        · rw [if_pos e] at h'; simp at h'
        · rw [if_neg e] at h'; exact hw.keys _ _ h'
      rw [ih hnd'.2 _ hw1]
      have hp : ∀ id' ∈ ids, ∀ k v, Pending ({ L with real := st, buckets := insert id none L.buckets } : Layer S) id' k v ↔
          Pending L id' k v := by
        intro id' hm k v
        have e : id' ≠ id := fun e => hnd'.1 (e ▸ hm)
        unfold Pending; simp only [hlk, e, if_false]
      constructor
      · intro h hwt id' hm k v hpd; exact h hwt id' hm k v ((hp id' hm k _).2 hpd)
      · intro h hwt id' hm k v hpd; exact h hwt id' hm k v ((hp id' hm k _).1 hpd)
    have skip : (∀ d, lookup id L.buckets ≠ some (some d)) →
        ((flushIds B o.entries write ids L).1 = true ↔
          (write = true → ∀ id' ∈ id :: ids, ∀ k v, Pending L id' k (some v) → B.bad (B.slot id' k) = false)) := by
      intro hno
      rw [ih hnd'.2 L hw]
      constructor
      · intro h hwt id' hm k v hpd
        rcases List.mem_cons.1 hm with e | hm
        · subst e; obtain ⟨d, h1, _⟩ := hpd; exact absurd h1 (hno d)
        · exact h hwt id' hm k v hpd
      · intro h hwt id' hm; exact h hwt id' (List.mem_cons_of_mem _ hm)
    cases hl : lookup id L.buckets with
    | none => exact skip (by simp [hl])
    | some x =>
      cases x with
      | none => exact skip (by simp [hl])
      | some d =>
        dsimp only
        cases write with
        | false => rw [if_neg (by simp), close L.real d hl]; simp
        | true =>
          rw [if_pos rfl]
          have hok := writeAll_ok B id (o.entries d) L.real
          have hpend : (∀ k v, (k, some v) ∈ o.entries d → B.bad (B.slot id k) = false) ↔
              ∀ k v, Pending L id k (some v) → B.bad (B.slot id k) = false := by
            constructor
            · intro h k v ⟨d', h1, h2⟩
              rw [hl] at h1; cases h1
              exact h k v ((perm_mem ho d _).2 (lookup_mem h2))
            · intro h k v hm
              exact h k v ⟨d, hl, mem_lookup (hw.keys _ _ hl) ((perm_mem ho d _).1 hm)⟩
          rw [hpend] at hok
          generalize hr : writeAll B id (o.entries d) L.real = r at hok
          obtain ⟨ok, st⟩ := r
          cases ok with
          | true =>
            dsimp only
            rw [close st d hl]
            have := hok.1 rfl
            constructor
            · intro h hwt id' hm k v hpd
              rcases List.mem_cons.1 hm with e | hm
              · subst e; exact this k v hpd
              · exact h hwt id' hm k v hpd
            · intro h hwt id' hm; exact h hwt id' (List.mem_cons_of_mem _ hm)
          | false =>
            dsimp only
            constructor
            · intro h; exact absurd h (by simp)
            · intro h
              exact absurd (hok.2 (fun k v hp => h rfl id (by simp) k v hp)) (by simp)

/-! ### C28: one operation -/

omit [DecidableEq S] in
theorem new_wf (real : Store S) : WF (newLayer real) := ⟨by simp [newLayer], by simp [newLayer, lookup]⟩

theorem set_cases (B : Backend S) (L : Layer S) (id k : Bytes) (v : Option Bytes) :
    (∃ d b, v = some b ∧ lookup id (getBucket L id).2.buckets = some (some d) ∧
      set B L id k v = (.ok, { (getBucket L id).2 with
        buckets := insert id (some (insert k (some b) d)) (getBucket L id).2.buckets })) ∨
    (v = none ∧ set B L id k v = (.err, (getBucket L id).2)) ∨
    ((∀ d, lookup id L.buckets ≠ some (some d)) ∧ (L.flushed = true ∨ lookup id L.buckets = some none) ∧
      getBucket L id = (none, L) ∧
      set B L id k v = ((realSet B L.real id k v).1, { L with real := (realSet B L.real id k v).2 })) := by
  unfold set
  rcases getBucket_cases L id with ⟨d, h, e⟩ | ⟨h, hf, e⟩ | ⟨h, hf, e⟩ <;> rw [e]
  · cases d with
    | none =>
      dsimp only
      by_cases hv : v = none
      · exact Or.inr (Or.inl ⟨hv, by simp [hv, h]⟩)
      · exact Or.inr (Or.inr ⟨by simp [h], Or.inr h, rfl, by simp [hv]⟩)
    | some d =>
      cases v with
      | none => exact Or.inr (Or.inl ⟨rfl, rfl⟩)
      | some b => exact Or.inl ⟨d, b, rfl, h, rfl⟩
  · exact Or.inr (Or.inr ⟨by simp [h], Or.inl hf, rfl, by simp [h]⟩)
  · cases v with
    | none => exact Or.inr (Or.inl ⟨rfl, rfl⟩)
    | some b => exact Or.inl ⟨[], b, rfl, by simp [lookup_insert], rfl⟩

theorem delete_cases (B : Backend S) (L : Layer S) (id k : Bytes) :
    (∃ d, lookup id (getBucket L id).2.buckets = some (some d) ∧
      delete B L id k = (.ok, { (getBucket L id).2 with
        buckets := insert id (some (insert k none d)) (getBucket L id).2.buckets })) ∨
    ((∀ d, lookup id L.buckets ≠ some (some d)) ∧ (L.flushed = true ∨ lookup id L.buckets = some none) ∧
      getBucket L id = (none, L) ∧
      delete B L id k = (.ok, { L with real := (realDelete B L.real id k).2 })) := by
  unfold delete
  rcases getBucket_cases L id with ⟨d, h, e⟩ | ⟨h, hf, e⟩ | ⟨h, hf, e⟩ <;> rw [e]
  · cases d with
    | none => exact Or.inr ⟨by simp [h], Or.inr h, rfl, rfl⟩
    | some d => exact Or.inl ⟨d, h, rfl⟩
  · exact Or.inr ⟨by simp [h], Or.inl hf, rfl, rfl⟩
  · exact Or.inl ⟨[], by simp [lookup_insert], rfl⟩

theorem flush_spec (B : Backend S) {o : Orders} (ho : o.Valid) (write : Bool) (I : Bytes → Prop) (L : Layer S) (hw : WF L) :
    ∃ ok L', Flushed B write (o.ids (L.buckets.map (·.1))) I L ok L' ∧
      flush B o write L = if ok then (.ok, { L' with flushed := true }) else (.err, L') := by
  refine ⟨_, _, flushIds_spec B ho write I _ L hw, ?_⟩
  unfold flush
  generalize flushIds B o.entries write (o.ids (L.buckets.map (·.1))) L = r
  obtain ⟨ok, L'⟩ := r
  cases ok <;> rfl

theorem step_wf (B : Backend S) (o : Orders) (ho : o.Valid) (L : Layer S) (op : Op) (hw : WF L) : WF (step B o L op).2 := by
  cases op with
  | get id k => simp only [step]; rw [get_eq]; exact (getBucket_keeps B L id).2.2.2.1 hw
  | has id k => simp only [step]; rw [has_eq]; exact (getBucket_keeps B L id).2.2.2.1 hw
  | set id k v =>
    have hk := (getBucket_keeps B L id).2.2.2.1 hw
    simp only [step]
    rcases set_cases B L id k v with ⟨d, b, _, h, e⟩ | ⟨_, e⟩ | ⟨_, _, _, e⟩ <;> rw [e]
    · exact stage_wf _ _ _ _ _ h hk
    · exact hk
    · exact ⟨hw.ids, hw.keys⟩
  | delete id k =>
    have hk := (getBucket_keeps B L id).2.2.2.1 hw
    simp only [step]
    rcases delete_cases B L id k with ⟨d, h, e⟩ | ⟨_, _, _, e⟩ <;> rw [e]
    · exact stage_wf _ _ _ _ _ h hk
    · exact ⟨hw.ids, hw.keys⟩
  | flush w =>
    simp only [step]
    obtain ⟨ok, L', hf, e⟩ := flush_spec B ho w (fun _ => True) L hw
    rw [e]
    cases ok
    · exact hf.wf
    · exact ⟨hf.wf.ids, hf.wf.keys⟩

theorem run_wf (B : Backend S) (h : List (Op × Orders)) (ho : ∀ p ∈ h, p.2.Valid) (L : Layer S) (hw : WF L) :
    WF (run B L h).2 := by
  induction h generalizing L with
  | nil => exact hw
  | cons p h ih =>
    obtain ⟨op, o⟩ := p
    simp only [run]
    exact ih (fun p hp => ho p (List.mem_cons_of_mem _ hp)) _ (step_wf B o (ho (op, o) (by simp)) L op hw)

/-! ### C28: a single map -/

/-- A single map, as the reference: buckets to keys to values. -/
abbrev Map2 := Bytes → Bytes → Option Bytes

def Map2.upd (m : Map2) (id k : Bytes) (v : Option Bytes) : Map2 :=
  fun id' k' => if id' = id ∧ k' = k then v else m id' k'

/-- One operation on a single map; a nil value is refused. -/
def mapStep (m : Map2) : Op → Out × Map2
  | .get id k => (.val (m id k), m)
  | .has id k => (.bool (m id k).isSome, m)
  | .set id k (some v) => (.ok, m.upd id k (some v))
  | .set _ _ none => (.err, m)
  | .delete id k => (.ok, m.upd id k none)
  | .flush _ => (.ok, m)

def mapRun : Map2 → List Op → List Out × Map2
  | m, [] => ([], m)
  | m, op :: l => let r := mapStep m op; let r' := mapRun r.2 l; (r.1 :: r'.1, r'.2)

def Op.isFlush : Op → Bool
  | .flush _ => true
  | _ => false

/-- No bucket has been flushed. -/
def Fresh (L : Layer S) : Prop := L.flushed = false ∧ ∀ id, lookup id L.buckets ≠ some none

theorem fresh_bucket {L : Layer S} (h : Fresh L) (id : Bytes) : Fresh (getBucket L id).2 := by
  rcases getBucket_cases L id with ⟨d, _, e⟩ | ⟨_, hf, e⟩ | ⟨hl, hf, e⟩ <;> rw [e]
  · exact h
  · exact h
  · refine ⟨hf, fun id' => ?_⟩
    simp only [lookup_insert]
    by_cases e : id' = id
    · simp [e]
    · simp [e]; exact h.2 id'

theorem fresh_insert {L : Layer S} (h : Fresh L) (id : Bytes) (d : Data) :
    Fresh { L with buckets := insert id (some d) L.buckets } := by
  refine ⟨h.1, fun id' => ?_⟩
  simp only [lookup_insert]
  by_cases e : id' = id
  · simp [e]
  · simp [e]; exact h.2 id'

/-- Before a flush: one operation is one on the single map, and the real store is untouched. -/
theorem fresh_step (B : Backend S) (o : Orders) (L : Layer S) (hf : Fresh L) (op : Op) (hop : op.isFlush = false) :
    Fresh (step B o L op).2 ∧ (step B o L op).2.real = L.real ∧
    (step B o L op).1 = (mapStep (view B L) op).1 ∧ view B (step B o L op).2 = (mapStep (view B L) op).2 := by
  have gb := fun id => getBucket_keeps B L id
  have gv : ∀ id, view B (getBucket L id).2 = view B L := fun id => funext fun a => funext fun b => (gb id).2.2.1 a b
  cases op with
  | get id k => simp only [step, mapStep]; rw [get_eq]; exact ⟨fresh_bucket hf id, (gb id).1, rfl, gv id⟩
  | has id k => simp only [step, mapStep]; rw [has_eq]; exact ⟨fresh_bucket hf id, (gb id).1, rfl, gv id⟩
  | set id k v =>
    simp only [step]
    rcases set_cases B L id k v with ⟨d, b, hv, h, e⟩ | ⟨hv, e⟩ | ⟨hn, hx, _, e⟩ <;> rw [e]
    · subst hv
      refine ⟨fresh_insert (fresh_bucket hf id) _ _, (gb id).1, rfl, ?_⟩
      funext id' k'
      rw [stage_view B _ _ _ _ _ h, gv]; rfl
    · subst hv; exact ⟨fresh_bucket hf id, (gb id).1, rfl, gv id⟩
    · rcases hx with hx | hx
      · rw [hf.1] at hx; exact absurd hx (by simp)
      · exact absurd hx (hf.2 id)
  | delete id k =>
    simp only [step]
    rcases delete_cases B L id k with ⟨d, h, e⟩ | ⟨hn, hx, _, e⟩ <;> rw [e]
    · refine ⟨fresh_insert (fresh_bucket hf id) _ _, (gb id).1, rfl, ?_⟩
      funext id' k'
      rw [stage_view B _ _ _ _ _ h, gv]; rfl
    · rcases hx with hx | hx
      · rw [hf.1] at hx; exact absurd hx (by simp)
      · exact absurd hx (hf.2 id)
  | flush w => exact absurd hop (by simp [Op.isFlush])

theorem fresh_new (real : Store S) : Fresh (newLayer real) := ⟨rfl, by simp [newLayer, lookup]⟩

theorem fresh_run (B : Backend S) (L : Layer S) (hf : Fresh L) (h : List (Op × Orders))
    (hop : ∀ p ∈ h, p.1.isFlush = false) :
    Fresh (run B L h).2 ∧ (run B L h).2.real = L.real ∧
    (run B L h).1 = (mapRun (view B L) (h.map (·.1))).1 ∧ view B (run B L h).2 = (mapRun (view B L) (h.map (·.1))).2 := by
  induction h generalizing L with
  | nil => exact ⟨hf, rfl, rfl, rfl⟩
  | cons p h ih =>
    obtain ⟨op, o⟩ := p
    have s := fresh_step B o L hf op (hop (op, o) (by simp))
    have r := ih _ s.1 (fun p hp => hop p (List.mem_cons_of_mem _ hp))
    simp only [run, List.map_cons, mapRun]
    rw [s.2.2.2] at r
    exact ⟨r.1, r.2.1.trans s.2.1, by rw [r.2.2.1, s.2.2.1], r.2.2.2⟩

/-- **C28**, before a flush. Whatever the backend, whatever the bucket ids and keys: every history of operations on a new layer
returns what a single map would that starts with the contents of the store, and the store is not touched. -/
theorem C28_before_flush (B : Backend S) (real : Store S) (h : List (Op × Orders)) (hop : ∀ p ∈ h, p.1.isFlush = false) :
    (run B (newLayer real) h).1 = (mapRun (fun id k => real (B.slot id k)) (h.map (·.1))).1 ∧
    (run B (newLayer real) h).2.real = real := by
  have r := fresh_run B _ (fresh_new real) h hop
  have e : view B (newLayer real) = fun id k => real (B.slot id k) := rfl
  rw [e] at r
  exact ⟨r.2.2.1, r.2.1⟩

/-- The layer uses buckets in `I` only. -/
def Within (I : Bytes → Prop) (L : Layer S) : Prop := ∀ id, (lookup id L.buckets).isSome → I id

/-- **C28**, the write-back. A flush (true) succeeds exactly if the backend refuses no pending value; whatever the outcome
and the map orders, what is seen through the layer does not change, and only the slots of pending keys are written.
After success the store itself holds what is seen. -/
theorem C28_flush_true (B : Backend S) (I : Bytes → Prop) (ha : Apart B I) (o : Orders) (ho : o.Valid) (L : Layer S) (hw : WF L)
    (hI : Within I L) :
    ((flush B o true L).1 = .ok ↔ ∀ id k v, Pending L id k (some v) → B.bad (B.slot id k) = false) ∧
    (∀ id k, I id → view B (flush B o true L).2 id k = view B L id k) ∧
    ((flush B o true L).1 = .ok → ∀ id k, I id → (flush B o true L).2.real (B.slot id k) = view B L id k) ∧
    (∀ s, (∀ id k v, Pending L id k v → B.slot id k ≠ s) → (flush B o true L).2.real s = L.real s) := by
  have hmem : ∀ id, id ∈ o.ids (L.buckets.map (·.1)) ↔ (lookup id L.buckets).isSome := by
    intro id
    rw [(ho.ids _).mem_iff]
    cases hl : lookup id L.buckets with
    | none => simp [lookup_none.1 hl]
    | some x => simp; exact ⟨x, lookup_mem hl⟩
  have hok := flushIds_ok B ho true (o.ids (L.buckets.map (·.1))) ((ho.ids _).nodup_iff.2 hw.ids) L hw
  have hsp := flushIds_spec B ho true I (o.ids (L.buckets.map (·.1))) L hw
  have e : flush B o true L = match flushIds B o.entries true (o.ids (L.buckets.map (·.1))) L with
    | (true, L') => (.ok, { L' with flushed := true })
    | (false, L') => (.err, L') := rfl
  rw [e]
  generalize flushIds B o.entries true (o.ids (L.buckets.map (·.1))) L = r at hok hsp
  obtain ⟨ok, L'⟩ := r
  have hseen := hsp.seen rfl ha hI
  have hiff : ok = true ↔ ∀ id k v, Pending L id k (some v) → B.bad (B.slot id k) = false := by
    rw [hok]
    constructor
    · intro h id k v hp
      exact h rfl id ((hmem id).2 (by obtain ⟨d, h1, _⟩ := hp; simp [h1])) k v hp
    · intro h _ id _ k v hp; exact h id k v hp
  cases ok with
  | false =>
    refine ⟨?_, hseen, fun h => absurd h (by simp), hsp.other⟩
    rw [← hiff]; simp
  | true =>
    refine ⟨?_, hseen, ?_, hsp.other⟩
    · rw [← hiff]; simp
    · intro _ id k hi
      rw [← hseen id k hi]
      show L'.real _ = _
      unfold view
      cases hl : lookup id L'.buckets with
      | none => rfl
      | some x =>
        cases x with
        | none => rfl
        | some d =>
          exact absurd hl (hsp.done rfl id ((hmem id).2 (by rw [← hsp.dom id, hl]; rfl)) d)

/-- **C28**, the discard. Flush (false) always succeeds, never writes the store, and afterwards the layer shows the store. -/
theorem C28_flush_false (B : Backend S) (o : Orders) (ho : o.Valid) (L : Layer S) (hw : WF L) :
    (flush B o false L).1 = .ok ∧ (flush B o false L).2.real = L.real ∧
    ∀ id k, view B (flush B o false L).2 id k = L.real (B.slot id k) := by
  have hok := flushIds_ok B ho false (o.ids (L.buckets.map (·.1))) ((ho.ids _).nodup_iff.2 hw.ids) L hw
  have hsp := flushIds_spec B ho false (fun _ => True) (o.ids (L.buckets.map (·.1))) L hw
  have e : flush B o false L = match flushIds B o.entries false (o.ids (L.buckets.map (·.1))) L with
    | (true, L') => (.ok, { L' with flushed := true })
    | (false, L') => (.err, L') := rfl
  rw [e]
  generalize flushIds B o.entries false (o.ids (L.buckets.map (·.1))) L = r at hok hsp
  obtain ⟨ok, L'⟩ := r
  have : ok = true := hok.2 (fun h => absurd h (by simp))
  subst this
  refine ⟨rfl, hsp.kept rfl, ?_⟩
  intro id k
  rw [← hsp.kept rfl]
  show view B { L' with flushed := true } id k = _
  unfold view
  dsimp only
  cases hl : lookup id L'.buckets with
  | none => rfl
  | some x =>
    cases x with
    | none => rfl
    | some d =>
      refine absurd hl (hsp.done rfl id ?_ d)
      rw [(ho.ids _).mem_iff]
      have := hsp.dom id
      rw [hl] at this
      cases hl' : lookup id L.buckets with
      | none => rw [hl'] at this; exact absurd this (by simp)
      | some x => exact List.mem_map.2 ⟨_, lookup_mem hl', rfl⟩

/-! ### C28: whole histories -/

/-- The reference with flushes: the map that is seen and the map that is stored, which are one after the first flush. -/
structure Ref where
  cur : Map2
  base : Map2
  flushed : Bool

def refStep (r : Ref) : Op → Out × Ref
  | .flush w =>
    (.ok, if r.flushed then r else if w then ⟨r.cur, r.cur, true⟩ else ⟨r.base, r.base, true⟩)
  | op =>
    let x := mapStep r.cur op
    (x.1, ⟨x.2, if r.flushed then x.2 else r.base, r.flushed⟩)

def refRun : Ref → List Op → List Out × Ref
  | r, [] => ([], r)
  | r, op :: l => let x := refStep r op; let y := refRun x.2 l; (x.1 :: y.1, y.2)

/-- Operations on buckets in `I` that set non-nil values the backend accepts. -/
def Op.Good (B : Backend S) (I : Bytes → Prop) : Op → Prop
  | .get id _ => I id
  | .has id _ => I id
  | .set id k v => I id ∧ v ≠ none ∧ B.bad (B.slot id k) = false
  | .delete id _ => I id
  | .flush _ => True

structure Rel (B : Backend S) (I : Bytes → Prop) (L : Layer S) (r : Ref) : Prop where
  wf : WF L
  within : Within I L
  good : ∀ id k v, Pending L id k (some v) → B.bad (B.slot id k) = false
  flag : L.flushed = r.flushed
  fresh : r.flushed = false → Fresh L
  through : r.flushed = true → ∀ id d, lookup id L.buckets ≠ some (some d)
  seen : ∀ id k, I id → view B L id k = r.cur id k
  stored : ∀ id k, I id → L.real (B.slot id k) = r.base id k
  one : r.flushed = true → ∀ id k, I id → r.cur id k = r.base id k

theorem within_bucket {I : Bytes → Prop} {L : Layer S} (h : Within I L) {id : Bytes} (hi : I id) : Within I (getBucket L id).2 := by
  rcases getBucket_cases L id with ⟨d, _, e⟩ | ⟨_, hf, e⟩ | ⟨hl, hf, e⟩ <;> rw [e]
  · exact h
  · exact h
  · intro id' h'
    simp only [lookup_insert] at h'
    by_cases e : id' = id
    · subst e; exact hi
    · rw [if_neg e] at h'; exact h id' h'

theorem within_insert {I : Bytes → Prop} {L : Layer S} (h : Within I L) {id : Bytes} (hi : I id) (d : Option Data) :
    Within I { L with buckets := insert id d L.buckets } := by
  intro id' h'
  simp only [lookup_insert] at h'
  by_cases e : id' = id
  · subst e; exact hi
  · rw [if_neg e] at h'; exact h id' h'

theorem view_through {B : Backend S} {L : Layer S} (h : ∀ id d, lookup id L.buckets ≠ some (some d)) (id k : Bytes) :
    view B L id k = L.real (B.slot id k) := by
  unfold view
  cases hl : lookup id L.buckets with
  | none => rfl
  | some x =>
    cases x with
    | none => rfl
    | some d => exact absurd hl (h id d)

theorem rel_bucket {B : Backend S} {I : Bytes → Prop} {L : Layer S} {r : Ref} (h : Rel B I L r) {id : Bytes} (hi : I id) :
    Rel B I (getBucket L id).2 r := by
  have g := getBucket_keeps B L id
  refine ⟨g.2.2.2.1 h.wf, within_bucket h.within hi, fun a b v hp => h.good a b v ((g.2.2.2.2 a b _).1 hp), g.2.1.trans h.flag,
    fun hf => fresh_bucket (h.fresh hf) id, ?_, fun a b ha => (g.2.2.1 a b).trans (h.seen a b ha),
    fun a b ha => by rw [g.1]; exact h.stored a b ha, h.one⟩
  intro hf a d hl
  rcases getBucket_cases L id with ⟨_, _, e⟩ | ⟨_, _, e⟩ | ⟨_, hff, _⟩
  · rw [e] at hl; exact h.through hf a d hl
  · rw [e] at hl; exact h.through hf a d hl
  · rw [h.flag, hf] at hff; exact absurd hff (by simp)

theorem rel_write {B : Backend S} {I : Bytes → Prop} (ha : Apart B I) {L : Layer S} {r : Ref} (h : Rel B I L r)
    (hf : r.flushed = true) {id : Bytes} (hi : I id) (k : Bytes) (v : Option Bytes) :
    Rel B I { L with real := L.real.put (B.slot id k) v } ⟨r.cur.upd id k v, r.cur.upd id k v, true⟩ := by
  have hp : ∀ id' k', I id' → (L.real.put (B.slot id k) v) (B.slot id' k') = r.cur.upd id k v id' k' := by
    intro id' k' hi'
    rw [put_get]
    unfold Map2.upd
    by_cases e : B.slot id' k' = B.slot id k
    · have := ha _ _ _ _ hi' hi e
      rw [if_pos e, if_pos this]
    · rw [if_neg e, if_neg, ← h.seen id' k' hi', view_through (h.through hf)]
      rintro ⟨e1, e2⟩; subst e1; subst e2; exact e rfl
  have ht : ∀ id d, lookup id L.buckets ≠ some (some d) := h.through hf
  refine ⟨⟨h.wf.ids, h.wf.keys⟩, h.within, fun a b v ⟨d, h1, h2⟩ => absurd h1 (ht a d), h.flag.trans hf,
    fun hh => absurd hh (by simp), fun _ => ht, ?_, hp, fun _ _ _ _ => rfl⟩
  intro id' k' hi'
  exact (view_through (L := { L with real := L.real.put (B.slot id k) v }) ht id' k').trans (hp id' k' hi')

theorem rel_stage {B : Backend S} {I : Bytes → Prop} {L : Layer S} {r : Ref} (h : Rel B I L r) {id : Bytes} (hi : I id)
    (k : Bytes) (v : Option Bytes) (hv : v ≠ none → B.bad (B.slot id k) = false) (d : Data)
    (hl : lookup id L.buckets = some (some d)) :
    r.flushed = false ∧
    Rel B I { L with buckets := insert id (some (insert k v d)) L.buckets } ⟨r.cur.upd id k v, r.base, r.flushed⟩ := by
  have hf : r.flushed = false := by
    cases hf : r.flushed with
    | false => rfl
    | true => exact absurd hl (h.through hf id d)
  refine ⟨hf, stage_wf _ _ _ _ _ hl h.wf, within_insert h.within hi _, ?_, h.flag, fun _ => fresh_insert (h.fresh hf) _ _,
    fun hh => absurd hh (by simp [hf]), ?_, h.stored, fun hh => absurd hh (by simp [hf])⟩
  · intro a b w hp
    rw [stage_pending _ _ _ _ _ hl] at hp
    by_cases e : a = id ∧ b = k
    · rw [if_pos e] at hp
      obtain ⟨e1, e2⟩ := e; subst e1; subst e2
      exact hv (by rw [← hp]; simp)
    · rw [if_neg e] at hp; exact h.good a b w hp
  · intro a b hia
    rw [stage_view B _ _ _ _ _ hl]
    show _ = if a = id ∧ b = k then v else r.cur a b
    by_cases e : a = id ∧ b = k
    · rw [if_pos e, if_pos e]
    · rw [if_neg e, if_neg e]; exact h.seen a b hia

theorem rel_step {B : Backend S} {I : Bytes → Prop} (ha : Apart B I) {o : Orders} (ho : o.Valid) {L : Layer S} {r : Ref}
    (h : Rel B I L r) (op : Op) (hg : op.Good B I) :
    (step B o L op).1 = (refStep r op).1 ∧ Rel B I (step B o L op).2 (refStep r op).2 := by
  have eqr : (⟨r.cur, if r.flushed = true then r.cur else r.base, r.flushed⟩ : Ref).flushed = r.flushed := rfl
  have keep : ∀ id, I id → Rel B I (getBucket L id).2 ⟨r.cur, if r.flushed then r.cur else r.base, r.flushed⟩ := by
    intro id hi
    have q := rel_bucket h hi
    refine ⟨q.wf, q.within, q.good, q.flag, q.fresh, q.through, q.seen, ?_, ?_⟩
    · intro a b hia
      dsimp only
      by_cases hf : r.flushed = true
      · rw [if_pos hf, q.stored a b hia, h.one hf a b hia]
      · rw [if_neg hf]; exact q.stored a b hia
    · intro hf a b hia
      dsimp only at hf ⊢
      rw [if_pos hf]
  cases op with
  | get id k =>
    simp only [step, refStep, mapStep]; rw [get_eq]
    exact ⟨by rw [h.seen id k hg], keep id hg⟩
  | has id k =>
    simp only [step, refStep, mapStep]; rw [has_eq]
    exact ⟨by rw [h.seen id k hg], keep id hg⟩
  | set id k v =>
    obtain ⟨hi, hv, hb⟩ := hg
    simp only [step]
    rcases set_cases B L id k v with ⟨d, b, e, hl, e'⟩ | ⟨e, _⟩ | ⟨hn, hx, _, e'⟩
    · subst e
      rw [e']
      have q := rel_stage (rel_bucket h hi) hi k (some b) (fun _ => hb) d hl
      refine ⟨rfl, ?_⟩
      simp only [refStep, mapStep]
      rw [q.1, if_neg (by simp)]
      have := q.2
      rw [q.1] at this
      exact this
    · exact absurd e hv
    · rw [e']
      have hf : r.flushed = true := by
        cases hf : r.flushed with
        | true => rfl
        | false =>
          have fr := h.fresh hf
          rcases hx with hx | hx
          · rw [fr.1] at hx; exact absurd hx (by simp)
          · exact absurd hx (fr.2 id)
      cases v with
      | none => exact absurd rfl hv
      | some b =>
        have er : realSet B L.real id k (some b) = (.ok, L.real.put (B.slot id k) (some b)) := by simp [realSet, hb]
        rw [er]
        refine ⟨rfl, ?_⟩
        simp only [refStep, mapStep]
        rw [if_pos hf, hf]
        exact rel_write ha h hf hi k (some b)
  | delete id k =>
    simp only [step]
    rcases delete_cases B L id k with ⟨d, hl, e'⟩ | ⟨hn, hx, _, e'⟩
    · rw [e']
      have q := rel_stage (rel_bucket h hg) hg k none (fun hh => absurd rfl hh) d hl
      refine ⟨rfl, ?_⟩
      simp only [refStep, mapStep]
      rw [q.1, if_neg (by simp)]
      have := q.2
      rw [q.1] at this
      exact this
    · rw [e']
      have hf : r.flushed = true := by
        cases hf : r.flushed with
        | true => rfl
        | false =>
          have fr := h.fresh hf
          rcases hx with hx | hx
          · rw [fr.1] at hx; exact absurd hx (by simp)
          · exact absurd hx (fr.2 id)
      refine ⟨rfl, ?_⟩
      simp only [refStep, mapStep]
      rw [if_pos hf, hf]
      exact rel_write ha h hf hg k none
  | flush w =>
    simp only [step, refStep]
    have hmem : ∀ id, id ∈ o.ids (L.buckets.map (·.1)) ↔ (lookup id L.buckets).isSome := by
      intro id
      rw [(ho.ids _).mem_iff]
      cases hl : lookup id L.buckets with
      | none => simp [lookup_none.1 hl]
      | some x => simp; exact ⟨x, lookup_mem hl⟩
    have hok := flushIds_ok B ho w (o.ids (L.buckets.map (·.1))) ((ho.ids _).nodup_iff.2 h.wf.ids) L h.wf
    have hsp := flushIds_spec B ho w I (o.ids (L.buckets.map (·.1))) L h.wf
    have e : flush B o w L = match flushIds B o.entries w (o.ids (L.buckets.map (·.1))) L with
      | (true, L') => (.ok, { L' with flushed := true })
      | (false, L') => (.err, L') := rfl
    rw [e]
    generalize flushIds B o.entries w (o.ids (L.buckets.map (·.1))) L = x at hok hsp
    obtain ⟨ok, L'⟩ := x
    have : ok = true := hok.2 (fun _ id _ k v hp => h.good id k v hp)
    subst this
    refine ⟨rfl, ?_⟩
    dsimp only
    have ht : ∀ id d, lookup id L'.buckets ≠ some (some d) := by
      intro id d hl
      exact hsp.done rfl id ((hmem id).2 (by rw [← hsp.dom id, hl]; rfl)) d hl
    have hwithin : Within I L' := fun id hh => h.within id (by rw [← hsp.dom id]; exact hh)
    have hreal : ∀ id k, I id → L'.real (B.slot id k) =
        if r.flushed then r.cur id k else if w then r.cur id k else r.base id k := by
      intro id k hi
      cases w with
      | false =>
        rw [hsp.kept rfl, h.stored id k hi]
        by_cases hf : r.flushed = true
        · rw [if_pos hf, h.one hf id k hi]
        · rw [if_neg hf, if_neg (by simp)]
      | true =>
        rw [← view_through ht, hsp.seen rfl ha h.within id k hi, h.seen id k hi]
        by_cases hf : r.flushed = true
        · rw [if_pos hf]
        · rw [if_neg hf, if_pos rfl]
    have mk : ∀ r' : Ref, r'.flushed = true → (∀ id k, I id → L'.real (B.slot id k) = r'.cur id k) →
        (∀ id k, I id → r'.cur id k = r'.base id k) → Rel B I { L' with flushed := true } r' := by
      intro r' hf' hr hc
      refine ⟨⟨hsp.wf.ids, hsp.wf.keys⟩, hwithin, fun a b v ⟨d, h1, _⟩ => absurd h1 (ht a d), hf'.symm,
        fun hh => absurd hh (by simp [hf']), fun _ => ht, ?_, ?_, fun _ => hc⟩
      · intro a b hia
        exact (view_through (L := { L' with flushed := true }) ht a b).trans (hr a b hia)
      · intro a b hia; exact (hr a b hia).trans (hc a b hia)
    by_cases hf : r.flushed = true
    · rw [if_pos hf]
      refine mk r hf ?_ (h.one hf)
      intro id k hi; rw [hreal id k hi, if_pos hf]
    · rw [if_neg hf]
      cases w with
      | true =>
        rw [if_pos rfl]
        refine mk _ rfl ?_ (fun _ _ _ => rfl)
        intro id k hi; rw [hreal id k hi, if_neg hf, if_pos rfl]
      | false =>
        rw [if_neg (by simp)]
        refine mk _ rfl ?_ (fun _ _ _ => rfl)
        intro id k hi; rw [hreal id k hi, if_neg hf, if_neg (by simp)]

theorem rel_run {B : Backend S} {I : Bytes → Prop} (ha : Apart B I) (h : List (Op × Orders)) (ho : ∀ p ∈ h, p.2.Valid)
    (hg : ∀ p ∈ h, p.1.Good B I) {L : Layer S} {r : Ref} (hr : Rel B I L r) :
    (run B L h).1 = (refRun r (h.map (·.1))).1 ∧ Rel B I (run B L h).2 (refRun r (h.map (·.1))).2 := by
  induction h generalizing L r with
  | nil => exact ⟨rfl, hr⟩
  | cons p h ih =>
    obtain ⟨op, o⟩ := p
    have s := rel_step ha (ho (op, o) (by simp)) hr op (hg (op, o) (by simp))
    have t := ih (fun p hp => ho p (List.mem_cons_of_mem _ hp)) (fun p hp => hg p (List.mem_cons_of_mem _ hp)) s.2
    simp only [run, List.map_cons, refRun]
    exact ⟨by rw [s.1, t.1], t.2⟩

/-- **C28**, whole histories. On a backend that keeps the used buckets apart, every history of operations that set acceptable
values returns what a single map would, flushes included, in whatever order Go walks its maps; and the store always holds the
reference's stored map: the initial one until the first flush, then the seen map (true) or the initial one (false), then
everything written. -/
theorem C28_history (B : Backend S) (I : Bytes → Prop) (ha : Apart B I) (real : Store S) (h : List (Op × Orders))
    (ho : ∀ p ∈ h, p.2.Valid) (hg : ∀ p ∈ h, p.1.Good B I) :
    let m : Map2 := fun id k => real (B.slot id k)
    (run B (newLayer real) h).1 = (refRun ⟨m, m, false⟩ (h.map (·.1))).1 ∧
    ∀ id k, I id → (run B (newLayer real) h).2.real (B.slot id k) = (refRun ⟨m, m, false⟩ (h.map (·.1))).2.base id k := by
  intro m
  have h0 : Rel B I (newLayer real) ⟨m, m, false⟩ :=
    ⟨new_wf real, fun id hh => absurd hh (by simp [newLayer, lookup]), fun a b v ⟨d, h1, _⟩ => absurd h1 (by simp [newLayer, lookup]),
      rfl, fun _ => fresh_new real, fun hh => absurd hh (by simp), fun _ _ _ => rfl, fun _ _ _ => rfl, fun hh => absurd hh (by simp)⟩
  have r := rel_run ha h ho hg h0
  exact ⟨r.1, r.2.stored⟩

end

/-! ### The two backends -/

/-- Neither id is a prefix of the other. -/
def PrefixFree (I : Bytes → Prop) : Prop := ∀ a b, I a → I b → a <+: b → a = b

theorem mapDb_apart : Apart mapDb (fun _ => True) := by
  intro id id' k k' _ _ e
  simpa [mapDb] using e

theorem append_eq_cases {a b c d : Bytes} (h : a ++ b = c ++ d) :
    (∃ s, c = a ++ s ∧ b = s ++ d) ∨ (∃ s, a = c ++ s ∧ d = s ++ b) := List.append_eq_append_iff.1 h

theorem levelDb_apart_iff (I : Bytes → Prop) : Apart levelDb I ↔ PrefixFree I := by
  constructor
  · intro h a b ha hb ⟨t, e⟩
    subst e
    exact (h a (a ++ t) t [] ha hb (by simp [levelDb, internalKey])).1
  · intro h id id' k k' hi hi' e
    have e' : id ++ k = id' ++ k' := e
    have : id = id' := by
      rcases append_eq_cases e' with ⟨s, e1, _⟩ | ⟨s, e1, _⟩
      · exact h id id' hi hi' ⟨s, e1.symm⟩
      · exact (h id' id hi' hi ⟨s, e1.symm⟩).symm
    subst this
    exact ⟨rfl, List.append_cancel_left e'⟩

/-! ### C29 -/

/-- **C29** on the map database: a write or deletion changes exactly the one bucket and key. -/
theorem C29_map (st : Store (Bytes × Bytes)) (id k id' k' : Bytes) (v : Option Bytes) (h : ¬ (id' = id ∧ k' = k)) :
    realGet mapDb (realSet mapDb st id k v).2 id' k' = realGet mapDb st id' k' ∧
    realHas mapDb (realSet mapDb st id k v).2 id' k' = realHas mapDb st id' k' ∧
    realGet mapDb (realDelete mapDb st id k).2 id' k' = realGet mapDb st id' k' ∧
    realHas mapDb (realDelete mapDb st id k).2 id' k' = realHas mapDb st id' k' := by
  have hs : mapDb.slot id' k' ≠ mapDb.slot id k := by
    intro e; exact h (mapDb_apart _ _ _ _ trivial trivial e)
  have h1 : (realSet mapDb st id k v).2 (mapDb.slot id' k') = st (mapDb.slot id' k') := by
    unfold realSet; split
    · rfl
    · simp [put_get, hs]
  have h2 : (realDelete mapDb st id k).2 (mapDb.slot id' k') = st (mapDb.slot id' k') := by
    simp [realDelete, put_get, hs]
  simp [realGet, realHas, h1, h2]

open Classical in
/-- **C29** on the level database, exactly: a write in bucket `id` under `k` is read by bucket `id'` under `k'` if and only if
one id extends the other by what the keys differ in. -/
theorem C29_level_exact (st : Store Bytes) (id k id' k' v : Bytes) :
    realGet levelDb (realSet levelDb st id k (some v)).2 id' k' =
      if (∃ s, id' = id ++ s ∧ k = s ++ k') ∨ (∃ s, id = id' ++ s ∧ k' = s ++ k) then .val (some v)
      else realGet levelDb st id' k' := by
  have e : realSet levelDb st id k (some v) = (.ok, st.put (internalKey id k) (some v)) := rfl
  rw [e]
  show Out.val ((st.put (internalKey id k) (some v)) (internalKey id' k')) = _
  rw [put_get]
  by_cases h : internalKey id' k' = internalKey id k
  · rw [if_pos h, if_pos]
    rcases append_eq_cases (show id' ++ k' = id ++ k from h) with ⟨s, h1, h2⟩ | ⟨s, h1, h2⟩
    · exact Or.inr ⟨s, h1, h2⟩
    · exact Or.inl ⟨s, h1, h2⟩
  · rw [if_neg h, if_neg]
    · rfl
    · rintro (⟨s, h1, h2⟩ | ⟨s, h1, h2⟩)
      · subst h1; subst h2; exact h (by simp [internalKey])
      · subst h1; subst h2; exact h (by simp [internalKey])

/-- **C29**, the provable part on the level database: buckets of a prefix-free set of ids do not affect each other. -/
theorem C29_level_partial (I : Bytes → Prop) (hI : PrefixFree I) (st : Store Bytes) (id k id' k' : Bytes) (v : Option Bytes)
    (hi : I id) (hi' : I id') (h : ¬ (id' = id ∧ k' = k)) :
    realGet levelDb (realSet levelDb st id k v).2 id' k' = realGet levelDb st id' k' ∧
    realHas levelDb (realSet levelDb st id k v).2 id' k' = realHas levelDb st id' k' ∧
    realGet levelDb (realDelete levelDb st id k).2 id' k' = realGet levelDb st id' k' ∧
    realHas levelDb (realDelete levelDb st id k).2 id' k' = realHas levelDb st id' k' := by
  have hs : levelDb.slot id' k' ≠ levelDb.slot id k := fun e => h ((levelDb_apart_iff I).2 hI _ _ _ _ hi' hi e)
  have h1 : (realSet levelDb st id k v).2 (levelDb.slot id' k') = st (levelDb.slot id' k') := by
    unfold realSet; split
    · rfl
    · simp [put_get, hs]
  have h2 : (realDelete levelDb st id k).2 (levelDb.slot id' k') = st (levelDb.slot id' k') := by
    simp [realDelete, put_get, hs]
  simp [realGet, realHas, h1, h2]

/-- bucket.go:14-34: the bucket ids of the package, `MerkleTrie` first. -/
def ids : List Bytes := [[], [0x53], [0x54], [0x48], [0x42], [0x52], [0x43]]

/-- The ids other than `MerkleTrie` are prefix-free. -/
theorem C29_ids_partial : PrefixFree (fun id => id ∈ ids ∧ id ≠ []) := by
  intro a b ⟨ha, na⟩ ⟨hb, nb⟩ ⟨t, e⟩
  have l1 : ∀ x, x ∈ ids → x ≠ [] → x.length = 1 := by
    intro x hx hn
    simp only [ids, List.mem_cons, List.not_mem_nil, or_false] at hx
    rcases hx with h | h | h | h | h | h | h <;> subst h <;> first | rfl | exact absurd rfl hn
  have h1 := l1 a ha na
  have h2 := l1 b hb nb
  rw [← e, List.length_append, h1] at h2
  have : t = [] := List.length_eq_zero_iff.1 (by omega)
  subst this; simpa using e

/-- **C29** is false on the level database: every other bucket of the package shares its entries with `MerkleTrie`. What is
written in it under any key is read from, and is overwritten through, `MerkleTrie` under the id followed by the key. -/
theorem C29_merkle_trie_shared (st : Store Bytes) (id k v w : Bytes) :
    realGet levelDb (realSet levelDb st id k (some v)).2 [] (id ++ k) = .val (some v) ∧
    realGet levelDb (realSet levelDb st [] (id ++ k) (some w)).2 id k = .val (some w) ∧
    realGet levelDb (realDelete levelDb st [] (id ++ k)).2 id k = .val none := by
  refine ⟨?_, ?_, ?_⟩
  · rw [C29_level_exact, if_pos (Or.inr ⟨id, by simp, rfl⟩)]
  · rw [C29_level_exact, if_pos (Or.inl ⟨id, by simp, rfl⟩)]
  · simp [realGet, realDelete, levelDb, internalKey, put_get]

/-- Keys of `MerkleTrie` and of another bucket that have the same length (both are hashes) never meet. -/
theorem C29_hash_keys_partial (st : Store Bytes) (id k k' v : Bytes) (hid : id ≠ []) (hl : k.length = k'.length) :
    realGet levelDb (realSet levelDb st [] k (some v)).2 id k' = realGet levelDb st id k' ∧
    realGet levelDb (realSet levelDb st id k' (some v)).2 [] k = realGet levelDb st [] k := by
  have hpos : id.length ≠ 0 := fun h => hid (List.length_eq_zero_iff.1 h)
  constructor
  · rw [C29_level_exact, if_neg]
    rintro (⟨s, h1, h2⟩ | ⟨s, h1, h2⟩)
    · subst h1; rw [h2] at hl; simp at hl hpos; exact hpos hl
    · have := congrArg List.length h1; simp only [List.length_append, List.length_nil] at this; omega
  · rw [C29_level_exact, if_neg]
    rintro (⟨s, h1, h2⟩ | ⟨s, h1, h2⟩)
    · have := congrArg List.length h1; simp only [List.length_append, List.length_nil] at this; omega
    · subst h1; rw [h2] at hl; simp at hl hpos; exact hpos hl

/-! ### C28 on the backends -/

/-- **C28** over the map database: every history that sets no empty key and no nil value. -/
theorem C28_map_partial (real : Store (Bytes × Bytes)) (h : List (Op × Orders)) (ho : ∀ p ∈ h, p.2.Valid)
    (hg : ∀ p ∈ h, ∀ id k v, p.1 = .set id k v → k ≠ [] ∧ v ≠ none) :
    let m : Map2 := fun id k => real (id, k)
    (run mapDb (newLayer real) h).1 = (refRun ⟨m, m, false⟩ (h.map (·.1))).1 ∧
    ∀ id k, (run mapDb (newLayer real) h).2.real (id, k) = (refRun ⟨m, m, false⟩ (h.map (·.1))).2.base id k := by
  have r := C28_history mapDb (fun _ => True) mapDb_apart real h ho (by
    intro p hp
    cases e : p.1 with
    | set id k v =>
      have := hg p hp id k v e
      exact ⟨trivial, this.2, by simp [mapDb, this.1]⟩
    | _ => trivial)
  exact ⟨r.1, fun id k => r.2 id k trivial⟩

/-- **C28** over the level database: every history on buckets of a prefix-free set of ids that sets no nil value. -/
theorem C28_level_partial (I : Bytes → Prop) (hI : PrefixFree I) (real : Store Bytes) (h : List (Op × Orders))
    (ho : ∀ p ∈ h, p.2.Valid) (hg : ∀ p ∈ h, p.1.Good levelDb I) :
    let m : Map2 := fun id k => real (internalKey id k)
    (run levelDb (newLayer real) h).1 = (refRun ⟨m, m, false⟩ (h.map (·.1))).1 ∧
    ∀ id k, I id → (run levelDb (newLayer real) h).2.real (internalKey id k) =
      (refRun ⟨m, m, false⟩ (h.map (·.1))).2.base id k :=
  C28_history levelDb I ((levelDb_apart_iff I).2 hI) real h ho hg

/-! ### Where C28 fails -/

def keep : Orders := ⟨id, id⟩
def back : Orders := ⟨List.reverse, List.reverse⟩

theorem keep_valid : keep.Valid := ⟨fun l => List.Perm.refl l, fun l => List.Perm.refl l⟩
theorem back_valid : back.Valid := ⟨fun l => List.reverse_perm l, fun l => List.reverse_perm l⟩

/-- **C28** is false on the map database: the layer accepts a value under the empty key, which the store refuses. Flush then
fails, how much of the rest is written depends on the map order, and the layer goes on showing the value. -/
theorem C28_map_empty_key :
    let ops := [.set [1] [] (some [7]), .set [1] [2] (some [8]), .flush true, .get [1] [], .get [1] [2]]
    (run mapDb (newLayer fun _ => none) (ops.map fun p => (p, keep))).1 = [.ok, .ok, .err, .val (some [7]), .val (some [8])] ∧
    (run mapDb (newLayer fun _ => none) (ops.map fun p => (p, keep))).2.real ([1], [2]) = none ∧
    (run mapDb (newLayer fun _ => none) (ops.map fun p => (p, back))).2.real ([1], [2]) = some [8] ∧
    (realSet mapDb (fun _ => none) [1] [] (some [7])).1 = .err := by decide +kernel

/-- **C28** is false on the level database: entries of `MerkleTrie` and of another bucket that share a slot are kept apart by
the layer, and Flush leaves the one that Go's map order writes last. -/
theorem C28_level_shared_slot :
    let ops := [.set [] [0x53, 1] (some [7]), .set [0x53] [1] (some [8]), .get [] [0x53, 1], .flush true, .get [] [0x53, 1]]
    (run levelDb (newLayer fun _ => none) (ops.map fun p => (p, keep))).1 = [.ok, .ok, .val (some [7]), .ok, .val (some [8])] ∧
    (run levelDb (newLayer fun _ => none) (ops.map fun p => (p, back))).1 = [.ok, .ok, .val (some [7]), .ok, .val (some [7])] := by
  decide +kernel

/-- A nil value is refused by a bucket of the layer at all times, but stored as an empty one by a bucket first used after the
flush. -/
theorem C28_nil_value :
    (run mapDb (newLayer fun _ => none) ([.set [1] [2] none, .flush true, .set [1] [2] none, .set [3] [2] none,
        .get [1] [2], .get [3] [2]].map fun p => (p, keep))).1 =
      [.err, .ok, .err, .ok, .val none, .val (some [])] := by decide +kernel

/-! ### Examples -/

/-- A history that meets the hypotheses of `C28_map_partial`, with both kinds of flush order. -/
example :
    let ops : List (Op × Orders) := [(.set [1] [2] (some [7]), keep), (.delete [1] [3], keep), (.get [1] [2], keep),
      (.flush true, back), (.set [1] [2] (some [9]), keep), (.flush false, keep), (.get [1] [2], keep), (.has [1] [3], keep)]
    (run mapDb (newLayer fun s => if s = ([1], [3]) then some [5] else none) ops).1 =
      [.ok, .ok, .val (some [7]), .ok, .ok, .ok, .val (some [9]), .bool false] ∧
    (∀ p ∈ ops, ∀ id k v, p.1 = .set id k v → k ≠ [] ∧ v ≠ none) := by
  refine ⟨by decide +kernel, ?_⟩
  intro p hp id k v e
  simp only [List.mem_cons, List.not_mem_nil, or_false] at hp
  rcases hp with h | h | h | h | h | h | h | h <;> subst h <;> simp at e <;> obtain ⟨_, rfl, rfl⟩ := e <;> simp

/-- Discarding. -/
example : (run levelDb (newLayer fun s => if s = [0x53, 3] then some [5] else none)
    ([.delete [0x53] [3], .get [0x53] [3], .flush false, .get [0x53] [3]].map fun p => (p, keep))).1 =
      [.ok, .val none, .ok, .val (some [5])] := by decide +kernel

end Verif.LayerDb
