import Verif.PyDb
/-!
Properties C112–C114 of the storage classes of the Python contracts.
-/
namespace Verif.PyDb
open Verif

variable {O R : Type}

theorem upd_same {A B : Type} [DecidableEq A] (f : A → B) (a : A) (b : B) : upd f a b a = b := by simp [upd]
theorem upd_other {A B : Type} [DecidableEq A] (f : A → B) {a x : A} (b : B) (h : x ≠ a) : upd f a b x = f x := by simp [upd, h]

/-! ### Keys as one string -/

theorem split_ne (s : Str) : split s ≠ [] := by
  cases s with
  | nil => simp [split]
  | cons c s =>
    unfold split
    split
    · simp
    · cases split s <;> simp [consHead]

theorem split_word (w : Str) (h : ',' ∉ w) : split w = [w] := by
  induction w with
  | nil => rfl
  | cons c w ih =>
    have hc : c ≠ ',' := fun e => h (by simp [e])
    rw [split, if_neg hc, ih (fun e => h (List.mem_cons_of_mem _ e))]; rfl

theorem split_app (w s : Str) (h : ',' ∉ w) : split (w ++ ',' :: s) = w :: split s := by
  induction w with
  | nil => simp [split]
  | cons c w ih =>
    have hc : c ≠ ',' := fun e => h (by simp [e])
    rw [List.cons_append, split, if_neg hc, ih (fun e => h (List.mem_cons_of_mem _ e))]; rfl

theorem split_join (l : List Str) (hn : l ≠ []) (h : ∀ k ∈ l, ',' ∉ k) : split (join l) = l := by
  induction l with
  | nil => exact absurd rfl hn
  | cons x l ih =>
    cases l with
    | nil => exact split_word x (h x List.mem_cons_self)
    | cons y l =>
      rw [join, split_app _ _ (h x List.mem_cons_self), ih (by simp) (fun k hk => h k (List.mem_cons_of_mem _ hk))]

theorem indexOf_none (k : Str) (l : List Str) (i : Nat) (h : k ∉ l) : indexOf k l i = -1 := by
  induction l generalizing i with
  | nil => rfl
  | cons x l ih =>
    rw [indexOf, if_neg (fun e => h (by simp [e])), ih _ (fun e => h (List.mem_cons_of_mem _ e))]

theorem indexOf_some (k : Str) (l : List Str) (i : Nat) (h : k ∈ l) :
    ∃ j : Nat, indexOf k l i = (i + j : Nat) ∧ j < l.length ∧ l.eraseIdx j = l.erase k ∧ l[j]? = some k := by
  induction l generalizing i with
  | nil => cases h
  | cons x l ih =>
    by_cases e : x = k
    · subst e; exact ⟨0, by simp [indexOf], by simp, by simp, by simp⟩
    · obtain ⟨j, h1, h2, h3, h4⟩ := ih (i + 1) (by
        rcases List.mem_cons.1 h with h | h
        · exact absurd h.symm e
        · exact h)
      refine ⟨j + 1, ?_, by simp; omega, ?_, by simpa using h4⟩
      · rw [indexOf, if_neg e, h1]; congr 1; omega
      · rw [List.eraseIdx_cons_succ, h3, List.erase_cons_tail (by simpa using e)]

theorem indexOf_nonneg (k : Str) (l : List Str) : 0 ≤ indexOf k l 0 ↔ k ∈ l := by
  by_cases h : k ∈ l
  · obtain ⟨j, h1, _⟩ := indexOf_some k l 0 h
    rw [h1]; simp [h]
  · rw [indexOf_none k l 0 h]; simp [h]

theorem popAt_index (k : Str) (l : List Str) (h : k ∈ l) : popAt l (indexOf k l 0) = l.erase k := by
  obtain ⟨j, h1, _, h3, _⟩ := indexOf_some k l 0 h
  rw [h1, popAt, if_neg (by omega), ← h3]; simp

/-! ### Specification: a map with its keys in order

`new` are the keys that this instance has added, `gone` those it has removed. -/

structure Sp (O : Type) where
  ks : List Str
  m : Str → Option O
  new : Str → Bool
  gone : Str → Bool

def Sp.init : Sp O := ⟨[], fun _ => none, fun _ => false, fun _ => false⟩

def Sp.step (p : Sp O) : Op O → Sp O
  | .set k v => ⟨if (p.m k).isSome then p.ks else p.ks ++ [k], upd p.m k (some v),
      if (p.m k).isSome || p.gone k then p.new else upd p.new k true, upd p.gone k false⟩
  | .remove k => if (p.m k).isSome then ⟨p.ks.erase k, upd p.m k none, p.new, upd p.gone k true⟩ else p
  | .get _ => p
  | .fresh => ⟨p.ks, p.m, fun _ => false, fun _ => false⟩

/-- A list of keys that a new instance reads back: none, or more than one character in all. -/
def Readable (ks : List Str) : Prop := ks = [] ∨ (join ks).length > 1

/-- Calls the dictionary is up to. -/
def OpOk (raw : O → R) (obj : R → Option O) (p : Sp O) : Op O → Prop
  | .set k v => ',' ∉ k ∧ obj (raw v) = some v
  | .remove k => p.new k = false
  | .get _ => True
  | .fresh => Readable p.ks

def RunOk (raw : O → R) (obj : R → Option O) : Sp O → List (Op O) → Prop
  | _, [] => True
  | p, o :: t => OpOk raw obj p o ∧ RunOk raw obj (p.step o) t

def Sp.run (p : Sp O) : List (Op O) → Sp O
  | [] => p
  | o :: t => (p.step o).run t

/-- What ties the stores to the map; the cached raw value of `x` may be outdated. -/
structure RepX (raw : O → R) (obj : R → Option O) (x : Option Str) (s : St O R) (p : Sp O) : Prop where
  ld : s.loaded = true → s.keys = p.ks
  un : s.loaded = false → s.keys = [] ∧ (∀ k, s.cache k = none) ∧ Readable p.ks
  dbk : s.dbKeys = join p.ks
  nd : p.ks.Nodup
  mem : ∀ k, k ∈ p.ks ↔ (p.m k).isSome = true
  com : ∀ k ∈ p.ks, ',' ∉ k
  val : ∀ k, s.db k = (p.m k).map raw
  good : ∀ k v, p.m k = some v → obj (raw v) = some v
  addv : ∀ k, s.add k = if p.new k then p.m k else none
  newv : ∀ k, p.new k = true → (p.m k).isSome = true
  updv : ∀ k v, s.update k = some v → p.m k = some v ∧ p.new k = false
  remv : ∀ k, s.removed k = p.gone k
  gonev : ∀ k, p.gone k = true → p.m k = none
  cav : ∀ k r, s.cache k = some r → (p.m k).isSome = true ∧ p.new k = false ∧ (x ≠ some k → s.update k = none → s.db k = some r)

abbrev Rep (raw : O → R) (obj : R → Option O) (s : St O R) (p : Sp O) : Prop := RepX raw obj none s p

variable {raw : O → R} {obj : R → Option O} {x : Option Str} {s : St O R} {p : Sp O}

theorem Rep.init : Rep raw obj (init : St O R) (Sp.init : Sp O) := by
  refine ⟨?_, ?_, rfl, List.nodup_nil, ?_, ?_, ?_, ?_, ?_, ?_, ?_, ?_, ?_, ?_⟩ <;> simp [PyDb.init, Sp.init, Readable]

theorem RepX.load (h : RepX raw obj x s p) : RepX raw obj x (load s) p ∧ (load s).loaded = true ∧ (load s).keys = p.ks := by
  unfold PyDb.load
  by_cases hl : s.loaded = true
  · rw [if_pos hl]; exact ⟨h, hl, h.ld hl⟩
  · rw [if_neg hl]
    have hf : s.loaded = false := by simpa using hl
    obtain ⟨h1, h2, h3⟩ := h.un hf
    have hk : (if s.dbKeys.length > 1 then split s.dbKeys else s.keys) = p.ks := by
      rw [h.dbk]
      rcases h3 with e | e
      · rw [e, h1]; rfl
      · rw [if_pos e]
        refine split_join _ (fun e0 => ?_) h.com
        rw [e0] at e; simp [join] at e
    refine ⟨⟨fun _ => hk, fun c => ?_, h.dbk, h.nd, h.mem, h.com, h.val, h.good, h.addv, h.newv, h.updv, h.remv, h.gonev, h.cav⟩, rfl, hk⟩
    cases c

theorem RepX.contains (h : RepX raw obj x s p) (k : Str) : contains s k = (p.m k).isSome := by
  unfold PyDb.contains
  rw [h.load.2.2]
  by_cases c : (p.m k).isSome = true
  · rw [c]; exact decide_eq_true ((indexOf_nonneg _ _).2 ((h.mem k).2 c))
  · have c' : (p.m k).isSome = false := by simpa using c
    rw [c']
    exact decide_eq_false fun e => c ((h.mem k).1 ((indexOf_nonneg _ _).1 e))

/-- The raw value found and the instance after the look-up. -/
theorem RepX.cached (h : RepX raw obj x s p) (k : Str) (hn : p.new k = false) :
    RepX raw obj x (cached s k).1 p ∧ (cached s k).1.loaded = true ∧ (cached s k).2.isSome = (p.m k).isSome ∧
    (x ≠ some k → s.update k = none → (cached s k).2 = (p.m k).map raw) ∧
    (cached s k).1.update = s.update := by
  unfold PyDb.cached
  obtain ⟨hl, hl1, hl2⟩ := h.load
  have hlu : (PyDb.load s).update = s.update := by unfold PyDb.load; split <;> rfl
  cases hc : s.cache k with
  | some r =>
    have := h.cav k r hc
    refine ⟨h, ?_, by rw [this.1]; rfl, fun a b => ?_, rfl⟩
    · cases hld : s.loaded with
      | true => rfl
      | false => have := (h.un hld).2.1 k; rw [hc] at this; cases this
    · rw [← h.val]; exact (this.2.2 a b).symm
  | none =>
    dsimp only
    rw [h.contains k]
    cases hm : p.m k with
    | none => exact ⟨hl, hl1, rfl, fun _ _ => rfl, hlu⟩
    | some v =>
      have hdb : (PyDb.load s).db k = some (raw v) := by rw [hl.val k, hm]; rfl
      have ht : (some v).isSome = true := rfl
      rw [if_pos ht, hdb]
      dsimp only
      refine ⟨⟨hl.ld, fun c => ?_, hl.dbk, hl.nd, hl.mem, hl.com, hl.val, hl.good, hl.addv, hl.newv, hl.updv, hl.remv, hl.gonev,
        fun j r hj => ?_⟩, hl1, rfl, fun _ _ => rfl, hlu⟩
      · rw [hl1] at c; cases c
      · dsimp only at hj ⊢
        by_cases e : j = k
        · subst e
          rw [upd_same] at hj; cases hj
          exact ⟨by rw [hm]; rfl, hn, fun _ _ => hdb⟩
        · rw [upd_other _ _ e] at hj
          exact hl.cav j r hj

theorem RepX.get (h : Rep raw obj s p) (k : Str) : (get obj s k).2 = p.m k ∧ Rep raw obj (get obj s k).1 p := by
  unfold PyDb.get
  cases ha : s.add k with
  | some v =>
    have := h.addv k
    rw [ha] at this
    by_cases hn : p.new k = true
    · rw [if_pos hn] at this; exact ⟨this, h⟩
    · rw [if_neg hn] at this; cases this
  | none =>
    dsimp only
    cases hu : s.update k with
    | some v => exact ⟨(h.updv k v hu).1.symm, h⟩
    | none =>
      dsimp only
      by_cases hr : s.removed k = true
      · rw [if_pos hr]; exact ⟨(h.gonev k (by rw [← h.remv]; exact hr)).symm, h⟩
      · rw [if_neg hr]
        have hn : p.new k = false := by
          cases hn : p.new k with
          | false => rfl
          | true =>
            have h1 := h.addv k
            have h2 := h.newv k hn
            rw [ha, if_pos hn] at h1
            rw [← h1] at h2; cases h2
        obtain ⟨h1, _, _, h4, _⟩ := h.cached k hn
        refine ⟨?_, h1⟩
        dsimp only
        rw [h4 (by simp) hu]
        cases hm : p.m k with
        | none => rfl
        | some v => exact h.good k v hm

theorem addKey_ok (h : RepX raw obj x s p) (k : Str) (hk : ',' ∉ k) :
    addKey s k = some { PyDb.load s with keys := p.ks ++ [k], dbKeys := join (p.ks ++ [k]) } := by
  unfold addKey flushKeys
  rw [if_neg hk, h.load.2.2]

/-- Changing an entry that is there: same keys. -/
theorem RepX.put (h : Rep raw obj s p) (k : Str) (v : O) (hv : obj (raw v) = some v) (hm : (p.m k).isSome = true) (s' : St O R)
    (e1 : s'.dbKeys = s.dbKeys) (e2 : s'.db = upd s.db k (some (raw v))) (e3 : s'.keys = s.keys) (e4 : s'.loaded = s.loaded)
    (e5 : s'.cache = s.cache) (e6 : s'.removed = s.removed)
    (e7 : if p.new k then s'.add = upd s.add k (some v) ∧ s'.update = s.update
          else s'.add = s.add ∧ s'.update = upd s.update k (some v)) :
    Rep raw obj s' (p.step (.set k v)) := by
  have hg : p.gone k = false := by
    cases hh : p.gone k with
    | false => rfl
    | true => have := h.gonev k hh; rw [this] at hm; cases hm
  have eg : upd p.gone k false = p.gone := by
    funext j; by_cases e : j = k
    · subst e; rw [upd_same, hg]
    · rw [upd_other _ _ e]
  simp only [Sp.step, hm, if_true, eg, Bool.true_or]
  have ea : ∀ j, s'.add j = if p.new j then (upd p.m k (some v)) j else none := by
    intro j
    by_cases hn : p.new k = true
    · rw [if_pos hn] at e7
      rw [e7.1]
      by_cases e : j = k
      · subst e; rw [upd_same, if_pos hn, upd_same]
      · rw [upd_other _ _ e, upd_other _ _ e]; exact h.addv j
    · rw [if_neg hn] at e7
      rw [e7.1, h.addv j]
      by_cases e : j = k
      · subst e; rw [if_neg hn, if_neg hn]
      · rw [upd_other _ _ e]
  refine ⟨?_, ?_, by rw [e1]; exact h.dbk, h.nd, fun j => ?_, h.com, fun j => ?_, fun j w hj => ?_, ea, fun j hj => ?_, fun j w hj => ?_,
    fun j => by rw [e6]; exact h.remv j, fun j hj => ?_, fun j r hj => ?_⟩
  · rw [e3, e4]; exact h.ld
  · rw [e3, e4, e5]; exact h.un
  · by_cases e : j = k
    · subst e; simp only [upd_same, h.mem j, hm]; simp
    · simp only [upd_other _ _ e]; exact h.mem j
  · rw [e2]
    by_cases e : j = k
    · subst e; simp only [upd_same]; rfl
    · simp only [upd_other _ _ e]; exact h.val j
  · by_cases e : j = k
    · subst e; simp only [upd_same] at hj; cases hj; exact hv
    · simp only [upd_other _ _ e] at hj; exact h.good j w hj
  · by_cases e : j = k
    · subst e; simp only [upd_same]; rfl
    · simp only [upd_other _ _ e]; exact h.newv j hj
  · by_cases e : j = k
    · subst e
      by_cases hn : p.new j = true
      · rw [if_pos hn] at e7
        rw [e7.2] at hj
        have := (h.updv j w hj).2
        rw [hn] at this; cases this
      · rw [if_neg hn] at e7
        rw [e7.2, upd_same] at hj
        cases hj
        simp only [upd_same]
        exact ⟨trivial, by simpa using hn⟩
    · have : s.update j = some w := by
        by_cases hn : p.new k = true
        · rw [if_pos hn] at e7; rw [e7.2] at hj; exact hj
        · rw [if_neg hn] at e7; rw [e7.2, upd_other _ _ e] at hj; exact hj
      simp only [upd_other _ _ e]
      exact h.updv j w this
  · by_cases e : j = k
    · subst e; dsimp only at hj; rw [hg] at hj; cases hj
    · simp only [upd_other _ _ e]; exact h.gonev j hj
  · rw [e5] at hj
    have hc := h.cav j r hj
    by_cases e : j = k
    · subst e
      refine ⟨by simp only [upd_same]; rfl, hc.2.1, fun _ hu => ?_⟩
      by_cases hn : p.new j = true
      · rw [hc.2.1] at hn; cases hn
      · rw [if_neg hn] at e7
        rw [e7.2, upd_same] at hu; cases hu
    · simp only [upd_other _ _ e]
      refine ⟨hc.1, hc.2.1, fun a hu => ?_⟩
      rw [e2, upd_other _ _ e]
      refine hc.2.2 a ?_
      by_cases hn : p.new k = true
      · rw [if_pos hn] at e7; rw [← e7.2]; exact hu
      · rw [if_neg hn] at e7; rw [e7.2, upd_other _ _ e] at hu; exact hu

/-- Adding an entry. -/
theorem RepX.insert (h : Rep raw obj s p) (_ : s.loaded = true) (k : Str) (v : O) (hk : ',' ∉ k) (hv : obj (raw v) = some v)
    (hm : p.m k = none) (s' : St O R)
    (e1 : s'.dbKeys = join (p.ks ++ [k])) (e2 : s'.db = upd s.db k (some (raw v))) (e3 : s'.keys = p.ks ++ [k]) (e4 : s'.loaded = true)
    (e5 : s'.cache = s.cache) (e6 : s'.removed = upd s.removed k false)
    (e7 : if p.gone k then s'.add = s.add ∧ s'.update = upd s.update k (some v)
          else s'.add = upd s.add k (some v) ∧ s'.update = s.update) :
    Rep raw obj s' (p.step (.set k v)) := by
  have hnk : p.new k = false := by
    cases hh : p.new k with
    | false => rfl
    | true => have := h.newv k hh; rw [hm] at this; cases this
  have hks : k ∉ p.ks := fun e => by have := (h.mem k).1 e; rw [hm] at this; cases this
  have huk : s.update k = none := by
    cases hu : s.update k with
    | none => rfl
    | some w => have := (h.updv k w hu).1; rw [hm] at this; cases this
  have hck : s.cache k = none := by
    cases hu : s.cache k with
    | none => rfl
    | some w => have := (h.cav k w hu).1; rw [hm] at this; cases this
  have hs0 : (p.m k).isSome = false := by rw [hm]; rfl
  simp only [Sp.step, hs0, Bool.false_or, Bool.false_eq_true, if_false]
  have ep : ∀ j, j ≠ k → (if p.gone k = true then p.new else upd p.new k true) j = p.new j := by
    intro j e; by_cases hg : p.gone k = true
    · rw [if_pos hg]
    · rw [if_neg hg, upd_other _ _ e]
  have epk : (if p.gone k = true then p.new else upd p.new k true) k = !p.gone k := by
    cases hg : p.gone k with
    | true => rw [if_pos rfl]; exact hnk
    | false => rw [if_neg (by simp)]; exact upd_same _ _ _
  refine ⟨fun _ => e3, fun c => ?_, e1, ?_, fun j => ?_, fun j hj => ?_, fun j => ?_, fun j w hj => ?_, fun j => ?_, fun j hj => ?_,
    fun j w hj => ?_, fun j => ?_, fun j hj => ?_, fun j r hj => ?_⟩
  · rw [e4] at c; cases c
  · rw [List.nodup_append]
    refine ⟨h.nd, by simp, fun a ha b hb => ?_⟩
    rw [List.mem_singleton] at hb
    rintro rfl
    exact hks (hb ▸ ha)
  · rw [List.mem_append, List.mem_singleton]
    by_cases e : j = k
    · subst e; simp only [upd_same]; simp
    · simp only [upd_other _ _ e]
      rw [← h.mem j]; simp [e]
  · rw [List.mem_append, List.mem_singleton] at hj
    rcases hj with hj | rfl
    · exact h.com j hj
    · exact hk
  · rw [e2]
    by_cases e : j = k
    · subst e; simp only [upd_same]; rfl
    · simp only [upd_other _ _ e]; exact h.val j
  · by_cases e : j = k
    · subst e; simp only [upd_same] at hj; cases hj; exact hv
    · simp only [upd_other _ _ e] at hj; exact h.good j w hj
  · by_cases e : j = k
    · subst e
      show s'.add j = if (if p.gone j = true then p.new else upd p.new j true) j = true then upd p.m j (some v) j else none
      rw [epk]
      cases hg : p.gone j with
      | true =>
        rw [hg, if_pos rfl] at e7
        rw [e7.1, h.addv j, hnk]; rfl
      | false =>
        rw [hg, if_neg (by simp)] at e7
        rw [e7.1, upd_same]; simp [upd_same]
    · show s'.add j = if (if p.gone k = true then p.new else upd p.new k true) j = true then upd p.m k (some v) j else none
      rw [ep j e, upd_other _ _ e]
      have : s'.add j = s.add j := by
        cases hg : p.gone k with
        | true => rw [hg, if_pos rfl] at e7; rw [e7.1]
        | false => rw [hg, if_neg (by simp)] at e7; rw [e7.1, upd_other _ _ e]
      rw [this]; exact h.addv j
  · by_cases e : j = k
    · subst e; simp only [upd_same]; rfl
    · dsimp only at hj; rw [ep j e] at hj; simp only [upd_other _ _ e]; exact h.newv j hj
  · by_cases e : j = k
    · subst e
      cases hg : p.gone j with
      | true =>
        rw [hg, if_pos rfl] at e7
        rw [e7.2, upd_same] at hj; cases hj
        refine ⟨upd_same _ _ _, ?_⟩
        dsimp only
        rw [if_pos rfl]; exact hnk
      | false =>
        rw [hg, if_neg (by simp)] at e7
        rw [e7.2, huk] at hj; cases hj
    · have : s.update j = some w := by
        cases hg : p.gone k with
        | true => rw [hg, if_pos rfl] at e7; rw [e7.2, upd_other _ _ e] at hj; exact hj
        | false => rw [hg, if_neg (by simp)] at e7; rw [e7.2] at hj; exact hj
      dsimp only
      rw [ep j e, upd_other _ _ e]
      exact h.updv j w this
  · rw [e6]
    by_cases e : j = k
    · subst e; simp only [upd_same]
    · simp only [upd_other _ _ e]; exact h.remv j
  · by_cases e : j = k
    · subst e; simp only [upd_same] at hj; cases hj
    · simp only [upd_other _ _ e] at hj ⊢; exact h.gonev j hj
  · rw [e5] at hj
    by_cases e : j = k
    · subst e; rw [hck] at hj; cases hj
    · have hc := h.cav j r hj
      dsimp only
      rw [ep j e, upd_other _ _ e, e2, upd_other _ _ e]
      refine ⟨hc.1, hc.2.1, fun a hu => hc.2.2 a ?_⟩
      cases hg : p.gone k with
      | true => rw [hg, if_pos rfl] at e7; rw [e7.2, upd_other _ _ e] at hu; exact hu
      | false => rw [hg, if_neg (by simp)] at e7; rw [e7.2] at hu; exact hu

theorem RepX.set (h : Rep raw obj s p) (k : Str) (v : O) (hk : ',' ∉ k) (hv : obj (raw v) = some v) :
    ∃ s', set raw s k v = some s' ∧ Rep raw obj s' (p.step (.set k v)) := by
  unfold PyDb.set
  by_cases ha : (s.add k).isSome = true
  · rw [if_pos ha]
    have hn : p.new k = true := by
      cases hn : p.new k with
      | true => rfl
      | false => rw [h.addv k, hn] at ha; cases ha
    exact ⟨_, rfl, h.put k v hv (h.newv k hn) _ rfl rfl rfl rfl rfl rfl (by rw [if_pos hn]; exact ⟨rfl, rfl⟩)⟩
  rw [if_neg ha]
  have hn : p.new k = false := by
    cases hn : p.new k with
    | false => rfl
    | true => rw [h.addv k, if_pos hn] at ha; exact absurd (h.newv k hn) ha
  by_cases hu : (s.update k).isSome = true
  · rw [if_pos hu]
    obtain ⟨w, hw⟩ := Option.isSome_iff_exists.1 hu
    exact ⟨_, rfl, h.put k v hv (by rw [(h.updv k w hw).1]; rfl) _ rfl rfl rfl rfl rfl rfl (by rw [hn, if_neg (by simp)]; exact ⟨rfl, rfl⟩)⟩
  rw [if_neg hu]
  have hu0 : s.update k = none := by simpa using hu
  obtain ⟨hl, hl1, hl2⟩ := h.load
  by_cases hr : s.removed k = true
  · rw [if_pos hr]
    have hg : p.gone k = true := by rw [← h.remv]; exact hr
    have hm := h.gonev k hg
    have hadd : addKey { s with removed := upd s.removed k false, update := upd s.update k (some v) } k =
        some { PyDb.load s with keys := p.ks ++ [k], dbKeys := join (p.ks ++ [k]), removed := upd s.removed k false, update := upd s.update k (some v) } := by
      unfold addKey flushKeys
      rw [if_neg hk]
      unfold PyDb.load at hl2 ⊢
      by_cases c : s.loaded = true
      · simp only [c, if_true] at hl2 ⊢; rw [hl2]
      · simp only [if_neg c] at hl2 ⊢; rw [hl2]
    rw [hadd]
    refine ⟨_, rfl, hl.insert hl1 k v hk hv hm _ rfl ?_ rfl ?_ rfl ?_ ?_⟩
    · rfl
    · exact hl1
    · show upd s.removed k false = upd (PyDb.load s).removed k false
      unfold PyDb.load; split <;> rfl
    · rw [if_pos hg]
      refine ⟨rfl, ?_⟩
      show upd s.update k (some v) = upd (PyDb.load s).update k (some v)
      unfold PyDb.load; split <;> rfl
  · rw [if_neg hr]
    have hg : p.gone k = false := by rw [← h.remv]; simpa using hr
    obtain ⟨c1, c2, _, c4, c5⟩ := h.cached k hn
    have hc := c4 (by simp) hu0
    cases hm : p.m k with
    | none =>
      rw [hm] at hc
      rw [hc]
      dsimp only [Option.map]
      have hlid : PyDb.load (PyDb.cached s k).1 = (PyDb.cached s k).1 := by unfold PyDb.load; rw [if_pos c2]
      have hadd : addKey { (PyDb.cached s k).1 with add := upd (PyDb.cached s k).1.add k (some v) } k =
          some { (PyDb.cached s k).1 with add := upd (PyDb.cached s k).1.add k (some v), keys := p.ks ++ [k], dbKeys := join (p.ks ++ [k]) } := by
        unfold addKey flushKeys
        rw [if_neg hk]
        have hkk := c1.ld c2
        unfold PyDb.load
        simp only [c2, if_true]
        rw [hkk]
      rw [hadd]
      refine ⟨_, rfl, c1.insert c2 k v hk hv hm _ rfl rfl rfl c2 rfl ?_ ?_⟩
      · funext j
        by_cases e : j = k
        · subst e; rw [upd_same]; show (PyDb.cached s j).1.removed j = false; rw [c1.remv, hg]
        · rw [upd_other _ _ e]
      · rw [hg, if_neg (by simp)]; exact ⟨rfl, rfl⟩
    | some w =>
      rw [hm] at hc
      rw [hc]
      exact ⟨_, rfl, c1.put k v hv (by rw [hm]; rfl) _ rfl rfl rfl rfl rfl rfl (by rw [hn, if_neg (by simp)]; exact ⟨rfl, rfl⟩)⟩

theorem RepX.remove (h : Rep raw obj s p) (k : Str) (hn : p.new k = false) :
    Rep raw obj (remove s k) (p.step (.remove k)) := by
  unfold PyDb.remove
  have ha : s.add k = none := by rw [h.addv k, hn]; rfl
  rw [ha, if_neg (by simp)]
  by_cases hr : s.removed k = true
  · rw [if_pos hr]
    have := h.gonev k (by rw [← h.remv]; exact hr)
    simp only [Sp.step, this]; exact h
  rw [if_neg hr]
  have hg : p.gone k = false := by rw [← h.remv]; simpa using hr
  have hx : RepX raw obj (some k) { s with update := upd s.update k none } p := by
    refine ⟨h.ld, h.un, h.dbk, h.nd, h.mem, h.com, h.val, h.good, h.addv, h.newv, fun j w hj => ?_, h.remv, h.gonev, fun j r hj => ?_⟩
    · by_cases e : j = k
      · subst e; simp only [upd_same] at hj; cases hj
      · simp only [upd_other _ _ e] at hj; exact h.updv j w hj
    · have hc := h.cav j r hj
      refine ⟨hc.1, hc.2.1, fun hj2 hu => hc.2.2 (by simp) ?_⟩
      have e : j ≠ k := fun e => hj2 (by rw [e])
      simpa only [upd_other _ _ e] using hu
  obtain ⟨c1, c2, c3, _, c5⟩ := hx.cached k hn
  unfold removeStored
  cases hm : p.m k with
  | none =>
    rw [hm] at c3
    have c3' : (PyDb.cached { s with update := upd s.update k none } k).2 = none := by simpa using c3
    rw [c3']
    have : p.step (.remove k) = p := by simp [Sp.step, hm]
    rw [this]
    refine ⟨c1.ld, c1.un, c1.dbk, c1.nd, c1.mem, c1.com, c1.val, c1.good, c1.addv, c1.newv, c1.updv, c1.remv, c1.gonev, fun j r hj => ?_⟩
    have hc := c1.cav j r hj
    have e : j ≠ k := by rintro rfl; rw [hm] at hc; cases hc.1
    exact ⟨hc.1, hc.2.1, fun _ hu => hc.2.2 (fun e2 => e (Option.some.inj e2).symm) hu⟩
  | some w =>
    rw [hm] at c3
    obtain ⟨r0, hr0⟩ := Option.isSome_iff_exists.1 (c3.trans rfl)
    rw [hr0]
    dsimp only
    have hmem : k ∈ p.ks := (h.mem k).2 (by rw [hm]; rfl)
    have hkeys := c1.ld c2
    have hrk : removeKey (PyDb.cached { s with update := upd s.update k none } k).1 k =
        { (PyDb.cached { s with update := upd s.update k none } k).1 with keys := p.ks.erase k, dbKeys := join (p.ks.erase k) } := by
      unfold removeKey flushKeys PyDb.load
      simp only [c2, if_true]
      rw [hkeys, popAt_index k p.ks hmem]
    rw [hrk]
    have : p.step (.remove k) = ⟨p.ks.erase k, upd p.m k none, p.new, upd p.gone k true⟩ := by simp [Sp.step, hm]
    rw [this]
    refine ⟨fun _ => rfl, fun c => ?_, rfl, h.nd.erase k, fun j => ?_, fun j hj => h.com j (List.mem_of_mem_erase hj), fun j => ?_,
      fun j w hj => ?_, fun j => ?_, fun j hj => ?_, fun j w hj => ?_, fun j => ?_, fun j hj => ?_, fun j r hj => ?_⟩
    · rw [show (PyDb.cached { s with update := upd s.update k none } k).1.loaded = true from c2] at c; cases c
    · rw [h.nd.mem_erase_iff]
      by_cases e : j = k
      · subst e; simp only [upd_same]; simp
      · simp only [upd_other _ _ e]; rw [← h.mem j]; simp [e]
    · by_cases e : j = k
      · subst e; simp only [upd_same]; rfl
      · simp only [upd_other _ _ e]; exact c1.val j
    · by_cases e : j = k
      · subst e; simp only [upd_same] at hj; cases hj
      · simp only [upd_other _ _ e] at hj; exact h.good j w hj
    · by_cases e : j = k
      · subst e; simp only [upd_same]; rw [c1.addv j, hn]; rfl
      · simp only [upd_other _ _ e]; exact c1.addv j
    · by_cases e : j = k
      · subst e; dsimp only at hj; rw [hn] at hj; cases hj
      · simp only [upd_other _ _ e]; exact h.newv j hj
    · dsimp only at hj
      rw [c5] at hj
      by_cases e : j = k
      · subst e; simp only [upd_same] at hj; cases hj
      · simp only [upd_other _ _ e] at hj ⊢; exact h.updv j w hj
    · by_cases e : j = k
      · subst e; simp only [upd_same]
      · simp only [upd_other _ _ e]; exact c1.remv j
    · by_cases e : j = k
      · subst e; exact upd_same _ _ _
      · simp only [upd_other _ _ e] at hj ⊢; exact h.gonev j hj
    · dsimp only at hj
      by_cases e : j = k
      · subst e; rw [upd_same] at hj; cases hj
      · rw [upd_other _ _ e] at hj
        have hc := c1.cav j r hj
        simp only [upd_other _ _ e]
        exact ⟨hc.1, hc.2.1, fun _ hu => hc.2.2 (fun e2 => e (Option.some.inj e2).symm) hu⟩

theorem RepX.fresh (h : Rep raw obj s p) (hr : Readable p.ks) : Rep raw obj (fresh s) (p.step .fresh) := by
  refine ⟨fun c => ?_, fun _ => ⟨rfl, fun _ => rfl, hr⟩, h.dbk, h.nd, h.mem, h.com, h.val, h.good, fun _ => rfl, fun _ c => ?_,
    fun _ _ c => ?_, fun _ => rfl, fun _ c => ?_, fun _ _ c => ?_⟩ <;> cases c

theorem RepX.step (h : Rep raw obj s p) (o : Op O) (ho : OpOk raw obj p o) :
    ∃ s', step raw obj s o = some s' ∧ Rep raw obj s' (p.step o) := by
  cases o with
  | set k v => exact h.set k v ho.1 ho.2
  | remove k => exact ⟨_, rfl, h.remove k ho⟩
  | get k => exact ⟨_, rfl, (h.get k).2⟩
  | fresh => exact ⟨_, rfl, h.fresh ho⟩

theorem RepX.run (h : Rep raw obj s p) (l : List (Op O)) (hl : RunOk raw obj p l) :
    ∃ s', run raw obj s l = some s' ∧ Rep raw obj s' (p.run l) := by
  induction l generalizing s p with
  | nil => exact ⟨s, rfl, h⟩
  | cons o t ih =>
    obtain ⟨s1, e1, h1⟩ := h.step o hl.1
    obtain ⟨s2, e2, h2⟩ := ih h1 hl.2
    exact ⟨s2, by rw [PyDb.run, e1]; exact e2, h2⟩

/-- C112, the part that holds: in a history of calls where keys have no comma, no instance removes a key that it has added itself, and
new instances do not start when the only key is a single character (or the empty string), the dictionary is a map: reading, membership
and the keys in the order of their adding are those of the map. -/
theorem C112_map_partial (l : List (Op O)) (hl : RunOk raw obj Sp.init l) :
    ∃ s, run raw obj (init : St O R) l = some s ∧ keysOf s = (Sp.init.run l).ks ∧
    ∀ k, (get obj s k).2 = (Sp.init.run l).m k ∧ contains s k = ((Sp.init.run l).m k).isSome := by
  obtain ⟨s, e, h⟩ := (Rep.init (raw := raw) (obj := obj)).run l hl
  exact ⟨s, e, h.load.2.2, fun k => ⟨(h.get k).1, h.contains k⟩⟩

/-- C112: a key with a comma is refused in every such state. -/
theorem C112_comma_refused (l : List (Op O)) (hl : RunOk raw obj Sp.init l) (k : Str) (v : O) (hk : ',' ∈ k) :
    ∃ s, run raw obj (init : St O R) l = some s ∧ set raw s k v = none := by
  obtain ⟨s, e, h⟩ := (Rep.init (raw := raw) (obj := obj)).run l hl
  refine ⟨s, e, ?_⟩
  generalize Sp.init.run l = p at h
  have hm : p.m k = none := by
    cases hm : p.m k with
    | none => rfl
    | some w => exact absurd hk (h.com k ((h.mem k).2 (by rw [hm]; rfl)))
  have hn : p.new k = false := by
    cases hn : p.new k with
    | false => rfl
    | true => have := h.newv k hn; rw [hm] at this; cases this
  have ha : s.add k = none := by rw [h.addv k, hn]; rfl
  have hu : s.update k = none := by
    cases hu : s.update k with
    | none => rfl
    | some w => have := (h.updv k w hu).1; rw [hm] at this; cases this
  have hno : ∀ t : St O R, addKey t k = none := fun t => by unfold addKey; rw [if_pos hk]
  unfold PyDb.set
  rw [ha, hu, hno]
  obtain ⟨_, _, _, c4, _⟩ := h.cached k hn
  have hc := c4 (by simp) hu
  rw [hm] at hc
  rw [hc, hno]
  simp

/-- C112 is false of the code: a key that the same instance has added is not removed; the value is still read. -/
theorem C112_remove_of_added (l : List (Op O)) (hl : RunOk raw obj Sp.init l) (k : Str) (hn : (Sp.init.run l).new k = true) :
    ∃ s, run raw obj (init : St O R) l = some s ∧ contains (remove s k) k = true ∧
    (get obj (remove s k) k).2 = (Sp.init.run l).m k ∧ keysOf (remove s k) = (Sp.init.run l).ks := by
  obtain ⟨s, e, h⟩ := (Rep.init (raw := raw) (obj := obj)).run l hl
  refine ⟨s, e, ?_⟩
  generalize Sp.init.run l = p at h hn
  have hm := h.newv k hn
  have ha : (s.add k).isSome = true := by rw [h.addv k, if_pos hn]; exact hm
  unfold PyDb.remove
  rw [if_pos ha]
  have hk : (PyDb.load { s with add := upd s.add k none }).keys = p.ks := by
    have := h.load.2.2
    unfold PyDb.load at this ⊢
    by_cases c : s.loaded = true
    · simp only [c, if_true] at this ⊢; exact this
    · simp only [if_neg c] at this ⊢; exact this
  have hc : contains { s with add := upd s.add k none } k = true := by
    unfold PyDb.contains
    rw [hk]
    simpa [indexOf_nonneg] using (h.mem k).2 hm
  refine ⟨hc, ?_, hk⟩
  have hu : s.update k = none := by
    cases hu : s.update k with
    | none => rfl
    | some w => have := (h.updv k w hu).2; rw [hn] at this; cases this
  have hr : s.removed k = false := by
    rw [h.remv]
    cases hg : p.gone k with
    | false => rfl
    | true => rw [h.gonev k hg] at hm; cases hm
  have hca : s.cache k = none := by
    cases hc : s.cache k with
    | none => rfl
    | some r => have := (h.cav k r hc).2.1; rw [hn] at this; cases this
  obtain ⟨v, hv⟩ := Option.isSome_iff_exists.1 hm
  have hdb : (PyDb.load { s with add := upd s.add k none }).db k = some (raw v) := by
    have : (PyDb.load { s with add := upd s.add k none }).db = s.db := by unfold PyDb.load; split <;> rfl
    rw [this, h.val k, hv]; rfl
  unfold PyDb.get PyDb.cached
  simp only [upd_same, hu, hr, hca, hc, if_true, hdb, Bool.false_eq_true, if_false]
  rw [hv]
  exact h.good k v hv

/-- C112 is false of the code: a dictionary with a single key of one character (or the empty one) is empty for the next instance, though
the value is in the store. -/
theorem C112_single_short_key (k : Str) (v : O) (hk : k.length ≤ 1) (hc : ',' ∉ k) :
    ∃ s, run raw obj (init : St O R) [.set k v, .fresh] = some s ∧ keysOf s = [] ∧ contains s k = false ∧
    (get obj s k).2 = none ∧ s.db k = some (raw v) := by
  refine ⟨⟨k, upd (fun _ => none) k (some (raw v)), [], false, fun _ => none, fun _ => none, fun _ => none, fun _ => false⟩, ?_, ?_, ?_, ?_, ?_⟩
  · simp [PyDb.run, PyDb.step, PyDb.set, PyDb.init, PyDb.cached, PyDb.contains, PyDb.load, indexOf, addKey, hc, flushKeys, join, PyDb.fresh]
  · unfold keysOf PyDb.load; simp; omega
  · unfold PyDb.contains PyDb.load
    have : ¬ k.length > 1 := by omega
    simp [this, indexOf]
  · have : ¬ k.length > 1 := by omega
    simp [PyDb.get, PyDb.cached, PyDb.contains, PyDb.load, this, indexOf]
  · show upd (fun _ => none) k (some (raw v)) k = some (raw v); exact upd_same _ _ _

/-! ### Removing all entries -/

/-- The elements at odd positions. -/
def odds : List Str → List Str
  | [] => []
  | [_] => []
  | _ :: b :: l => b :: odds l

theorem erase_mid (a : List Str) (k : Str) (b : List Str) (h : k ∉ a) : (a ++ k :: b).erase k = a ++ b := by
  rw [List.erase_append_right _ h]; simp

theorem remove_loaded (h : Rep raw obj s p) (hl : s.loaded = true) (k : Str) (hn : p.new k = false) (hk : k ∈ p.ks) :
    (PyDb.remove s k).loaded = true ∧ p.step (.remove k) = ⟨p.ks.erase k, upd p.m k none, p.new, upd p.gone k true⟩ := by
  have hm := (h.mem k).1 hk
  refine ⟨?_, by simp [Sp.step, hm]⟩
  have hx : (PyDb.cached { s with update := upd s.update k none } k).1.loaded = true := by
    unfold PyDb.cached PyDb.load
    simp only [hl, if_true]
    split
    · rfl
    · split
      · split <;> rfl
      · rfl
  have ha : s.add k = none := by rw [h.addv k, hn]; rfl
  unfold PyDb.remove
  rw [ha, if_neg (by simp)]
  by_cases hr : s.removed k = true
  · rw [if_pos hr]; exact hl
  · rw [if_neg hr]
    unfold removeStored
    split
    · exact hx
    · unfold removeKey flushKeys PyDb.load
      simp only [hx, if_true]

theorem removeLoop_odds (n : Nat) (a b : List Str) (h : Rep raw obj s p) (hl : s.loaded = true) (hn : ∀ k, p.new k = false)
    (hp : p.ks = a ++ b) (hb : b.length ≤ 2 * n) :
    ∃ q : Sp O, Rep raw obj (removeLoop n a.length s) q ∧ (removeLoop n a.length s).loaded = true ∧ q.ks = a ++ odds b ∧ (∀ k, q.new k = false) ∧
    ∀ k, q.m k = if k ∈ a ++ odds b then p.m k else none := by
  induction n generalizing a b s p with
  | zero =>
    have : b = [] := List.length_eq_zero_iff.1 (by omega)
    subst this
    refine ⟨p, h, hl, hp, hn, fun k => ?_⟩
    by_cases hk : k ∈ a ++ odds []
    · rw [if_pos hk]
    · rw [if_neg hk]
      cases hm : p.m k with
      | none => rfl
      | some v => exact absurd ((h.mem k).2 (by rw [hm]; rfl)) (by rw [hp]; exact hk)
  | succ n ih =>
    have hk := h.ld hl
    cases b with
    | nil =>
      have e : s.keys[a.length]? = none := by rw [hk, hp]; simp
      rw [removeLoop, e]
      refine ⟨p, h, hl, hp, hn, fun k => ?_⟩
      by_cases hk : k ∈ a ++ odds []
      · rw [if_pos hk]
      · rw [if_neg hk]
        cases hm : p.m k with
        | none => rfl
        | some v => exact absurd ((h.mem k).2 (by rw [hm]; rfl)) (by rw [hp]; exact hk)
    | cons x b =>
      have e : s.keys[a.length]? = some x := by rw [hk, hp]; simp
      rw [removeLoop, e]
      have hx : x ∈ p.ks := by rw [hp]; simp
      have hnd := h.nd
      rw [hp, List.nodup_append] at hnd
      have hxa : x ∉ a := fun c => hnd.2.2 x c x List.mem_cons_self rfl
      have hxb : x ∉ b := (List.nodup_cons.1 hnd.2.1).1
      have h1 := h.remove x (hn x)
      obtain ⟨l1, e1⟩ := remove_loaded h hl x (hn x) hx
      rw [e1] at h1
      have hks : p.ks.erase x = a ++ b := by rw [hp]; exact erase_mid a x b hxa
      cases b with
      | nil =>
        have hlast : removeLoop n (a.length + 1) (PyDb.remove s x) = PyDb.remove s x := by
          cases n with
          | zero => rfl
          | succ n =>
            have : (PyDb.remove s x).keys[a.length + 1]? = none := by
              rw [h1.ld l1]; show (p.ks.erase x)[a.length + 1]? = none; rw [hks]; simp
            rw [removeLoop, this]
        show ∃ q : Sp O, Rep raw obj (removeLoop n (a.length + 1) (PyDb.remove s x)) q ∧ (removeLoop n (a.length + 1) (PyDb.remove s x)).loaded = true ∧ _
        rw [hlast]
        refine ⟨_, h1, l1, by rw [hks]; rfl, hn, fun k => ?_⟩
        show upd p.m x none k = _
        by_cases ex : k = x
        · subst ex; rw [upd_same, if_neg (by simpa [odds] using hxa)]
        · rw [upd_other _ _ ex]
          by_cases hka : k ∈ a ++ odds [x]
          · rw [if_pos hka]
          · rw [if_neg hka]
            cases hm : p.m k with
            | none => rfl
            | some v =>
              have := (h.mem k).2 (by rw [hm]; rfl)
              rw [hp] at this
              simp [odds] at hka this
              rcases this with c | c
              · exact absurd c hka
              · exact absurd c ex
      | cons y b =>
        obtain ⟨q, q1, q2, q3, q4, q5⟩ := ih (a ++ [y]) b h1 l1 hn (by rw [hks]; simp) (by simp only [List.length_cons] at hb; omega)
        have el : (a ++ [y]).length = a.length + 1 := by simp
        rw [el] at q1 q2
        refine ⟨q, q1, q2, by rw [q3]; simp [odds], q4, fun k => ?_⟩
        rw [q5 k]
        have em : (a ++ [y]) ++ odds b = a ++ odds (x :: y :: b) := by simp [odds]
        rw [em]
        by_cases hka : k ∈ a ++ odds (x :: y :: b)
        · rw [if_pos hka, if_pos hka]
          refine upd_other _ _ ?_
          rintro rfl
          rcases List.mem_append.1 hka with c | c
          · exact hxa c
          · rw [odds] at c
            rcases List.mem_cons.1 c with c | c
            · exact hxb (by rw [c]; simp)
            · exact hxb (List.mem_cons_of_mem _ (odds_sub b c))
        · rw [if_neg hka, if_neg hka]
where
  odds_sub : ∀ (b : List Str) {k : Str}, k ∈ odds b → k ∈ b
  | [], _, h => h
  | [_], _, h => by cases h
  | x :: y :: l, k, h => by
    rw [odds] at h
    rcases List.mem_cons.1 h with c | c
    · simp [c]
    · exact List.mem_cons_of_mem _ (List.mem_cons_of_mem _ (odds_sub l c))

/-- C113 is false of the code: `remove_all` of an instance that has added nothing removes every second key only, the first, the third and
so on; the others keep their values. -/
theorem C113_every_second_stays (l : List (Op O)) (hl : RunOk raw obj Sp.init l) (hn : ∀ k, (Sp.init.run l).new k = false) :
    ∃ s, run raw obj (init : St O R) l = some s ∧ keysOf (removeAll s) = odds (Sp.init.run l).ks ∧
    ∀ k, (get obj (removeAll s) k).2 = if k ∈ odds (Sp.init.run l).ks then (Sp.init.run l).m k else none := by
  obtain ⟨s, e, h⟩ := (Rep.init (raw := raw) (obj := obj)).run l hl
  refine ⟨s, e, ?_⟩
  generalize Sp.init.run l = p at h hn
  obtain ⟨hl1, hl2, hl3⟩ := h.load
  obtain ⟨q, q1, q2, q3, q4, q5⟩ := removeLoop_odds (PyDb.load s).keys.length [] p.ks hl1 hl2 hn rfl (by rw [hl3]; omega)
  unfold removeAll
  refine ⟨?_, fun k => ?_⟩
  · rw [show keysOf (removeLoop (PyDb.load s).keys.length 0 (PyDb.load s)) = q.ks from q1.load.2.2, q3]; rfl
  · rw [show (get obj (removeLoop (PyDb.load s).keys.length 0 (PyDb.load s)) k).2 = q.m k from (q1.get k).1, q5 k]; rfl

/-- C113, the part that holds: a dictionary of at most one key is emptied. -/
theorem C113_one_key_partial (l : List (Op O)) (hl : RunOk raw obj Sp.init l) (hn : ∀ k, (Sp.init.run l).new k = false)
    (h1 : (Sp.init.run l).ks.length ≤ 1) :
    ∃ s, run raw obj (init : St O R) l = some s ∧ keysOf (removeAll s) = [] ∧ ∀ k, (get obj (removeAll s) k).2 = none := by
  obtain ⟨s, e, e1, e2⟩ := C113_every_second_stays l hl hn
  have : odds (Sp.init.run l).ks = [] := by
    match hks : (Sp.init.run l).ks with
    | [] => rfl
    | [_] => rfl
    | _ :: _ :: _ => rw [hks] at h1; simp at h1
  rw [this] at e1 e2
  exact ⟨s, e, e1, fun k => by rw [e2 k]; simp⟩

theorem removeLoop_added (n i : Nat) (h : ∀ k ∈ s.keys.drop i, (s.add k).isSome = true) (hnd : s.keys.Nodup) :
    (removeLoop n i s).keys = s.keys ∧ (removeLoop n i s).loaded = s.loaded ∧ (removeLoop n i s).db = s.db := by
  induction n generalizing i s with
  | zero => exact ⟨rfl, rfl, rfl⟩
  | succ n ih =>
    rw [removeLoop]
    cases hk : s.keys[i]? with
    | none => exact ⟨rfl, rfl, rfl⟩
    | some k =>
      obtain ⟨hi, hik⟩ := List.getElem?_eq_some_iff.1 hk
      have hd : s.keys.drop i = k :: s.keys.drop (i + 1) := by rw [List.drop_eq_getElem_cons hi, hik]
      have ha := h k (by rw [hd]; simp)
      have er : PyDb.remove s k = { s with add := upd s.add k none } := by unfold PyDb.remove; rw [if_pos ha]
      dsimp only
      rw [er]
      have hk' : k ∉ s.keys.drop (i + 1) := by
        have := hnd.sublist (List.drop_sublist i s.keys)
        rw [hd] at this; exact (List.nodup_cons.1 this).1
      obtain ⟨a1, a2, a3⟩ := ih (s := { s with add := upd s.add k none }) (i + 1) (fun j hj => by
        have e : j ≠ k := by rintro rfl; exact hk' hj
        show (upd s.add k none j).isSome = true
        rw [upd_other _ _ e]
        exact h j (by rw [hd]; exact List.mem_cons_of_mem _ hj)) hnd
      exact ⟨a1, a2, a3⟩

/-- C113 is false of the code: an instance that has added all the keys itself removes none of them. -/
theorem C113_added_all_stay (l : List (Op O)) (hl : RunOk raw obj Sp.init l)
    (hn : ∀ k ∈ (Sp.init.run l).ks, (Sp.init.run l).new k = true) :
    ∃ s, run raw obj (init : St O R) l = some s ∧ keysOf (removeAll s) = (Sp.init.run l).ks ∧ (removeAll s).db = s.db := by
  obtain ⟨s, e, h⟩ := (Rep.init (raw := raw) (obj := obj)).run l hl
  refine ⟨s, e, ?_⟩
  generalize Sp.init.run l = p at h hn
  obtain ⟨hl1, hl2, hl3⟩ := h.load
  obtain ⟨a1, a2, a3⟩ := removeLoop_added (s := PyDb.load s) (PyDb.load s).keys.length 0 (fun k hk => by
    rw [List.drop_zero, hl3] at hk
    rw [hl1.addv k, if_pos (hn k hk)]
    exact (h.mem k).1 hk) (by rw [hl3]; exact h.nd)
  unfold removeAll keysOf
  refine ⟨?_, by rw [a3]; unfold PyDb.load; split <;> rfl⟩
  unfold PyDb.load
  unfold PyDb.load at a1 a2 hl2 hl3
  rw [if_pos (a2.trans hl2), a1, hl3]

/-! ### Properties -/

/-- The value as it comes back from the store. -/
def norm : PVal → PVal
  | .bool b => .int (if b then 1 else 0)
  | v => v

theorem encode_decode (v : PVal) : ∃ b, encode v = some b ∧ decode b = some (norm v) := by
  have hi : ∀ v : Int, ∃ b, (PyInt.intBytes v).map (fun b => (1 : UInt8) :: b) = some b ∧ decode b = some (.int v) := by
    intro v
    obtain ⟨b, h1, _, h2⟩ := PyInt.intFrom_intBytes v
    exact ⟨1 :: b, by rw [h1]; rfl, by rw [decode, if_pos rfl, h2]⟩
  cases v with
  | int v => exact hi v
  | bool b => exact hi _
  | str b => exact ⟨2 :: b, rfl, rfl⟩
  | bytes b => exact ⟨4 :: b, rfl, rfl⟩
  | addr b => exact ⟨5 :: b, rfl, rfl⟩
  | btp b => exact ⟨6 :: b, rfl, rfl⟩
  | ser b => exact ⟨7 :: b, rfl, rfl⟩

theorem norm_norm (v : PVal) : norm (norm v) = norm v := by cases v <;> rfl

/-- Changes of one property, reading it, and a new instance. -/
inductive POp where
  | set (k : Str) (v : PVal)
  | unset (k : Str)
  | get (k : Str)
  | fresh

def pstep (dflt : Str → Option PVal) (s : PSt) : POp → Option PSt
  | .set k v => pset s k v
  | .unset k => punset dflt s k
  | .get k => (pget dflt s k).map (·.1)
  | .fresh => some (pfresh s)

def prun (dflt : Str → Option PVal) : PSt → List POp → Option PSt
  | s, [] => some s
  | s, o :: t => (pstep dflt s o).bind fun s' => prun dflt s' t

def pinit : PSt := ⟨fun _ => none, fun _ => none, fun _ => false⟩

/-- Specification: the last value set, and what has been set to None since the instance started. -/
structure PSp where
  m : Str → Option PVal
  un : Str → Bool

def PSp.value (dflt : Str → Option PVal) (p : PSp) (k : Str) : Option PVal :=
  if p.un k then none else match p.m k with
    | some v => some v
    | none => dflt k

def PSp.step (dflt : Str → Option PVal) (p : PSp) : POp → PSp
  | .set k v => ⟨upd p.m k (some v), upd p.un k false⟩
  | .unset k => if (p.value dflt k).isSome then ⟨upd p.m k none, upd p.un k true⟩ else p
  | .get _ => p
  | .fresh => ⟨p.m, fun _ => false⟩

def PSp.run (dflt : Str → Option PVal) (p : PSp) : List POp → PSp
  | [] => p
  | o :: t => (p.step dflt o).run dflt t

def PSp.init : PSp := ⟨fun _ => none, fun _ => false⟩

structure PRep (dflt : Str → Option PVal) (s : PSt) (p : PSp) : Prop where
  db : ∀ k, s.db k = (p.m k).bind encode
  rem : ∀ k, s.removed k = p.un k
  unv : ∀ k, p.un k = true → p.m k = none
  ca : ∀ k c, s.cache k = some c → c.map norm = (p.value dflt k).map norm

variable {dflt : Str → Option PVal} {t : PSt} {q : PSp}

theorem PRep.get (h : PRep dflt t q) (k : Str) :
    ∃ t' v, pget dflt t k = some (t', v) ∧ v.map norm = (q.value dflt k).map norm ∧ PRep dflt t' q := by
  unfold pget
  by_cases hr : t.removed k = true
  · rw [if_pos hr]
    refine ⟨t, none, rfl, ?_, h⟩
    have : q.un k = true := by rw [← h.rem]; exact hr
    unfold PSp.value; rw [if_pos this]
  rw [if_neg hr]
  cases hc : t.cache k with
  | some c => exact ⟨t, c, rfl, h.ca k c hc, h⟩
  | none =>
    have hun : ¬ q.un k = true := by rw [← h.rem]; exact hr
    have hl : ∃ v, pload dflt t k = some v ∧ v.map norm = (q.value dflt k).map norm := by
      unfold pload PSp.value
      rw [if_neg hun, h.db k]
      cases hm : q.m k with
      | none => exact ⟨dflt k, rfl, rfl⟩
      | some w =>
        obtain ⟨b, e1, e2⟩ := encode_decode w
        refine ⟨some (norm w), ?_, by simp [norm_norm]⟩
        show (match encode w with | none => some (dflt k) | some b => (decode b).map some) = _
        rw [e1]; show (decode b).map some = _; rw [e2]; rfl
    obtain ⟨v, hv, hn⟩ := hl
    refine ⟨{ t with cache := upd t.cache k (some v) }, v, by dsimp only; rw [hv]; rfl, hn, h.db, h.rem, h.unv, fun j c hj => ?_⟩
    by_cases e : j = k
    · subst e; simp only [upd_same] at hj; cases hj; exact hn
    · simp only [upd_other _ _ e] at hj; exact h.ca j c hj

theorem PRep.step (h : PRep dflt t q) (o : POp) : ∃ t', pstep dflt t o = some t' ∧ PRep dflt t' (q.step dflt o) := by
  cases o with
  | get k =>
    obtain ⟨t', v, e, _, h'⟩ := h.get k
    exact ⟨t', by show (pget dflt t k).map _ = _; rw [e]; rfl, h'⟩
  | fresh =>
    refine ⟨_, rfl, h.db, fun _ => rfl, fun k c => ?_, fun k c hc => ?_⟩ <;> simp [PSp.step, pfresh] at *
  | set k v =>
    obtain ⟨b, e1, _⟩ := encode_decode v
    refine ⟨⟨upd t.db k (some b), upd t.cache k (some (some v)), upd t.removed k false⟩, by show pset t k v = _; unfold pset; rw [e1]; rfl,
      fun j => ?_, fun j => ?_, fun j hj => ?_, fun j c hj => ?_⟩
    · simp only [PSp.step]
      by_cases e : j = k
      · subst e; rw [upd_same, upd_same]; exact e1.symm
      · rw [upd_other _ _ e, upd_other _ _ e]; exact h.db j
    · simp only [PSp.step]
      by_cases e : j = k
      · subst e; rw [upd_same, upd_same]
      · rw [upd_other _ _ e, upd_other _ _ e]; exact h.rem j
    · simp only [PSp.step] at hj ⊢
      by_cases e : j = k
      · subst e; rw [upd_same] at hj; cases hj
      · rw [upd_other _ _ e] at hj ⊢; exact h.unv j hj
    · by_cases e : j = k
      · subst e
        simp only [upd_same] at hj; cases hj
        simp [PSp.value, PSp.step, upd_same]
      · simp only [upd_other _ _ e] at hj
        have : (q.step dflt (.set k v)).value dflt j = q.value dflt j := by
          simp only [PSp.value, PSp.step, upd_other _ _ e]
        rw [this]; exact h.ca j c hj
  | unset k =>
    obtain ⟨t', v, e, hv, h'⟩ := h.get k
    show ∃ t', punset dflt t k = some t' ∧ _
    unfold punset
    rw [e]
    simp only [Option.map_some]
    cases v with
    | none =>
      have hn : q.value dflt k = none := by simpa using hv.symm
      refine ⟨t', rfl, ?_⟩
      simp only [PSp.step, hn]; exact h'
    | some w =>
      have hn : (q.value dflt k).isSome = true := by
        cases hq : q.value dflt k with
        | none => rw [hq] at hv; cases hv
        | some _ => rfl
      refine ⟨_, rfl, ?_⟩
      simp only [PSp.step, if_pos hn]
      refine ⟨fun j => ?_, fun j => ?_, fun j hj => ?_, fun j c hj => ?_⟩
      · by_cases ek : j = k
        · subst ek; simp only [upd_same]; rfl
        · simp only [upd_other _ _ ek]; exact h'.db j
      · by_cases ek : j = k
        · subst ek; simp only [upd_same]
        · simp only [upd_other _ _ ek]; exact h'.rem j
      · by_cases ek : j = k
        · subst ek; exact upd_same _ _ _
        · simp only [upd_other _ _ ek] at hj ⊢; exact h'.unv j hj
      · by_cases ek : j = k
        · subst ek; simp only [upd_same] at hj; cases hj
          simp [PSp.value, upd_same]
        · simp only [upd_other _ _ ek] at hj
          have := h'.ca j c hj
          simpa only [PSp.value, upd_other _ _ ek] using this

theorem PRep.run (h : PRep dflt t q) (l : List POp) : ∃ t', prun dflt t l = some t' ∧ PRep dflt t' (q.run dflt l) := by
  induction l generalizing t q with
  | nil => exact ⟨t, rfl, h⟩
  | cons o l ih =>
    obtain ⟨t1, e1, h1⟩ := h.step o
    obtain ⟨t2, e2, h2⟩ := ih h1
    exact ⟨t2, by rw [prun, e1]; exact e2, h2⟩

theorem PRep.init : PRep dflt pinit PSp.init :=
  ⟨fun _ => rfl, fun _ => rfl, fun _ c => (by cases c), fun _ _ c => (by cases c)⟩

/-- C114: in every history of setting, unsetting and reading properties and of new instances, no call fails and every property reads as the
last value set, or as its default if there is none; a truth value may come back as 1 or 0, which Python takes for equal to it. -/
theorem C114_last_value (l : List POp) (k : Str) :
    ∃ t u v, prun dflt pinit l = some t ∧ pget dflt t k = some (u, v) ∧
    v.map norm = ((PSp.init.run dflt l).value dflt k).map norm := by
  obtain ⟨t, e, h⟩ := (PRep.init (dflt := dflt)).run l
  obtain ⟨u, v, e1, e2, _⟩ := h.get k
  exact ⟨t, u, v, e, e1, e2⟩

/-- C114: after setting a property to None it reads as None in this instance and as its default in the next one. -/
theorem C114_unset (l : List POp) (k : Str) :
    let p := PSp.init.run dflt (l ++ [.unset k])
    p.value dflt k = none ∧ (p.step dflt .fresh).value dflt k = dflt k := by
  have happ : ∀ (l : List POp) (p : PSp), p.run dflt (l ++ [.unset k]) = (p.run dflt l).step dflt (.unset k) := by
    intro l
    induction l with
    | nil => intro p; rfl
    | cons o l ih => intro p; exact ih _
  obtain ⟨t, e, h⟩ := (PRep.init (dflt := dflt)).run l
  rw [happ]
  generalize PSp.init.run dflt l = p at h
  show (p.step dflt (.unset k)).value dflt k = none ∧ ((p.step dflt (.unset k)).step dflt .fresh).value dflt k = dflt k
  by_cases hv : (p.value dflt k).isSome = true
  · have e1 : p.step dflt (.unset k) = ⟨upd p.m k none, upd p.un k true⟩ := by simp only [PSp.step, if_pos hv]
    rw [e1]; simp [PSp.value, PSp.step, upd_same]
  · have hv' : p.value dflt k = none := by simpa using hv
    have e1 : p.step dflt (.unset k) = p := by simp only [PSp.step, if_neg hv]
    rw [e1]
    refine ⟨hv', ?_⟩
    show (match p.m k with | some v => some v | none => dflt k) = dflt k
    cases hm : p.m k with
    | none => rfl
    | some w =>
      exfalso
      unfold PSp.value at hv'
      by_cases hu : p.un k = true
      · rw [h.unv k hu] at hm; cases hm
      · rw [if_neg hu, hm] at hv'; cases hv'

theorem PRep.getAll (h : PRep dflt t q) (names : List Str) :
    ∃ t', pgetAll dflt names t = some t' ∧ PRep dflt t' q ∧ (∀ k, (t.cache k).isSome = true → (t'.cache k).isSome = true) ∧
    ∀ k ∈ names, q.un k = false → (t'.cache k).isSome = true := by
  induction names generalizing t with
  | nil => exact ⟨t, rfl, h, fun _ x => x, fun _ c => by cases c⟩
  | cons n l ih =>
    obtain ⟨t1, v, e1, _, h1⟩ := h.get n
    obtain ⟨t2, e2, h2, hc, hn⟩ := ih h1
    have hmono : (∀ k, (t.cache k).isSome = true → (t1.cache k).isSome = true) ∧ (q.un n = false → (t1.cache n).isSome = true) := by
      unfold pget at e1
      by_cases hr : t.removed n = true
      · rw [if_pos hr] at e1; cases e1
        refine ⟨fun _ x => x, fun hu => ?_⟩
        rw [h.rem n, hu] at hr; cases hr
      · rw [if_neg hr] at e1
        cases hc : t.cache n with
        | some c => rw [hc] at e1; cases e1; exact ⟨fun _ x => x, fun _ => by rw [hc]; rfl⟩
        | none =>
          rw [hc] at e1
          cases hp : pload dflt t n with
          | none => rw [hp] at e1; cases e1
          | some w =>
            rw [hp] at e1; cases e1
            refine ⟨fun k hk => ?_, fun _ => by simp [upd_same]⟩
            by_cases e : k = n
            · subst e; simp [upd_same]
            · simpa [upd_other _ _ e] using hk
    refine ⟨t2, by rw [pgetAll, e1]; exact e2, h2, fun k hk => hc k (hmono.1 k hk), fun k hk hu => ?_⟩
    rcases List.mem_cons.1 hk with rfl | hk
    · exact hc k (hmono.2 hu)
    · exact hn k hk hu

/-- C114: after `remove_all` every property that has a default reads as it in the next instance. -/
theorem C114_remove_all (l : List POp) (names : List Str) (k : Str) (hk : k ∈ names) :
    ∃ t t' u, prun dflt pinit l = some t ∧ premoveAll dflt names t = some t' ∧ pget dflt (pfresh t') k = some (u, dflt k) := by
  obtain ⟨t, e, h⟩ := (PRep.init (dflt := dflt)).run l
  obtain ⟨t1, e1, h1, _, hn⟩ := h.getAll names
  refine ⟨t, ⟨fun k => if (t1.cache k).isSome then none else t1.db k, fun _ => none, fun k => t1.removed k || (t1.cache k).isSome⟩,
    ⟨fun k => if (t1.cache k).isSome then none else t1.db k, upd (fun _ => none) k (some (dflt k)), fun _ => false⟩,
    e, by unfold premoveAll; rw [e1]; rfl, ?_⟩
  have hdb : (if (t1.cache k).isSome = true then none else t1.db k) = none := by
    by_cases hu : (PSp.init.run dflt l).un k = true
    · have : t1.db k = none := by rw [h1.db k, h1.unv k hu]; rfl
      rw [this]; split <;> rfl
    · have hc := hn k hk (by simpa using hu)
      rw [if_pos hc]
  simp only [pget, pfresh, pload, hdb]
  simp

/-! ### Arrays -/

/-- The array without the value found keeps all the others: a value occurs once less than before, the others as often as before. -/
theorem removeFromArray_count [DecidableEq O] (l : List O) (v w : O) :
    (removeFromArray l v).1.count w = if w = v then l.count w - 1 else l.count w := by
  unfold removeFromArray
  cases hf : l.findIdx? (· = v) with
  | none =>
    have hv : v ∉ l := fun h => by
      rw [List.findIdx?_eq_none_iff] at hf
      have := hf v h; simp at this
    dsimp only
    by_cases e : w = v
    · subst e; rw [if_pos rfl, List.count_eq_zero.2 hv]
    · rw [if_neg e]
  | some i =>
    rw [List.findIdx?_eq_some_iff_getElem] at hf
    obtain ⟨hi, hp, _⟩ := hf
    have hv : l[i] = v := by simpa using hp
    have hne : l ≠ [] := by rintro rfl; simp at hi
    have hl := List.dropLast_concat_getLast hne
    rw [List.getLast?_eq_some_getLast hne]
    dsimp only
    have hcw : l.count w = (l.dropLast).count w + if l.getLast hne = w then 1 else 0 := by
      conv => lhs; rw [← hl]
      rw [List.count_append]; congr 1
      rw [List.count_singleton]; simp
    by_cases hlast : i < l.length - 1
    · rw [if_pos hlast]
      have hi' : i < l.dropLast.length := by simpa using hlast
      have hdi : l.dropLast[i] = v := by rw [List.getElem_dropLast]; exact hv
      rw [List.count_set hi', hcw, hdi]
      by_cases e : w = v
      · subst e
        have : 0 < List.count w l.dropLast := List.count_pos_iff.2 (by rw [← hdi]; exact List.getElem_mem hi')
        simp only [beq_self_eq_true, if_true]
        by_cases e2 : l.getLast hne = w
        · simp [e2]; omega
        · simp [e2]
      · have e' : (v == w) = false := by simpa using fun x => e x.symm
        simp only [e', Bool.false_eq_true, if_false, if_neg e, beq_iff_eq]; omega
    · rw [if_neg hlast]
      have : l.getLast hne = v := by
        rw [List.getLast_eq_getElem, ← hv]; congr 1; omega
      rw [hcw, this]
      by_cases e : w = v
      · subst e; simp
      · rw [if_neg e, if_neg (fun x => e x.symm)]; rfl

/-! ### Examples -/

def exRaw (n : Nat) : Nat := n
def exObj (n : Nat) : Option Nat := some n

/-- A history within the hypotheses of `C112_map_partial`: adding, changing, a new instance, removing, adding again. -/
example : RunOk exRaw exObj Sp.init [.set ['a', 'b'] 1, .set ['c'] 2, .set ['a', 'b'] 3, .fresh, .get ['c'], .remove ['a', 'b'], .set ['a', 'b'] 4, .fresh] := by
  simp [RunOk, OpOk, Sp.step, Sp.init, upd, exRaw, exObj, Readable, join]

example : ((run exRaw exObj (init : St Nat Nat) [.set ['a', 'b'] 1, .set ['c'] 2, .set ['a', 'b'] 3, .fresh, .get ['c'], .remove ['a', 'b'],
    .set ['a', 'b'] 4, .fresh]).map fun s => (keysOf s, (get exObj s ['a', 'b']).2, (get exObj s ['c']).2)) =
    some ([['c'], ['a', 'b']], some 4, some 2) := by decide +kernel

/-- Removing in the instance that has added. -/
example : ((run exRaw exObj (init : St Nat Nat) [.set ['a', 'b'] 1, .remove ['a', 'b']]).map fun s =>
    (contains s ['a', 'b'], (get exObj s ['a', 'b']).2)) = some (true, some 1) := by decide +kernel

/-- Three keys, `remove_all` in the next instance: the second stays. -/
example : ((run exRaw exObj (init : St Nat Nat) [.set ['a', 'b'] 1, .set ['c', 'd'] 2, .set ['e', 'f'] 3, .fresh]).map fun s =>
    keysOf (removeAll s)) = some [['c', 'd']] := by decide +kernel

example : prun (fun _ => some (.int 7)) pinit [.set ['x'] (.bool true), .fresh, .unset ['y']] ≠ none := by
  obtain ⟨t, u, v, e, _⟩ := C114_last_value (dflt := fun _ => some (.int 7)) [.set ['x'] (.bool true), .fresh, .unset ['y']] ['x']
  rw [e]; simp

example : ((pset pinit ['x'] (.int (-129))).bind fun t => (pget (fun _ => none) (pfresh t) ['x']).map (·.2)) = some (some (.int (-129))) := by
  decide +kernel

example : removeFromArray [4, 5, 6, 7] 5 = ([4, 7, 6], 1) := by decide +kernel

end Verif.PyDb
