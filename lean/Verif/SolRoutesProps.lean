import Verif.SolRoutesTab
/-!
Properties C43, C48, C56 and C70 for the Solidity management contract.
-/
namespace Verif.SolRoutes
open Verif
open Verif.SolBmc (upd)

variable (na : String → Option String)

/-! ### What the calls leave alone -/

/-- The parts no route change touches. -/
def Frame (s s' : St) : Prop :=
  s'.owners = s.owners ∧ s'.numOwner = s.numOwner ∧ s'.bmv = s.bmv ∧ s'.bsh = s.bsh ∧ s'.bmvKeys = s.bmvKeys ∧ s'.bshKeys = s.bshKeys ∧
  s'.isLink = s.isLink ∧ s'.relays = s.relays

theorem Frame.refl (s : St) : Frame s s := ⟨rfl, rfl, rfl, rfl, rfl, rfl, rfl, rfl⟩

theorem Frame.trans {a b c : St} (h : Frame a b) (g : Frame b c) : Frame a c := by
  obtain ⟨h1, h2, h3, h4, h5, h6, h7, h8⟩ := h
  obtain ⟨g1, g2, g3, g4, g5, g6, g7, g8⟩ := g
  exact ⟨g1.trans h1, g2.trans h2, g3.trans h3, g4.trans h4, g5.trans h5, g6.trans h6, g7.trans h7, g8.trans h8⟩

theorem rri_frame {s s' : St} {dst link : String} {b : Bool} (h : removeRouteInfo na s dst b link = some s') : Frame s s' := by
  obtain ⟨-, ⟨-, nx, -, e⟩ | ⟨-, -, e⟩⟩ := rri_cases na h <;> subst e <;> exact ⟨rfl, rfl, rfl, rfl, rfl, rfl, rfl, rfl⟩

theorem ari_frame (s : St) (dst link : String) (t : RT) : Frame s (addRouteInfo s dst link t) := by
  unfold addRouteInfo
  dsimp only
  split <;> split <;> (try split) <;> exact ⟨rfl, rfl, rfl, rfl, rfl, rfl, rfl, rfl⟩

theorem removeAll_frame (link : String) : ∀ (l : List String) (s s' : St), removeAll na link l s = some s' → Frame s s'
  | [], s, s', h => by simp only [removeAll, Option.some.injEq] at h; subst h; exact Frame.refl _
  | r :: t, s, s', h => by
    simp only [removeAll] at h
    cases hn : na r with
    | none => rw [hn] at h; cases h
    | some n =>
      rw [hn] at h
      dsimp only at h
      cases h1 : removeRouteInfo na s n true link with
      | none => rw [h1] at h; cases h
      | some s1 => rw [h1] at h; exact (rri_frame na h1).trans (removeAll_frame link t s1 s' h)

/-- A removed link is no longer a link and has no relays; nothing else about owners, services, verifiers, relays changes. -/
theorem removeLink_eff {s s' : St} {link : String} (h : removeLink na s link = some s') :
    s.isLink link = true ∧ ∃ s2, Frame s s2 ∧ Frame { s2 with isLink := upd s2.isLink link false, relays := upd s2.relays link [] } s' := by
  unfold removeLink at h
  split at h; · cases h
  rename_i hl
  split at h; · cases h
  cases hn : na link with
  | none => rw [hn] at h; cases h
  | some net =>
    rw [hn] at h
    dsimp only at h
    cases h1 : removeRouteInfo na s net false "" with
    | none => rw [h1] at h; cases h
    | some s1 =>
      rw [h1] at h
      dsimp only at h
      cases h2 : remove s1.links link with
      | none => rw [h2] at h; cases h
      | some ls =>
        rw [h2] at h
        dsimp only at h
        cases h3 : removeAll na link (s1.reach link) { s1 with links := ls } with
        | none => rw [h3] at h; cases h
        | some s2 =>
          rw [h3] at h
          simp only [Option.some.injEq] at h
          refine ⟨by simpa using hl, s2, ?_, ?_⟩
          · exact (rri_frame na h1).trans (Frame.trans (b := { s1 with links := ls }) ⟨rfl, rfl, rfl, rfl, rfl, rfl, rfl, rfl⟩ (removeAll_frame na link _ _ _ h3))
          · subst h; exact ⟨rfl, rfl, rfl, rfl, rfl, rfl, rfl, rfl⟩

theorem addLink_eff {s s' : St} {link : String} (h : addLink na s link = some s') :
    Frame { s with isLink := upd s.isLink link true } s' := by
  unfold addLink at h
  cases hn : na link with
  | none => rw [hn] at h; cases h
  | some net =>
    rw [hn] at h
    dsimp only at h
    split at h; · cases h
    split at h; · cases h
    simp only [Option.some.injEq] at h
    subst h
    have := ari_frame { (propagate s (.link link)) with
      isLink := upd (propagate s (.link link)).isLink link true, reach := upd (propagate s (.link link)).reach link [], links := (propagate s (.link link)).links ++ [link] } net link .link
    exact Frame.trans (b := addRouteInfo { (propagate s (.link link)) with
      isLink := upd (propagate s (.link link)).isLink link true, reach := upd (propagate s (.link link)).reach link [], links := (propagate s (.link link)).links ++ [link] } net link .link)
      this ⟨rfl, rfl, rfl, rfl, rfl, rfl, rfl, rfl⟩

theorem addRoute_frame {s s' : St} {d l : String} (h : addRoute s d l = some s') : Frame s s' := by
  unfold addRoute at h
  split at h; · cases h
  split at h; · cases h
  split at h; · cases h
  cases h; exact ari_frame _ _ _ _

theorem removeRoute_frame {s s' : St} {d : String} (h : removeRoute na s d = some s') : Frame s s' := by
  unfold removeRoute at h
  split at h; · cases h
  exact rri_frame na h

theorem setFee_frame {s s' : St} {d : String} {v : List Nat} (h : setFee s d v = some s') : Frame s s' := by
  unfold setFee at h
  split at h
  · split at h; · cases h
    split at h; · cases h
    split at h; · cases h
    cases h; exact ⟨rfl, rfl, rfl, rfl, rfl, rfl, rfl, rfl⟩
  · cases h; exact ⟨rfl, rfl, rfl, rfl, rfl, rfl, rfl, rfl⟩

theorem addReachable_frame {s s' : St} {f r : String} (h : addReachable na s f r = some s') : Frame s s' := by
  unfold addReachable at h
  cases hn : na r with
  | none => rw [hn] at h; cases h
  | some n =>
    rw [hn] at h
    simp only [Option.some.injEq] at h
    subst h
    exact Frame.trans (b := { s with reach := upd s.reach (s.route f).next (s.reach (s.route f).next ++ [r]) })
      ⟨rfl, rfl, rfl, rfl, rfl, rfl, rfl, rfl⟩ (ari_frame _ _ _ _)

theorem removeReachable_frame {s s' : St} {f r : String} (h : removeReachable na s f r = some s') : Frame s s' := by
  unfold removeReachable at h
  dsimp only at h
  cases h1 : remove (s.reach (s.route f).next) r with
  | none => rw [h1] at h; cases h
  | some rs =>
    rw [h1] at h
    dsimp only at h
    cases hn : na r with
    | none => rw [hn] at h; cases h
    | some n =>
      rw [hn] at h
      exact Frame.trans (b := { s with reach := upd s.reach (s.route f).next rs }) ⟨rfl, rfl, rfl, rfl, rfl, rfl, rfl, rfl⟩ (rri_frame na h)

/-- What each call does to owners, services, verifiers, link flags and relays. -/
theorem act_eff {s s' : St} {o : Op} (h : act na s o = some s') :
    match o with
    | .addOwner a => a ≠ 0 ∧ s.owners a = false ∧ Frame { s with owners := upd s.owners a true, numOwner := s.numOwner + 1 } s'
    | .removeOwner a => s.owners a = true ∧ s.numOwner > 1 ∧ Frame { s with owners := upd s.owners a false, numOwner := s.numOwner - 1 } s'
    | .addService k a => a ≠ 0 ∧ s.bsh k = 0 ∧ Frame { s with bsh := upd s.bsh k a, bshKeys := s.bshKeys ++ [k] } s'
    | .removeService k => s.bsh k ≠ 0 ∧ Frame { s with bsh := upd s.bsh k 0, bshKeys := swapRemove s.bshKeys k } s'
    | .addVerifier k a => a ≠ 0 ∧ s.bmv k = 0 ∧ Frame { s with bmv := upd s.bmv k a, bmvKeys := s.bmvKeys ++ [k] } s'
    | .removeVerifier k => s.bmv k ≠ 0 ∧ Frame { s with bmv := upd s.bmv k 0, bmvKeys := swapRemove s.bmvKeys k } s'
    | .addLink l => Frame { s with isLink := upd s.isLink l true } s'
    | .removeLink l => s.isLink l = true ∧ Frame { s with isLink := upd s.isLink l false, relays := upd s.relays l [] } s'
    | .addRelay l a => a ≠ 0 ∧ s.isLink l = true ∧ a ∉ s.relays l ∧ Frame { s with relays := upd s.relays l (s.relays l ++ [a]) } s'
    | .removeRelay l a => s.isLink l = true ∧ a ∈ s.relays l ∧ Frame { s with relays := upd s.relays l (swapRemove (s.relays l) a) } s'
    | _ => Frame s s' := by
  cases o with
  | addOwner a =>
    simp only [act, addOwner] at h
    split at h; · cases h
    split at h; · cases h
    cases h; exact ⟨‹_›, by simpa using ‹¬ s.owners a = true›, Frame.refl _⟩
  | removeOwner a =>
    simp only [act, removeOwner] at h
    split at h; · cases h
    split at h
    · cases h; exact ⟨by simpa using ‹¬ ¬ s.owners a = true›, ‹_›, Frame.refl _⟩
    · cases h
  | addService svc a =>
    simp only [act, addService] at h
    split at h; · cases h
    split at h; · cases h
    cases h; exact ⟨‹_›, Classical.not_not.1 ‹¬ s.bsh svc ≠ 0›, Frame.refl _⟩
  | removeService svc =>
    simp only [act, removeService] at h
    split at h; · cases h
    cases hr : remove s.bshKeys svc with
    | none => rw [hr] at h; cases h
    | some k => rw [hr] at h; cases h; exact ⟨‹_›, by rw [(remove_some hr).2]; exact Frame.refl _⟩
  | addVerifier net a =>
    simp only [act, addVerifier] at h
    split at h; · cases h
    split at h; · cases h
    cases h; exact ⟨‹_›, Classical.not_not.1 ‹¬ s.bmv net ≠ 0›, Frame.refl _⟩
  | removeVerifier net =>
    simp only [act, removeVerifier] at h
    split at h; · cases h
    cases hr : remove s.bmvKeys net with
    | none => rw [hr] at h; cases h
    | some k => rw [hr] at h; cases h; exact ⟨‹_›, by rw [(remove_some hr).2]; exact Frame.refl _⟩
  | addLink link => exact addLink_eff na h
  | removeLink link =>
    obtain ⟨h1, s2, ⟨f1, f2, f3, f4, f5, f6, f7, f8⟩, g1, g2, g3, g4, g5, g6, g7, g8⟩ := removeLink_eff na h
    exact ⟨h1, g1.trans f1, g2.trans f2, g3.trans f3, g4.trans f4, g5.trans f5, g6.trans f6, by rw [g7]; simp only [f7], by rw [g8]; simp only [f8]⟩
  | addRelay link a =>
    simp only [act, addRelay] at h
    split at h; · cases h
    split at h; · cases h
    split at h; · cases h
    cases h; exact ⟨‹_›, by simpa using ‹¬ ¬ s.isLink link = true›, ‹_›, ⟨rfl, rfl, rfl, rfl, rfl, rfl, rfl, rfl⟩⟩
  | removeRelay link a =>
    simp only [act, removeRelay] at h
    split at h; · cases h
    split at h; · cases h
    cases hr : remove (s.relays link) a with
    | none => rw [hr] at h; cases h
    | some k =>
      rw [hr] at h; cases h
      exact ⟨by simpa using ‹¬ ¬ s.isLink link = true›, Classical.not_not.1 ‹¬ a ∉ s.relays link›, by rw [(remove_some hr).2]; exact Frame.refl _⟩
  | addRoute dst link => exact addRoute_frame h
  | removeRoute dst => exact removeRoute_frame na h
  | setFee dst v => exact setFee_frame h
  | addReachable f r => exact addReachable_frame na h
  | removeReachable f r => exact removeReachable_frame na h

theorem call_act {service : Nat} {s s' : St} {snd : Nat} {o : Op} (h : call na service s snd o = some s') :
    act na s o = some s' ∧ (o.byService = false → s.owners snd = true) := by
  unfold call at h
  split at h
  · rename_i hb
    split at h
    · exact ⟨h, fun e => by rw [hb] at e; cases e⟩
    · cases h
  · split at h
    · rename_i ho; exact ⟨h, fun _ => ho⟩
    · cases h

theorem run_snoc (service creator : Nat) (ops : List (Nat × Op)) (o : Nat × Op) :
    run na service creator (ops ++ [o]) = (call na service (run na service creator ops) o.1 o.2).getD (run na service creator ops) := by
  unfold run; rw [List.foldl_append]; rfl

/-- What every call preserves holds after every history. -/
theorem run_ind {service creator : Nat} (P : St → Prop) (h0 : P (init creator))
    (hs : ∀ s s' snd o, P s → call na service s snd o = some s' → P s') (ops : List (Nat × Op)) : P (run na service creator ops) := by
  unfold run
  generalize init creator = s at h0
  induction ops generalizing s with
  | nil => exact h0
  | cons o t ih =>
    rw [List.foldl_cons]
    apply ih
    cases h : call na service s o.1 o.2 with
    | none => exact h0
    | some s' => exact hs s s' _ _ h0 h

/-- Induction along histories by their last call. -/
theorem snoc_ind {α : Type} {P : List α → Prop} (h0 : P []) (hs : ∀ l a, P l → P (l ++ [a])) (l : List α) : P l := by
  have : ∀ l : List α, P l.reverse := by
    intro l
    induction l with
    | nil => exact h0
    | cons a t ih => rw [List.reverse_cons]; exact hs _ _ ih
  have h := this l.reverse
  rwa [List.reverse_reverse] at h

/-! ### C56: ownership -/

/-- **C56**: after every history of calls by anyone, the counted owners are exactly the accounts `isOwner` accepts and there is at
    least one. -/
theorem C56_never_ownerless (service creator : Nat) (ops : List (Nat × Op)) :
    ∃ l : List Nat, l.Nodup ∧ (∀ a, (run na service creator ops).owners a = true ↔ a ∈ l) ∧
      l.length = (run na service creator ops).numOwner ∧ 1 ≤ l.length := by
  apply run_ind na (fun s => ∃ l : List Nat, l.Nodup ∧ (∀ a, s.owners a = true ↔ a ∈ l) ∧ l.length = s.numOwner ∧ 1 ≤ l.length)
  · exact ⟨[creator], by simp, by simp [init], rfl, by simp⟩
  · intro s s' snd o ⟨l, h1, h2, h3, h4⟩ h
    have he := act_eff na (call_act na h).1
    have keep : Frame s s' → ∃ l : List Nat, l.Nodup ∧ (∀ a, s'.owners a = true ↔ a ∈ l) ∧ l.length = s'.numOwner ∧ 1 ≤ l.length :=
      fun f => ⟨l, h1, by rw [f.1]; exact h2, by rw [f.2.1]; exact h3, h4⟩
    have keep' : s'.owners = s.owners → s'.numOwner = s.numOwner →
        ∃ l : List Nat, l.Nodup ∧ (∀ a, s'.owners a = true ↔ a ∈ l) ∧ l.length = s'.numOwner ∧ 1 ≤ l.length :=
      fun f g => ⟨l, h1, by rw [f]; exact h2, by rw [g]; exact h3, h4⟩
    cases o with
    | addOwner a =>
      obtain ⟨-, e, f⟩ := he
      have hn : a ∉ l := fun hm => by rw [(h2 a).2 hm] at e; cases e
      refine ⟨a :: l, List.nodup_cons.2 ⟨hn, h1⟩, fun x => ?_, by rw [f.2.1, List.length_cons, h3], by simp⟩
      rw [f.1]
      by_cases ex : x = a
      · subst ex; simp [upd_self]
      · simp only [upd_ne _ _ ex, List.mem_cons, ex, false_or]; exact h2 x
    | removeOwner a =>
      obtain ⟨e, hgt, f⟩ := he
      have hm := (h2 a).1 e
      have hl := List.length_erase_of_mem hm
      refine ⟨l.erase a, h1.erase a, fun x => ?_, by rw [f.2.1, hl, h3], by rw [hl, h3]; omega⟩
      rw [f.1, h1.mem_erase_iff]
      by_cases ex : x = a
      · subst ex; simp [upd_self]
      · simp only [upd_ne _ _ ex, ne_eq, ex, not_false_eq_true, true_and]; exact h2 x
    | addService k a => exact keep' he.2.2.1 he.2.2.2.1
    | removeService k => exact keep' he.2.1 he.2.2.1
    | addVerifier k a => exact keep' he.2.2.1 he.2.2.2.1
    | removeVerifier k => exact keep' he.2.1 he.2.2.1
    | addLink l => exact keep' he.1 he.2.1
    | removeLink l => exact keep' he.2.1 he.2.2.1
    | addRelay l a => exact keep' he.2.2.2.1 he.2.2.2.2.1
    | removeRelay l a => exact keep' he.2.2.1 he.2.2.2.1
    | addRoute d l => exact keep he
    | removeRoute d => exact keep he
    | setFee d v => exact keep he
    | addReachable f r => exact keep he
    | removeReachable f r => exact keep he

/-- **C56**: only an owner's `addOwner` or `removeOwner` changes who is an owner, and it changes that one account only. -/
theorem C56_only_owners {service snd : Nat} {s s' : St} {o : Op} (h : call na service s snd o = some s') (a : Nat)
    (hc : s'.owners a ≠ s.owners a) :
    s.owners snd = true ∧ ((o = .addOwner a ∧ s'.owners a = true) ∨ (o = .removeOwner a ∧ s'.owners a = false)) := by
  obtain ⟨h1, h2⟩ := call_act na h
  have he := act_eff na h1
  cases o with
  | addOwner b =>
    have hv := he.2.2.1
    by_cases e : a = b
    · subst e; exact ⟨h2 rfl, Or.inl ⟨rfl, by rw [hv]; exact upd_self ..⟩⟩
    · exact absurd (by rw [hv]; exact upd_ne _ _ e) hc
  | removeOwner b =>
    have hv := he.2.2.1
    by_cases e : a = b
    · subst e; exact ⟨h2 rfl, Or.inr ⟨rfl, by rw [hv]; exact upd_self ..⟩⟩
    · exact absurd (by rw [hv]; exact upd_ne _ _ e) hc
  | addService k b => exact absurd (congrFun he.2.2.1 a) hc
  | removeService k => exact absurd (congrFun he.2.1 a) hc
  | addVerifier k b => exact absurd (congrFun he.2.2.1 a) hc
  | removeVerifier k => exact absurd (congrFun he.2.1 a) hc
  | addLink l => exact absurd (congrFun he.1 a) hc
  | removeLink l => exact absurd (congrFun he.2.1 a) hc
  | addRelay l b => exact absurd (congrFun he.2.2.2.1 a) hc
  | removeRelay l b => exact absurd (congrFun he.2.2.1 a) hc
  | addRoute d l => exact absurd (congrFun he.1 a) hc
  | removeRoute d => exact absurd (congrFun he.1 a) hc
  | setFee d v => exact absurd (congrFun he.1 a) hc
  | addReachable f r => exact absurd (congrFun he.1 a) hc
  | removeReachable f r => exact absurd (congrFun he.1 a) hc

/-! ### C70: service and verifier tables -/

/-- A key list and its table agree. -/
def Keyed (keys : List String) (tab : String → Nat) : Prop := keys.Nodup ∧ ∀ k, k ∈ keys ↔ tab k ≠ 0

theorem Keyed.add {keys : List String} {tab : String → Nat} {k : String} {a : Nat} (h : Keyed keys tab) (h0 : tab k = 0) (ha : a ≠ 0) :
    Keyed (keys ++ [k]) (upd tab k a) := by
  refine ⟨?_, fun x => ?_⟩
  · rw [List.nodup_append]
    refine ⟨h.1, by simp, fun y hy z hz e => ?_⟩
    simp only [List.mem_singleton] at hz
    subst hz; subst e
    exact (h.2 y).1 hy h0
  · by_cases e : x = k
    · subst e; rw [upd_self]; simp [ha]
    · rw [upd_ne _ _ e, List.mem_append, h.2 x]; simp [e]

theorem Keyed.drop {keys : List String} {tab : String → Nat} {k : String} (h : Keyed keys tab) :
    Keyed (swapRemove keys k) (upd tab k 0) := by
  have hs := swapRemove_nodup keys k h.1
  refine ⟨hs.1, fun x => ?_⟩
  by_cases e : x = k
  · subst e; rw [upd_self]; simp [hs.2.1]
  · rw [upd_ne _ _ e, hs.2.2 x, h.2 x]; simp [e]

/-- **C70**: after every history of calls by anyone, the lists of services and of verifiers name each registered one exactly once
    and nothing else. -/
theorem C70_tables (service creator : Nat) (ops : List (Nat × Op)) :
    Keyed (run na service creator ops).bshKeys (run na service creator ops).bsh ∧
    Keyed (run na service creator ops).bmvKeys (run na service creator ops).bmv := by
  apply run_ind na (fun s => Keyed s.bshKeys s.bsh ∧ Keyed s.bmvKeys s.bmv)
  · exact ⟨⟨List.nodup_nil, by simp [init]⟩, ⟨List.nodup_nil, by simp [init]⟩⟩
  · intro s s' snd o hI h
    have he := act_eff na (call_act na h).1
    have keep : ∀ t : St, Frame t s' → t.bsh = s.bsh → t.bshKeys = s.bshKeys → t.bmv = s.bmv → t.bmvKeys = s.bmvKeys →
        Keyed s'.bshKeys s'.bsh ∧ Keyed s'.bmvKeys s'.bmv := by
      intro t ⟨f1, f2, f3, f4, f5, f6, f7, f8⟩ e1 e2 e3 e4
      rw [f3, f4, f5, f6, e1, e2, e3, e4]; exact hI
    cases o with
    | addOwner a => exact keep _ he.2.2 rfl rfl rfl rfl
    | removeOwner a => exact keep _ he.2.2 rfl rfl rfl rfl
    | addService k a =>
      obtain ⟨h0, h1, f1, f2, f3, f4, f5, f6, f7, f8⟩ := he
      rw [f3, f4, f5, f6]; exact ⟨hI.1.add h1 h0, hI.2⟩
    | removeService k =>
      obtain ⟨h0, f1, f2, f3, f4, f5, f6, f7, f8⟩ := he
      rw [f3, f4, f5, f6]; exact ⟨hI.1.drop, hI.2⟩
    | addVerifier k a =>
      obtain ⟨h0, h1, f1, f2, f3, f4, f5, f6, f7, f8⟩ := he
      rw [f3, f4, f5, f6]; exact ⟨hI.1, hI.2.add h1 h0⟩
    | removeVerifier k =>
      obtain ⟨h0, f1, f2, f3, f4, f5, f6, f7, f8⟩ := he
      rw [f3, f4, f5, f6]; exact ⟨hI.1, hI.2.drop⟩
    | addLink l => exact keep _ he rfl rfl rfl rfl
    | removeLink l => exact keep _ he.2 rfl rfl rfl rfl
    | addRelay l a => exact keep _ he.2.2.2 rfl rfl rfl rfl
    | removeRelay l a => exact keep _ he.2.2 rfl rfl rfl rfl
    | addRoute d l => exact keep _ he rfl rfl rfl rfl
    | removeRoute d => exact keep _ he rfl rfl rfl rfl
    | setFee d v => exact keep _ he rfl rfl rfl rfl
    | addReachable f r => exact keep _ he rfl rfl rfl rfl
    | removeReachable f r => exact keep _ he rfl rfl rfl rfl

/-- **C70**: a service's address never changes while it stays registered. -/
theorem C70_service_fixed {service snd : Nat} {s s' : St} {o : Op} (h : call na service s snd o = some s') (k : String)
    (hc : s'.bsh k ≠ s.bsh k) : s.owners snd = true ∧ (s.bsh k = 0 ∨ s'.bsh k = 0) := by
  obtain ⟨h1, h2⟩ := call_act na h
  have he := act_eff na h1
  cases o with
  | addService j b =>
    have hv := he.2.2.2.2.2.1
    by_cases e : k = j
    · subst e; exact ⟨h2 rfl, Or.inl he.2.1⟩
    · exact absurd (by rw [hv]; exact upd_ne _ _ e) hc
  | removeService j =>
    have hv := he.2.2.2.2.1
    by_cases e : k = j
    · subst e; exact ⟨h2 rfl, Or.inr (by rw [hv]; exact upd_self ..)⟩
    · exact absurd (by rw [hv]; exact upd_ne _ _ e) hc
  | addOwner b => exact absurd (congrFun he.2.2.2.2.2.1 k) hc
  | removeOwner b => exact absurd (congrFun he.2.2.2.2.2.1 k) hc
  | addVerifier j b => exact absurd (congrFun he.2.2.2.2.2.1 k) hc
  | removeVerifier j => exact absurd (congrFun he.2.2.2.2.1 k) hc
  | addLink l => exact absurd (congrFun he.2.2.2.1 k) hc
  | removeLink l => exact absurd (congrFun he.2.2.2.2.1 k) hc
  | addRelay l b => exact absurd (congrFun he.2.2.2.2.2.2.1 k) hc
  | removeRelay l b => exact absurd (congrFun he.2.2.2.2.2.1 k) hc
  | addRoute d l => exact absurd (congrFun he.2.2.2.1 k) hc
  | removeRoute d => exact absurd (congrFun he.2.2.2.1 k) hc
  | setFee d v => exact absurd (congrFun he.2.2.2.1 k) hc
  | addReachable f r => exact absurd (congrFun he.2.2.2.1 k) hc
  | removeReachable f r => exact absurd (congrFun he.2.2.2.1 k) hc

/-! ### C43: relays -/

/-- Relay lists have no duplicates; what is not a link has no relays. -/
def RelayInv (s : St) : Prop := (∀ l, (s.relays l).Nodup) ∧ ∀ l, s.isLink l = false → s.relays l = []

/-- What a call does to a link's relays. -/
theorem relays_step {service snd : Nat} {s s' : St} {o : Op} (hI : RelayInv s) (h : call na service s snd o = some s') :
    RelayInv s' ∧ ∀ l a, a ∈ s'.relays l →
      (a ∈ s.relays l ∧ o ≠ .removeLink l ∧ o ≠ .removeRelay l a) ∨ (o = .addRelay l a ∧ s.owners snd = true ∧ s.isLink l = true) := by
  obtain ⟨h1, h2⟩ := call_act na h
  have he := act_eff na h1
  have keep : ∀ t : St, Frame t s' → t.relays = s.relays → t.isLink = s.isLink → (∀ l, o ≠ .removeLink l) → (∀ l a, o ≠ .removeRelay l a) →
      RelayInv s' ∧ ∀ l a, a ∈ s'.relays l →
      (a ∈ s.relays l ∧ o ≠ .removeLink l ∧ o ≠ .removeRelay l a) ∨ (o = .addRelay l a ∧ s.owners snd = true ∧ s.isLink l = true) := by
    intro t ⟨f1, f2, f3, f4, f5, f6, f7, f8⟩ e1 e2 n1 n2
    unfold RelayInv
    rw [f7, f8, e1, e2]
    exact ⟨hI, fun l a hm => Or.inl ⟨hm, n1 l, n2 l a⟩⟩
  cases o with
  | addOwner a => exact keep _ he.2.2 rfl rfl (by simp) (by simp)
  | removeOwner a => exact keep _ he.2.2 rfl rfl (by simp) (by simp)
  | addService k a => exact keep _ he.2.2 rfl rfl (by simp) (by simp)
  | removeService k => exact keep _ he.2 rfl rfl (by simp) (by simp)
  | addVerifier k a => exact keep _ he.2.2 rfl rfl (by simp) (by simp)
  | removeVerifier k => exact keep _ he.2 rfl rfl (by simp) (by simp)
  | addLink l =>
    obtain ⟨f1, f2, f3, f4, f5, f6, f7, f8⟩ := he
    refine ⟨⟨by rw [f8]; exact hI.1, fun x hx => ?_⟩, fun x a hm => Or.inl ⟨by rw [f8] at hm; exact hm, by simp, by simp⟩⟩
    rw [f7] at hx
    rw [f8]
    by_cases e : x = l
    · subst e; simp [upd_self] at hx
    · simp only [upd_ne _ _ e] at hx; exact hI.2 x hx
  | removeLink l =>
    obtain ⟨-, f1, f2, f3, f4, f5, f6, f7, f8⟩ := he
    unfold RelayInv
    rw [f7, f8]
    refine ⟨⟨fun x => ?_, fun x hx => ?_⟩, fun x a hm => ?_⟩
    · by_cases e : x = l
      · subst e; simp only [upd_self]; exact List.nodup_nil
      · simp only [upd_ne _ _ e]; exact hI.1 x
    · by_cases e : x = l
      · subst e; simp only [upd_self]
      · simp only [upd_ne _ _ e] at hx ⊢; exact hI.2 x hx
    · by_cases e : x = l
      · subst e; simp [upd_self] at hm
      · simp only [upd_ne _ _ e] at hm
        exact Or.inl ⟨hm, fun h => e (by injection h with h; exact h.symm), by simp⟩
  | addRelay l b =>
    obtain ⟨-, hl, hn, f1, f2, f3, f4, f5, f6, f7, f8⟩ := he
    unfold RelayInv
    rw [f7, f8]
    refine ⟨⟨fun x => ?_, fun x hx => ?_⟩, fun x a hm => ?_⟩
    · by_cases e : x = l
      · subst e
        simp only [upd_self, List.nodup_append]
        exact ⟨hI.1 x, by simp, fun y hy z hz e => by simp only [List.mem_singleton] at hz; subst hz; exact hn (e ▸ hy)⟩
      · simp only [upd_ne _ _ e]; exact hI.1 x
    · by_cases e : x = l
      · subst e; rw [hl] at hx; cases hx
      · simp only [upd_ne _ _ e]; exact hI.2 x hx
    · by_cases e : x = l
      · subst e
        simp only [upd_self, List.mem_append, List.mem_singleton] at hm
        rcases hm with hm | hm
        · exact Or.inl ⟨hm, by simp, by simp⟩
        · subst hm; exact Or.inr ⟨rfl, h2 rfl, hl⟩
      · simp only [upd_ne _ _ e] at hm; exact Or.inl ⟨hm, by simp, by simp⟩
  | removeRelay l b =>
    obtain ⟨hl, hn, f1, f2, f3, f4, f5, f6, f7, f8⟩ := he
    unfold RelayInv
    rw [f7, f8]
    have hs := swapRemove_nodup (s.relays l) b (hI.1 l)
    refine ⟨⟨fun x => ?_, fun x hx => ?_⟩, fun x a hm => ?_⟩
    · by_cases e : x = l
      · subst e; simp only [upd_self]; exact hs.1
      · simp only [upd_ne _ _ e]; exact hI.1 x
    · by_cases e : x = l
      · subst e; rw [hl] at hx; cases hx
      · simp only [upd_ne _ _ e]; exact hI.2 x hx
    · by_cases e : x = l
      · subst e
        simp only [upd_self] at hm
        have := (hs.2.2 a).1 hm
        exact Or.inl ⟨this.1, by simp, fun h => this.2 (by injection h with h1 h2; exact h2.symm)⟩
      · simp only [upd_ne _ _ e] at hm
        exact Or.inl ⟨hm, by simp, fun h => e (by injection h with h1 h2; exact h1.symm)⟩
  | addRoute d l => exact keep _ he rfl rfl (by simp) (by simp)
  | removeRoute d => exact keep _ he rfl rfl (by simp) (by simp)
  | setFee d v => exact keep _ he rfl rfl (by simp) (by simp)
  | addReachable f r => exact keep _ he rfl rfl (by simp) (by simp)
  | removeReachable f r => exact keep _ he rfl rfl (by simp) (by simp)

theorem relayInv_run (service creator : Nat) (ops : List (Nat × Op)) : RelayInv (run na service creator ops) :=
  run_ind na RelayInv ⟨fun _ => List.nodup_nil, fun _ _ => rfl⟩ (fun _ _ _ _ hI h => (relays_step na hI h).1) ops

/-- **C43** (Solidity): whoever is a relay of a link was added by an owner, and since then neither that relay was removed nor the
    link: removing a link forgets its relays even when a link of that name is added again. -/
theorem C43_registered (service creator : Nat) (ops : List (Nat × Op)) (link : String) (a : Nat)
    (h : isLinkRelay (run na service creator ops) link a = some true) :
    ∃ pre snd post, ops = pre ++ (snd, Op.addRelay link a) :: post ∧
      (run na service creator pre).owners snd = true ∧ (run na service creator pre).isLink link = true ∧
      ∀ p x q, post = p ++ x :: q → (x.2 = .removeLink link ∨ x.2 = .removeRelay link a) →
        call na service (run na service creator (pre ++ (snd, Op.addRelay link a) :: p)) x.1 x.2 = none := by
  have hm : a ∈ (run na service creator ops).relays link := by
    unfold isLinkRelay at h
    split at h
    · simpa using h
    · cases h
  clear h
  revert hm
  induction ops using snoc_ind with
  | h0 => intro hm; simp [run, init] at hm
  | hs l o ih =>
    intro hm
    rw [run_snoc] at hm
    have ext : a ∈ (run na service creator l).relays link →
        ((o.2 = .removeLink link ∨ o.2 = .removeRelay link a) → call na service (run na service creator l) o.1 o.2 = none) →
        ∃ pre snd post, l ++ [o] = pre ++ (snd, Op.addRelay link a) :: post ∧
          (run na service creator pre).owners snd = true ∧ (run na service creator pre).isLink link = true ∧
          ∀ p x q, post = p ++ x :: q → (x.2 = .removeLink link ∨ x.2 = .removeRelay link a) →
            call na service (run na service creator (pre ++ (snd, Op.addRelay link a) :: p)) x.1 x.2 = none := by
      intro h1 h2
      obtain ⟨pre, snd, post, e, h3, h4, h5⟩ := ih h1
      refine ⟨pre, snd, post ++ [o], by rw [e]; simp, h3, h4, fun p x q hp hx => ?_⟩
      rcases List.eq_nil_or_concat q with rfl | ⟨q', y, rfl⟩
      · have := List.append_inj' hp (by simp)
        obtain ⟨rfl, e2⟩ := this
        simp only [List.cons.injEq, and_true] at e2
        subst e2
        rw [← e]
        exact h2 hx
      · have hp' : post ++ [o] = (p ++ x :: q') ++ [y] := by rw [hp]; simp
        have := List.append_inj' hp' (by simp)
        exact h5 p x q' this.1 hx
    cases hc : call na service (run na service creator l) o.1 o.2 with
    | none =>
      rw [hc] at hm
      exact ext hm (fun _ => hc)
    | some s' =>
      rw [hc] at hm
      have hstep := (relays_step na (relayInv_run na service creator l) hc).2 link a hm
      rcases hstep with ⟨h1, h2, h3⟩ | ⟨h1, h2, h3⟩
      · exact ext h1 (fun hx => by rcases hx with hx | hx; exact absurd hx h2; exact absurd hx h3)
      · refine ⟨l, o.1, [], by rw [← h1], h2, h3, fun p x q hp => ?_⟩
        simp at hp

/-- **C43** (Solidity): a relay call by anyone else reverts, whatever the verifier and the message contents say. -/
theorem C43_delivery (c : SolBmc.Cfg) (service creator : Nat) (ops : List (Nat × Op)) (env : SolBmc.Env) (caller : Nat) (prev : String)
    (items : SolBmc.Items) (s : SolBmc.St)
    (henv : ∀ l a, env.isRelay l a = (isLinkRelay (run na service creator ops) l a == some true))
    (hnot : ∀ pre snd post, ops ≠ pre ++ (snd, Op.addRelay prev caller) :: post) :
    SolBmc.exec c (.relay env caller prev items) s = none := by
  have hr : env.isRelay prev caller = false := by
    rw [henv]
    cases h : isLinkRelay (run na service creator ops) prev caller with
    | none => rfl
    | some b =>
      cases b with
      | false => rfl
      | true =>
        obtain ⟨pre, snd, post, e, -⟩ := C43_registered na service creator ops prev caller h
        exact absurd e (hnot pre snd post)
  simp [SolBmc.exec, hr]

/-! ### C48: link and route tables -/

/-- States reached by calls of owners and of the service contract that obey `Disc`. -/
inductive Good (service creator : Nat) : St → Prop
  | init : Good service creator (SolRoutes.init creator)
  | step (s s' : St) (snd : Nat) (o : Op) : Good service creator s → Disc na s o → call na service s snd o = some s' → Good service creator s'

theorem Good.tab {service creator : Nat} {s : St} (h : Good na service creator s) : Tab na s none [] := by
  induction h with
  | init => exact init_tab na creator
  | step s s' snd o _ hd hc ih => exact tab_act na ih hd (call_act na hc).1

/-- **C48**, partial: as long as a link is only added for a network without a route, no manual route is added over a direct link,
    and each link reports each network at most once and never a directly linked one, the tables are consistent: the link list
    has no duplicates, every direct link's network resolves to that link, and every resolution leads to a current link. -/
theorem C48_consistent_partial {service creator : Nat} {s : St} (h : Good na service creator s) :
    s.links.Nodup ∧ (∀ l, l ∈ s.links ↔ s.isLink l = true) ∧
    (∀ l ∈ s.links, ∃ n, na l = some n ∧ resolveNext s n = some l) ∧
    (∀ n l, resolveNext s n = some l → l ∈ s.links ∧ (na l = some n ∨ (s.route n).type = .manual ∨ some n ∈ (s.reach l).map na)) := by
  have T := h.tab
  refine ⟨T.nd, fun l => ⟨fun hl => (T.lk l hl).1, fun hl => (T.il l hl).elim id (fun e => by cases e)⟩, fun l hl => ?_, fun n l hr => ?_⟩
  · obtain ⟨-, n, h1, h2, h3⟩ := T.lk l hl
    exact ⟨n, h1, by unfold resolveNext; rw [if_pos (by rw [h2]; simp), h3]⟩
  · unfold resolveNext at hr
    split at hr
    · rename_i ht
      cases hr
      cases hty : (s.route n).type with
      | none => exact absurd hty ht
      | link => exact ⟨(T.tl n hty).1, Or.inl (T.tl n hty).2.1⟩
      | manual => exact ⟨T.mn n hty, Or.inr (Or.inl rfl)⟩
      | reachable =>
        rcases T.rt n hty with h1 | h1
        · exact ⟨h1.1, Or.inr (Or.inr (of_decide_eq_true h1.2))⟩
        · simp at h1
    · cases hr

/-- **C48**, partial: in such states an owner can always remove a link no manual route uses; afterwards nothing resolves to it. -/
theorem C48_removable_partial {service creator : Nat} {s : St} (h : Good na service creator s) {link : String} (hl : link ∈ s.links)
    (hm : ∀ n, (s.route n).type = .manual → (s.route n).next ≠ link) (snd : Nat) (ho : s.owners snd = true) :
    ∃ s', call na service s snd (.removeLink link) = some s' ∧ link ∉ s'.links ∧ (∀ n, resolveNext s' n ≠ some link) := by
  have T := h.tab
  obtain ⟨⟨s', hs'⟩, -⟩ := tab_removeLink na T (T.lk link hl).1 hm
  have hc : call na service s snd (.removeLink link) = some s' := by
    unfold call
    rw [if_neg (by simp [Op.byService]), if_pos ho]; exact hs'
  have hg : Good na service creator s' := .step s s' snd (.removeLink link) h trivial hc
  have hi := C48_consistent_partial na hg
  have hn : link ∉ s'.links := by
    intro hmem
    have := (hi.2.1 link).1 hmem
    obtain ⟨-, f⟩ := act_eff na (o := .removeLink link) hs'
    rw [f.2.2.2.2.2.2.1] at this
    simp [upd_self] at this
  exact ⟨s', hc, hn, fun n e => hn (hi.2.2.2 n link e).1⟩

/-- **C48**, partial: a link message that withdraws a reported network is always processed. -/
theorem C48_unlink_partial {service creator : Nat} {s : St} (h : Good na service creator s) {f r : String} (hl : (s.route f).next ∈ s.links)
    (hr : r ∈ s.reach (s.route f).next) : ∃ s', call na service s service (.removeReachable f r) = some s' := by
  obtain ⟨⟨s', hs'⟩, -⟩ := tab_removeReachable na h.tab hl hr
  exact ⟨s', by unfold call; rw [if_pos (by rfl), if_pos rfl]; exact hs'⟩

/-! ### Concrete cases -/

namespace Demo

/-- Three BMC addresses of networks 2, 3 and 4, and a second address on network 2. -/
def addr : String → Option String
  | "btp://0x2.eth/b" => some "0x2.eth"
  | "btp://0x2.eth/x" => some "0x2.eth"
  | "btp://0x3.eth/c" => some "0x3.eth"
  | "btp://0x4.eth/d" => some "0x4.eth"
  | _ => none

/-- Owner 1, service contract 7; verifiers for the three networks. -/
def base : List (Nat × Op) := [(1, .addVerifier "0x2.eth" 30), (1, .addVerifier "0x3.eth" 31), (1, .addVerifier "0x4.eth" 32)]

def st (ops : List (Nat × Op)) : St := run addr 7 1 (base ++ ops)

/-- A disciplined history reaching a state with two links, a reported network and a manual route. -/
def good : List (Nat × Op) :=
  [(1, .addLink "btp://0x2.eth/b"), (1, .addLink "btp://0x3.eth/c"), (7, .addReachable "0x2.eth" "btp://0x4.eth/d"),
   (7, .addReachable "0x3.eth" "btp://0x4.eth/d"), (1, .addRoute "0x9.icon" "0x3.eth")]

example : (st good).links = ["btp://0x2.eth/b", "btp://0x3.eth/c"] ∧ resolveNext (st good) "0x4.eth" = some "btp://0x2.eth/b" ∧
    ((st good).route "0x4.eth").reachable = 2 ∧ resolveNext (st good) "0x9.icon" = some "btp://0x3.eth/c" := by decide +kernel

/-- Removing the first link re-routes the network it reported through the other one. -/
example : resolveNext (st (good ++ [(1, .removeLink "btp://0x2.eth/b")])) "0x4.eth" = some "btp://0x3.eth/c" ∧
    (st (good ++ [(1, .removeLink "btp://0x2.eth/b")])).links = ["btp://0x3.eth/c"] := by decide +kernel

theorem good_step {s : St} (hs : Good addr 7 1 s) (snd : Nat) (o : Op) (hd : Disc addr s o) (hc : (call addr 7 s snd o).isSome) :
    Good addr 7 1 ((call addr 7 s snd o).getD s) := by
  cases h : call addr 7 s snd o with
  | none => rw [h] at hc; cases hc
  | some s' => exact .step s s' snd o hs hd h

/-- The hypothesis of the C48 theorems is met by a state with a link. -/
theorem good_link : Good addr 7 1 (st [(1, .addLink "btp://0x2.eth/b")]) := by
  have h1 : Good addr 7 1 (run addr 7 1 (base.take 1)) :=
    good_step .init 1 (.addVerifier "0x2.eth" 30) trivial (by decide +kernel)
  have h2 : Good addr 7 1 (run addr 7 1 (base.take 2)) := good_step h1 1 (.addVerifier "0x3.eth" 31) trivial (by decide +kernel)
  have h3 : Good addr 7 1 (run addr 7 1 base) := good_step h2 1 (.addVerifier "0x4.eth" 32) trivial (by decide +kernel)
  refine good_step h3 1 (.addLink "btp://0x2.eth/b") ?_ (by decide +kernel)
  intro n hn
  have : n = "0x2.eth" := by simpa [addr] using hn.symm
  subst this; decide +kernel

/-- **C48** fails (a): a network that is already reachable through another link and is then linked directly keeps its old route,
    is not recognised as a link, and can be linked again: the list then holds the link twice. -/
theorem C48_link_over_reachable_witness :
    resolveNext (st [(1, .addLink "btp://0x2.eth/b"), (7, .addReachable "0x2.eth" "btp://0x3.eth/c"), (1, .addLink "btp://0x3.eth/c")]) "0x3.eth"
      = some "btp://0x2.eth/b" ∧
    (st [(1, .addLink "btp://0x2.eth/b"), (7, .addReachable "0x2.eth" "btp://0x3.eth/c"), (1, .addLink "btp://0x3.eth/c"),
        (1, .addLink "btp://0x3.eth/c")]).links = ["btp://0x2.eth/b", "btp://0x3.eth/c", "btp://0x3.eth/c"] := by decide +kernel

/-- **C48** fails (b): a manual route over a direct link replaces it; a second link for the network can then be added. -/
theorem C48_manual_over_link_witness :
    resolveNext (st [(1, .addLink "btp://0x2.eth/b"), (1, .addLink "btp://0x3.eth/c"), (1, .addRoute "0x3.eth" "0x2.eth")]) "0x3.eth"
      = some "btp://0x2.eth/b" ∧
    (st [(1, .addLink "btp://0x2.eth/b"), (1, .addLink "btp://0x3.eth/c"), (1, .addRoute "0x3.eth" "0x2.eth"),
        (1, .addLink "btp://0x3.eth/c")]).links = ["btp://0x2.eth/b", "btp://0x3.eth/c", "btp://0x3.eth/c"] := by decide +kernel

/-- **C48** fails (c): a directly linked network that another link reports and then withdraws loses its route, though its link
    stays in the list. -/
theorem C48_unlink_deletes_link_witness :
    resolveNext (st [(1, .addLink "btp://0x2.eth/b"), (1, .addLink "btp://0x3.eth/c"), (7, .addReachable "0x2.eth" "btp://0x3.eth/c"),
        (7, .removeReachable "0x2.eth" "btp://0x3.eth/c")]) "0x3.eth" = none ∧
    "btp://0x3.eth/c" ∈ (st [(1, .addLink "btp://0x2.eth/b"), (1, .addLink "btp://0x3.eth/c"), (7, .addReachable "0x2.eth" "btp://0x3.eth/c"),
        (7, .removeReachable "0x2.eth" "btp://0x3.eth/c")]).links := by decide +kernel

/-- **C48** fails (d): a link that reports the same network twice (in its first message and again later) cannot be removed. -/
theorem C48_duplicate_report_witness :
    (removeLink addr (st [(1, .addLink "btp://0x2.eth/b"), (7, .addReachable "0x2.eth" "btp://0x4.eth/d"),
        (7, .addReachable "0x2.eth" "btp://0x4.eth/d")]) "btp://0x2.eth/b").isNone ∧
    (removeLink addr (st [(1, .addLink "btp://0x2.eth/b"), (7, .addReachable "0x2.eth" "btp://0x4.eth/d")]) "btp://0x2.eth/b").isSome := by
  decide +kernel

/-- **C48** fails (e): withdrawing a network the link never reported takes away another link's report. -/
theorem C48_false_withdrawal_witness :
    resolveNext (st [(1, .addLink "btp://0x2.eth/b"), (1, .addLink "btp://0x3.eth/c"), (7, .addReachable "0x2.eth" "btp://0x4.eth/d"),
        (7, .addReachable "0x3.eth" "btp://0x2.eth/x"), (7, .removeReachable "0x3.eth" "btp://0x4.eth/d")]) "0x4.eth" = none := by decide +kernel

/-- Owners: the only owner cannot be removed, with two the first can. -/
example : (st [(1, .removeOwner 1)]).owners 1 = true ∧ (st [(1, .addOwner 2), (1, .removeOwner 1)]).owners 1 = false ∧
    (st [(1, .addOwner 2), (1, .removeOwner 1), (2, .removeOwner 2)]).numOwner = 1 ∧ (st [(5, .addOwner 5)]).owners 5 = false := by decide +kernel

/-- Relays: registered while the link lasts, forgotten when it is removed and added again. -/
example : isLinkRelay (st [(1, .addLink "btp://0x2.eth/b"), (1, .addRelay "btp://0x2.eth/b" 9)]) "btp://0x2.eth/b" 9 = some true ∧
    isLinkRelay (st [(1, .addLink "btp://0x2.eth/b"), (1, .addRelay "btp://0x2.eth/b" 9), (1, .removeLink "btp://0x2.eth/b"),
      (1, .addLink "btp://0x2.eth/b")]) "btp://0x2.eth/b" 9 = some false := by decide +kernel

/-- Services: removing the first of three keeps the other two listed. -/
example : (st [(1, .addService "a" 11), (1, .addService "b" 12), (1, .addService "c" 13), (1, .removeService "a")]).bshKeys = ["c", "b"] := by
  decide +kernel

end Demo

end Verif.SolRoutes
