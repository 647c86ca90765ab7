import Verif.PyBmcLemmas
/-!
C122: numbers of the messages sent and taken by the Python message center.
-/
namespace Verif.PyBmc
open Verif Verif.BtpAddress

theorem grant_eq {s s' : St} {a : Nat} {p : Str} (h : addPermission s a p = some s') : ∃ m, s' = { s with perms := m } := by
  simp only [addPermission] at h
  split at h
  · cases h
  · split at h
    · cases h; exact ⟨_, rfl⟩
    · cases h
    · cases h; exact ⟨_, rfl⟩

theorem revoke_eq {s s' : St} {a : Nat} {p : Str} (h : removePermission s a p = some s') : ∃ m, s' = { s with perms := m } := by
  simp only [removePermission] at h
  split at h
  · cases h
  · split at h
    · cases h
    · cases h
    · cases h; exact ⟨_, rfl⟩

/-- Link texts are distinct, and every link has the generation under which its text was added. -/
structure Named (s : St) : Prop where
  nodup : (s.links.map (·.1)).Nodup
  name : ∀ k l, get s.links k = some l → s.names[l.gen]? = some k

theorem named_put {links : List (Str × Link)} {names : List Str} {k : Str} {l l' : Link} (hn : (links.map (·.1)).Nodup)
    (hm : ∀ k l, get links k = some l → names[l.gen]? = some k) (h : get links k = some l) (hg : l'.gen = l.gen) :
    ((put links k l').map (·.1)).Nodup ∧ ∀ k' l2, get (put links k l') k' = some l2 → names[l2.gen]? = some k' := by
  refine ⟨nodup_put _ _ _ hn, ?_⟩
  intro k' l2 h2
  rw [get_put] at h2
  by_cases e : k = k'
  · rw [if_pos e] at h2; cases h2; rw [hg, ← e]; exact hm k l h
  · rw [if_neg e] at h2; exact hm k' l2 h2

theorem named_step {q : Bool} {s s' : St} (e : Step q s s') (h : Named s) : Named s' := by
  obtain ⟨hn, hm⟩ := h
  cases e with
  | tx k l b hl => exact have h := named_put hn hm hl (l' := { l with tx := l.tx + 1 }) rfl; ⟨h.1, h.2⟩
  | link k l l' hl h1 h2 h3 h4 => exact ⟨(named_put hn hm hl h3).1, (named_put hn hm hl h3).2⟩
  | rx k l n hl => exact have h := named_put hn hm hl (l' := { l with rx := l.rx + n }) rfl; ⟨h.1, h.2⟩
  | grant _ a p hg => obtain ⟨m, rfl⟩ := grant_eq hg; exact ⟨hn, hm⟩
  | revoke _ a p hg => obtain ⟨m, rfl⟩ := revoke_eq hg; exact ⟨hn, hm⟩
  | addLink link a ha hv hl =>
    refine ⟨nodup_put _ _ _ hn, ?_⟩
    intro k' l2 h2
    simp only [get_put] at h2
    by_cases e : a.toStr = k'
    · rw [if_pos e] at h2; cases h2; simp [newLink, e]
    · rw [if_neg e] at h2
      have := hm k' l2 h2
      exact (List.getElem?_append_left (List.getElem?_eq_some_iff.1 this).1).trans this
  | delLink k hk =>
    refine ⟨nodup_del _ _ hn, ?_⟩
    intro k' l2 h2
    exact hm k' l2 (get_del_some _ _ _ _ hn h2).2
  | _ => exact ⟨hn, hm⟩

theorem named_init : Named initSt := ⟨List.nodup_nil, (by intro k l h; cases h)⟩

theorem run_named (c : Cfg) (ops : List Op) : Named (run c ops) := run_inv named_init (fun _ _ e h => named_step e h) ops

/-- Generations of the links are distinct. -/
theorem Named.unique {s : St} (h : Named s) {k k' : Str} {l l' : Link} (h1 : get s.links k = some l) (h2 : get s.links k' = some l')
    (e : l.gen = l'.gen) : k = k' := by
  have a := h.name k l h1
  have b := h.name k' l' h2
  rw [e] at a; rw [a] at b; exact Option.some.inj b

/-! ### Sent messages -/

def sentOf (g : Nat) : Event → Option Nat
  | .message g' _ n _ => if g' = g then some n else none
  | .onError _ _ _ => none

/-- The numbers sent over the link of generation `g`, in order. -/
def sent (s : St) (g : Nat) : List Nat := s.log.filterMap (sentOf g)

structure Sent (s : St) : Prop where
  named : Named s
  live : ∀ k l, get s.links k = some l → sent s l.gen = List.range' 1 l.tx
  fresh : ∀ g, s.names.length ≤ g → sent s g = []
  all : ∀ g, sent s g = List.range' 1 (sent s g).length
  next : ∀ g k n b, Event.message g k n b ∈ s.log → s.names[g]? = some k

theorem range'_succ (n : Nat) : List.range' 1 n ++ [n + 1] = List.range' 1 (n + 1) := by
  rw [List.range'_concat]; simp [Nat.add_comm]

theorem sent_step {q : Bool} {s s' : St} (e : Step q s s') (h : Sent s) : Sent s' := by
  have hN := named_step e h.named
  obtain ⟨hn, hl, hf, ha, hx⟩ := h
  cases e with
  | tx k l b hk =>
    have hs : ∀ g, sent { s with links := put s.links k { l with tx := l.tx + 1 }, log := s.log ++ [.message l.gen k (l.tx + 1) b] } g =
        if l.gen = g then List.range' 1 (l.tx + 1) else sent s g := by
      intro g
      simp only [sent, List.filterMap_append, List.filterMap_cons, List.filterMap_nil, sentOf]
      by_cases e : l.gen = g
      · rw [if_pos e, if_pos e]
        have := hl k l hk
        rw [e] at this
        simp only [sent] at this
        rw [this]; exact range'_succ l.tx
      · rw [if_neg e, if_neg e]; simp
    refine ⟨hN, ?_, ?_, ?_, ?_⟩
    · intro k' l2 h2
      simp only [get_put] at h2
      rw [hs]
      by_cases e : k = k'
      · rw [if_pos e] at h2; cases h2; simp
      · rw [if_neg e] at h2
        rw [if_neg (fun e2 => e (hn.unique hk h2 e2))]
        exact hl k' l2 h2
    · intro g hg
      rw [hs, if_neg ?_]
      · exact hf g hg
      · intro e; have := (List.getElem?_eq_some_iff.1 (hn.name k l hk)).1; simp only at hg; omega
    · intro g
      rw [hs]
      by_cases e : l.gen = g
      · rw [if_pos e]; simp
      · rw [if_neg e]; exact ha g
    · intro g k' n b' hm
      simp only [List.mem_append, List.mem_singleton] at hm
      rcases hm with hm | hm
      · exact hx g k' n b' hm
      · cases hm; exact hn.name k l hk
  | err svc sn code =>
    have hs : ∀ g, sent { s with log := s.log ++ [.onError svc sn code] } g = sent s g := by
      intro g; simp [sent, sentOf]
    refine ⟨hN, ?_, ?_, ?_, ?_⟩
    · intro k l h2; rw [hs]; exact hl k l h2
    · intro g hg; rw [hs]; exact hf g hg
    · intro g; rw [hs]; exact ha g
    · intro g k' n b' hm
      simp only [List.mem_append, List.mem_singleton] at hm
      rcases hm with hm | hm
      · exact hx g k' n b' hm
      · cases hm
  | link k l l' hk h1 h2 h3 h4 =>
    refine ⟨hN, ?_, hf, ha, hx⟩
    intro k' l2 hg
    simp only [get_put] at hg
    by_cases e : k = k'
    · rw [if_pos e] at hg; cases hg; rw [h3, h2]; exact hl k l hk
    · rw [if_neg e] at hg; exact hl k' l2 hg
  | rx k l n hk =>
    refine ⟨hN, ?_, hf, ha, hx⟩
    intro k' l2 hg
    simp only [get_put] at hg
    by_cases e : k = k'
    · rw [if_pos e] at hg; cases hg; exact hl k l hk
    · rw [if_neg e] at hg; exact hl k' l2 hg
  | grant _ a p hg => obtain ⟨m, rfl⟩ := grant_eq hg; exact ⟨hN, hl, hf, ha, hx⟩
  | revoke _ a p hg => obtain ⟨m, rfl⟩ := revoke_eq hg; exact ⟨hN, hl, hf, ha, hx⟩
  | addLink link a h1 hv hk =>
    refine ⟨hN, ?_, ?_, ha, ?_⟩
    · intro k' l2 h2
      simp only [get_put] at h2
      by_cases e : a.toStr = k'
      · rw [if_pos e] at h2; cases h2; exact hf _ (Nat.le_refl _)
      · rw [if_neg e] at h2; exact hl k' l2 h2
    · intro g hg; refine hf g ?_; simp only [List.length_append, List.length_singleton] at hg; omega
    · intro g k n b hm
      have := hx g k n b hm
      exact (List.getElem?_append_left (List.getElem?_eq_some_iff.1 this).1).trans this
  | delLink k hk =>
    refine ⟨hN, ?_, hf, ha, hx⟩
    intro k' l2 h2
    exact hl k' l2 (get_del_some _ _ _ _ hn.nodup h2).2
  | _ => exact ⟨hN, hl, hf, ha, hx⟩

theorem sent_init : Sent initSt :=
  ⟨named_init, (by intro k l h; cases h), fun _ _ => rfl, fun _ => rfl, (by intro g k n b h; cases h)⟩

variable (c : Cfg)

/-- C122: after every history the messages sent over a link since it was added are numbered 1, 2, … up to its counter, also for links
that were removed, and every message names the link it was sent over. -/
theorem C122_sent (ops : List Op) :
    (∀ k l, get (run c ops).links k = some l → sent (run c ops) l.gen = List.range' 1 l.tx) ∧
    (∀ g, sent (run c ops) g = List.range' 1 (sent (run c ops) g).length) ∧
    (∀ g k n b, Event.message g k n b ∈ (run c ops).log → (run c ops).names[g]? = some k) :=
  have h : Sent (run c ops) := run_inv sent_init (fun _ _ e h => sent_step e h) ops
  ⟨h.live, h.all, h.next⟩

/-- C122: no number is used twice for one link. -/
theorem C122_sent_once (ops : List Op) (g : Nat) : (sent (run c ops) g).Nodup := by
  rw [(C122_sent c ops).2.1 g]; exact List.nodup_range'

/-! ### Taken messages -/

/-- The numbers taken over the link of generation `g`, in order. -/
def taken (s : St) (g : Nat) : List Nat := (s.disp.filter (fun e => e.1 = g)).map (·.2.1)

mutual
/-- No relay call for a link is made while one for the same link (in `ks`) is under way. -/
def Op.fresh : Op → List Str → Bool
  | .relay _ prev _ items, ks => match PyAddr.fromString prev with
    | none => true
    | some a => !ks.contains a.toStr && items.fresh (a.toStr :: ks)
  | _, _ => true
def Items.fresh : Items → List Str → Bool
  | .nil, _ => true
  | .cons _ _ acts t, ks => acts.fresh ks && t.fresh ks
def Ops.fresh : Ops → List Str → Bool
  | .nil, _ => true
  | .cons o t, ks => o.fresh ks && t.fresh ks
end

/-- Outside the links under way the numbers taken are 1, 2, … up to the counter. -/
structure Taken (ks : List Str) (s : St) : Prop where
  named : Named s
  live : ∀ k l, get s.links k = some l → k ∉ ks → taken s l.gen = List.range' 1 l.rx
  fresh : ∀ g, s.names.length ≤ g → taken s g = []
  all : ∀ g k, s.names[g]? = some k → k ∉ ks → taken s g = List.range' 1 (taken s g).length

/-- For the links under way: the numbers in `f` are added, the counters stay. -/
structure Frame (ks : List Str) (f : Nat → List Nat) (s s' : St) : Prop where
  names : ∀ (g : Nat) (k : Str), s.names[g]? = some k → s'.names[g]? = some k
  added : ∀ k ∈ ks, ∀ g : Nat, s.names[g]? = some k → taken s' g = taken s g ++ f g
  new : ∀ k ∈ ks, ∀ g : Nat, s.names.length ≤ g → s'.names[g]? = some k → taken s' g = []
  kept : ∀ k ∈ ks, ∀ l', get s'.links k = some l' → l'.gen < s.names.length → ∃ l, get s.links k = some l ∧ l.gen = l'.gen ∧ l.rx = l'.rx

theorem Frame.refl (ks : List Str) (s : St) : Frame ks (fun _ => []) s s :=
  ⟨fun _ _ h => h, fun _ _ _ _ => by simp, fun _ _ g h1 h2 => absurd (List.getElem?_eq_some_iff.1 h2).1 (Nat.not_lt.2 h1),
    fun _ _ l' h _ => ⟨l', h, rfl, rfl⟩⟩

theorem names_len {s s' : St} (h : ∀ (g : Nat) (k : Str), s.names[g]? = some k → s'.names[g]? = some k) : s.names.length ≤ s'.names.length := by
  apply Nat.le_of_not_lt
  intro hlt
  have h1 : s.names[s'.names.length]? = some (s.names[s'.names.length]) := List.getElem?_eq_getElem hlt
  have := (List.getElem?_eq_some_iff.1 (h _ _ h1)).1
  omega

theorem Frame.trans {ks : List Str} {f f' : Nat → List Nat} {s s1 s2 : St} (h : Frame ks f s s1) (h2 : Frame ks f' s1 s2)
    (hf : ∀ g, s.names.length ≤ g → f' g = []) : Frame ks (fun g => f g ++ f' g) s s2 := by
  refine ⟨fun g k e => h2.names g k (h.names g k e), ?_, ?_, ?_⟩
  · intro k hk g e
    rw [h2.added k hk g (h.names g k e), h.added k hk g e, List.append_assoc]
  · intro k hk g hg e
    by_cases hlt : g < s1.names.length
    · have e1 : s1.names[g]? = some s1.names[g] := List.getElem?_eq_getElem hlt
      have e2 := h2.names g _ e1
      rw [e] at e2; cases e2
      rw [h2.added _ hk g e1, h.new _ hk g hg e1, hf g hg]; rfl
    · exact h2.new k hk g (by omega) e
  · intro k hk l' hl' hlt
    obtain ⟨l, h3, h4, h5⟩ := h2.kept k hk l' hl' (Nat.lt_of_lt_of_le hlt (names_len h.names))
    obtain ⟨l0, h6, h7, h8⟩ := h.kept k hk l h3 (by rw [h4]; exact hlt)
    exact ⟨l0, h6, h7.trans h4, h8.trans h5⟩

theorem Frame.trans0 {ks : List Str} {f : Nat → List Nat} {s s1 s2 : St} (h : Frame ks f s s1) (h2 : Frame ks (fun _ => []) s1 s2) :
    Frame ks f s s2 := by simpa using h.trans h2 (fun _ _ => rfl)

/-- A single change that takes nothing. -/
theorem quiet_step {ks : List Str} {s s' : St} (e : Step true s s') (h : Taken ks s) : Taken ks s' ∧ Frame ks (fun _ => []) s s' := by
  have hN := named_step e h.named
  obtain ⟨hn, hl, hf, ha⟩ := h
  have put_case : ∀ (k : Str) (l l' : Link), get s.links k = some l → l'.rx = l.rx → l'.gen = l.gen →
      (∀ k' l2, get (put s.links k l') k' = some l2 → ∃ l1, get s.links k' = some l1 ∧ l1.gen = l2.gen ∧ l1.rx = l2.rx) := by
    intro k l l' hk h1 h2 k' l2 hg
    rw [get_put] at hg
    by_cases e : k = k'
    · rw [if_pos e] at hg; cases hg; subst e; exact ⟨l, hk, h2.symm, h1.symm⟩
    · rw [if_neg e] at hg; exact ⟨l2, hg, rfl, rfl⟩
  have same : ∀ (s2 : St), Named s2 → s2.names = s.names → s2.disp = s.disp →
      (∀ k' l2, get s2.links k' = some l2 → ∃ l1, get s.links k' = some l1 ∧ l1.gen = l2.gen ∧ l1.rx = l2.rx) →
      Taken ks s2 ∧ Frame ks (fun _ => []) s s2 := by
    intro s2 hN hnm hd hk
    have ht : ∀ g, taken s2 g = taken s g := by intro g; simp only [taken, hd]
    refine ⟨⟨hN, ?_, ?_, ?_⟩, ⟨?_, ?_, ?_, ?_⟩⟩
    · intro k l h2 hks
      obtain ⟨l1, h3, h4, h5⟩ := hk k l h2
      rw [ht, ← h4, ← h5]; exact hl k l1 h3 hks
    · intro g hg; rw [ht]; exact hf g (hnm ▸ hg)
    · intro g k hg hks; rw [ht]; exact ha g k (hnm ▸ hg) hks
    · intro g k hg; rw [hnm]; exact hg
    · intro k _ g _; rw [ht]; simp
    · intro k _ g hg e; rw [hnm] at e; exact absurd (List.getElem?_eq_some_iff.1 e).1 (Nat.not_lt.2 hg)
    · intro k _ l' h2 _; exact hk k l' h2
  cases e with
  | tx k l b hk => exact same _ hN rfl rfl (put_case k l { l with tx := l.tx + 1 } hk rfl rfl)
  | link k l l' hk h1 h2 h3 h4 => exact same _ hN rfl rfl (put_case k l l' hk h1 h3)
  | rx k l n hk hq => cases hq
  | disp g n b hq => cases hq
  | grant _ a p hg => obtain ⟨m, rfl⟩ := grant_eq hg; exact same _ hN rfl rfl (fun k l h => ⟨l, h, rfl, rfl⟩)
  | revoke _ a p hg => obtain ⟨m, rfl⟩ := revoke_eq hg; exact same _ hN rfl rfl (fun k l h => ⟨l, h, rfl, rfl⟩)
  | addLink link a h1 hv hk =>
    refine ⟨⟨hN, ?_, ?_, ?_⟩, ⟨?_, ?_, ?_, ?_⟩⟩
    · intro k' l2 h2 hks
      simp only [get_put] at h2
      by_cases e : a.toStr = k'
      · rw [if_pos e] at h2; cases h2; exact hf _ (Nat.le_refl _)
      · rw [if_neg e] at h2; exact hl k' l2 h2 hks
    · intro g hg; refine hf g ?_; simp only [List.length_append, List.length_singleton] at hg; omega
    · intro g k hg hks
      by_cases hlt : g < s.names.length
      · exact ha g k ((List.getElem?_append_left hlt).symm.trans hg) hks
      · have : taken s g = [] := hf g (by omega)
        show taken s g = _
        have e2 : List.range' 1 (taken s g).length = [] := by rw [this]; rfl
        exact this.trans e2.symm
    · intro g k hg
      exact (List.getElem?_append_left (List.getElem?_eq_some_iff.1 hg).1).trans hg
    · intro k _ g _; exact (List.append_nil _).symm
    · intro k _ g hg _; exact hf g hg
    · intro k _ l' h2 hlt
      simp only [get_put] at h2
      by_cases e : a.toStr = k
      · rw [if_pos e] at h2; cases h2; exact absurd hlt (Nat.lt_irrefl _)
      · rw [if_neg e] at h2; exact ⟨l', h2, rfl, rfl⟩
  | delLink k hk =>
    exact same _ hN rfl rfl (fun k' l2 h2 => ⟨l2, (get_del_some _ _ _ _ hn.nodup h2).2, rfl, rfl⟩)
  | _ => exact same _ hN rfl rfl (fun k l h => ⟨l, h, rfl, rfl⟩)

theorem quiet_steps {ks : List Str} {s s' : St} (e : Steps true s s') (h : Taken ks s) : Taken ks s' ∧ Frame ks (fun _ => []) s s' := by
  induction e with
  | refl => exact ⟨h, Frame.refl ks s⟩
  | tail _ e ih => exact ⟨(quiet_step e ih.1).1, ih.2.trans0 (quiet_step e ih.1).2⟩

/-- The state after a message is noted. -/
theorem disp_taken {s : St} {gen seq : Nat} {b : Bytes} {key : Str} {ks : List Str} (hg : s.names[gen]? = some key) (h : Taken (key :: ks) s) :
    Taken (key :: ks) { s with disp := s.disp ++ [(gen, seq, b)] } ∧
    Frame (key :: ks) (fun g => if g = gen then [seq] else []) s { s with disp := s.disp ++ [(gen, seq, b)] } := by
  have ht : ∀ g, taken { s with disp := s.disp ++ [(gen, seq, b)] } g = taken s g ++ if g = gen then [seq] else [] := by
    intro g
    by_cases e : g = gen
    · simp [taken, e]
    · have e' : ¬ gen = g := fun x => e x.symm
      rw [if_neg e]; simp [taken, e']
  obtain ⟨hn, hl, hf, ha⟩ := h
  refine ⟨⟨⟨hn.nodup, hn.name⟩, ?_, ?_, ?_⟩, ⟨fun _ _ e => e, fun k _ g _ => ht g,
    fun _ _ g h1 h2 => absurd (List.getElem?_eq_some_iff.1 h2).1 (Nat.not_lt.2 h1), fun k _ l' h2 _ => ⟨l', h2, rfl, rfl⟩⟩⟩
  · intro k l h2 hks
    rw [ht, if_neg ?_, List.append_nil]
    · exact hl k l h2 hks
    · intro e
      have := hn.name k l h2
      rw [e, hg] at this; cases this; exact hks List.mem_cons_self
  · intro g hlt
    have := (List.getElem?_eq_some_iff.1 hg).1
    rw [ht, if_neg (by simp only at hlt; omega), List.append_nil]; exact hf g hlt
  · intro g k hk hks
    rw [ht, if_neg ?_, List.append_nil]
    · exact ha g k hk hks
    · intro e; subst e
      have hk : s.names[g]? = some k := hk
      rw [hg] at hk; cases hk; exact hks List.mem_cons_self

variable {c}

theorem Frame.weaken {ks : List Str} {key : Str} {f f' : Nat → List Nat} {s s' : St} (h : Frame (key :: ks) f s s')
    (hf : ∀ k ∈ ks, ∀ g : Nat, s.names[g]? = some k → f g = f' g) : Frame ks f' s s' :=
  ⟨h.names, fun k hk g hg => (h.added k (List.mem_cons_of_mem _ hk) g hg).trans (by rw [hf k hk g hg]), fun k hk => h.new k (List.mem_cons_of_mem _ hk),
    fun k hk => h.kept k (List.mem_cons_of_mem _ hk)⟩

theorem Taken.weaken {ks : List Str} {key : Str} {s : St} (h : Taken ks s) : Taken (key :: ks) s :=
  ⟨h.named, fun k l h1 h2 => h.live k l h1 (fun m => h2 (List.mem_cons_of_mem _ m)), h.fresh,
    fun g k h1 h2 => h.all g k h1 (fun m => h2 (List.mem_cons_of_mem _ m))⟩

mutual
theorem exec_taken (o : Op) (ks : List Str) (s s' : St) (ho : o.fresh ks = true) (h : exec c o s = some s') (hT : Taken ks s) :
    Taken ks s' ∧ Frame ks (fun _ => []) s s' := by
  cases o with
  | relay x prev v items =>
    simp only [exec] at h
    split at h
    · cases h
    · rename_i key gen rx s1 h1
      split at h
      · cases h
      · rename_i s2 h2
        obtain ⟨l2, hl2, hg2, e⟩ := closeRelay_spec h
        subst e
        have q1 := quiet_steps (openRelay_steps (q := true) h1) hT
        obtain ⟨a, l, bmv, l1, t, r, ha, hk, hl, hg, hrx, hb, hv, hr, hw, hs1⟩ := openRelay_spec h1
        simp only [Op.fresh, ha, ← hk, Bool.and_eq_true] at ho
        have hks : key ∉ ks := by simpa using ho.1
        have hname : s1.names[gen]? = some key := by rw [hg]; exact q1.2.names _ _ (hT.named.name key l hl)
        obtain ⟨t2, f2⟩ := execItems_taken items key gen (rx + 1) ks s1 s2 ho.2 h2 hname q1.1.weaken
        obtain ⟨k1, k2, k3, k4, _⟩ := rotate_link hr
        have hl1 : get s1.links key = some l1 := by rw [hs1]; exact get_put_same _ _ _
        have live1 : taken s1 gen = List.range' 1 rx := by
          have := q1.1.live key l1 hl1 hks
          rw [k3, k1] at this; rw [hg, hrx]; exact this
        have add2 : taken s2 gen = List.range' 1 (rx + items.msgs.length) := by
          rw [f2.added key List.mem_cons_self gen hname, live1, if_pos rfl]
          rw [Nat.add_comm rx 1]
          have := List.range'_append (s := 1) (m := rx) (n := items.msgs.length) (step := 1)
          rw [Nat.one_mul] at this; exact this
        have hlt : gen < s1.names.length := (List.getElem?_eq_some_iff.1 hname).1
        have hrx2 : l2.rx = rx := by
          obtain ⟨l3, e1, _, e3⟩ := f2.kept key List.mem_cons_self l2 hl2 (by rw [hg2]; exact hlt)
          rw [hl1] at e1; cases e1; rw [← e3, k1, hrx]
        have fr : Frame ks (fun _ => []) s s2 := by
          refine q1.2.trans0 (f2.weaken ?_)
          intro k hk2 g hg3
          refine if_neg (fun e => ?_)
          subst e; rw [hname] at hg3; cases hg3; exact hks hk2
        refine ⟨⟨named_step (.rx (q := false) s2 key l2 _ hl2 rfl) t2.named, ?_, t2.fresh, ?_⟩, ?_⟩
        · intro k l' h3 hk2
          simp only [get_put] at h3
          by_cases e : key = k
          · rw [if_pos e] at h3; cases h3
            show taken s2 l2.gen = List.range' 1 (l2.rx + _)
            rw [hg2, hrx2]; exact add2
          · rw [if_neg e] at h3
            exact t2.live k l' h3 (fun m => (List.mem_cons.1 m).elim (fun e2 => e e2.symm) hk2)
        · intro g k hgk hk2
          have hgk : s2.names[g]? = some k := hgk
          show taken s2 g = List.range' 1 (taken s2 g).length
          by_cases e : k = key
          · subst e
            by_cases e2 : g = gen
            · rw [e2, add2]; simp
            · by_cases e3 : g < s1.names.length
              · have n1 : s1.names[g]? = some s1.names[g] := List.getElem?_eq_getElem e3
                have n2 := f2.names g _ n1
                rw [hgk] at n2; cases n2
                rw [f2.added _ List.mem_cons_self g n1, if_neg e2, List.append_nil]
                exact q1.1.all g _ n1 hk2
              · rw [f2.new _ List.mem_cons_self g (by omega) hgk]; rfl
          · exact t2.all g k hgk (fun m => (List.mem_cons.1 m).elim e hk2)
        · refine ⟨fr.names, fr.added, fr.new, ?_⟩
          intro k hk2 l' h3 hlt2
          have ne : key ≠ k := fun e => hks (e ▸ hk2)
          have h3 : get s2.links k = some l' := (get_put_other _ _ ne).symm.trans h3
          exact fr.kept k hk2 l' h3 hlt2
  | _ => exact quiet_steps (exec_conf rfl h) hT
theorem execItems_taken (items : Items) (key : Str) (gen seq : Nat) (ks : List Str) (s s' : St) (hi : items.fresh (key :: ks) = true)
    (h : execItems c items key gen seq s = some s') (hg : s.names[gen]? = some key) (hT : Taken (key :: ks) s) :
    Taken (key :: ks) s' ∧ Frame (key :: ks) (fun g => if g = gen then List.range' seq items.msgs.length else []) s s' := by
  cases items with
  | nil =>
    simp only [execItems] at h; cases h
    refine ⟨hT, ?_⟩
    have := Frame.refl (key :: ks) s
    simpa [Items.msgs] using this
  | cons b out acts t =>
    simp only [execItems] at h
    simp only [Items.fresh, Bool.and_eq_true] at hi
    split at h
    · cases h
    · rename_i s1 h1
      obtain ⟨d1, d2⟩ := disp_taken (seq := seq) (b := b) hg hT
      have st : Taken (key :: ks) s1 ∧ Frame (key :: ks) (fun _ => []) { s with disp := s.disp ++ [(gen, seq, b)] } s1 := by
        rcases item_cases (q := true) h1 with h1 | h1
        · exact quiet_steps h1 d1
        · subst h1; exact execOps_taken acts (key :: ks) _ hi.1 d1
      obtain ⟨r1, r2⟩ := execItems_taken t key gen (seq + 1) ks s1 s' hi.2 h (st.2.names _ _ hg) st.1
      refine ⟨r1, ?_⟩
      have f := (d2.trans0 st.2).trans r2 (fun g hg2 => if_neg (fun e => by
        have := (List.getElem?_eq_some_iff.1 hg).1; subst e; omega))
      have e : (fun g => (if g = gen then [seq] else []) ++ if g = gen then List.range' (seq + 1) t.msgs.length else []) =
          (fun g => if g = gen then List.range' seq (Items.cons b out acts t).msgs.length else []) := by
        funext g
        by_cases e : g = gen
        · simp [e, Items.msgs, List.range'_succ]
        · simp [e]
      rw [← e]; exact f
theorem execOps_taken (acts : Ops) (ks : List Str) (s : St) (ha : acts.fresh ks = true) (hT : Taken ks s) :
    Taken ks (execOps c acts s) ∧ Frame ks (fun _ => []) s (execOps c acts s) := by
  cases acts with
  | nil => simp only [execOps]; exact ⟨hT, Frame.refl ks s⟩
  | cons o t =>
    simp only [execOps]
    simp only [Ops.fresh, Bool.and_eq_true] at ha
    have st : Taken ks ((exec c o s).getD s) ∧ Frame ks (fun _ => []) s ((exec c o s).getD s) := by
      cases h : exec c o s with
      | none => exact ⟨hT, Frame.refl ks s⟩
      | some s1 => exact exec_taken o ks s s1 ha.1 h hT
    obtain ⟨r1, r2⟩ := execOps_taken t ks _ ha.2 st.1
    exact ⟨r1, st.2.trans0 r2⟩
end


theorem taken_init : Taken [] initSt :=
  ⟨named_init, (by intro k l h; cases h), fun _ _ => rfl, (by intro g k h; cases h)⟩

variable (c)

theorem run_taken (ops : List Op) (h : ∀ o ∈ ops, o.fresh [] = true) : Taken [] (run c ops) := by
  have : ∀ s, Taken [] s → Taken [] (ops.foldl (fun s o => (exec c o s).getD s) s) := by
    induction ops with
    | nil => intro s hs; exact hs
    | cons o t ih =>
      intro s hs
      rw [List.foldl_cons]
      refine ih (fun o ho => h o (List.mem_cons_of_mem _ ho)) _ ?_
      cases he : exec c o s with
      | none => exact hs
      | some s1 => exact (exec_taken o [] s s1 (h o List.mem_cons_self) he hs).1
  exact this initSt taken_init

/-- C122 (partial: no relay call for a link inside one for the same link): after every history the messages taken over a link since it
was added are those numbered 1, 2, … up to its counter, each once and in order, also for links that were removed. -/
theorem C122_taken_partial (ops : List Op) (h : ∀ o ∈ ops, o.fresh [] = true) :
    (∀ k l, get (run c ops).links k = some l → taken (run c ops) l.gen = List.range' 1 l.rx) ∧
    (∀ g k, (run c ops).names[g]? = some k → taken (run c ops) g = List.range' 1 (taken (run c ops) g).length) :=
  have hT := run_taken c ops h
  ⟨fun k l hl => hT.live k l hl (by simp), fun g k hg => hT.all g k hg (by simp)⟩

/-- The verifiers return messages of the other side only: `src k n` is the message with number `n` sent towards this chain. -/
def Faithful (src : Str → Nat → Bytes) : Prop :=
  ∀ bmv k rx v msgs, c.verify bmv k rx v msgs = true → msgs = (List.range' (rx + 1) msgs.length).map (src k)

/-- The same for any property of link text, number and message. -/
def Right (P : Str → Nat → Bytes → Prop) : Prop :=
  ∀ bmv k rx v msgs, c.verify bmv k rx v msgs = true → ∀ (i : Nat) (b : Bytes), msgs[i]? = some b → P k (rx + 1 + i) b

theorem Faithful.right {c : Cfg} {src : Str → Nat → Bytes} (hf : Faithful c src) : Right c (fun k n b => b = src k n) := by
  intro bmv k rx v msgs hv i b hb
  have h := hf _ _ _ _ _ hv
  have hi := (List.getElem?_eq_some_iff.1 hb).1
  rw [h, List.getElem?_map, List.getElem?_range' hi, Option.map_some, Option.some.injEq, Nat.one_mul] at hb
  exact hb.symm

def Genuine (P : Str → Nat → Bytes → Prop) (s : St) : Prop := ∀ e ∈ s.disp, ∃ k, s.names[e.1]? = some k ∧ P k e.2.1 e.2.2

/-- Names stay, and what is noted stays genuine. -/
def Keeps (P : Str → Nat → Bytes → Prop) (s s' : St) : Prop :=
  (∀ (g : Nat) (k : Str), s.names[g]? = some k → s'.names[g]? = some k) ∧ (Genuine P s → Genuine P s')

theorem Keeps.trans {P : Str → Nat → Bytes → Prop} {s s1 s2 : St} (h : Keeps P s s1) (h2 : Keeps P s1 s2) : Keeps P s s2 :=
  ⟨fun g k e => h2.1 g k (h.1 g k e), fun e => h2.2 (h.2 e)⟩

theorem Keeps.step {P : Str → Nat → Bytes → Prop} {s s' : St} (e : Step true s s') : Keeps P s s' := by
  cases e with
  | disp g n b hq => cases hq
  | grant _ a p hg => obtain ⟨m, rfl⟩ := grant_eq hg; exact ⟨fun _ _ h => h, fun h => h⟩
  | revoke _ a p hg => obtain ⟨m, rfl⟩ := revoke_eq hg; exact ⟨fun _ _ h => h, fun h => h⟩
  | addLink link a h1 hv hk =>
    have hm : ∀ (g : Nat) (k : Str), s.names[g]? = some k → (s.names ++ [a.toStr])[g]? = some k := fun g k e =>
      (List.getElem?_append_left (List.getElem?_eq_some_iff.1 e).1).trans e
    refine ⟨hm, fun h e he => ?_⟩
    obtain ⟨k, h2, h3⟩ := h e he
    exact ⟨k, hm _ _ h2, h3⟩
  | _ => exact ⟨fun _ _ h => h, fun h => h⟩

theorem Keeps.steps {P : Str → Nat → Bytes → Prop} {s s' : St} (e : Steps true s s') : Keeps P s s' := by
  induction e with
  | refl => exact ⟨fun _ _ h => h, fun h => h⟩
  | tail _ e ih => exact ih.trans (Keeps.step e)

variable {c}

mutual
theorem exec_keeps {P : Str → Nat → Bytes → Prop} (hf : Right c P) (o : Op) (s s' : St) (hN : Named s) (h : exec c o s = some s') : Keeps P s s' := by
  cases o with
  | relay x prev v items =>
    simp only [exec] at h
    split at h
    · cases h
    · rename_i key gen rx s1 h1
      split at h
      · cases h
      · rename_i s2 h2
        obtain ⟨l2, hl2, hg2, e⟩ := closeRelay_spec h
        subst e
        obtain ⟨a, l, bmv, l1, t, r, ha, hk, hl, hg, hrx, hb, hv, hr, hw, hs1⟩ := openRelay_spec h1
        have st1 := openRelay_steps (q := true) h1
        have q1 : Keeps P s s1 := Keeps.steps st1
        have hname : s1.names[gen]? = some key := by rw [hg]; exact q1.1 _ _ (hN.name key l hl)
        have q2 := execItems_keeps hf items key gen (rx + 1) s1 s2 (st1.inv (fun _ _ e h => named_step e h) hN) h2 hname
          (by rw [hrx]; exact hf _ _ _ _ _ hv)
        exact q1.trans (q2.trans ⟨fun _ _ h => h, fun h => h⟩)
  | _ => exact Keeps.steps (exec_conf rfl h)
theorem execItems_keeps {P : Str → Nat → Bytes → Prop} (hf : Right c P) (items : Items) (key : Str) (gen seq : Nat) (s s' : St) (hN : Named s)
    (h : execItems c items key gen seq s = some s') (hg : s.names[gen]? = some key)
    (hm : ∀ (i : Nat) (b : Bytes), items.msgs[i]? = some b → P key (seq + i) b) : Keeps P s s' := by
  cases items with
  | nil => simp only [execItems] at h; cases h; exact ⟨fun _ _ h => h, fun h => h⟩
  | cons b out acts t =>
    simp only [execItems] at h
    split at h
    · cases h
    · rename_i s1 h1
      have q1 : Keeps P s { s with disp := s.disp ++ [(gen, seq, b)] } := by
        refine ⟨fun _ _ h => h, fun hG e he => ?_⟩
        rcases List.mem_append.1 he with he | he
        · exact hG e he
        · rw [List.mem_singleton] at he; subst he; exact ⟨key, hg, hm 0 b rfl⟩
      have n1 : Named { s with disp := s.disp ++ [(gen, seq, b)] } := ⟨hN.nodup, hN.name⟩
      have q2 : Keeps P { s with disp := s.disp ++ [(gen, seq, b)] } s1 ∧ Named s1 := by
        rcases item_cases (q := true) h1 with h1 | h1
        · exact ⟨Keeps.steps h1, h1.inv (fun _ _ e h => named_step e h) n1⟩
        · subst h1; exact ⟨execOps_keeps hf acts _ n1, (execOps_steps acts _).inv (fun _ _ e h => named_step e h) n1⟩
      exact q1.trans (q2.1.trans (execItems_keeps hf t key gen (seq + 1) s1 s' q2.2 h (q2.1.1 _ _ hg) (fun i b' hb => by rw [show seq + 1 + i = seq + (i + 1) by omega]; exact hm (i + 1) b' hb)))
theorem execOps_keeps {P : Str → Nat → Bytes → Prop} (hf : Right c P) (acts : Ops) (s : St) (hN : Named s) : Keeps P s (execOps c acts s) := by
  cases acts with
  | nil => simp only [execOps]; exact ⟨fun _ _ h => h, fun h => h⟩
  | cons o t =>
    simp only [execOps]
    have st : Keeps P s ((exec c o s).getD s) ∧ Named ((exec c o s).getD s) := by
      cases h : exec c o s with
      | none => exact ⟨⟨fun _ _ h => h, fun h => h⟩, hN⟩
      | some s1 => exact ⟨exec_keeps hf o s s1 hN h, (exec_steps o s s1 h).inv (fun _ _ e h => named_step e h) hN⟩
    exact st.1.trans (execOps_keeps hf t _ st.2)
end

variable (c)

/-- C122: whatever the nesting of calls, what the verifiers make sure of every message they return holds of every message taken, with its
link and number. -/
theorem C122_right (P : Str → Nat → Bytes → Prop) (hf : Right c P) (ops : List Op) (g n : Nat) (b : Bytes) (h : (g, n, b) ∈ (run c ops).disp) :
    ∃ k, (run c ops).names[g]? = some k ∧ P k n b := by
  have key : ∀ (ops : List Op) (s : St), Named s → Genuine P s → Genuine P (ops.foldl (fun s o => (exec c o s).getD s) s) := by
    intro ops
    induction ops with
    | nil => intro s _ hs; exact hs
    | cons o t ih =>
      intro s hN hs
      rw [List.foldl_cons]
      cases he : exec c o s with
      | none => exact ih s hN hs
      | some s1 => exact ih s1 ((exec_steps o s s1 he).inv (fun _ _ e h => named_step e h) hN) ((exec_keeps hf o s s1 hN he).2 hs)
  exact key ops initSt named_init (by intro e h; cases h) _ h

/-- C122: whatever the nesting of calls, a message taken under a number over a link is the one the other side sent under it. -/
theorem C122_genuine (src : Str → Nat → Bytes) (hf : Faithful c src) (ops : List Op) (g n : Nat) (b : Bytes) (h : (g, n, b) ∈ (run c ops).disp) :
    ∃ k, (run c ops).names[g]? = some k ∧ b = src k n :=  C122_right c _ hf.right ops g n b h

/-- C122 (partial: as above): with such verifiers the messages taken over a link are exactly the first ones the other side sent. -/
theorem C122_exactly_once_partial (src : Str → Nat → Bytes) (hf : Faithful c src) (ops : List Op) (h : ∀ o ∈ ops, o.fresh [] = true)
    (k : Str) (l : Link) (hl : get (run c ops).links k = some l) :
    ((run c ops).disp.filter (fun e => e.1 = l.gen)).map (·.2.2) = (List.range' 1 l.rx).map (src k) := by
  have h1 := (C122_taken_partial c ops h).1 k l hl
  rw [← h1, taken, List.map_map]
  apply List.map_congr_left
  intro e he
  rw [List.mem_filter] at he
  obtain ⟨k', h2, h3⟩ := C122_genuine c src hf ops e.1 e.2.1 e.2.2 he.1
  have : e.1 = l.gen := by simpa using he.2
  rw [this, (run_named c ops).name k l hl] at h2
  cases h2; exact h3

/-! ### Examples -/

namespace Ex
def me : PyAddr.Addr := ⟨"btp".toList, [], "a".toList, "x".toList⟩
def peer : PyAddr.Addr := ⟨"btp".toList, [], "b".toList, "y".toList⟩
def kb : Str := "btp://b/y".toList
def asc (s : Str) : Bytes := s.map fun x => UInt8.ofNat x.toNat
def txt (b : Bytes) : Str := b.map fun x => Char.ofNat x.toNat

/-- A chain of messages 1, 2, 3, … for the service "srv". -/
def base : Cfg := ⟨me, 0, fun _ => true, txt, asc, fun _ => true, fun s d m => (m * d + s - 1) / s, fun s d n => (n * d + s - 1) / s, fun _ _ _ _ _ => true⟩
def src (n : Nat) : Bytes := writeMsg base peer (some me) (some (asc "srv".toList)) n [UInt8.ofNat n]

def cfg : Cfg := { base with verify := fun _ _ rx _ msgs => msgs = (List.range' (rx + 1) msgs.length).map src }

theorem faithful : Faithful cfg (fun _ => src) := by
  intro bmv k rx v msgs h
  exact of_decide_eq_true h

def x (a : Nat) (h : Int) : Ctx := ⟨a, a, h⟩
def v : Verdict := ⟨3, 5, 4⟩
/-- A verifier, a link, a service and a relay (account 1). -/
def setup : List Op := [.addVerifier (x 9 1) "b".toList 7, .addLink (x 9 1) kb, .addService (x 9 1) "srv".toList 5,
  .addRelayer (x 8 2) 1 [], .addRelay (x 1 2) kb 1]
def two : Op := .relay (x 1 3) kb v (.cons (src 1) .done (.cons (.send (x 5 3) "b".toList (asc "srv".toList) 4 [9]) .nil) (.cons (src 2) .done .nil .nil))
def three : Op := .relay (x 1 4) kb v (.cons (src 3) .done .nil .nil)
/-- While the first message is handled the service calls the message center again with the same message. -/
def nested : Op := .relay (x 1 3) kb v (.cons (src 1) .done (.cons (.relay (x 1 3) kb v (.cons (src 1) .done .nil .nil)) .nil) .nil)
end Ex
open Ex

example : ∀ o ∈ setup ++ [two, three], o.fresh [] = true := by decide +kernel
example : (get (run cfg (setup ++ [two, three])).links kb).map (fun l => (l.rx, l.tx)) = some (3, 2) := by decide +kernel
example : taken (run cfg (setup ++ [two, three])) 0 = [1, 2, 3] ∧ sent (run cfg (setup ++ [two, three])) 0 = [1, 2] := by decide +kernel
example : (get (run cfg (setup ++ [three])).links kb).map (fun l => (l.rx, l.tx)) = some (0, 1) := by decide +kernel

/-- C122 is false for calls from within: a service called for a message can relay the same message again (the number is raised only at
the end of a relay call). It is handled twice, counted twice, and the message with number 2 is passed over. -/
theorem C122_reentrant_twice : ∃ (c : Cfg) (src : Str → Nat → Bytes) (ops : List Op), Faithful c src ∧
    taken (run c ops) 0 = [1, 1, 3] ∧ (get (run c ops).links kb).map (fun l => (l.gen, l.rx)) = some (0, 3) :=
  ⟨cfg, fun _ => Ex.src, setup ++ [nested, three], faithful, by decide +kernel⟩

end Verif.PyBmc
