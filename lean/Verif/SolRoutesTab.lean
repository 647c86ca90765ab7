import Verif.SolRoutesLemmas
/-!
The Solidity management contract keeps its link and route tables consistent as long as the calls obey `Disc`.
-/
namespace Verif.SolRoutes
open Verif
open Verif.SolBmc (upd)

variable (na : String → Option String)

/-- Calls under which the tables stay consistent; each clause excludes a case the code does not handle. -/
def Disc (s : St) : Op → Prop
  | .addLink link => ∀ n, na link = some n → (s.route n).type = .none
  | .addRoute dst _ => (s.route dst).type ≠ .link
  | .addReachable f r => (s.route f).next ∈ s.links ∧ ∀ n, na r = some n → (s.route n).type ≠ .link ∧ rep na s n (s.route f).next = false
  | .removeReachable f r => (s.route f).next ∈ s.links ∧ r ∈ s.reach (s.route f).next
  | _ => True

/-- The parts of the state the tables consist of. -/
def SameTab (s s' : St) : Prop :=
  s'.isLink = s.isLink ∧ s'.reach = s.reach ∧ s'.links = s.links ∧ s'.route = s.route ∧ s'.routes = s.routes

theorem Tab.of_same {s s' : St} {g : Option String} {rem : List String} (h : SameTab s s') (T : Tab na s g rem) : Tab na s' g rem := by
  obtain ⟨h1, h2, h3, h4, h5⟩ := h
  have hrep : ∀ n, rep na s' n = rep na s n := by intro n; funext l; unfold rep; rw [h2]
  constructor
  · rw [h3]; exact T.nd
  · rw [h1, h3, h4]; exact T.lk
  · rw [h3, h4]; exact T.tl
  · rw [h1, h3]; exact T.il
  · rw [h3, h4]; exact T.mn
  · intro n; rw [hrep, h3, h4]; exact T.ct n
  · intro n; rw [hrep, h3, h4]; exact T.rt n
  · rw [h4, h5]; exact T.no
  · rw [h5]; exact T.nr
  · rw [h4]; exact T.ze
  · rw [h2, h3]; exact T.ps
  · exact T.pr
  · rw [h2, h3]; exact T.un
  · exact T.ur
  · rw [h2, h3]; exact T.em

theorem Tab.same5 {s s' : St} {g : Option String} {rem : List String} (T : Tab na s g rem) (h1 : s'.isLink = s.isLink) (h2 : s'.reach = s.reach)
    (h3 : s'.links = s.links) (h4 : s'.route = s.route) (h5 : s'.routes = s.routes) : Tab na s' g rem :=
  Tab.of_same na ⟨h1, h2, h3, h4, h5⟩ T

theorem tab_addLink {s s' : St} {link : String} (T : Tab na s none []) (hd : ∀ n, na link = some n → (s.route n).type = .none)
    (h : addLink na s link = some s') : Tab na s' none [] := by
  unfold addLink at h
  cases hn : na link with
  | none => rw [hn] at h; cases h
  | some net =>
    rw [hn] at h
    dsimp only at h
    have ht := hd net hn
    split at h
    · cases h
    split at h
    · cases h
    simp only [Option.some.injEq] at h
    have hnl : link ∉ s.links := fun hl => by
      obtain ⟨-, m, h1, h2, -⟩ := T.lk link hl
      rw [hn] at h1; cases h1; rw [ht] at h2; cases h2
    have hz := T.ze net ht
    have hcz : s.links.countP (rep na s net) = 0 := by
      have := T.ct net; rw [hz] at this; simp [RI.empty] at this; exact this.symm
    have hroute : s'.route = upd s.route net ⟨link, 0, .link⟩ := by
      subst h; simp [addRouteInfo, propagate, ht]
    have hroutes : s'.routes = s.routes ++ [net] := by subst h; simp [addRouteInfo, propagate, ht]
    have hlinks : s'.links = s.links ++ [link] := by subst h; simp [addRouteInfo, propagate, ht]
    have hreach : s'.reach = upd s.reach link [] := by subst h; simp [addRouteInfo, propagate, ht]
    have hisl : s'.isLink = upd s.isLink link true := by subst h; simp [addRouteInfo, propagate, ht]
    have hrep : ∀ n l, rep na s' n l = (if l = link then false else rep na s n l) := by
      intro n l; unfold rep; rw [hreach]
      by_cases e : l = link
      · subst e; rw [upd_self, if_pos rfl]; simp
      · rw [upd_ne _ _ e, if_neg e]
    have hcnt : ∀ n, s'.links.countP (rep na s' n) = s.links.countP (rep na s n) := by
      intro n
      rw [hlinks, List.countP_append]
      have h1 : s.links.countP (rep na s' n) = s.links.countP (rep na s n) := by
        apply List.countP_congr
        intro l hl
        rw [hrep, if_neg (fun e : l = link => hnl (e ▸ hl))]
      rw [h1]
      simp [hrep]
    have hnr : net ∉ s.routes := fun hm => (T.no net).1 hm ht
    constructor
    · rw [hlinks, List.nodup_append]
      exact ⟨T.nd, by simp, fun a ha b hb e => by simp only [List.mem_singleton] at hb; subst hb; exact hnl (e ▸ ha)⟩
    · intro l hl
      rw [hlinks, List.mem_append] at hl
      rw [hisl, hroute]
      rcases hl with hl | hl
      · obtain ⟨h1, m, h2, h3, h4⟩ := T.lk l hl
        have hm : m ≠ net := fun e => by rw [e, ht] at h3; cases h3
        refine ⟨by unfold upd; split; rfl; exact h1, m, h2, by rw [upd_ne _ _ hm]; exact h3, by rw [upd_ne _ _ hm]; exact h4⟩
      · simp only [List.mem_singleton] at hl
        subst hl
        exact ⟨upd_self _ _ _, net, hn, by rw [upd_self], by rw [upd_self]⟩
    · intro n
      rw [hroute, hlinks]
      by_cases e : n = net
      · subst e; rw [upd_self]; intro _; exact ⟨by simp, hn, rfl⟩
      · rw [upd_ne _ _ e]; intro h; have := T.tl n h; exact ⟨List.mem_append_left _ this.1, this.2⟩
    · intro l hl
      rw [hisl] at hl
      rw [hlinks]
      by_cases e : l = link
      · subst e; simp
      · rw [upd_ne _ _ e] at hl
        rcases T.il l hl with h | h
        · exact Or.inl (List.mem_append_left _ h)
        · cases h
    · intro n
      rw [hroute, hlinks]
      by_cases e : n = net
      · subst e; rw [upd_self]; intro h; cases h
      · rw [upd_ne _ _ e]; intro h; exact List.mem_append_left _ (T.mn n h)
    · intro n
      rw [hcnt, hroute]
      by_cases e : n = net
      · subst e; rw [upd_self, hcz]; simp
      · rw [upd_ne _ _ e]; exact T.ct n
    · intro n
      rw [hroute]
      by_cases e : n = net
      · subst e; rw [upd_self]; intro h; cases h
      · rw [upd_ne _ _ e]
        intro h
        rcases T.rt n h with h | h
        · left
          rw [hlinks]
          refine ⟨List.mem_append_left _ h.1, ?_⟩
          rw [hrep, if_neg (fun e : (s.route n).next = link => hnl (e ▸ h.1))]; exact h.2
        · simp at h
    · intro n
      rw [hroute, hroutes]
      by_cases e : n = net
      · subst e; rw [upd_self]; simp
      · rw [upd_ne _ _ e, List.mem_append, T.no n]; simp [e]
    · rw [hroutes, List.nodup_append]
      exact ⟨T.nr, by simp, fun a ha b hb e => by simp only [List.mem_singleton] at hb; subst hb; exact hnr (e ▸ ha)⟩
    · intro n
      rw [hroute]
      by_cases e : n = net
      · subst e; rw [upd_self]; intro h; cases h
      · rw [upd_ne _ _ e]; exact T.ze n
    · intro l hl
      rw [hreach]
      by_cases e : l = link
      · subst e; rw [upd_self]; intro r hr; simp at hr
      · rw [upd_ne _ _ e]
        rw [hlinks] at hl
        simp only [List.mem_append, List.mem_singleton, e, or_false] at hl
        exact T.ps l hl
    · intro r hr; simp at hr
    · intro l hl
      rw [hreach]
      by_cases e : l = link
      · subst e; rw [upd_self]; exact List.nodup_nil
      · rw [upd_ne _ _ e]
        rw [hlinks] at hl
        simp only [List.mem_append, List.mem_singleton, e, or_false] at hl
        exact T.un l hl
    · exact List.nodup_nil
    · intro l hl _
      rw [hreach]
      by_cases e : l = link
      · subst e; rw [upd_self]
      · rw [upd_ne _ _ e]
        apply T.em l _ (by simp)
        intro hm; rw [hlinks] at hl; exact hl (List.mem_append_left _ hm)

/-- Removing a link: consistent afterwards, and impossible only while a manual route refers to it. -/
theorem tab_removeLink {s : St} {link : String} (T : Tab na s none []) (hl : s.isLink link = true)
    (hm : ∀ n, (s.route n).type = .manual → (s.route n).next ≠ link) :
    (∃ s', removeLink na s link = some s') ∧ ∀ s', removeLink na s link = some s' → Tab na s' none [] := by
  have hmem : link ∈ s.links := by
    rcases T.il link hl with h | h
    · exact h
    · cases h
  obtain ⟨-, net, hn, ht, hnx⟩ := T.lk link hmem
  have hz := (T.tl net ht).2.2
  have hroutes : net ∈ s.routes := (T.no net).2 (by rw [ht]; simp)
  have hany : s.routes.any (fun d => decide ((s.route d).type = .manual ∧ (s.route d).next = link)) = false := by
    rw [List.any_eq_false]
    intro d _
    simp only [decide_eq_true_eq, not_and]
    exact fun h => hm d h
  obtain ⟨s1, hs1⟩ : ∃ s1, removeRouteInfo na s net false "" = some s1 := by
    apply rri_exists na s net "" false (fun h => by cases h)
    · intro h; simp [hz] at h
    · exact fun e => by rw [e] at hroutes; simp at hroutes
  have hs1' : s1 = { s with route := upd s.route net RI.empty, routes := swapRemove s.routes net, fee := upd s.fee net [] } := by
    obtain ⟨-, h⟩ := rri_cases na hs1
    rcases h with ⟨hk, -⟩ | ⟨-, -, h⟩
    · simp [hz] at hk
    · exact h
  have hsw := swapRemove_nodup s.links link T.nd
  have hsr := swapRemove_nodup s.routes net T.nr
  have hperm := swapRemove_perm s.links link hmem
  have hrl : remove s1.links link = some (swapRemove s.links link) := by
    rw [hs1']
    unfold remove
    rw [if_neg (fun e => by dsimp only at e; rw [e] at hmem; simp at hmem)]
  -- the state the loop starts from
  have T1 : Tab na { s1 with links := swapRemove s.links link } (some link) (s.reach link) := by
    subst hs1'
    constructor
    · exact hsw.1
    · intro l h
      have h' := (hsw.2.2 l).1 h
      obtain ⟨a1, m, a2, a3, a4⟩ := T.lk l h'.1
      have hmn : m ≠ net := fun e => by subst e; exact h'.2 (a4.symm.trans hnx)
      exact ⟨a1, m, a2, by simp only [upd_ne _ _ hmn]; exact a3, by simp only [upd_ne _ _ hmn]; exact a4⟩
    · intro n
      by_cases e : n = net
      · subst e; simp only [upd_self]; intro h; cases h
      · simp only [upd_ne _ _ e]
        intro h
        have := T.tl n h
        refine ⟨(hsw.2.2 _).2 ⟨this.1, fun e2 => ?_⟩, this.2⟩
        have h2 := this.2.1
        rw [e2, hn] at h2
        exact e (Option.some.inj h2).symm
    · intro l h
      rcases T.il l h with h1 | h1
      · by_cases e : l = link
        · subst e; exact Or.inr rfl
        · exact Or.inl ((hsw.2.2 l).2 ⟨h1, e⟩)
      · cases h1
    · intro n
      by_cases e : n = net
      · subst e; simp only [upd_self]; intro h; cases h
      · simp only [upd_ne _ _ e]
        intro h
        exact (hsw.2.2 _).2 ⟨T.mn n h, hm n h⟩
    · intro n
      have h1 := T.ct n
      simp only [List.map_nil, List.not_mem_nil, if_false, Nat.add_zero] at h1
      have h2 : s.links.countP (rep na s n) = (swapRemove s.links link).countP (rep na s n) + (if some n ∈ (s.reach link).map na then 1 else 0) := by
        rw [← hperm.countP_eq, List.countP_cons]
        congr 1
        simp only [rep, decide_eq_true_eq]
      show (upd s.route net RI.empty n).reachable = (swapRemove s.links link).countP (rep na s n) + _
      rw [← h2]
      by_cases e : n = net
      · subst e; rw [upd_self, ← h1, hz]; rfl
      · rw [upd_ne _ _ e, h1]
    · intro n
      by_cases e : n = net
      · subst e; simp only [upd_self]; intro h; cases h
      · simp only [upd_ne _ _ e]
        intro h
        rcases T.rt n h with h1 | h1
        · by_cases e2 : (s.route n).next = link
          · right
            refine ⟨by rw [e2], ?_⟩
            have := h1.2
            rw [e2] at this
            exact of_decide_eq_true this
          · left
            exact ⟨(hsw.2.2 _).2 ⟨h1.1, e2⟩, h1.2⟩
        · simp at h1
    · intro n
      by_cases e : n = net
      · subst e; simp only [upd_self]; exact ⟨fun h => absurd h hsr.2.1, fun h => absurd rfl h⟩
      · simp only [upd_ne _ _ e]; rw [← T.no n]; exact ⟨fun h => ((hsr.2.2 n).1 h).1, fun h => (hsr.2.2 n).2 ⟨h, e⟩⟩
    · exact hsr.1
    · intro n
      by_cases e : n = net
      · subst e; simp only [upd_self]; intro _; trivial
      · simp only [upd_ne _ _ e]; exact T.ze n
    · exact fun l h => T.ps l ((hsw.2.2 l).1 h).1
    · exact T.ps link hmem
    · exact fun l h => T.un l ((hsw.2.2 l).1 h).1
    · exact T.un link hmem
    · intro l h hg
      apply T.em l _ (by simp)
      intro h'
      exact h ((hsw.2.2 l).2 ⟨h', fun e => hg (by rw [e])⟩)
  have hreach1 : s1.reach link = s.reach link := by rw [hs1']
  obtain ⟨⟨s2, hs2⟩, hall⟩ := tab_dropAll na (s.reach link) _ T1
  have hexp : removeLink na s link = some (propagate { s2 with
      isLink := upd s2.isLink link false, reach := upd s2.reach link [], relays := upd s2.relays link []
      added := upd s2.added link [], out := s2.out ++ [.clear link] } (.unlink link)) := by
    unfold removeLink
    rw [if_neg (by simp [hl])]
    rw [if_neg (by rw [hany]; simp), hn]
    dsimp only
    rw [hs1]
    dsimp only
    rw [hrl]
    dsimp only
    rw [hreach1, hs2]
  refine ⟨⟨_, hexp⟩, fun s' h => ?_⟩
  rw [hexp, Option.some.injEq] at h
  subst h
  obtain ⟨T2, e1, e2, e3⟩ := hall s2 hs2
  have hnl : link ∉ s2.links := by rw [e1]; exact hsw.2.1
  have hrep : ∀ n l, l ∈ s2.links → decide (some n ∈ ((upd s2.reach link []) l).map na) = rep na s2 n l := by
    intro n l h; unfold rep; rw [upd_ne _ _ (fun e : l = link => hnl (e ▸ h))]
  constructor
  · exact T2.nd
  · intro l h
    obtain ⟨a1, a2⟩ := T2.lk l h
    exact ⟨by show upd s2.isLink link false l = true; rw [upd_ne _ _ (fun e : l = link => hnl (e ▸ h))]; exact a1, a2⟩
  · exact T2.tl
  · intro l h
    have h : upd s2.isLink link false l = true := h
    by_cases e : l = link
    · subst e; rw [upd_self] at h; cases h
    · rw [upd_ne _ _ e] at h
      rcases T2.il l h with h1 | h1
      · exact Or.inl h1
      · exact absurd (Option.some.inj h1).symm e
  · exact T2.mn
  · intro n
    have h1 := T2.ct n
    show (s2.route n).reachable = s2.links.countP _ + _
    rw [h1]
    congr 1
    apply List.countP_congr
    intro l h
    show rep na s2 n l = true ↔ decide (some n ∈ ((upd s2.reach link []) l).map na) = true
    rw [hrep n l h]
  · intro n h
    rcases T2.rt n h with h1 | h1
    · left
      refine ⟨h1.1, ?_⟩
      show decide (some n ∈ ((upd s2.reach link []) (s2.route n).next).map na) = true
      rw [hrep n _ h1.1]; exact h1.2
    · simp at h1
  · exact T2.no
  · exact T2.nr
  · exact T2.ze
  · intro l h
    show ∀ r ∈ (upd s2.reach link []) l, na r ≠ none
    rw [upd_ne _ _ (fun e : l = link => hnl (e ▸ h))]; exact T2.ps l h
  · intro r h; simp at h
  · intro l h
    show (((upd s2.reach link []) l).map na).Nodup
    rw [upd_ne _ _ (fun e : l = link => hnl (e ▸ h))]; exact T2.un l h
  · exact List.nodup_nil
  · intro l h _
    show (upd s2.reach link []) l = []
    by_cases e : l = link
    · subst e; rw [upd_self]
    · rw [upd_ne _ _ e]; exact T2.em l h (fun e2 => e (Option.some.inj e2).symm)

theorem tab_addRoute {s s' : St} {dst link : String} (T : Tab na s none []) (hd : (s.route dst).type ≠ .link)
    (h : addRoute s dst link = some s') : Tab na s' none [] := by
  unfold addRoute at h
  split at h
  · cases h
  split at h
  · cases h
  split at h
  · cases h
  rename_i h1 h2 h3
  have h3 : (s.route link).type = .link := Classical.not_not.1 h3
  simp only [Option.some.injEq] at h
  have hnext := (T.tl link h3).1
  generalize (s.route link).next = nx at h hnext
  have hroute : s'.route = upd s.route dst ⟨nx, (s.route dst).reachable, .manual⟩ := by
    subst h
    unfold addRouteInfo
    by_cases e : (s.route dst).type = .none
    · have hz := T.ze dst e
      simp [e, upd_upd, upd_self, hz, RI.empty]
    · simp [e]
  have hroutes : s'.routes = if (s.route dst).type = .none then s.routes ++ [dst] else s.routes := by
    subst h; unfold addRouteInfo; split <;> simp
  have hrest : s'.links = s.links ∧ s'.reach = s.reach ∧ s'.isLink = s.isLink := by
    subst h; unfold addRouteInfo; split <;> simp
  obtain ⟨e1, e2, e3⟩ := hrest
  have hrep : ∀ n, rep na s' n = rep na s n := by intro n; funext l; unfold rep; rw [e2]
  constructor
  · rw [e1]; exact T.nd
  · intro l hl
    rw [e1] at hl
    obtain ⟨a1, m, a2, a3, a4⟩ := T.lk l hl
    have hm : m ≠ dst := fun e => hd (e ▸ a3)
    rw [e3, hroute]
    exact ⟨a1, m, a2, by rw [upd_ne _ _ hm]; exact a3, by rw [upd_ne _ _ hm]; exact a4⟩
  · intro n
    rw [hroute, e1]
    by_cases e : n = dst
    · subst e; rw [upd_self]; intro h; cases h
    · rw [upd_ne _ _ e]; exact T.tl n
  · rw [e1, e3]; exact T.il
  · intro n
    rw [hroute, e1]
    by_cases e : n = dst
    · subst e; rw [upd_self]; intro _; exact hnext
    · rw [upd_ne _ _ e]; exact T.mn n
  · intro n
    rw [hrep, hroute, e1]
    by_cases e : n = dst
    · subst e; rw [upd_self]; exact T.ct n
    · rw [upd_ne _ _ e]; exact T.ct n
  · intro n
    rw [hrep, hroute, e1]
    by_cases e : n = dst
    · subst e; rw [upd_self]; intro h; cases h
    · rw [upd_ne _ _ e]; exact T.rt n
  · intro n
    rw [hroute, hroutes]
    by_cases e : n = dst
    · subst e
      rw [upd_self]
      by_cases hx : (s.route n).type = .none
      · simp [hx]
      · rw [if_neg hx]; exact ⟨fun _ => (by simp), fun _ => (T.no n).2 hx⟩
    · rw [upd_ne _ _ e]
      split
      · rw [List.mem_append, T.no n]; simp [e]
      · exact T.no n
  · rw [hroutes]
    split
    · rename_i hx
      rw [List.nodup_append]
      refine ⟨T.nr, by simp, fun a ha b hb e => ?_⟩
      simp only [List.mem_singleton] at hb
      subst hb; subst e
      exact (T.no a).1 ha hx
    · exact T.nr
  · intro n
    rw [hroute]
    by_cases e : n = dst
    · subst e; rw [upd_self]; intro h; cases h
    · rw [upd_ne _ _ e]; exact T.ze n
  · rw [e1, e2]; exact T.ps
  · exact T.pr
  · rw [e1, e2]; exact T.un
  · exact T.ur
  · rw [e1, e2]; exact T.em

theorem tab_removeRoute {s s' : St} {dst : String} (T : Tab na s none []) (h : removeRoute na s dst = some s') : Tab na s' none [] := by
  unfold removeRoute at h
  split at h
  · cases h
  rename_i ht
  have ht : (s.route dst).type = .manual := Classical.not_not.1 ht
  obtain ⟨-, h⟩ := rri_cases na h
  simp only [Bool.false_eq_true, if_false, Nat.sub_zero, true_or, true_and, false_and, or_false] at h
  have hmem : dst ∈ s.routes := (T.no dst).2 (by rw [ht]; simp)
  have hkey : ∀ l ∈ s.links, ∀ m, (s.route m).type = .link → m ≠ dst := fun l _ m hm e => by rw [e, ht] at hm; cases hm
  rcases h with ⟨hk, nx, hnx, rfl⟩ | ⟨hk, -, rfl⟩
  · have hnx' := resolveReach_some na T.ps hnx
    constructor
    · exact T.nd
    · intro l hl
      obtain ⟨a1, m, a2, a3, a4⟩ := T.lk l hl
      have hm := hkey l hl m a3
      exact ⟨a1, m, a2, by simp only [upd_ne _ _ hm]; exact a3, by simp only [upd_ne _ _ hm]; exact a4⟩
    · intro n
      by_cases e : n = dst
      · subst e; simp only [upd_self]; intro h; cases h
      · simp only [upd_ne _ _ e]; exact T.tl n
    · exact T.il
    · intro n
      by_cases e : n = dst
      · subst e; simp only [upd_self]; intro h; cases h
      · simp only [upd_ne _ _ e]; exact T.mn n
    · intro n
      by_cases e : n = dst
      · subst e; simp only [upd_self]; exact T.ct n
      · simp only [upd_ne _ _ e]; exact T.ct n
    · intro n
      by_cases e : n = dst
      · subst e; simp only [upd_self]; intro _; exact Or.inl hnx'
      · simp only [upd_ne _ _ e]; exact T.rt n
    · intro n
      by_cases e : n = dst
      · subst e; simp only [upd_self]; exact ⟨fun _ => (by simp), fun _ => hmem⟩
      · simp only [upd_ne _ _ e]; exact T.no n
    · exact T.nr
    · intro n
      by_cases e : n = dst
      · subst e; simp only [upd_self]; intro h; cases h
      · simp only [upd_ne _ _ e]; exact T.ze n
    · exact T.ps
    · exact T.pr
    · exact T.un
    · exact T.ur
    · exact T.em
  · have hsr := swapRemove_nodup s.routes dst T.nr
    constructor
    · exact T.nd
    · intro l hl
      obtain ⟨a1, m, a2, a3, a4⟩ := T.lk l hl
      have hm := hkey l hl m a3
      exact ⟨a1, m, a2, by simp only [upd_ne _ _ hm]; exact a3, by simp only [upd_ne _ _ hm]; exact a4⟩
    · intro n
      by_cases e : n = dst
      · subst e; simp only [upd_self]; intro h; cases h
      · simp only [upd_ne _ _ e]; exact T.tl n
    · exact T.il
    · intro n
      by_cases e : n = dst
      · subst e; simp only [upd_self]; intro h; cases h
      · simp only [upd_ne _ _ e]; exact T.mn n
    · intro n
      by_cases e : n = dst
      · subst e
        simp only [upd_self]
        have := T.ct n
        rw [hk] at this
        exact this
      · simp only [upd_ne _ _ e]; exact T.ct n
    · intro n
      by_cases e : n = dst
      · subst e; simp only [upd_self]; intro h; cases h
      · simp only [upd_ne _ _ e]; exact T.rt n
    · intro n
      by_cases e : n = dst
      · subst e; simp only [upd_self]; exact ⟨fun h => absurd h hsr.2.1, fun h => absurd rfl h⟩
      · simp only [upd_ne _ _ e]; rw [← T.no n]; exact ⟨fun h => ((hsr.2.2 n).1 h).1, fun h => (hsr.2.2 n).2 ⟨h, e⟩⟩
    · exact hsr.1
    · intro n
      by_cases e : n = dst
      · subst e; simp only [upd_self]; intro _; trivial
      · simp only [upd_ne _ _ e]; exact T.ze n
    · exact T.ps
    · exact T.pr
    · exact T.un
    · exact T.ur
    · exact T.em

theorem tab_addReachable {s s' : St} {f r : String} (T : Tab na s none []) (hl : (s.route f).next ∈ s.links)
    (hd : ∀ n, na r = some n → (s.route n).type ≠ .link ∧ rep na s n (s.route f).next = false)
    (h : addReachable na s f r = some s') : Tab na s' none [] := by
  unfold addReachable at h
  cases hn : na r with
  | none => rw [hn] at h; cases h
  | some dst =>
    rw [hn] at h
    dsimp only at h
    obtain ⟨hnl, hnr⟩ := hd dst hn
    simp only [Option.some.injEq] at h
    generalize (s.route f).next = l at h hl hnr
    have hroute : s'.route = upd s.route dst ⟨if (s.route dst).type = .none then l else (s.route dst).next, (s.route dst).reachable + 1,
        if (s.route dst).type = .none then .reachable else (s.route dst).type⟩ := by
      subst h
      unfold addRouteInfo
      by_cases e : (s.route dst).type = .none
      · have hz := T.ze dst e
        simp [e, upd_upd, upd_self, hz, RI.empty]
      · simp [e]
    have hroutes : s'.routes = if (s.route dst).type = .none then s.routes ++ [dst] else s.routes := by
      subst h; unfold addRouteInfo; split <;> simp
    have hrest : s'.links = s.links ∧ s'.reach = upd s.reach l (s.reach l ++ [r]) ∧ s'.isLink = s.isLink := by
      subst h; unfold addRouteInfo; split <;> simp
    obtain ⟨e1, e2, e3⟩ := hrest
    have hrep : ∀ n x, rep na s' n x = (rep na s n x || decide (x = l ∧ n = dst)) := by
      intro n x
      unfold rep
      rw [e2]
      by_cases e : x = l
      · subst e
        rw [upd_self, List.map_append]
        simp only [List.map_cons, List.map_nil, hn, List.mem_append, List.mem_singleton, Option.some.injEq, true_and]
        simp [Bool.decide_or]
      · rw [upd_ne _ _ e]; simp [e]
    have hcnt : ∀ n, s'.links.countP (rep na s' n) = s.links.countP (rep na s n) + (if n = dst then 1 else 0) := by
      intro n
      rw [e1]
      by_cases e : n = dst
      · subst e
        rw [if_pos rfl]
        have hp := swapRemove_perm s.links l hl
        have hnd := swapRemove_nodup s.links l T.nd
        rw [← hp.countP_eq, ← hp.countP_eq, List.countP_cons, List.countP_cons, hnr]
        have h1 : rep na s' n l = true := by rw [hrep]; simp
        have h2 : (swapRemove s.links l).countP (rep na s' n) = (swapRemove s.links l).countP (rep na s n) := by
          apply List.countP_congr
          intro x hx
          have hxl : x ≠ l := fun e => hnd.2.1 (e ▸ hx)
          rw [hrep]; simp [hxl]
        rw [h1, h2]; simp
      · rw [if_neg e, Nat.add_zero]
        apply List.countP_congr
        intro x _
        rw [hrep]; simp [e]
    constructor
    · rw [e1]; exact T.nd
    · intro x hx
      rw [e1] at hx
      obtain ⟨a1, m, a2, a3, a4⟩ := T.lk x hx
      have hm : m ≠ dst := fun e => hnl (e ▸ a3)
      rw [e3, hroute]
      exact ⟨a1, m, a2, by rw [upd_ne _ _ hm]; exact a3, by rw [upd_ne _ _ hm]; exact a4⟩
    · intro n
      rw [hroute, e1]
      by_cases e : n = dst
      · subst e
        rw [upd_self]
        intro h
        dsimp only at h
        split at h
        · cases h
        · exact absurd h hnl
      · rw [upd_ne _ _ e]; exact T.tl n
    · rw [e1, e3]; exact T.il
    · intro n
      rw [hroute, e1]
      by_cases e : n = dst
      · subst e
        rw [upd_self]
        intro h
        dsimp only at h ⊢
        split at h
        · cases h
        · rename_i hx; rw [if_neg hx]; exact T.mn n h
      · rw [upd_ne _ _ e]; exact T.mn n
    · intro n
      rw [hcnt, hroute]
      have := T.ct n
      simp only [List.map_nil, List.not_mem_nil, if_false, Nat.add_zero] at this ⊢
      by_cases e : n = dst
      · subst e; rw [upd_self]; simp only [if_true]; omega
      · rw [upd_ne _ _ e, if_neg e]; omega
    · intro n
      rw [hroute, e1]
      by_cases e : n = dst
      · subst e
        rw [upd_self]
        intro h
        left
        dsimp only at h ⊢
        by_cases hx : (s.route n).type = .none
        · rw [if_pos hx]; exact ⟨hl, by rw [hrep]; simp⟩
        · rw [if_neg hx] at h ⊢
          rcases T.rt n h with h1 | h1
          · exact ⟨h1.1, by rw [hrep, h1.2]; rfl⟩
          · simp at h1
      · rw [upd_ne _ _ e]
        intro h
        rcases T.rt n h with h1 | h1
        · exact Or.inl ⟨h1.1, by rw [hrep, h1.2]; rfl⟩
        · simp at h1
    · intro n
      rw [hroute, hroutes]
      by_cases e : n = dst
      · subst e
        rw [upd_self]
        by_cases hx : (s.route n).type = .none
        · simp [hx]
        · simp only [if_neg hx]; exact T.no n
      · rw [upd_ne _ _ e]
        split
        · rw [List.mem_append, T.no n]; simp [e]
        · exact T.no n
    · rw [hroutes]
      split
      · rename_i hx
        rw [List.nodup_append]
        refine ⟨T.nr, by simp, fun a ha b hb e => ?_⟩
        simp only [List.mem_singleton] at hb
        subst hb; subst e
        exact (T.no a).1 ha hx
      · exact T.nr
    · intro n
      rw [hroute]
      by_cases e : n = dst
      · subst e
        rw [upd_self]
        intro h
        dsimp only at h
        split at h
        · cases h
        · rename_i hx; exact absurd h hx
      · rw [upd_ne _ _ e]; exact T.ze n
    · intro x hx
      rw [e1] at hx
      rw [e2]
      by_cases e : x = l
      · subst e
        rw [upd_self]
        intro y hy
        rcases List.mem_append.1 hy with hy | hy
        · exact T.ps x hx y hy
        · simp only [List.mem_singleton] at hy; subst hy; rw [hn]; simp
      · rw [upd_ne _ _ e]; exact T.ps x hx
    · exact T.pr
    · intro x hx
      rw [e1] at hx
      rw [e2]
      by_cases e : x = l
      · subst e
        rw [upd_self, List.map_append, List.nodup_append]
        refine ⟨T.un x hx, by simp, fun a ha b hb e => ?_⟩
        simp only [List.map_cons, List.map_nil, List.mem_singleton, hn] at hb
        subst hb; subst e
        exact absurd ha (of_decide_eq_false hnr)
      · rw [upd_ne _ _ e]; exact T.un x hx
    · exact T.ur
    · intro x hx hg
      rw [e1] at hx
      rw [e2, upd_ne _ _ (fun e : x = l => hx (e ▸ hl))]
      exact T.em x hx hg

theorem tab_removeReachable {s : St} {f r : String} (T : Tab na s none []) (hl : (s.route f).next ∈ s.links)
    (hr : r ∈ s.reach (s.route f).next) :
    (∃ s', removeReachable na s f r = some s') ∧ ∀ s', removeReachable na s f r = some s' → Tab na s' none [] := by
  unfold removeReachable
  dsimp only
  generalize (s.route f).next = l at hl hr
  have hne : s.reach l ≠ [] := fun e => by rw [e] at hr; simp at hr
  have hrem : remove (s.reach l) r = some (swapRemove (s.reach l) r) := by unfold remove; rw [if_neg hne]
  rw [hrem]
  dsimp only
  cases hn : na r with
  | none => exact absurd hn (T.ps l hl r hr)
  | some n =>
    dsimp only
    have hp := swapRemove_perm (s.reach l) r hr
    have hpm : (some n :: (swapRemove (s.reach l) r).map na).Perm ((s.reach l).map na) := by
      have := hp.map na; rwa [List.map_cons, hn] at this
    have hund : (some n :: (swapRemove (s.reach l) r).map na).Nodup := hpm.nodup_iff.2 (T.un l hl)
    rw [List.nodup_cons] at hund
    have hrep : ∀ m x, rep na { s with reach := upd s.reach l (swapRemove (s.reach l) r) } m x = (rep na s m x && !decide (x = l ∧ m = n)) := by
      intro m x
      show decide (some m ∈ ((upd s.reach l (swapRemove (s.reach l) r)) x).map na) = (decide (some m ∈ (s.reach x).map na) && !decide (x = l ∧ m = n))
      by_cases e : x = l
      · subst e
        rw [upd_self]
        have hiff : some m ∈ (s.reach x).map na ↔ (m = n ∨ some m ∈ (swapRemove (s.reach x) r).map na) := by
          rw [← hpm.mem_iff, List.mem_cons, Option.some.injEq]
        by_cases em : m = n
        · subst em; rw [decide_eq_false hund.1]; simp
        · have h2 : decide (some m ∈ (s.reach x).map na) = decide (some m ∈ (swapRemove (s.reach x) r).map na) :=
            decide_eq_decide.2 (hiff.trans ⟨fun h => h.resolve_left em, Or.inr⟩)
          rw [h2]; simp [em]
      · rw [upd_ne _ _ e]; simp [e]
    have hrn : rep na s n l = true := decide_eq_true (hpm.mem_iff.1 (List.mem_cons_self ..))
    have hcnt : ∀ m, s.links.countP (rep na s m) =
        s.links.countP (rep na { s with reach := upd s.reach l (swapRemove (s.reach l) r) } m) + (if some m ∈ [r].map na then 1 else 0) := by
      intro m
      simp only [List.map_cons, List.map_nil, hn, List.mem_singleton, Option.some.injEq]
      by_cases e : m = n
      · subst e
        rw [if_pos rfl]
        have hpl := swapRemove_perm s.links l hl
        have hnd := swapRemove_nodup s.links l T.nd
        rw [← hpl.countP_eq, ← hpl.countP_eq, List.countP_cons, List.countP_cons, hrn]
        have h1 : rep na { s with reach := upd s.reach l (swapRemove (s.reach l) r) } m l = false := by rw [hrep]; simp
        have h2 : (swapRemove s.links l).countP (rep na { s with reach := upd s.reach l (swapRemove (s.reach l) r) } m) =
            (swapRemove s.links l).countP (rep na s m) := by
          apply List.countP_congr
          intro x hx
          have hxl : x ≠ l := fun e => hnd.2.1 (e ▸ hx)
          rw [hrep]; simp [hxl]
        rw [h1, h2]; simp
      · rw [if_neg e, Nat.add_zero]
        apply List.countP_congr
        intro x _
        rw [hrep]; simp [e]
    have T1 : Tab na { s with reach := upd s.reach l (swapRemove (s.reach l) r) } (some l) [r] := by
      constructor
      · exact T.nd
      · exact T.lk
      · exact T.tl
      · intro x hx
        rcases T.il x hx with h | h
        · exact Or.inl h
        · cases h
      · exact T.mn
      · intro m
        have h1 := T.ct m
        simp only [List.map_nil, List.not_mem_nil, if_false, Nat.add_zero] at h1
        show (s.route m).reachable = _
        rw [h1, hcnt m]
      · intro m h
        rcases T.rt m h with h1 | h1
        · by_cases e : (s.route m).next = l ∧ m = n
          · right
            refine ⟨congrArg some e.1.symm, ?_⟩
            simp [hn, e.2]
          · left
            refine ⟨h1.1, ?_⟩
            rw [hrep]
            show (rep na s m (s.route m).next && !decide ((s.route m).next = l ∧ m = n)) = true
            rw [h1.2, decide_eq_false e]; rfl
        · simp at h1
      · exact T.no
      · exact T.nr
      · exact T.ze
      · intro x hx y hy
        have hy : y ∈ upd s.reach l (swapRemove (s.reach l) r) x := hy
        by_cases e : x = l
        · subst e; rw [upd_self] at hy; exact T.ps x hx y (swapRemove_subset _ _ _ hy)
        · rw [upd_ne _ _ e] at hy; exact T.ps x hx y hy
      · intro y hy; simp only [List.mem_singleton] at hy; subst hy; rw [hn]; simp
      · intro x hx
        show ((upd s.reach l (swapRemove (s.reach l) r) x).map na).Nodup
        by_cases e : x = l
        · subst e; rw [upd_self]; exact hund.2
        · rw [upd_ne _ _ e]; exact T.un x hx
      · simp
      · intro x hx hg
        show upd s.reach l (swapRemove (s.reach l) r) x = []
        rw [upd_ne _ _ (fun e : x = l => hg (by rw [e]))]
        exact T.em x hx (by simp)
    have hdrop := tab_drop na T1 hn
    refine ⟨hdrop.1, fun s' h => ?_⟩
    obtain ⟨T2, e1, e2, e3⟩ := hdrop.2 s' h
    have hl' : l ∈ s'.links := by rw [e1]; exact hl
    exact {
      nd := T2.nd, lk := T2.lk, tl := T2.tl, mn := T2.mn, ct := T2.ct, no := T2.no, nr := T2.nr, ze := T2.ze, ps := T2.ps
      pr := T2.pr, un := T2.un, ur := T2.ur
      il := fun x hx => by
        rcases T2.il x hx with h | h
        · exact Or.inl h
        · exact Or.inl ((Option.some.inj h) ▸ hl')
      rt := fun m h => by
        rcases T2.rt m h with h1 | h1
        · exact Or.inl h1
        · simp at h1
      em := fun x hx _ => T2.em x hx (fun e => hx ((Option.some.inj e) ▸ hl')) }

theorem tab_act {s s' : St} {o : Op} (T : Tab na s none []) (hd : Disc na s o) (h : act na s o = some s') : Tab na s' none [] := by
  cases o with
  | addOwner a =>
    simp only [act, addOwner] at h
    split at h; · cases h
    split at h; · cases h
    cases h; exact T.same5 na rfl rfl rfl rfl rfl
  | removeOwner a =>
    simp only [act, removeOwner] at h
    split at h; · cases h
    split at h
    · cases h; exact T.same5 na rfl rfl rfl rfl rfl
    · cases h
  | addService svc a =>
    simp only [act, addService] at h
    split at h; · cases h
    split at h; · cases h
    cases h; exact T.same5 na rfl rfl rfl rfl rfl
  | removeService svc =>
    simp only [act, removeService] at h
    split at h; · cases h
    split at h; · cases h
    cases h; exact T.same5 na rfl rfl rfl rfl rfl
  | addVerifier net a =>
    simp only [act, addVerifier] at h
    split at h; · cases h
    split at h; · cases h
    cases h; exact T.same5 na rfl rfl rfl rfl rfl
  | removeVerifier net =>
    simp only [act, removeVerifier] at h
    split at h; · cases h
    split at h; · cases h
    cases h; exact T.same5 na rfl rfl rfl rfl rfl
  | addLink link => exact tab_addLink na T hd h
  | removeLink link =>
    simp only [act] at h
    have h' := h
    unfold removeLink at h'
    split at h'; · cases h'
    split at h'; · cases h'
    rename_i h1 h2
    have hl : s.isLink link = true := by simpa using h1
    have hm : ∀ n, (s.route n).type = .manual → (s.route n).next ≠ link := by
      intro n hn e
      apply h2
      rw [List.any_eq_true]
      exact ⟨n, (T.no n).2 (by rw [hn]; simp), decide_eq_true ⟨hn, e⟩⟩
    exact (tab_removeLink na T hl hm).2 s' h
  | addRelay link a =>
    simp only [act, addRelay] at h
    split at h; · cases h
    split at h; · cases h
    split at h; · cases h
    cases h; exact T.same5 na rfl rfl rfl rfl rfl
  | removeRelay link a =>
    simp only [act, removeRelay] at h
    split at h; · cases h
    split at h; · cases h
    split at h; · cases h
    cases h; exact T.same5 na rfl rfl rfl rfl rfl
  | addRoute dst link => exact tab_addRoute na T hd h
  | removeRoute dst => exact tab_removeRoute na T h
  | setFee dst v =>
    simp only [act, setFee] at h
    split at h
    · split at h; · cases h
      split at h; · cases h
      split at h; · cases h
      cases h; exact T.same5 na rfl rfl rfl rfl rfl
    · cases h; exact T.same5 na rfl rfl rfl rfl rfl
  | addReachable f r => exact tab_addReachable na T hd.1 hd.2 h
  | removeReachable f r => exact (tab_removeReachable na T hd.1 hd.2).2 s' h

end Verif.SolRoutes
