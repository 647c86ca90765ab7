import Verif.SolRoutesProps
/-!
Announcements between message centers on EVM chains: what /repo/solidity/bmc/contracts/BMCManagement.sol tells the other ends of its links and what
BMCService.sol does with what it is told.
-/
namespace Verif.SolRoutes
open Verif
open Verif.SolBmc (upd)

/-- The announcements made over a link. -/
def toward (a : String) : List Out → List Ann
  | [] => []
  | .internal l x :: t => if l = a then x :: toward a t else toward a t
  | .clear _ :: t => toward a t

/-- The addresses an announcement names. -/
def Ann.addrs : Ann → List String
  | .init l => l
  | .link x => [x]
  | .unlink x => [x]

variable (na : String → Option String)

/-- What an announcement makes of the list of addresses told before; `none` if it makes no sense after them: a network told twice, or
    an address withdrawn that was not told. -/
def hear1 (T : List String) : Ann → Option (List String)
  | .link x => if (na x).isSome ∧ na x ∉ T.map na then some (T ++ [x]) else none
  | .unlink x => if x ∈ T then some (swapRemove T x) else none
  | .init l => if (∀ x ∈ l, (na x).isSome) ∧ ((T ++ l).map na).Nodup then some (T ++ l) else none

def hear : List String → List Ann → Option (List String)
  | T, [] => some T
  | T, a :: t => match hear1 na T a with
    | none => none
    | some T' => hear T' t

/-- BMCService.sol:288-290: the loop over the addresses of a first message. -/
def addReachables (service : Nat) (from_ : String) : List String → St → Option St
  | [], s => some s
  | r :: t, s => match call na service s service (.addReachable from_ r) with
    | none => none
    | some s1 => addReachables service from_ t s1

/-- BMCService.sol:280-291 (part of `handleBTPMessage`): an announcement of the network `from_`; `none` is a revert. -/
def handleAnn (service : Nat) (s : St) (from_ : String) : Ann → Option St
  | .link x => call na service s service (.addReachable from_ x)
  | .unlink x => call na service s service (.removeReachable from_ x)
  | .init l => addReachables na service from_ l s

/-! ### Lists -/

theorem toward_append (a : String) : ∀ (o1 o2 : List Out), toward a (o1 ++ o2) = toward a o1 ++ toward a o2
  | [], _ => rfl
  | .internal l x :: t, o2 => by
    show (if l = a then x :: toward a (t ++ o2) else toward a (t ++ o2)) = (if l = a then x :: toward a t else toward a t) ++ toward a o2
    rw [toward_append a t o2]
    split <;> rfl
  | .clear _ :: t, o2 => toward_append a t o2

theorem toward_map (a : String) (x : Ann) : ∀ (ls : List String), ls.Nodup → toward a (ls.map (Out.internal · x)) = if a ∈ ls then [x] else []
  | [], _ => rfl
  | l :: t, h => by
    obtain ⟨h1, h2⟩ := List.nodup_cons.1 h
    show (if l = a then x :: toward a (t.map (Out.internal · x)) else toward a (t.map (Out.internal · x))) = _
    rw [toward_map a x t h2]
    by_cases e : l = a
    · subst e; rw [if_pos rfl, if_neg h1, if_pos List.mem_cons_self]
    · rw [if_neg e]
      by_cases e2 : a ∈ t
      · rw [if_pos e2, if_pos (List.mem_cons_of_mem _ e2)]
      · rw [if_neg e2, if_neg (fun h => (List.mem_cons.1 h).elim (fun h => e h.symm) e2)]

theorem mem_toward {a : String} {x : Ann} : ∀ {o : List Out}, x ∈ toward a o → .internal a x ∈ o
  | [], h => nomatch h
  | .internal l y :: t, h => by
    simp only [toward] at h
    split at h
    · rename_i e
      subst e
      rcases List.mem_cons.1 h with e | h
      · subst e; exact List.mem_cons_self
      · exact List.mem_cons_of_mem _ (mem_toward h)
    · exact List.mem_cons_of_mem _ (mem_toward h)
  | .clear _ :: t, h => List.mem_cons_of_mem _ (mem_toward (o := t) h)

theorem hear_append : ∀ (l1 l2 : List Ann) (T : List String), hear na T (l1 ++ l2) = (hear na T l1).bind (fun T' => hear na T' l2)
  | [], _, _ => rfl
  | a :: t, l2, T => by
    show (match hear1 na T a with | none => none | some T' => hear na T' (t ++ l2)) = Option.bind (match hear1 na T a with | none => none | some T' => hear na T' t) _
    cases hear1 na T a with
    | none => rfl
    | some T' => exact hear_append t l2 T'

theorem hear_prefix {l1 l2 : List Ann} {T U : List String} (h : hear na T (l1 ++ l2) = some U) : ∃ V, hear na T l1 = some V ∧ hear na V l2 = some U := by
  rw [hear_append, Option.bind_eq_some_iff] at h
  exact h

theorem swapRemove_keep {α : Type} [DecidableEq α] {l : List α} {x : α} (h : l.Nodup) (y : α) : y ∈ swapRemove l x ↔ y ∈ l ∧ y ≠ x := by
  by_cases hx : x ∈ l
  · have hp := swapRemove_perm l x hx
    have hn := hp.symm.nodup h
    obtain ⟨h1, h2⟩ := List.nodup_cons.1 hn
    constructor
    · intro hy
      exact ⟨hp.mem_iff.1 (List.mem_cons_of_mem _ hy), fun e => h1 (e ▸ hy)⟩
    · rintro ⟨hy, e⟩
      rcases List.mem_cons.1 (hp.mem_iff.2 hy) with h | h
      · exact absurd h e
      · exact h
  · rw [swapRemove_not_mem l x hx]
    exact ⟨fun hy => ⟨hy, fun e => hx (e ▸ hy)⟩, And.left⟩

theorem nodup_of_map {α β : Type} {f : α → β} {l : List α} (h : (l.map f).Nodup) : l.Nodup := by
  rw [List.Nodup, List.pairwise_map] at h
  exact h.imp (fun h e => h (congrArg f e))

theorem swapRemove_map_nodup {l : List String} {x : String} (h : (l.map na).Nodup) : ((swapRemove l x).map na).Nodup := by
  by_cases hx : x ∈ l
  · have hp := (swapRemove_perm l x hx).map na
    have hn := hp.symm.nodup h
    exact (List.nodup_cons.1 hn).2
  · rw [swapRemove_not_mem l x hx]; exact h

theorem hear1_nodup {T U : List String} {a : Ann} (h : hear1 na T a = some U) (hT : (T.map na).Nodup) : (U.map na).Nodup := by
  cases a with
  | link x =>
    simp only [hear1] at h
    split at h
    · rename_i hc
      cases h
      rw [List.map_append]
      exact List.nodup_append.2 ⟨hT, by simp, fun a ha b hb e => hc.2 (by simp at hb; rw [← hb, ← e]; exact ha)⟩
    · cases h
  | unlink x =>
    simp only [hear1] at h
    split at h
    · cases h; exact swapRemove_map_nodup na hT
    · cases h
  | init l =>
    simp only [hear1] at h
    split at h
    · rename_i hc; cases h; exact hc.2
    · cases h

theorem hear_nodup : ∀ (l : List Ann) {T U : List String}, hear na T l = some U → (T.map na).Nodup → (U.map na).Nodup
  | [], _, _, h, hT => by cases h; exact hT
  | a :: t, T, U, h, hT => by
    simp only [hear] at h
    split at h
    · cases h
    · rename_i T' h1; exact hear_nodup t h (hear1_nodup na h1 hT)

/-- What has been told was named by an announcement. -/
theorem hear1_mem {T U : List String} {a : Ann} (h : hear1 na T a = some U) {x : String} (hx : x ∈ U) : x ∈ T ∨ x ∈ a.addrs := by
  cases a with
  | link y =>
    simp only [hear1] at h
    split at h
    · cases h; exact List.mem_append.1 hx
    · cases h
  | unlink y =>
    simp only [hear1] at h
    split at h
    · cases h; exact Or.inl (swapRemove_subset _ _ _ hx)
    · cases h
  | init l =>
    simp only [hear1] at h
    split at h
    · cases h; exact List.mem_append.1 hx
    · cases h

theorem hear_mem : ∀ (l : List Ann) {T U : List String}, hear na T l = some U → ∀ x ∈ U, x ∈ T ∨ ∃ a ∈ l, x ∈ a.addrs
  | [], _, _, h, x, hx => by cases h; exact Or.inl hx
  | a :: t, T, U, h, x, hx => by
    simp only [hear] at h
    split at h
    · cases h
    · rename_i T' h1
      rcases hear_mem t h x hx with h2 | ⟨b, hb, h2⟩
      · rcases hear1_mem na h1 h2 with h3 | h3
        · exact Or.inl h3
        · exact Or.inr ⟨a, List.mem_cons_self, h3⟩
      · exact Or.inr ⟨b, List.mem_cons_of_mem _ hb, h2⟩

/-! ### What calls do to links, announcements and reachable lists -/

theorem rri_out {s s' : St} {dst link : String} {b : Bool} (h : removeRouteInfo na s dst b link = some s') :
    s'.out = s.out ∧ s'.links = s.links ∧ s'.reach = s.reach := by
  obtain ⟨-, h | h⟩ := rri_cases na h
  · obtain ⟨-, nx, -, rfl⟩ := h; exact ⟨rfl, rfl, rfl⟩
  · obtain ⟨-, -, rfl⟩ := h; exact ⟨rfl, rfl, rfl⟩

theorem ari_out (s : St) (dst link : String) (t : RT) :
    (addRouteInfo s dst link t).out = s.out ∧ (addRouteInfo s dst link t).links = s.links ∧ (addRouteInfo s dst link t).reach = s.reach := by
  unfold addRouteInfo
  dsimp only
  split <;> (split <;> (try split)) <;> exact ⟨rfl, rfl, rfl⟩

theorem removeAll_out (link : String) : ∀ (l : List String) (s s' : St), removeAll na link l s = some s' →
    s'.out = s.out ∧ s'.links = s.links ∧ s'.reach = s.reach
  | [], s, s', h => by cases h; exact ⟨rfl, rfl, rfl⟩
  | r :: t, s, s', h => by
    simp only [removeAll] at h
    cases hn : na r with
    | none => rw [hn] at h; cases h
    | some n =>
      rw [hn] at h
      dsimp only at h
      cases h1 : removeRouteInfo na s n true link with
      | none => rw [h1] at h; cases h
      | some s1 =>
        rw [h1] at h
        obtain ⟨a1, a2, a3⟩ := rri_out na h1
        obtain ⟨b1, b2, b3⟩ := removeAll_out link t s1 s' h
        exact ⟨b1.trans a1, b2.trans a2, b3.trans a3⟩

theorem addLink_out {s s' : St} {link : String} (h : addLink na s link = some s') :
    (∃ n, na link = some n ∧ (s.route n).type ≠ .link) ∧
    s'.out = s.out ++ s.links.map (Out.internal · (.link link)) ++ [.internal link (.init s.links)] ∧ s'.links = s.links ++ [link] ∧
    s'.reach = upd s.reach link [] := by
  unfold addLink at h
  cases hn : na link with
  | none => rw [hn] at h; cases h
  | some net =>
    rw [hn] at h
    dsimp only at h
    split at h; · cases h
    rename_i ht
    split at h; · cases h
    simp only [Option.some.injEq] at h
    subst h
    refine ⟨⟨net, rfl, ht⟩, ?_⟩
    dsimp only
    obtain ⟨a1, a2, a3⟩ := ari_out { (propagate s (.link link)) with
      isLink := upd (propagate s (.link link)).isLink link true, reach := upd (propagate s (.link link)).reach link []
      links := (propagate s (.link link)).links ++ [link] } net link .link
    rw [a1, a2, a3]
    exact ⟨rfl, rfl, rfl⟩

theorem removeLink_out {s s' : St} {link : String} (h : removeLink na s link = some s') :
    s.isLink link = true ∧
    s'.out = s.out ++ [.clear link] ++ (swapRemove s.links link).map (Out.internal · (.unlink link)) ∧ s'.links = swapRemove s.links link ∧
    s'.reach = upd s.reach link [] := by
  unfold removeLink at h
  split at h; · cases h
  rename_i hl
  split at h; · cases h
  cases hn : na link with
  | none => rw [hn] at h; cases h
  | some net =>
    rw [hn] at h
    dsimp only at h
    cases h1 : removeRouteInfo na s net false "" with
    | none => rw [h1] at h; cases h
    | some s1 =>
      rw [h1] at h
      dsimp only at h
      cases h2 : remove s1.links link with
      | none => rw [h2] at h; cases h
      | some ls =>
        rw [h2] at h
        dsimp only at h
        cases h3 : removeAll na link (s1.reach link) { s1 with links := ls } with
        | none => rw [h3] at h; cases h
        | some s2 =>
          rw [h3] at h
          simp only [Option.some.injEq] at h
          obtain ⟨a1, a2, a3⟩ := rri_out na h1
          obtain ⟨b1, b2, b3⟩ := removeAll_out na link _ _ _ h3
          obtain ⟨-, c⟩ := remove_some h2
          dsimp only at b1 b2 b3
          rw [a1] at b1
          rw [a2] at c
          rw [a3] at b3
          rw [c] at b2
          subst h
          refine ⟨by simpa using hl, ?_, b2, ?_⟩
          · show s2.out ++ [.clear link] ++ s2.links.map _ = _
            rw [b1, b2]
          · show upd s2.reach link [] = _
            rw [b3]

theorem addReachable_out {s s' : St} {f r : String} (h : addReachable na s f r = some s') :
    s'.out = s.out ∧ s'.links = s.links ∧ s'.reach = upd s.reach (s.route f).next (s.reach (s.route f).next ++ [r]) := by
  unfold addReachable at h
  cases hn : na r with
  | none => rw [hn] at h; cases h
  | some n =>
    rw [hn] at h
    simp only [Option.some.injEq] at h
    subst h
    exact ari_out { s with reach := upd s.reach (s.route f).next (s.reach (s.route f).next ++ [r]) } _ _ _

theorem removeReachable_out {s s' : St} {f r : String} (h : removeReachable na s f r = some s') :
    s'.out = s.out ∧ s'.links = s.links ∧ s'.reach = upd s.reach (s.route f).next (swapRemove (s.reach (s.route f).next) r) := by
  unfold removeReachable at h
  dsimp only at h
  cases h1 : remove (s.reach (s.route f).next) r with
  | none => rw [h1] at h; cases h
  | some rs =>
    rw [h1] at h
    dsimp only at h
    cases hn : na r with
    | none => rw [hn] at h; cases h
    | some n =>
      rw [hn] at h
      obtain ⟨a1, a2, a3⟩ := rri_out na h
      obtain ⟨-, c⟩ := remove_some h1
      rw [c] at a3
      exact ⟨a1, a2, a3⟩

/-- Calls about something else. -/
def Op.aside : Op → Bool
  | .addLink _ => false
  | .removeLink _ => false
  | .addReachable _ _ => false
  | .removeReachable _ _ => false
  | _ => true

theorem aside_out {s s' : St} {o : Op} (ho : o.aside = true) (h : act na s o = some s') :
    s'.out = s.out ∧ s'.links = s.links ∧ s'.reach = s.reach := by
  cases o with
  | addLink _ => cases ho
  | removeLink _ => cases ho
  | addReachable _ _ => cases ho
  | removeReachable _ _ => cases ho
  | addOwner a =>
    simp only [act, addOwner] at h
    split at h; · cases h
    split at h; · cases h
    cases h; exact ⟨rfl, rfl, rfl⟩
  | removeOwner a =>
    simp only [act, removeOwner] at h
    split at h; · cases h
    split at h
    · cases h; exact ⟨rfl, rfl, rfl⟩
    · cases h
  | addService svc a =>
    simp only [act, addService] at h
    split at h; · cases h
    split at h; · cases h
    cases h; exact ⟨rfl, rfl, rfl⟩
  | removeService svc =>
    simp only [act, removeService] at h
    split at h; · cases h
    split at h; · cases h
    cases h; exact ⟨rfl, rfl, rfl⟩
  | addVerifier net a =>
    simp only [act, addVerifier] at h
    split at h; · cases h
    split at h; · cases h
    cases h; exact ⟨rfl, rfl, rfl⟩
  | removeVerifier net =>
    simp only [act, removeVerifier] at h
    split at h; · cases h
    split at h; · cases h
    cases h; exact ⟨rfl, rfl, rfl⟩
  | addRelay l a =>
    simp only [act, addRelay] at h
    split at h; · cases h
    split at h; · cases h
    split at h; · cases h
    cases h; exact ⟨rfl, rfl, rfl⟩
  | removeRelay l a =>
    simp only [act, removeRelay] at h
    split at h; · cases h
    split at h; · cases h
    split at h; · cases h
    cases h; exact ⟨rfl, rfl, rfl⟩
  | addRoute d l =>
    simp only [act, addRoute] at h
    split at h; · cases h
    split at h; · cases h
    split at h; · cases h
    cases h; exact ari_out _ _ _ _
  | removeRoute d =>
    simp only [act, removeRoute] at h
    split at h; · cases h
    exact rri_out na h
  | setFee d v =>
    simp only [act, setFee] at h
    split at h
    · split at h; · cases h
      split at h; · cases h
      split at h; · cases h
      cases h; exact ⟨rfl, rfl, rfl⟩
    · cases h; exact ⟨rfl, rfl, rfl⟩

end Verif.SolRoutes
