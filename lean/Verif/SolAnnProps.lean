import Verif.SolAnn
/-!
C166: message centers of EVM chains keep their tables consistent by what they tell each other. Proved for networks where no two neighbours of a chain
are linked to each other (`_partial`); false for three chains all linked to each other (`C166_triangle_witness`).

* A network of chains. `addr n` is the address of the message center of the network `n`. Announcements are read in order, each once
  (periphery: C01, C02; verifiers: C40, C41). `adj` says between which networks links may be made.
* A link may be removed, but is not added again (the numbers would start again).
* The service contract calls the management contract only for announcements.
-/
namespace Verif.SolRoutes
open Verif
open Verif.SolBmc (upd)

section
variable (na : String → Option String) (addr : String → String) (nets : List String) (service creator : String → Nat) (adj : String → String → Prop)

/-- What owners do: links are made between networks `adj` allows, once, and for no network with a route of its own; no route of its own is made for
    a linked network. -/
def Fits (s : St) (n : String) : Op → Prop
  | .addLink l => (∃ p ∈ nets, adj n p ∧ l = addr p) ∧ toward l s.out = [] ∧ ∀ m, na l = some m → (s.route m).type ≠ .manual
  | .addRoute dst _ => (s.route dst).type ≠ .link
  | _ => True

/-- The states the network can reach; `rx n p` is how many announcements of `p` the network `n` has read. An announcement that cannot be handled is
    passed over (BMCPeriphery.sol:152-173). -/
inductive NReach : (String → St) → (String → String → Nat) → Prop
  | init : NReach (fun n => SolRoutes.init (creator n)) (fun _ _ => 0)
  | call {S : String → St} {rx : String → String → Nat} (n : String) (snd : Nat) (o : Op) (s' : St) : NReach S rx → n ∈ nets → o.byService = false →
      Fits na addr nets adj (S n) n o → SolRoutes.call na (service n) (S n) snd o = some s' → NReach (upd S n s') rx
  | hear {S : String → St} {rx : String → String → Nat} (n p : String) (a : Ann) : NReach S rx → n ∈ nets → p ∈ nets → p ≠ n → addr p ∈ (S n).links →
      (toward (addr n) (S p).out)[rx n p]? = some a →
      NReach (upd S n ((handleAnn na (service n) (S n) p a).getD (S n))) (upd rx n (upd (rx n) p (rx n p + 1)))

/-- Addresses name their networks; no two neighbours of a network are neighbours. -/
structure Sparse : Prop where
  na : ∀ n ∈ nets, na (addr n) = some n
  ne : ∀ n p, adj n p → p ≠ n
  tri : ∀ a b c, adj a b → adj b c → ¬ adj a c

/-- One chain. -/
structure Loc (n : String) (s : St) : Prop where
  good : Good na (service n) (creator n) s
  links : ∀ l ∈ s.links, ∃ p ∈ nets, adj n p ∧ l = addr p
  anns : ∀ l a, .internal l a ∈ s.out → ∀ x ∈ a.addrs, x ≠ l ∧ ∃ m ∈ nets, adj n m ∧ x = addr m
  told : ∀ l, ∃ T, hear na [] (toward l s.out) = some T ∧ (l ∈ s.links → ∀ x, x ∈ T ↔ x ∈ s.links ∧ x ≠ l)
  fresh : ∀ l, toward l s.out = [] → l ∉ s.links

structure NInv (S : String → St) (rx : String → String → Nat) : Prop where
  loc : ∀ n ∈ nets, Loc na addr nets service creator adj n (S n)
  learnt : ∀ n ∈ nets, ∀ p ∈ nets, p ≠ n → addr p ∈ (S n).links →
    SolRoutes.hear na [] ((toward (addr n) (S p).out).take (rx n p)) = some ((S n).reach (addr p))
  le : ∀ n ∈ nets, ∀ p ∈ nets, rx n p ≤ (toward (addr n) (S p).out).length
  zero : ∀ n ∈ nets, ∀ p ∈ nets, toward (addr p) (S n).out = [] → rx n p = 0

variable {na addr nets service creator adj}

theorem links_nets {s : St} (T : Tab na s none []) : (s.links.map na).Nodup := by
  rw [List.Nodup, List.pairwise_map]
  refine T.nd.imp_of_mem ?_
  intro a b ha hb hab e
  obtain ⟨-, n, h1, -, h2⟩ := T.lk a ha
  obtain ⟨-, m, h3, -, h4⟩ := T.lk b hb
  rw [h1, h3] at e
  cases e
  exact hab (h2.symm.trans h4)

theorem toward_one (l k : String) (x : Ann) : toward l [.internal k x] = if k = l then [x] else [] := rfl

theorem Loc.addLink {n : String} {s s' : St} {L : String} (h : Loc na addr nets service creator adj n s) {p : String}
    (hp : p ∈ nets) (hadj : adj n p) (hL : L = addr p) (hf : toward L s.out = []) (hg : Good na (service n) (creator n) s')
    (he : addLink na s L = some s') : Loc na addr nets service creator adj n s' := by
  obtain ⟨⟨net, hn, hty⟩, ho, hl, -⟩ := addLink_out na he
  have T := h.good.tab
  have hfr := h.fresh L hf
  have hto : ∀ l, toward l s'.out = toward l s.out ++ (if l ∈ s.links then [.link L] else []) ++ (if L = l then [.init s.links] else []) := by
    intro l
    rw [ho, toward_append, toward_append, toward_map _ _ _ T.nd, toward_one]
  have hnew : ∀ l ∈ s.links, na l ≠ na L := by
    intro l hll e
    obtain ⟨-, m, h1, h2, -⟩ := T.lk l hll
    rw [h1, hn] at e
    cases e
    exact hty h2
  refine ⟨hg, ?_, ?_, ?_, ?_⟩
  · intro l hll
    rw [hl] at hll
    rcases List.mem_append.1 hll with h1 | h1
    · exact h.links l h1
    · simp at h1; subst h1; exact ⟨p, hp, hadj, hL⟩
  · intro l a hm x hx
    rw [ho] at hm
    rcases List.mem_append.1 hm with hm | hm
    · rcases List.mem_append.1 hm with hm | hm
      · exact h.anns l a hm x hx
      · obtain ⟨k, hk, e⟩ := List.mem_map.1 hm
        cases e
        simp [Ann.addrs] at hx
        subst hx
        exact ⟨fun e => hfr (e ▸ hk), p, hp, hadj, hL⟩
    · simp at hm
      obtain ⟨rfl, rfl⟩ := hm
      obtain ⟨q, hq, ha, rfl⟩ := h.links x hx
      exact ⟨fun e => hfr (e ▸ hx), q, hq, ha, rfl⟩
  · intro l
    rw [hto l]
    by_cases e : L = l
    · subst e
      refine ⟨s.links, ?_, fun _ x => ?_⟩
      · rw [hf, if_neg hfr, if_pos rfl]
        show (match hear1 na [] (.init s.links) with | none => none | some T' => some T') = _
        have : hear1 na [] (.init s.links) = some s.links := by
          refine if_pos ⟨fun x hx => ?_, links_nets T⟩
          obtain ⟨-, m, h1, -⟩ := T.lk x hx; rw [h1]; rfl
        rw [this]
      · rw [hl]
        constructor
        · intro hx; exact ⟨List.mem_append_left _ hx, fun e => hfr (e ▸ hx)⟩
        · rintro ⟨hx, hne⟩
          rcases List.mem_append.1 hx with h1 | h1
          · exact h1
          · simp at h1; exact absurd h1 hne
    · obtain ⟨U, hU, hU2⟩ := h.told l
      rw [if_neg e, List.append_nil]
      by_cases hm : l ∈ s.links
      · have hU3 := hU2 hm
        refine ⟨U ++ [L], ?_, fun _ x => ?_⟩
        · rw [if_pos hm, hear_append, hU]
          show (match hear1 na U (.link L) with | none => none | some T' => some T') = _
          have : hear1 na U (.link L) = some (U ++ [L]) := by
            refine if_pos ⟨by rw [hn]; rfl, fun hc => ?_⟩
            obtain ⟨k, hk, ek⟩ := List.mem_map.1 hc
            exact hnew k ((hU3 k).1 hk).1 ek
          rw [this]
        · rw [hl, List.mem_append, List.mem_append, hU3 x]
          constructor
          · rintro (h1 | h1)
            · exact ⟨Or.inl h1.1, h1.2⟩
            · refine ⟨Or.inr h1, ?_⟩
              simp at h1; subst h1; exact e
          · rintro ⟨h1 | h1, h2⟩
            · exact Or.inl ⟨h1, h2⟩
            · exact Or.inr h1
      · refine ⟨U, by rw [if_neg hm, List.append_nil]; exact hU, fun hc => ?_⟩
        rw [hl] at hc
        rcases List.mem_append.1 hc with h1 | h1
        · exact absurd h1 hm
        · simp at h1; exact absurd h1.symm e
  · intro l hll hc
    rw [hto l] at hll
    rw [hl] at hc
    rcases List.mem_append.1 hc with h1 | h1
    · rw [if_pos h1] at hll; simp at hll
    · simp at h1; subst h1; rw [if_pos rfl] at hll; simp at hll

theorem Loc.removeLink {n : String} {s s' : St} {L : String} (h : Loc na addr nets service creator adj n s)
    (hg : Good na (service n) (creator n) s') (he : removeLink na s L = some s') : Loc na addr nets service creator adj n s' := by
  obtain ⟨hisl, ho, hl, -⟩ := removeLink_out na he
  have T := h.good.tab
  have hL : L ∈ s.links := (T.il L hisl).elim id (fun e => by cases e)
  have hk := fun y => swapRemove_keep (x := L) T.nd y
  have hnd : (swapRemove s.links L).Nodup := hl ▸ hg.tab.nd
  have hto : ∀ l, toward l s'.out = toward l s.out ++ (if l ∈ swapRemove s.links L then [.unlink L] else []) := by
    intro l
    rw [ho, toward_append, toward_append, toward_map _ _ _ hnd]
    show toward l s.out ++ [] ++ _ = _
    rw [List.append_nil]
  refine ⟨hg, ?_, ?_, ?_, ?_⟩
  · intro l hll
    rw [hl] at hll
    exact h.links l ((hk l).1 hll).1
  · intro l a hm x hx
    rw [ho] at hm
    rcases List.mem_append.1 hm with hm | hm
    · rcases List.mem_append.1 hm with hm | hm
      · exact h.anns l a hm x hx
      · simp at hm
    · obtain ⟨k, hk', e⟩ := List.mem_map.1 hm
      cases e
      simp [Ann.addrs] at hx
      subst hx
      exact ⟨fun e => ((hk l).1 hk').2 e.symm, h.links x hL⟩
  · intro l
    rw [hto l]
    obtain ⟨U, hU, hU2⟩ := h.told l
    by_cases hm : l ∈ swapRemove s.links L
    · obtain ⟨h1, h2⟩ := (hk l).1 hm
      have hU3 := hU2 h1
      have hLU : L ∈ U := (hU3 L).2 ⟨hL, fun e => h2 e.symm⟩
      have hUn : U.Nodup := nodup_of_map (hear_nodup na _ hU (by simp))
      refine ⟨swapRemove U L, ?_, fun _ x => ?_⟩
      · rw [if_pos hm, hear_append, hU]
        show (match hear1 na U (.unlink L) with | none => none | some T' => some T') = _
        have : hear1 na U (.unlink L) = some (swapRemove U L) := if_pos hLU
        rw [this]
      · rw [hl, hk x, swapRemove_keep hUn, hU3 x]
        exact ⟨fun ⟨⟨a, b⟩, c⟩ => ⟨⟨a, c⟩, b⟩, fun ⟨⟨a, c⟩, b⟩ => ⟨⟨a, b⟩, c⟩⟩
    · refine ⟨U, by rw [if_neg hm, List.append_nil]; exact hU, fun hc => ?_⟩
      rw [hl] at hc
      exact absurd hc hm
  · intro l hll hc
    rw [hto l] at hll
    rw [hl] at hc
    rw [if_pos hc] at hll
    simp at hll

theorem Loc.same {n : String} {s s' : St} (h : Loc na addr nets service creator adj n s) (hg : Good na (service n) (creator n) s')
    (ho : s'.out = s.out) (hl : s'.links = s.links) : Loc na addr nets service creator adj n s' :=
  ⟨hg, by rw [hl]; exact h.links, by rw [ho]; exact h.anns, by rw [ho, hl]; exact h.told, by rw [ho, hl]; exact h.fresh⟩

/-- What a chain is told that makes sense, it can handle. -/
theorem Loc.handle (sp : Sparse na addr nets adj) {n : String} {s : St} (h : Loc na addr nets service creator adj n s) {p : String} (hp : p ∈ nets)
    (hl : addr p ∈ s.links) {a : Ann} (ha : ∀ x ∈ a.addrs, x ≠ addr n ∧ ∃ m ∈ nets, adj p m ∧ x = addr m) {T : List String}
    (hh : hear1 na (s.reach (addr p)) a = some T) :
    ∃ s', handleAnn na (service n) s p a = some s' ∧ Loc na addr nets service creator adj n s' ∧ s'.out = s.out ∧ s'.links = s.links ∧
      s'.reach = upd s.reach (addr p) T := by
  have hpn : adj n p := by
    obtain ⟨q, hq, h1, h2⟩ := h.links _ hl
    have := sp.na p hp
    rw [h2, sp.na q hq] at this
    cases this
    exact h1
  have hnext : ∀ t : St, Loc na addr nets service creator adj n t → addr p ∈ t.links → (t.route p).next = addr p := by
    intro t ht htl
    obtain ⟨-, m, h1, -, h2⟩ := ht.good.tab.lk _ htl
    rw [sp.na p hp] at h1
    cases h1
    exact h2
  -- one address added
  have hone : ∀ (t : St), Loc na addr nets service creator adj n t → addr p ∈ t.links → ∀ x, (∃ m ∈ nets, adj p m ∧ x = addr m) →
      na x ∉ (t.reach (addr p)).map na → ∃ t', call na (service n) t (service n) (.addReachable p x) = some t' ∧
        Loc na addr nets service creator adj n t' ∧ t'.out = t.out ∧ t'.links = t.links ∧
        t'.reach = upd t.reach (addr p) (t.reach (addr p) ++ [x]) := by
    intro t ht htl x hx hnx
    obtain ⟨m, hm, ham, rfl⟩ := hx
    have hnxt := hnext t ht htl
    have hc : ∃ t', addReachable na t p (addr m) = some t' := by
      unfold addReachable
      rw [sp.na m hm]
      exact ⟨_, rfl⟩
    obtain ⟨t', ht'⟩ := hc
    have hcall : call na (service n) t (service n) (.addReachable p (addr m)) = some t' := by
      unfold call
      rw [if_pos (by rfl), if_pos rfl]
      exact ht'
    obtain ⟨o1, o2, o3⟩ := addReachable_out na ht'
    rw [hnxt] at o3
    have hd : Disc na t (.addReachable p (addr m)) := by
      refine ⟨by rw [hnxt]; exact htl, fun k hk => ⟨fun hty => ?_, ?_⟩⟩
      · rw [sp.na m hm] at hk
        cases hk
        obtain ⟨b1, b2, -⟩ := ht.good.tab.tl m hty
        obtain ⟨q, hq, b3, b4⟩ := ht.links _ b1
        rw [b4, sp.na q hq] at b2
        cases b2
        exact sp.tri n p m hpn ham b3
      · rw [hnxt]
        unfold rep
        rw [← hk]
        exact decide_eq_false hnx
    have hg := Good.step (na := na) (service := service n) (creator := creator n) t t' (service n) _ ht.good hd hcall
    exact ⟨t', hcall, ht.same hg o1 o2, o1, o2, o3⟩
  cases a with
  | link x =>
    simp only [hear1] at hh
    split at hh
    · rename_i hc
      cases hh
      exact hone s h hl x (ha x (by simp [Ann.addrs])).2 hc.2
    · cases hh
  | unlink x =>
    simp only [hear1] at hh
    split at hh
    · rename_i hc
      cases hh
      have hnxt := hnext s h hl
      obtain ⟨s', hs'⟩ := C48_unlink_partial na h.good (f := p) (r := x) (by rw [hnxt]; exact hl) (by rw [hnxt]; exact hc)
      have hact := (call_act na hs').1
      obtain ⟨o1, o2, o3⟩ := removeReachable_out na hact
      rw [hnxt] at o3
      have hg := Good.step (na := na) (service := service n) (creator := creator n) s s' (service n) (.removeReachable p x) h.good
        ⟨by rw [hnxt]; exact hl, by rw [hnxt]; exact hc⟩ hs'
      exact ⟨s', hs', h.same hg o1 o2, o1, o2, o3⟩
    · cases hh
  | init L =>
    simp only [hear1] at hh
    split at hh
    · rename_i hc
      cases hh
      obtain ⟨hc1, hc2⟩ := hc
      have main : ∀ (L : List String) (t : St), Loc na addr nets service creator adj n t → addr p ∈ t.links →
          (∀ x ∈ L, ∃ m ∈ nets, adj p m ∧ x = addr m) → ((t.reach (addr p) ++ L).map na).Nodup →
          ∃ t', addReachables na (service n) p L t = some t' ∧ Loc na addr nets service creator adj n t' ∧ t'.out = t.out ∧ t'.links = t.links ∧
            t'.reach = upd t.reach (addr p) (t.reach (addr p) ++ L) := by
        intro L
        induction L with
        | nil =>
          intro t ht _ _ _
          refine ⟨t, rfl, ht, rfl, rfl, ?_⟩
          rw [List.append_nil]
          funext k
          unfold upd
          split
          · rename_i e; rw [e]
          · rfl
        | cons x L ih =>
          intro t ht htl hx hn
          have hnx : na x ∉ (t.reach (addr p)).map na := by
            intro hc
            rw [List.map_append] at hn
            exact (List.nodup_append.1 hn).2.2 _ hc (na x) List.mem_cons_self rfl
          obtain ⟨t1, c1, c2, c3, c4, c5⟩ := hone t ht htl x (hx x List.mem_cons_self) hnx
          obtain ⟨t2, d1, d2, d3, d4, d5⟩ := ih t1 c2 (by rw [c4]; exact htl) (fun y hy => hx y (List.mem_cons_of_mem _ hy))
            (by rw [c5, upd_self, List.append_assoc]; exact hn)
          refine ⟨t2, ?_, d2, d3.trans c3, d4.trans c4, ?_⟩
          · simp only [addReachables, c1]; exact d1
          · rw [d5, c5, upd_self, List.append_assoc, upd_upd]; rfl
      exact main L s h hl (fun x hx => (ha x hx).2) hc2
    · cases hh

/-- What is reachable over a link, its other side is linked to. -/
theorem NInv.reach_adj {S : String → St} {rx : String → String → Nat} (g : NInv na addr nets service creator adj S rx)
    {n p : String} (hn : n ∈ nets) (hp : p ∈ nets) (hpn : p ≠ n) (hl : addr p ∈ (S n).links) {r : String} (hr : r ∈ (S n).reach (addr p)) :
    ∃ m ∈ nets, adj p m ∧ r = addr m := by
  rcases hear_mem na _ (g.learnt n hn p hp hpn hl) r hr with h | ⟨a, ha, h⟩
  · cases h
  · exact ((g.loc p hp).anns _ a (mem_toward (List.mem_of_mem_take ha)) r h).2

theorem take_append_le {α : Type} {l m : List α} {k : Nat} (h : k ≤ l.length) : (l ++ m).take k = l.take k := by
  rw [List.take_append, Nat.sub_eq_zero_of_le h]; simp

/-- Announcements are only ever appended. -/
theorem call_grows {s s' : St} {snd sv : Nat} {o : Op} (hb : o.byService = false) (h : call na sv s snd o = some s') :
    ∃ more, s'.out = s.out ++ more := by
  have hact := (call_act na h).1
  by_cases ha : o.aside = true
  · exact ⟨[], by rw [(aside_out na ha hact).1, List.append_nil]⟩
  · cases o with
    | addLink l => exact ⟨_, by rw [(addLink_out na hact).2.1, List.append_assoc]⟩
    | removeLink l => exact ⟨_, by rw [(removeLink_out na hact).2.1, List.append_assoc]⟩
    | addReachable _ _ => cases hb
    | removeReachable _ _ => cases hb
    | _ => exact absurd rfl ha

theorem NReach.ninv (sp : Sparse na addr nets adj) {S : String → St} {rx : String → String → Nat}
    (h : NReach na addr nets service creator adj S rx) : NInv na addr nets service creator adj S rx := by
  induction h with
  | init =>
    refine ⟨fun n _ => ⟨.init, fun l hl => ?_, fun l a hm => ?_, fun l => ⟨[], rfl, fun hl => ?_⟩, fun l _ hl => ?_⟩, fun n _ p _ _ hl => ?_,
      fun _ _ _ _ => Nat.zero_le _, fun _ _ _ _ _ => rfl⟩
    · cases hl
    · cases hm
    · cases hl
    · cases hl
    · cases hl
  | call n snd o s' hS hn hb hfit hc ih =>
    rename_i S rx
    have hloc := ih.loc n hn
    have hact := (call_act na hc).1
    -- the call obeys the discipline
    have hd : Disc na (S n) o := by
      cases o with
      | addLink l =>
        obtain ⟨⟨q, hq, ha, hlq⟩, hf, hman⟩ := hfit
        intro m hm
        obtain ⟨⟨m', hm', hnl⟩, -⟩ := addLink_out na hact
        rw [hm] at hm'
        cases hm'
        cases hty : ((S n).route m).type with
        | none => rfl
        | link => exact absurd hty hnl
        | manual => exact absurd hty (hman m hm)
        | reachable =>
          exfalso
          rcases hloc.good.tab.rt m hty with ⟨b1, b2⟩ | ⟨b1, -⟩
          · obtain ⟨p, hp, c1, c2⟩ := hloc.links _ b1
            unfold rep at b2
            have b3 := of_decide_eq_true b2
            obtain ⟨r, hr, er⟩ := List.mem_map.1 b3
            rw [c2] at hr b1
            obtain ⟨k, hk, d1, d2⟩ := ih.reach_adj hn hp (sp.ne n p c1) b1 hr
            rw [d2, sp.na k hk] at er
            cases er
            rw [hlq, sp.na q hq] at hm
            cases hm
            exact sp.tri n p q c1 d1 ha
          · cases b1
      | addRoute d l => exact hfit
      | addReachable _ _ => cases hb
      | removeReachable _ _ => cases hb
      | _ => trivial
    have hg := Good.step (na := na) (service := service n) (creator := creator n) (S n) s' snd o hloc.good hd hc
    have hloc' : Loc na addr nets service creator adj n s' := by
      by_cases ha : o.aside = true
      · obtain ⟨o1, o2, -⟩ := aside_out na ha hact
        exact hloc.same hg o1 o2
      · cases o with
        | addLink l =>
          obtain ⟨⟨q, hq, ha, hlq⟩, hf, hman⟩ := hfit
          exact hloc.addLink hq ha hlq hf hg hact
        | removeLink l => exact hloc.removeLink hg hact
        | addReachable _ _ => cases hb
        | removeReachable _ _ => cases hb
        | _ => exact absurd rfl ha
    obtain ⟨more, hmore⟩ := call_grows hb hc
    have hself : upd S n s' n = s' := upd_self S n s'
    have hoth : ∀ q, q ≠ n → upd S n s' q = S q := fun q hq => upd_ne S s' hq
    have hto : ∀ q l, ∃ m2, toward l (upd S n s' q).out = toward l (S q).out ++ m2 := by
      intro q l
      by_cases e : q = n
      · subst e; rw [hself, hmore, toward_append]; exact ⟨_, rfl⟩
      · rw [hoth q e]; exact ⟨[], (List.append_nil _).symm⟩
    refine ⟨fun q hq => ?_, fun q hq p hp hpq hl => ?_, fun q hq p hp => ?_, fun q hq p hp hz => ?_⟩
    · by_cases e : q = n
      · subst e; rw [hself]; exact hloc'
      · rw [hoth q e]; exact ih.loc q hq
    · obtain ⟨m2, hm2⟩ := hto p (addr q)
      rw [hm2, take_append_le (ih.le q hq p hp)]
      by_cases e : q = n
      · subst e
        rw [hself] at hl ⊢
        by_cases ha : o.aside = true
        · obtain ⟨o1, o2, o3⟩ := aside_out na ha hact
          rw [o2] at hl
          rw [o3]
          exact ih.learnt q hq p hp hpq hl
        · cases o with
          | addLink l =>
            obtain ⟨⟨k, hk, ha, hlq⟩, hf, hman⟩ := hfit
            obtain ⟨-, o1, o2, o3⟩ := addLink_out na hact
            rw [o2] at hl
            rw [o3]
            by_cases e2 : addr p = l
            · rw [e2, upd_self, ih.zero q hq p hp (e2 ▸ hf)]; rfl
            · rw [upd_ne _ _ e2]
              refine ih.learnt q hq p hp hpq ?_
              rcases List.mem_append.1 hl with h1 | h1
              · exact h1
              · simp at h1; exact absurd h1 e2
          | removeLink l =>
            obtain ⟨-, o1, o2, o3⟩ := removeLink_out na hact
            rw [o2] at hl
            rw [o3]
            have := (swapRemove_keep hloc.good.tab.nd _).1 hl
            rw [upd_ne _ _ this.2]
            exact ih.learnt q hq p hp hpq this.1
          | addReachable _ _ => cases hb
          | removeReachable _ _ => cases hb
          | _ => exact absurd rfl ha
      · rw [hoth q e] at hl ⊢
        exact ih.learnt q hq p hp hpq hl
    · obtain ⟨m2, hm2⟩ := hto p (addr q)
      rw [hm2, List.length_append]
      exact Nat.le_trans (ih.le q hq p hp) (Nat.le_add_right _ _)
    · obtain ⟨m2, hm2⟩ := hto q (addr p)
      rw [hm2] at hz
      exact ih.zero q hq p hp (List.append_eq_nil_iff.1 hz).1
  | hear n p a hS hn hp hpn hl ha ih =>
    rename_i S rx
    have hloc := ih.loc n hn
    have hlt : rx n p < (toward (addr n) (S p).out).length := (List.getElem?_eq_some_iff.1 ha).1
    have hsplit : (toward (addr n) (S p).out).take (rx n p + 1) = (toward (addr n) (S p).out).take (rx n p) ++ [a] := by
      rw [List.take_add_one, ha]; rfl
    obtain ⟨U, hU, -⟩ := (ih.loc p hp).told (addr n)
    have hpre : ∃ T, hear1 na ((S n).reach (addr p)) a = some T := by
      rw [← List.take_append_drop (rx n p + 1) (toward (addr n) (S p).out), hsplit, List.append_assoc] at hU
      obtain ⟨V, hV, hV2⟩ := hear_prefix na hU
      rw [ih.learnt n hn p hp hpn hl] at hV
      cases hV
      obtain ⟨W, hW, -⟩ := hear_prefix na hV2
      simp only [SolRoutes.hear] at hW
      split at hW
      · cases hW
      · rename_i T hT; exact ⟨T, hT⟩
    obtain ⟨T, hT⟩ := hpre
    have hmem := mem_toward (List.mem_of_getElem? ha)
    obtain ⟨s', h1, h2, h3, h4, h5⟩ := hloc.handle sp hp hl (fun x hx => (ih.loc p hp).anns _ a hmem x hx) hT
    rw [h1]
    show NInv na addr nets service creator adj (upd S n s') _
    have hself : upd S n s' n = s' := upd_self S n s'
    have hoth : ∀ q, q ≠ n → upd S n s' q = S q := fun q hq => upd_ne S s' hq
    have hout : ∀ q, (upd S n s' q).out = (S q).out := by
      intro q
      by_cases e : q = n
      · subst e; rw [hself]; exact h3
      · rw [hoth q e]
    have hlk : ∀ q, (upd S n s' q).links = (S q).links := by
      intro q
      by_cases e : q = n
      · subst e; rw [hself]; exact h4
      · rw [hoth q e]
    refine ⟨fun q hq => ?_, fun q hq k hk hkq hlk' => ?_, fun q hq k hk => ?_, fun q hq k hk hz => ?_⟩
    · by_cases e : q = n
      · subst e; rw [hself]; exact h2
      · rw [hoth q e]; exact ih.loc q hq
    · rw [hout]
      rw [hlk] at hlk'
      by_cases e : q = n
      · subst e
        rw [hself, upd_self, h5]
        by_cases e2 : k = p
        · subst e2
          rw [upd_self, upd_self, hsplit, hear_append, ih.learnt q hq k hk hkq hlk']
          show (match hear1 na ((S q).reach (addr k)) a with | none => none | some T' => some T') = _
          rw [hT]
        · rw [upd_ne _ _ e2, upd_ne _ _ (fun e3 => e2 (by
            have := sp.na k hk
            rw [e3, sp.na p hp] at this
            cases this; rfl))]
          exact ih.learnt q hq k hk hkq hlk'
      · rw [hoth q e, upd_ne _ _ e]
        exact ih.learnt q hq k hk hkq hlk'
    · rw [hout]
      by_cases e : q = n
      · subst e
        rw [upd_self]
        by_cases e2 : k = p
        · subst e2; rw [upd_self]; exact hlt
        · rw [upd_ne _ _ e2]; exact ih.le q hq k hk
      · rw [upd_ne _ _ e]; exact ih.le q hq k hk
    · rw [hout] at hz
      by_cases e : q = n
      · subst e
        rw [upd_self]
        by_cases e2 : k = p
        · subst e2; exact absurd hl (hloc.fresh _ hz)
        · rw [upd_ne _ _ e2]; exact ih.zero q hq k hk hz
      · rw [upd_ne _ _ e]; exact ih.zero q hq k hk hz

/-! ### C166 -/

/-- C166: the tables of every chain stay consistent: no link is listed twice, the network of every link resolves to that link, and every network that
    resolves at all resolves to a current link. -/
theorem C166_consistent_partial (sp : Sparse na addr nets adj) (S : String → St) (rx : String → String → Nat)
    (h : NReach na addr nets service creator adj S rx) (n : String) (hn : n ∈ nets) :
    (S n).links.Nodup ∧ (∀ l ∈ (S n).links, ∃ p ∈ nets, l = addr p ∧ resolveNext (S n) p = some l) ∧
    (∀ x l, resolveNext (S n) x = some l → l ∈ (S n).links) := by
  have g := (h.ninv sp).loc n hn
  obtain ⟨h1, -, h3, h4⟩ := C48_consistent_partial na g.good
  refine ⟨h1, fun l hl => ?_, fun x l hx => (h4 x l hx).1⟩
  obtain ⟨p, hp, -, rfl⟩ := g.links l hl
  obtain ⟨m, hm, h5⟩ := h3 _ hl
  rw [sp.na p hp] at hm
  cases hm
  exact ⟨p, hp, rfl, h5⟩

/-- C166: an owner can remove any link no route of its own goes over, after which nothing resolves to it. -/
theorem C166_removable_partial (sp : Sparse na addr nets adj) (S : String → St) (rx : String → String → Nat)
    (h : NReach na addr nets service creator adj S rx) (n : String) (hn : n ∈ nets) (l : String) (hl : l ∈ (S n).links)
    (hm : ∀ x, ((S n).route x).type = .manual → ((S n).route x).next ≠ l) (snd : Nat) (ho : (S n).owners snd = true) :
    ∃ s', call na (service n) (S n) snd (.removeLink l) = some s' ∧ l ∉ s'.links ∧ ∀ x, resolveNext s' x ≠ some l :=
  C48_removable_partial na ((h.ninv sp).loc n hn).good hl hm snd ho

/-- C166: every announcement of a linked chain can be handled when its turn comes; none is passed over. -/
theorem C166_handled_partial (sp : Sparse na addr nets adj) (S : String → St) (rx : String → String → Nat)
    (h : NReach na addr nets service creator adj S rx) (n p : String) (hn : n ∈ nets) (hp : p ∈ nets) (hpn : p ≠ n) (hl : addr p ∈ (S n).links) (a : Ann)
    (ha : (toward (addr n) (S p).out)[rx n p]? = some a) : ∃ s', handleAnn na (service n) (S n) p a = some s' := by
  have ih := h.ninv sp
  obtain ⟨U, hU, -⟩ := (ih.loc p hp).told (addr n)
  have hsplit : (toward (addr n) (S p).out).take (rx n p + 1) = (toward (addr n) (S p).out).take (rx n p) ++ [a] := by
    rw [List.take_add_one, ha]; rfl
  rw [← List.take_append_drop (rx n p + 1) (toward (addr n) (S p).out), hsplit, List.append_assoc] at hU
  obtain ⟨V, hV, hV2⟩ := hear_prefix na hU
  rw [ih.learnt n hn p hp hpn hl] at hV
  cases hV
  obtain ⟨W, hW, -⟩ := hear_prefix na hV2
  simp only [SolRoutes.hear] at hW
  split at hW
  · cases hW
  · rename_i T hT
    obtain ⟨s', h1, -⟩ := (ih.loc n hn).handle sp hp hl (fun x hx => (ih.loc p hp).anns _ a (mem_toward (List.mem_of_getElem? ha)) x hx) hT
    exact ⟨s', h1⟩

/-- C166: if `q` is linked to `p` and has read everything, and `p` is linked to `q`, then what `q` holds reachable over `p` are the addresses of the
    other links `p` has, each once. -/
theorem C166_reach_partial (sp : Sparse na addr nets adj) (S : String → St) (rx : String → String → Nat)
    (h : NReach na addr nets service creator adj S rx) (q p : String) (hq : q ∈ nets) (hp : p ∈ nets) (hpq : p ≠ q) (hl : addr p ∈ (S q).links)
    (hread : rx q p = (toward (addr q) (S p).out).length) (hl' : addr q ∈ (S p).links) :
    ((S q).reach (addr p)).Nodup ∧ ∀ x, x ∈ (S q).reach (addr p) ↔ x ∈ (S p).links ∧ x ≠ addr q := by
  have ih := h.ninv sp
  have h1 := ih.learnt q hq p hp hpq hl
  rw [hread, List.take_length] at h1
  obtain ⟨T, h2, h3⟩ := (ih.loc p hp).told (addr q)
  rw [h2] at h1
  cases h1
  exact ⟨nodup_of_map (hear_nodup na _ h2 (by simp)), h3 hl'⟩

/-- C166: where a chain has no link and no route of its own to a network, and has read everything its neighbours told it, it sends messages for that
    network to a neighbour linked to it, if there is one, and to nobody if there is none. -/
theorem C166_next_partial (sp : Sparse na addr nets adj) (S : String → St) (rx : String → String → Nat)
    (h : NReach na addr nets service creator adj S rx) (q : String) (hq : q ∈ nets)
    (hall : ∀ p ∈ nets, addr p ∈ (S q).links → rx q p = (toward (addr q) (S p).out).length ∧ addr q ∈ (S p).links)
    (x : String) (hx : x ∈ nets) (hxq : x ≠ q) (hx1 : ((S q).route x).type ≠ .link) (hx2 : ((S q).route x).type ≠ .manual) :
    (∀ a, resolveNext (S q) x = some a → ∃ p ∈ nets, a = addr p ∧ addr p ∈ (S q).links ∧ addr x ∈ (S p).links ∧ resolveNext (S p) x = some (addr x)) ∧
    (resolveNext (S q) x = none → ∀ p ∈ nets, addr p ∈ (S q).links → addr x ∉ (S p).links) := by
  have ih := h.ninv sp
  have g := ih.loc q hq
  refine ⟨fun a ha => ?_, fun hno p hp hl hc => ?_⟩
  · unfold resolveNext at ha
    split at ha
    · rename_i hty
      cases ha
      have hre : ((S q).route x).type = .reachable := by
        cases e : ((S q).route x).type with
        | none => exact absurd e hty
        | link => exact absurd e hx1
        | manual => exact absurd e hx2
        | reachable => rfl
      rcases g.good.tab.rt x hre with ⟨b1, b2⟩ | ⟨b1, -⟩
      · obtain ⟨p, hp, c1, c2⟩ := g.links _ b1
        unfold rep at b2
        obtain ⟨r, hr, er⟩ := List.mem_map.1 (of_decide_eq_true b2)
        rw [c2] at b1 hr
        obtain ⟨d1, d2⟩ := hall p hp b1
        obtain ⟨e1, e2⟩ := ((C166_reach_partial sp S rx h q p hq hp (sp.ne q p c1) b1 d1 d2).2 r).1 hr
        obtain ⟨k, hk, f1, f2⟩ := (ih.loc p hp).links r e1
        rw [f2, sp.na k hk] at er
        cases er
        rw [f2] at e1
        obtain ⟨-, i2, -⟩ := C166_consistent_partial sp S rx h p hp
        obtain ⟨k', hk', j1, j2⟩ := i2 _ e1
        have := sp.na x hx
        rw [j1, sp.na k' hk'] at this
        cases this
        exact ⟨p, hp, c2, b1, e1, j2⟩
      · cases b1
    · cases ha
  · unfold resolveNext at hno
    split at hno
    · cases hno
    · rename_i hty
      have hty' : ((S q).route x).type = .none := by
        cases e : ((S q).route x).type with
        | none => rfl
        | _ => exact absurd (by rw [e]; intro h; cases h) hty
      obtain ⟨k, hk, c1, c2⟩ := g.links _ hl
      have hkp : k = p := by
        have := sp.na p hp
        rw [c2, sp.na k hk] at this
        exact Option.some.inj this
      subst hkp
      obtain ⟨d1, d2⟩ := hall k hk hl
      have hr := ((C166_reach_partial sp S rx h q k hq hk (sp.ne q k c1) hl d1 d2).2 (addr x)).2 ⟨hc, fun e => hxq (by
        have := sp.na x hx
        rw [e, sp.na q hq] at this
        exact (Option.some.inj this).symm)⟩
      have hct := g.good.tab.ct x
      rw [g.good.tab.ze x hty'] at hct
      have hpos : 0 < (S q).links.countP (rep na (S q) x) := by
        rw [List.countP_pos_iff]
        refine ⟨addr k, hl, ?_⟩
        unfold rep
        exact decide_eq_true (List.mem_map.2 ⟨addr x, hr, sp.na x hx⟩)
      simp only [RI.empty] at hct
      omega
end

/-! ### Concrete cases -/
namespace Net

def addr (n : String) : String := "btp://" ++ n ++ "/bmc"

def na : String → Option String
  | "btp://a/bmc" => some "a"
  | "btp://b/bmc" => some "b"
  | "btp://c/bmc" => some "c"
  | _ => none

def nets : List String := ["a", "b", "c"]

/-- A call of the owner 1, or the next announcement of `p` read by `n`. -/
inductive Step where
  | call (n : String) (o : Op)
  | hear (n p : String)

def fits (adj : String → String → Bool) (s : St) (n : String) : Op → Bool
  | .addLink l => nets.any (fun p => adj n p && l == addr p) && (toward l s.out).isEmpty &&
      (match na l with | some m => decide ((s.route m).type ≠ .manual) | none => true)
  | .addRoute dst _ => decide ((s.route dst).type ≠ .link)
  | _ => true

def step (adj : String → String → Bool) (S : String → St) (rx : String → String → Nat) : Step → Option ((String → St) × (String → String → Nat))
  | .call n o =>
    if n ∈ nets ∧ o.byService = false ∧ fits adj (S n) n o = true then (SolRoutes.call na 7 (S n) 1 o).map fun s' => (upd S n s', rx) else none
  | .hear n p =>
    if n ∈ nets ∧ p ∈ nets ∧ p ≠ n ∧ addr p ∈ (S n).links then
      (toward (addr n) (S p).out)[rx n p]?.map fun a =>
        (upd S n ((handleAnn na 7 (S n) p a).getD (S n)), upd rx n (upd (rx n) p (rx n p + 1)))
    else none

def go (adj : String → String → Bool) : List Step → (String → St) × (String → String → Nat) → Option ((String → St) × (String → String → Nat))
  | [], x => some x
  | t :: r, x => match step adj x.1 x.2 t with
    | none => none
    | some y => go adj r y

abbrev R (adj : String → String → Bool) (x : (String → St) × (String → String → Nat)) : Prop :=
  NReach na addr nets (fun _ => 7) (fun _ => 1) (fun n p => adj n p = true) x.1 x.2

theorem fits_ok {adj : String → String → Bool} {s : St} {n : String} {o : Op} (h : fits adj s n o = true) :
    Fits na addr nets (fun n p => adj n p = true) s n o := by
  cases o with
  | addLink l =>
    simp only [fits, Bool.and_eq_true] at h
    obtain ⟨⟨h1, h2⟩, h3⟩ := h
    obtain ⟨p, hp, h4⟩ := List.any_eq_true.1 h1
    simp only [Bool.and_eq_true, beq_iff_eq] at h4
    refine ⟨⟨p, hp, h4.1, h4.2⟩, List.isEmpty_iff.1 h2, fun m hm => ?_⟩
    rw [hm] at h3
    exact of_decide_eq_true h3
  | addRoute d l =>
    simp only [fits] at h
    show (s.route d).type ≠ .link
    exact of_decide_eq_true h
  | _ => trivial

theorem go_reach {adj : String → String → Bool} : ∀ (l : List Step) (x y : (String → St) × (String → String → Nat)), R adj x → go adj l x = some y → R adj y
  | [], x, y, h, e => by cases e; exact h
  | t :: r, x, y, h, e => by
    simp only [go] at e
    split at e
    · cases e
    · rename_i z hz
      refine go_reach r z y ?_ e
      cases t with
      | call n o =>
        simp only [step] at hz
        split at hz
        · rename_i hc
          rw [Option.map_eq_some_iff] at hz
          obtain ⟨s', h1, rfl⟩ := hz
          exact .call n 1 o s' h hc.1 hc.2.1 (fits_ok hc.2.2) h1
        · cases hz
      | hear n p =>
        simp only [step] at hz
        split at hz
        · rename_i hc
          rw [Option.map_eq_some_iff] at hz
          obtain ⟨a, h1, rfl⟩ := hz
          exact .hear n p a h hc.1 hc.2.1 hc.2.2.1 hc.2.2.2 h1
        · cases hz

def start : (String → St) × (String → String → Nat) := (fun _ => SolRoutes.init 1, fun _ _ => 0)

/-- `b` lies between `a` and `c`. -/
def lines : List (String × String) := [("a", "b"), ("b", "a"), ("b", "c"), ("c", "b")]
def line (n p : String) : Bool := decide ((n, p) ∈ lines)

theorem sparse : Sparse na addr nets (fun n p => line n p = true) where
  na := by
    intro n hn
    simp only [nets, List.mem_cons, List.not_mem_nil, or_false] at hn
    rcases hn with rfl | rfl | rfl <;> decide +kernel
  ne := fun n p h =>
    (by decide +kernel : ∀ e ∈ lines, e.2 ≠ e.1) (n, p) (of_decide_eq_true h)
  tri := fun a b c h1 h2 h3 =>
    (by decide +kernel : ∀ e ∈ lines, ∀ f ∈ lines, ∀ g ∈ lines, ¬ (e.2 = f.1 ∧ g.1 = e.1 ∧ g.2 = f.2)) (a, b) (of_decide_eq_true h1) (b, c)
      (of_decide_eq_true h2) (a, c) (of_decide_eq_true h3) ⟨rfl, rfl, rfl⟩

def links : List Step :=
  [.call "a" (.addVerifier "b" 30), .call "b" (.addVerifier "a" 31), .call "b" (.addVerifier "c" 32), .call "c" (.addVerifier "b" 33),
   .call "a" (.addLink "btp://b/bmc"), .call "b" (.addLink "btp://a/bmc"), .hear "a" "b", .call "b" (.addLink "btp://c/bmc"), .hear "a" "b",
   .call "c" (.addLink "btp://b/bmc"), .hear "c" "b"]

/-- The chain `a` learns from `b` that `c` is reachable, and `c` that `a` is; when `b` removes its link to `c`, `a` learns that too. -/
example : ∃ y, go line links start = some y ∧ R line y ∧ resolveNext (y.1 "a") "c" = some "btp://b/bmc" ∧ (y.1 "a").reach "btp://b/bmc" = ["btp://c/bmc"] ∧
    resolveNext (y.1 "c") "a" = some "btp://b/bmc" ∧ y.2 "a" "b" = 2 ∧ (toward "btp://a/bmc" (y.1 "b").out).length = 2 := by
  cases h : go line links start with
  | none => exact absurd h (by decide +kernel)
  | some y =>
    refine ⟨y, rfl, go_reach links start y .init h, ?_⟩
    have : ∀ y, go line links start = some y → resolveNext (y.1 "a") "c" = some "btp://b/bmc" ∧ (y.1 "a").reach "btp://b/bmc" = ["btp://c/bmc"] ∧
        resolveNext (y.1 "c") "a" = some "btp://b/bmc" ∧ y.2 "a" "b" = 2 ∧ (toward "btp://a/bmc" (y.1 "b").out).length = 2 := by
      have h2 : (go line links start).all (fun y => decide (resolveNext (y.1 "a") "c" = some "btp://b/bmc" ∧ (y.1 "a").reach "btp://b/bmc" = ["btp://c/bmc"] ∧
        resolveNext (y.1 "c") "a" = some "btp://b/bmc" ∧ y.2 "a" "b" = 2 ∧ (toward "btp://a/bmc" (y.1 "b").out).length = 2)) = true := by decide +kernel
      intro y hy
      rw [hy] at h2
      exact of_decide_eq_true h2
    exact this y h

/-- Every two of the three chains are linked. -/
def all (n p : String) : Bool := n != p

def triangle : List Step :=
  [.call "a" (.addVerifier "b" 30), .call "a" (.addVerifier "c" 31), .call "b" (.addVerifier "a" 32), .call "b" (.addVerifier "c" 33),
   .call "c" (.addVerifier "a" 34), .call "c" (.addVerifier "b" 35),
   .call "a" (.addLink "btp://b/bmc"), .call "b" (.addLink "btp://a/bmc"), .call "a" (.addLink "btp://c/bmc"), .call "c" (.addLink "btp://a/bmc"),
   .call "b" (.addLink "btp://c/bmc"), .call "c" (.addLink "btp://b/bmc"), .hear "a" "b", .hear "a" "b",
   .call "b" (.removeLink "btp://c/bmc"), .hear "a" "b"]

/-- **C166** needs the condition on the network: of three chains all linked to each other, `b` removes its link to `c`, and by the announcement of it
    `a` loses its way to `c`, though the link between `a` and `c` stays: its messages to `c` are refused. -/
theorem C166_triangle_witness : ∃ S rx, NReach na addr nets (fun _ => 7) (fun _ => 1) (fun n p => all n p = true) S rx ∧
    addr "c" ∈ (S "a").links ∧ addr "a" ∈ (S "c").links ∧ resolveNext (S "a") "c" = none := by
  cases h : go all triangle start with
  | none => exact absurd h (by decide +kernel)
  | some y =>
    refine ⟨y.1, y.2, go_reach triangle start y .init h, ?_⟩
    have h2 : (go all triangle start).all (fun y => decide (addr "c" ∈ (y.1 "a").links ∧ addr "a" ∈ (y.1 "c").links ∧
      resolveNext (y.1 "a") "c" = none)) = true := by decide +kernel
    rw [h] at h2
    exact of_decide_eq_true h2

end Net

end Verif.SolRoutes
