import Verif.JavaIconBmv
/-!
C95, C96: the Java verifier contract for ICON blocks: votes, validators, headers and messages.
-/
namespace Verif.JavaIconBmv
open Verif Verif.Mbt

/-! ### Votes -/

/-- Data that somebody has shown: votes (round, part set, timestamp and signature), headers and validators. Which signatures and which bytes
with a given hash there are at all says nothing; what matters are those shown. -/
structure Known where
  vote : Int → Option (Int × Bytes) → Int → Bytes → Prop
  header : Header → Prop
  vals : List Bytes → Prop

/-- `a` signed a precommit for the block `hash` at `height`: the signature of a vote that was shown recovers to it. -/
def Signed (E : Env) (K : Known) (a : Bytes) (height : Int) (hash : Bytes) : Prop :=
  ∃ round ps ts sig, K.vote round ps ts sig ∧ E.recover (E.H (E.voteBytes ⟨height, round, 1, hash, ps, ts⟩)) sig = some a

/-- More than two thirds of the validators signed the block. -/
def Quorum (E : Env) (K : Known) (vals : List Bytes) (height : Int) (hash : Bytes) : Prop :=
  ∃ as : List Bytes, as.Nodup ∧ (∀ a ∈ as, a ∈ vals ∧ Signed E K a height hash) ∧ 2 * vals.length < 3 * as.length

theorem voteLoop_iff (E : Env) (height : Int) (hash : Bytes) (vals : List Bytes) (vs : Votes) (items : List Vote) : ∀ (seen r : List Bytes),
    voteLoop E height hash vals vs seen items = .ok r ↔
      ∃ as, r = seen ++ as ∧ as.length = items.length ∧ (∀ a ∈ as, a ∈ vals ∧ a ∉ seen) ∧ as.Nodup ∧
        ∀ (i : Nat) (v : Vote), items[i]? = some v →
          ∃ a, as[i]? = some a ∧ E.recover (E.H (E.voteBytes ⟨height, vs.round, 1, hash, vs.partSet, v.timestamp⟩)) v.signature = some a := by
  induction items with
  | nil =>
    intro seen r
    constructor
    · intro h; cases h; exact ⟨[], by simp⟩
    · rintro ⟨as, rfl, hl, _⟩
      have : as = [] := List.length_eq_zero_iff.1 hl
      subst this; simp [voteLoop]
  | cons v items ih =>
    intro seen r
    have e : voteLoop E height hash vals vs seen (v :: items) =
      match E.recover (E.H (E.voteBytes (voteMsg height hash vs v))) v.signature with
      | none => .err .crash
      | some a =>
        if a ∉ vals then .err .votes
        else if a ∈ seen then .err .votes
        else voteLoop E height hash vals vs (seen ++ [a]) items := rfl
    rw [e]
    unfold voteMsg
    cases g : E.recover (E.H (E.voteBytes ⟨height, vs.round, 1, hash, vs.partSet, v.timestamp⟩)) v.signature with
    | none =>
      simp only [reduceCtorEq, false_iff]
      rintro ⟨as, _, _, _, _, h⟩
      obtain ⟨a, _, h⟩ := h 0 v rfl
      rw [g] at h; cases h
    | some a =>
      dsimp only
      by_cases h1 : a ∈ vals
      · rw [if_neg (by simpa using h1)]
        by_cases h2 : a ∈ seen
        · rw [if_pos h2]
          simp only [reduceCtorEq, false_iff]
          rintro ⟨as, _, _, hm, _, h⟩
          obtain ⟨a', h3, h4⟩ := h 0 v rfl
          rw [g] at h4; cases h4
          exact (hm a (List.mem_of_getElem? h3)).2 h2
        · rw [if_neg h2, ih]
          constructor
          · rintro ⟨as, rfl, hl, hm, hn, h⟩
            refine ⟨a :: as, by simp, by simp [hl], ?_, ?_, ?_⟩
            · intro x hx
              rcases List.mem_cons.1 hx with rfl | hx
              · exact ⟨h1, h2⟩
              · exact ⟨(hm x hx).1, fun h => (hm x hx).2 (List.mem_append_left _ h)⟩
            · rw [List.nodup_cons]
              exact ⟨fun hx => (hm a hx).2 (by simp), hn⟩
            · intro i w hw
              cases i with
              | zero => simp only [List.getElem?_cons_zero, Option.some.injEq] at hw; subst hw; exact ⟨a, rfl, g⟩
              | succ i => rw [List.getElem?_cons_succ] at hw ⊢; exact h i w hw
          · rintro ⟨as, rfl, hl, hm, hn, h⟩
            cases as with
            | nil => simp at hl
            | cons x as =>
              obtain ⟨a', h3, h4⟩ := h 0 v rfl
              rw [g] at h4; cases h4
              simp only [List.getElem?_cons_zero, Option.some.injEq] at h3
              subst h3
              rw [List.nodup_cons] at hn
              refine ⟨as, by simp, by simpa using hl, ?_, hn.2, fun i w hw => ?_⟩
              · intro y hy
                refine ⟨(hm y (by simp [hy])).1, fun hs => ?_⟩
                rcases List.mem_append.1 hs with hs | hs
                · exact (hm y (by simp [hy])).2 hs
                · rw [List.mem_singleton.1 hs] at hy; exact hn.1 hy
              · have := h (i + 1) w (by simpa using hw)
                rwa [List.getElem?_cons_succ] at this
      · rw [if_pos (by simpa using h1)]
        simp only [reduceCtorEq, false_iff]
        rintro ⟨as, _, _, hm, _, h⟩
        obtain ⟨a', h3, h4⟩ := h 0 v rfl
        rw [g] at h4; cases h4
        exact h1 (hm a (List.mem_of_getElem? h3)).1

/-- **C95**, votes: they are accepted exactly when every one recovers to a validator, no two to the same one, and they are more than
two thirds of the validators. -/
theorem C95_votes (E : Env) (vs : Votes) (height : Int) (hash : Bytes) (vals : List Bytes) :
    verifyVotes E (some vs) height hash vals = .ok () ↔
      ∃ as : List Bytes, as.length = vs.items.length ∧ as.Nodup ∧ (∀ a ∈ as, a ∈ vals) ∧ 2 * vals.length < 3 * vs.items.length ∧
        ∀ (i : Nat) (v : Vote), vs.items[i]? = some v →
          ∃ a, as[i]? = some a ∧ E.recover (E.H (E.voteBytes ⟨height, vs.round, 1, hash, vs.partSet, v.timestamp⟩)) v.signature = some a := by
  unfold verifyVotes
  dsimp only
  constructor
  · intro h
    cases g : voteLoop E height hash vals vs [] vs.items with
    | err e => rw [g] at h; cases h
    | ok r =>
      rw [g] at h
      unfold R.bind at h
      dsimp only at h
      split at h
      · cases h
      · rename_i hc
        obtain ⟨as, he, hl, hm, hn, hs⟩ := (voteLoop_iff E height hash vals vs vs.items [] r).1 g
        rw [List.nil_append] at he
        subst he
        simp only [hl] at hc
        exact ⟨r, hl, hn, fun a ha => (hm a ha).1, by omega, hs⟩
  · rintro ⟨as, hl, hn, hm, hc, hs⟩
    rw [(voteLoop_iff E height hash vals vs vs.items [] as).2 ⟨as, rfl, hl, fun a ha => ⟨hm a ha, by simp⟩, hn, hs⟩]
    unfold R.bind
    dsimp only
    rw [if_neg (by omega)]

theorem votes_quorum {E : Env} {K : Known} {vs : Option Votes} {height : Int} {hash : Bytes} {vals : List Bytes}
    (hk : ∀ x, vs = some x → ∀ v ∈ x.items, K.vote x.round x.partSet v.timestamp v.signature)
    (h : verifyVotes E vs height hash vals = .ok ()) : Quorum E K vals height hash := by
  cases vs with
  | none => cases h
  | some vs =>
    obtain ⟨as, hl, hn, hm, hc, hs⟩ := (C95_votes E vs height hash vals).1 h
    refine ⟨as, hn, fun a ha => ⟨hm a ha, ?_⟩, by omega⟩
    obtain ⟨i, hi, he⟩ := List.getElem_of_mem ha
    have hi' : i < vs.items.length := by omega
    obtain ⟨a', h1, h2⟩ := hs i _ (List.getElem?_eq_getElem hi')
    rw [List.getElem?_eq_getElem hi, he, Option.some.injEq] at h1
    subst h1
    exact ⟨_, _, _, _, hk vs rfl _ (List.getElem_mem hi'), h2⟩

/-- **C95**, overlap: of any two blocks accepted by the same validators at a height, more than a third of the validators signed both. -/
theorem C95_overlap (E : Env) (K K' : Known) (vals : List Bytes) (h1 h2 : Int) (b1 b2 : Bytes) (q1 : Quorum E K vals h1 b1) (q2 : Quorum E K' vals h2 b2) :
    ∃ cs : List Bytes, cs.Nodup ∧ (∀ a ∈ cs, a ∈ vals ∧ Signed E K a h1 b1 ∧ Signed E K' a h2 b2) ∧ vals.length < 3 * cs.length := by
  obtain ⟨as, n1, m1, c1⟩ := q1
  obtain ⟨bs, n2, m2, c2⟩ := q2
  refine ⟨as.filter (· ∈ bs), n1.filter _, ?_, ?_⟩
  · intro a ha
    rw [List.mem_filter] at ha
    have := of_decide_eq_true ha.2
    exact ⟨(m1 a ha.1).1, (m1 a ha.1).2, (m2 a this).2⟩
  · have hn : (as.filter (· ∉ bs) ++ bs).Nodup := by
      rw [List.nodup_append]
      refine ⟨n1.filter _, n2, ?_⟩
      intro a ha b hb hab
      subst hab
      rw [List.mem_filter] at ha
      exact of_decide_eq_true ha.2 hb
    have hsub : (as.filter (· ∉ bs) ++ bs) ⊆ vals := by
      intro a ha
      rcases List.mem_append.1 ha with ha | ha
      · exact (m1 a (List.mem_filter.1 ha).1).1
      · exact (m2 a ha).1
    have hle := hn.length_le_of_subset hsub
    rw [List.length_append] at hle
    have hsplit : ∀ l : List Bytes, l.length = (l.filter (· ∈ bs)).length + (l.filter (· ∉ bs)).length := by
      intro l
      induction l with
      | nil => rfl
      | cons x l ih =>
        by_cases hx : x ∈ bs
        · rw [List.filter_cons_of_pos (by simpa using hx), List.filter_cons_of_neg (by simpa using hx)]
          simp only [List.length_cons]; omega
        · rw [List.filter_cons_of_neg (by simpa using hx), List.filter_cons_of_pos (by simpa using hx)]
          simp only [List.length_cons]; omega
    have := hsplit as
    omega

/-! ### The chain of headers -/

/-- Headers from a height and validators on, each with the validators it names: the heights count up, each block is signed by more
than two thirds of the validators that the block before it named; headers, validators and votes are among those shown. -/
def Chain (E : Env) (K : Known) : Int → List Bytes → List (Header × List Bytes) → Prop
  | _, _, [] => True
  | h, V, (d, W) :: ds => d.height = h + 1 ∧ (K.header d ∧ K.vals W ∧ Quorum E K V d.height (E.H (E.headerBytes d))) ∧
      d.nextValidatorHash = some (E.H (E.validatorBytes W)) ∧ Chain E K (h + 1) W ds

/-- The validators after the headers. -/
def finalVals (V : List Bytes) : List (Header × List Bytes) → List Bytes
  | [] => V
  | (_, W) :: ds => finalVals W ds

theorem Chain.append {E : Env} {K : Known} (a b : List (Header × List Bytes)) : ∀ {h : Int} {V : List Bytes}, Chain E K h V a →
    Chain E K (h + a.length) (finalVals V a) b → Chain E K h V (a ++ b) := by
  induction a with
  | nil => intro h V _ hb; simpa [finalVals] using hb
  | cons p a ih =>
    obtain ⟨d, W⟩ := p
    intro h V ha hb
    refine ⟨ha.1, ha.2.1, ha.2.2.1, ih ha.2.2.2 ?_⟩
    rw [show h + 1 + (a.length : Int) = h + (((d, W) :: a).length : Int) by simp; omega]
    exact hb

theorem finalVals_append (a b : List (Header × List Bytes)) : ∀ V, finalVals V (a ++ b) = finalVals (finalVals V a) b := by
  induction a with
  | nil => intro V; rfl
  | cons p a ih => intro V; exact ih _

theorem Chain.heights {E : Env} {K : Known} (a : List (Header × List Bytes)) : ∀ {h : Int} {V : List Bytes}, Chain E K h V a →
    ∀ (i : Nat) (d : Header × List Bytes), a[i]? = some d → d.1.height = h + 1 + i := by
  induction a with
  | nil => intro h V _ i d hd; simp at hd
  | cons p a ih =>
    obtain ⟨d, W⟩ := p
    intro h V ha i d' hd
    cases i with
    | zero => simp only [List.getElem?_cons_zero, Option.some.injEq] at hd; subst hd; rw [ha.1]; simp
    | succ i => rw [List.getElem?_cons_succ] at hd; have := ih ha.2.2.2 i d' hd; rw [this]; omega

theorem add_height {H : Bytes → Bytes} {j j' : JavaMta.J} {x : Bytes} (h : JavaMta.add H j x = some j') : j'.height = j.height + 1 := by
  have hp := (JavaMta.putCache_fields j x).1
  unfold JavaMta.add at h
  dsimp only at h
  split at h
  · cases h; rw [← hp]
  · obtain ⟨y, _, rfl⟩ := Option.map_eq_some_iff.1 h
    rw [← hp]

/-- The block update is among the data. -/
def Shows (K : Known) (u : Update) : Prop :=
  (∀ d, u.header = some d → K.header d) ∧ (∀ W, u.nextValidators = some W → K.vals W) ∧
    ∀ vs, u.votes = some vs → ∀ v ∈ vs.items, K.vote vs.round vs.partSet v.timestamp v.signature

theorem updateAll_chain (E : Env) (K : Known) (us : List Update) : ∀ (l l' : Loop), l.validatorHash = E.H (E.validatorBytes l.validators) → K.vals l.validators →
    (∀ u ∈ us, Shows K u) → updateAll E l us = .ok l' → ∃ ds : List (Header × List Bytes), us.map (·.header) = ds.map (fun d => some d.1) ∧
      Chain E K l.mta.height l.validators ds ∧ (finalVals l.validators ds = l'.validators ∧ K.vals l'.validators) ∧
      JavaMta.addAll E.H l.mta (ds.map fun d => E.H (E.headerBytes d.1)) = some l'.mta ∧
      (l'.changed = false → l.changed = false ∧ l'.validators = l.validators) := by
  induction us with
  | nil => intro l l' _ hk _ h; cases h; exact ⟨[], rfl, trivial, ⟨rfl, hk⟩, rfl, fun h => ⟨h, rfl⟩⟩
  | cons u us ih =>
    intro l l' hv hk hs h
    obtain ⟨s1, s2, s3⟩ := hs u List.mem_cons_self
    have e0 : updateAll E l (u :: us) = (update E l u).bind fun l => updateAll E l us := rfl
    rw [e0] at h
    cases g : update E l u with
    | err e => rw [g] at h; cases h
    | ok l1 =>
      rw [g] at h
      have h : updateAll E l1 us = .ok l' := h
      unfold update at g
      cases gh : u.header with
      | none => rw [gh] at g; cases g
      | some d =>
        rw [gh] at g
        dsimp only at g
        by_cases hh : l.mta.height + 1 = d.height
        · rw [if_pos hh] at g
          cases gv : verifyVotes E u.votes d.height (E.H (E.headerBytes d)) l.validators with
          | err e => rw [gv] at g; cases g
          | ok x =>
            rw [gv] at g
            unfold R.bind at g
            dsimp only at g
            cases gn : nextVals E l d u.nextValidators with
            | err e => rw [gn] at g; cases g
            | ok l2 =>
              rw [gn] at g
              dsimp only at g
              cases ga : JavaMta.add E.H l2.mta (E.H (E.headerBytes d)) with
              | none => rw [ga] at g; cases g
              | some m =>
                rw [ga] at g
                dsimp only at g
                cases g
                have hn : l2.mta = l.mta ∧ l2.validatorHash = E.H (E.validatorBytes l2.validators) ∧
                    (d.nextValidatorHash = some (E.H (E.validatorBytes l2.validators)) ∧ K.vals l2.validators) ∧
                    (l2.changed = false → l.changed = false ∧ l2.validators = l.validators) := by
                  unfold nextVals at gn
                  split at gn
                  · rename_i he
                    cases gn
                    exact ⟨rfl, hv, ⟨by rw [← he, hv], hk⟩, fun h => ⟨h, rfl⟩⟩
                  · split at gn
                    · cases gn
                    · split at gn
                      · cases gn
                      · rename_i vs hvs he
                        cases gn
                        exact ⟨rfl, rfl, ⟨(Decidable.not_not.1 he).symm, s2 vs hvs⟩, fun h => by cases h⟩
                obtain ⟨n1, n2, n3, n4⟩ := hn
                obtain ⟨ds, h1, h2, hf, h3, h4⟩ := ih { l2 with mta := m } l' n2 n3.2 (fun u hu => hs u (List.mem_cons_of_mem _ hu)) h
                refine ⟨(d, l2.validators) :: ds, by simp [gh, h1], ?_, hf, ?_, ?_⟩
                · refine ⟨hh.symm, ⟨s1 d gh, n3.2, votes_quorum s3 gv⟩, n3.1, ?_⟩
                  have hm := add_height ga
                  rw [n1] at hm
                  rw [← hm]
                  exact h2
                · show (JavaMta.add E.H l.mta (E.H (E.headerBytes d))).bind _ = _
                  rw [← n1, ga]
                  exact h3
                · intro hc
                  obtain ⟨q1, q2⟩ := h4 hc
                  obtain ⟨q3, q4⟩ := n4 q1
                  exact ⟨q3, q2.trans q4⟩
        · rw [if_neg hh] at g
          split at g <;> cases g

/-- What a contract with initial validators `V` at `o` has accepted: the headers `ds`. -/
structure Accepted (E : Env) (K : Known) (o : Int) (V : List Bytes) (s : Props) (ds : List (Header × List Bytes)) : Prop where
  chain : Chain E K o V ds
  vals : finalVals V ds = s.validators ∧ K.vals s.validators
  mta : JavaMta.addAll E.H (JavaMta.init o) (ds.map fun d => E.H (E.headerBytes d.1)) = some s.mta

theorem addAll_append (H : Bytes → Bytes) (a b : List Bytes) : ∀ j, JavaMta.addAll H j (a ++ b) =
    (JavaMta.addAll H j a).bind fun j => JavaMta.addAll H j b := by
  induction a with
  | nil => intro j; rfl
  | cons x a ih =>
    intro j
    show (JavaMta.add H j x).bind _ = ((JavaMta.add H j x).bind _).bind _
    cases JavaMta.add H j x with
    | none => rfl
    | some j1 => exact ih j1

theorem addAll_height {H : Bytes → Bytes} (a : List Bytes) : ∀ j j', JavaMta.addAll H j a = some j' → j'.height = j.height + a.length := by
  induction a with
  | nil => intro j j' h; cases h; simp
  | cons x a ih =>
    intro j j' h
    have e0 : JavaMta.addAll H j (x :: a) = (JavaMta.add H j x).bind (JavaMta.addAll H · a) := rfl
    rw [e0] at h
    cases g : JavaMta.add H j x with
    | none => rw [g] at h; cases h
    | some j1 =>
      rw [g] at h
      have := ih j1 j' h
      have := add_height g
      simp only [List.length_cons]
      omega

/-- The block part of an accepted call: nothing new for a block proof, or the headers of the updates, of which the last is the one
the messages are proved against. -/
theorem blocks_ok {E : Env} {K : Known} {o : Int} {V : List Bytes} {s : Props} {ds : List (Header × List Bytes)} (ha : Accepted E K o V s ds) {m : Relay} {s1 : Props}
    (hk : ∀ us, m.updates = some us → ∀ u ∈ us, Shows K u) {h : Header} (hb : blocks E s m = .ok (s1, h)) :
    (∃ us new, m.updates = some us ∧ us ≠ [] ∧ us.map (·.header) = new.map (fun d => some d.1) ∧ Accepted E K o V s1 (ds ++ new) ∧ (new.getLast?.map (·.1)) = some h ∧
      s1 = { s with mta := s1.mta, validators := s1.validators }) ∨
    (s1 = s ∧ (∀ u us, m.updates ≠ some (u :: us)) ∧ ∃ w ws, m.blockProof = some ⟨some h, some ⟨w, some ws⟩⟩ ∧ h.height ≤ s.mta.height ∧
      JavaMta.verify E.H s.mta ws (E.H (E.headerBytes h)) h.height w = .ok) := by
  have proofCase : ∀ p, (∀ u us, m.updates ≠ some (u :: us)) → m.blockProof = some p → ((verifyBlockProof E p s.mta).bind fun _ =>
      match p.header with
      | some h => R.ok (s, h)
      | none => .err .crash) = .ok (s1, h) → (s1 = s ∧ (∀ u us, m.updates ≠ some (u :: us)) ∧ ∃ w ws, m.blockProof = some ⟨some h, some ⟨w, some ws⟩⟩ ∧
        h.height ≤ s.mta.height ∧ JavaMta.verify E.H s.mta ws (E.H (E.headerBytes h)) h.height w = .ok) := by
    intro p hu hp hb
    obtain ⟨ph, pw⟩ := p
    unfold verifyBlockProof at hb
    cases pw with
    | none => cases hb
    | some w =>
      cases ph with
      | none => cases hb
      | some h0 =>
        dsimp only at hb
        by_cases c1 : s.mta.height < h0.height
        · rw [if_pos c1] at hb; cases hb
        · rw [if_neg c1] at hb
          obtain ⟨wh, wl⟩ := w
          cases wl with
          | none => cases hb
          | some ws =>
            dsimp only at hb
            cases gv : JavaMta.verify E.H s.mta ws (E.H (E.headerBytes h0)) h0.height wh with
            | ok =>
              rw [gv] at hb
              cases hb
              exact ⟨rfl, hu, wh, ws, hp, by omega, gv⟩
            | newer => rw [gv] at hb; cases hb
            | old => rw [gv] at hb; cases hb
            | bad => rw [gv] at hb; cases hb
            | crash => rw [gv] at hb; cases hb
  unfold blocks at hb
  cases gu : m.updates with
  | none =>
    rw [gu] at hb
    cases gp : m.blockProof with
    | none => rw [gp] at hb; cases hb
    | some p =>
      rw [gp] at hb
      rw [← gp, ← gu]
      exact Or.inr (proofCase p (by simp [gu]) gp hb)
  | some us =>
    cases us with
    | nil =>
      rw [gu] at hb
      cases gp : m.blockProof with
      | none => rw [gp] at hb; cases hb
      | some p =>
        rw [gp] at hb
        rw [← gp, ← gu]
        exact Or.inr (proofCase p (by simp [gu]) gp hb)
    | cons u us =>
      rw [gu] at hb
      left
      have hb : ((verifyBlockUpdates E (u :: us) s.mta s.validators).bind fun x =>
        match ((u :: us).getLast?).bind (·.header) with
        | some h => R.ok ({ s with mta := x.1, validators := x.2 }, h)
        | none => .err .crash) = .ok (s1, h) := by
        revert hb
        cases m.blockProof <;> exact id
      unfold verifyBlockUpdates at hb
      cases g : updateAll E ⟨s.mta, s.validators, E.H (E.validatorBytes s.validators), false⟩ (u :: us) with
      | err e => rw [g] at hb; cases hb
      | ok l =>
        rw [g] at hb
        unfold R.bind at hb
        dsimp only at hb
        obtain ⟨new, h1, h2, hf, h3, h4⟩ := updateAll_chain E K (u :: us) _ l rfl ha.vals.2 (hk _ gu) g
        dsimp only at h2 hf h3 h4
        cases gl : ((u :: us).getLast?).bind (·.header) with
        | none => rw [gl] at hb; cases hb
        | some h0 =>
          rw [gl] at hb
          cases hb
          have hvals : (if l.changed = true then l.validators else s.validators) = l.validators := by
            cases hc : l.changed with
            | true => rfl
            | false => exact (h4 hc).2.symm
          refine ⟨u :: us, new, rfl, by simp, h1, ⟨?_, ?_, ?_⟩, ?_, rfl⟩
          · refine Chain.append _ _ ha.chain ?_
            rw [ha.vals.1]
            have := addAll_height _ _ _ ha.mta
            rw [List.length_map] at this
            rw [show o + (ds.length : Int) = s.mta.height from this.symm]
            exact h2
          · dsimp only
            rw [hvals, finalVals_append, ha.vals.1]
            exact hf
          · dsimp only
            rw [List.map_append, addAll_append, ha.mta]
            exact h3
          · have e1 : (new.map fun d => some d.1).getLast? = ((u :: us).map (·.header)).getLast? := by rw [h1]
            rw [List.getLast?_map, List.getLast?_map] at e1
            cases gg : (u :: us).getLast? with
            | none => rw [gg] at gl; cases gl
            | some x =>
              rw [gg] at gl e1
              simp only [Option.bind_some] at gl
              simp only [Option.map_some, gl] at e1
              cases gn : new.getLast? with
              | none => rw [gn] at e1; cases e1
              | some y => rw [gn] at e1; simpa using e1

theorem set_length (ms : List Bytes) : ∀ ret : List (Option Bytes), (fill ret ms).length = ret.length := by
  induction ms with
  | nil => intro ret; rfl
  | cons m ms ih => intro ret; show (fill (ret.set 0 (some m)) ms).length = _; rw [ih]; simp

theorem handle_ok {E : Env} {s : Props} {c : Call} {s' : Props} {ret : List (Option Bytes)} (h : handleRelay E s c = .ok (s', ret)) :
    accessible s c = true ∧ ∃ s1 hd ms, blocks E s c.msg = .ok (s1, hd) ∧ messages E hd c.prev c.bmc c.seq c.msg.receipts = .ok ms ∧
      ret = fill (List.replicate ms.length none) ms ∧
      (s' = s1 ∨ s' = { s1 with lastHeight := hd.height } ∧ ms ≠ [] ∨ (s' = s ∧ ms = [] ∧ ∀ u us, c.msg.updates ≠ some (u :: us))) := by
  unfold handleRelay at h
  by_cases ca : accessible s c = true
  · rw [if_neg (by simp [ca])] at h
    refine ⟨ca, ?_⟩
    cases gb : blocks E s c.msg with
    | err e => rw [gb] at h; cases h
    | ok x =>
      obtain ⟨s1, hd⟩ := x
      rw [gb] at h
      unfold R.bind at h
      dsimp only at h
      cases gm : messages E hd c.prev c.bmc c.seq c.msg.receipts with
      | err e => rw [gm] at h; cases h
      | ok ms =>
        rw [gm] at h
        dsimp only at h
        cases h
        refine ⟨s1, hd, ms, rfl, gm, rfl, ?_⟩
        by_cases hu : ∃ u us, c.msg.updates = some (u :: us)
        · obtain ⟨u, us, hu⟩ := hu
          rw [show hasUpdates c.msg = true by unfold hasUpdates; rw [hu], Bool.true_or, if_pos rfl]
          by_cases hm : ms.length > 0
          · rw [if_pos hm]; exact .inr (.inl ⟨rfl, List.length_pos_iff.1 hm⟩)
          · rw [if_neg hm]; exact .inl rfl
        · have hu' : ∀ u us, c.msg.updates ≠ some (u :: us) := fun u us h => hu ⟨u, us, h⟩
          have he : hasUpdates c.msg = false := by
            unfold hasUpdates
            cases g : c.msg.updates with
            | none => rfl
            | some l =>
              cases l with
              | nil => rfl
              | cons u us => exact absurd g (hu' u us)
          rw [he, Bool.false_or]
          by_cases hm : ms.length > 0
          · rw [if_pos hm]
            split
            · exact .inr (.inl ⟨rfl, List.length_pos_iff.1 hm⟩)
            · rename_i hc
              rw [set_length, List.length_replicate] at hc
              simp [hm] at hc
          · rw [if_neg hm]
            split
            · exact .inl rfl
            · exact .inr (.inr ⟨rfl, List.length_eq_zero_iff.1 (by omega), hu'⟩)
  · rw [if_pos (by simpa using ca)] at h; cases h

/-- What is shown to a contract with the validators `V` by calls: the block updates in their relay messages. -/
def shown (V : List Bytes) (cs : List Call) : Known where
  vote := fun r ps ts sig => ∃ c ∈ cs, ∃ us, c.msg.updates = some us ∧ ∃ u ∈ us, ∃ vs, u.votes = some vs ∧ vs.round = r ∧ vs.partSet = ps ∧
    ∃ v ∈ vs.items, v.timestamp = ts ∧ v.signature = sig
  header := fun d => ∃ c ∈ cs, ∃ us, c.msg.updates = some us ∧ ∃ u ∈ us, u.header = some d
  vals := fun W => W = V ∨ ∃ c ∈ cs, ∃ us, c.msg.updates = some us ∧ ∃ u ∈ us, u.nextValidators = some W

theorem shown_shows {V : List Bytes} {cs : List Call} {c : Call} (h : c ∈ cs) : ∀ us, c.msg.updates = some us → ∀ u ∈ us, Shows (shown V cs) u :=
  fun us hs u hu => ⟨fun _ hd => ⟨c, h, us, hs, u, hu, hd⟩, fun _ hW => .inr ⟨c, h, us, hs, u, hu, hW⟩,
    fun vs hv v hvi => ⟨c, h, us, hs, u, hu, vs, hv, rfl, rfl, v, hvi, rfl, rfl⟩⟩

/-- One accepted call extends the accepted headers. -/
theorem step_accepted {E : Env} {K : Known} {o : Int} {V : List Bytes} {s : Props} {ds : List (Header × List Bytes)} (ha : Accepted E K o V s ds) {c : Call} {s' : Props}
    (hk : ∀ us, c.msg.updates = some us → ∀ u ∈ us, Shows K u) {ret : List (Option Bytes)} (h : handleRelay E s c = .ok (s', ret)) :
    ∃ new, Accepted E K o V s' (ds ++ new) ∧ (new ≠ [] → ∃ us, c.msg.updates = some us ∧ us.map (·.header) = new.map (fun d => some d.1)) ∧
      s'.bmc = s.bmc ∧ s'.net = s.net := by
  obtain ⟨_, s1, hd, ms, hb, hm, hr, hs⟩ := handle_ok h
  rcases blocks_ok ha hk hb with ⟨us, new, e1, e2, e3, e4, e5, e6⟩ | ⟨rfl, hu, _⟩
  · have q1 : s1.bmc = s.bmc := by rw [e6]
    have q2 : s1.net = s.net := by rw [e6]
    refine ⟨new, ?_, fun _ => ⟨us, e1, e3⟩, ?_⟩
    · rcases hs with rfl | ⟨rfl, hms⟩ | ⟨_, _, h⟩
      · exact e4
      · exact ⟨e4.chain, e4.vals, e4.mta⟩
      · cases us with
        | nil => exact absurd rfl e2
        | cons u us => exact absurd e1 (h u us)
    · rcases hs with rfl | ⟨rfl, hms⟩ | ⟨rfl, _, _⟩
      · exact ⟨q1, q2⟩
      · exact ⟨q1, q2⟩
      · exact ⟨rfl, rfl⟩
  · refine ⟨[], ?_, fun h => absurd rfl h, ?_⟩
    · rw [List.append_nil]
      rcases hs with rfl | ⟨rfl, hms⟩ | ⟨rfl, _, _⟩
      · exact ha
      · exact ⟨ha.chain, ha.vals, ha.mta⟩
      · exact ha
    · rcases hs with rfl | ⟨rfl, hms⟩ | ⟨rfl, _, _⟩ <;> exact ⟨rfl, rfl⟩

theorem run_accepted {E : Env} {K : Known} {o : Int} {V : List Bytes} (cs : List Call) : ∀ {s : Props} {ds : List (Header × List Bytes)}, Accepted E K o V s ds →
    (∀ c ∈ cs, ∀ us, c.msg.updates = some us → ∀ u ∈ us, Shows K u) → ∃ new, Accepted E K o V (run E s cs) (ds ++ new) := by
  induction cs with
  | nil => intro s ds h _; exact ⟨[], by rw [List.append_nil]; exact h⟩
  | cons c cs ih =>
    intro s ds h hk
    have hk2 := fun c hc => hk c (List.mem_cons_of_mem _ hc)
    unfold run
    cases g : handleRelay E s c with
    | err e => exact ih h hk2
    | ok x =>
      obtain ⟨new, h1, _⟩ := step_accepted (ret := x.2) h (hk c List.mem_cons_self) g
      obtain ⟨new2, h2⟩ := ih h1 hk2
      exact ⟨new ++ new2, by simpa using h2⟩

theorem init_accepted (E : Env) (bmc net : Bytes) (V : List Bytes) (o : Int) (cs : List Call) : Accepted E (shown V cs) o V (init bmc net V o) [] :=
  ⟨trivial, ⟨rfl, .inl rfl⟩, rfl⟩

/-- **C95**, all histories: after any calls the contract holds the accumulator of a chain of headers from its first block on, each
signed by more than two thirds of the validators named by the block before it, and the current validators are those the last one
named; the headers, validators and signatures are those in the calls. -/
theorem C95_history (E : Env) (bmc net : Bytes) (V : List Bytes) (o : Int) (cs : List Call) :
    ∃ ds : List (Header × List Bytes), Chain E (shown V cs) o V ds ∧ finalVals V ds = (run E (init bmc net V o) cs).validators ∧
      JavaMta.addAll E.H (JavaMta.init o) (ds.map fun d => E.H (E.headerBytes d.1)) = some (run E (init bmc net V o) cs).mta ∧
      (run E (init bmc net V o) cs).mta.height = o + ds.length ∧
      ∀ (i : Nat) (d : Header × List Bytes), ds[i]? = some d → d.1.height = o + 1 + i := by
  obtain ⟨ds, h⟩ := run_accepted cs (init_accepted E bmc net V o cs) (fun c hc => shown_shows hc)
  rw [List.nil_append] at h
  have := addAll_height _ _ _ h.mta
  rw [List.length_map] at this
  exact ⟨ds, h.chain, h.vals.1, h.mta, this, Chain.heights _ h.chain⟩

/-- **C95**, forks: if two contracts with the same first validators accept headers of which neither are the beginning of the other,
then more than a third of the validators of some block signed two different blocks at the same height, by signatures shown to the one contract and
to the other, or two different serializations in the chains (of headers or of validators) have the same hash. -/
theorem C95_fork {E : Env} {K K' : Known} (hinj : ∀ a b, E.headerBytes a = E.headerBytes b → a = b)
    (vinj : ∀ a b, E.validatorBytes a = E.validatorBytes b → a = b) (ds : List (Header × List Bytes)) :
    ∀ (es : List (Header × List Bytes)) (o : Int) (V : List Bytes), Chain E K o V ds → Chain E K' o V es →
    ds <+: es ∨ es <+: ds ∨
    (∃ W ∈ V :: ds.map (·.2), ∃ h, ∃ d ∈ ds, ∃ e ∈ es, d.1.height = h ∧ e.1.height = h ∧ d.1 ≠ e.1 ∧
      ∃ cs : List Bytes, cs.Nodup ∧ W.length < 3 * cs.length ∧
        ∀ a ∈ cs, a ∈ W ∧ Signed E K a h (E.H (E.headerBytes d.1)) ∧ Signed E K' a h (E.H (E.headerBytes e.1))) ∨
    Collision E.H (ds.map fun d => E.headerBytes d.1) (es.map fun d => E.headerBytes d.1) ∨
    Collision E.H (ds.map fun d => E.validatorBytes d.2) (es.map fun d => E.validatorBytes d.2) := by
  induction ds with
  | nil => intro es o V _ _; exact .inl (List.nil_prefix)
  | cons p ds ih =>
    intro es o V h1 h2
    cases es with
    | nil => exact .inr (.inl List.nil_prefix)
    | cons q es =>
      obtain ⟨d, W⟩ := p
      obtain ⟨e, U⟩ := q
      obtain ⟨a1, a2, a3, a4⟩ := h1
      obtain ⟨b1, b2, b3, b4⟩ := h2
      by_cases hde : d = e
      · subst hde
        rw [a3, Option.some.injEq] at b3
        by_cases hv : E.validatorBytes W = E.validatorBytes U
        · have := vinj _ _ hv
          subst this
          rcases ih es (o + 1) W a4 b4 with h | h | h | h | h
          · exact .inl (by rw [List.cons_prefix_cons]; exact ⟨rfl, h⟩)
          · exact .inr (.inl (by rw [List.cons_prefix_cons]; exact ⟨rfl, h⟩))
          · obtain ⟨X, hX, h, x, hx, y, hy, r⟩ := h
            refine .inr (.inr (.inl ⟨X, ?_, h, x, by simp [hx], y, by simp [hy], r⟩))
            exact List.mem_cons_of_mem _ hX
          · obtain ⟨x, hx, y, hy, r⟩ := h
            exact .inr (.inr (.inr (.inl ⟨x, List.mem_cons_of_mem _ hx, y, List.mem_cons_of_mem _ hy, r⟩)))
          · obtain ⟨x, hx, y, hy, r⟩ := h
            exact .inr (.inr (.inr (.inr ⟨x, List.mem_cons_of_mem _ hx, y, List.mem_cons_of_mem _ hy, r⟩)))
        · exact .inr (.inr (.inr (.inr ⟨_, List.mem_cons_self, _, List.mem_cons_self, hv, b3⟩)))
      · by_cases hh : E.H (E.headerBytes d) = E.H (E.headerBytes e)
        · exact .inr (.inr (.inr (.inl ⟨_, List.mem_cons_self, _, List.mem_cons_self, fun h => hde (hinj _ _ h), hh⟩)))
        · rw [a1] at a2
          rw [b1] at b2
          obtain ⟨cs, c1, c2, c3⟩ := C95_overlap E K K' V _ _ _ _ a2.2.2 b2.2.2
          exact .inr (.inr (.inl ⟨V, List.mem_cons_self, o + 1, (d, W), List.mem_cons_self, (e, U), List.mem_cons_self, a1, b1, hde,
            cs, c1, c3, c2⟩))

/-- **C95**, acceptance: in any history, a block alone is accepted exactly when it is the next one, its votes are (see `C95_votes`),
and it names the current validators or comes with those it names. -/
theorem C95_next_iff {E : Env} (hH : ∀ x, (E.H x).length = 32) (bmc net : Bytes) (V : List Bytes) (o : Int) (cs : List Call) (c : Call) (u : Update)
    (hc : c.msg = ⟨some [u], none, none⟩) : (∃ x, handleRelay E (run E (init bmc net V o) cs) c = .ok x) ↔
      accessible (run E (init bmc net V o) cs) c = true ∧ ∃ d, u.header = some d ∧ d.height = (run E (init bmc net V o) cs).mta.height + 1 ∧
        verifyVotes E u.votes d.height (E.H (E.headerBytes d)) (run E (init bmc net V o) cs).validators = .ok () ∧
        (d.nextValidatorHash = some (E.H (E.validatorBytes (run E (init bmc net V o) cs).validators)) ∨
          ∃ W, u.nextValidators = some W ∧ d.nextValidatorHash = some (E.H (E.validatorBytes W))) := by
  obtain ⟨ds, ha⟩ := run_accepted cs (init_accepted E bmc net V o cs) (fun c hc => shown_shows hc)
  rw [List.nil_append] at ha
  generalize run E (init bmc net V o) cs = s at ha ⊢
  have hadd : ∀ x, x.length = 32 → ∃ j, JavaMta.add E.H s.mta x = some j := by
    intro x hx
    obtain ⟨j, h1, _⟩ := JavaMta.addAll_ok hH ((ds.map fun d => E.H (E.headerBytes d.1)) ++ [x]) [] (JavaMta.init o) (JavaMta.fresh_ok E.H (o := o) ⟨rfl, rfl, rfl, by simp [JavaMta.init]⟩)
      (by intro y hy
          rcases List.mem_append.1 hy with hy | hy
          · obtain ⟨d, _, rfl⟩ := List.mem_map.1 hy; exact hH _
          · rw [List.mem_singleton.1 hy]; exact hx)
    rw [addAll_append, ha.mta] at h1
    have h1 : (JavaMta.add E.H s.mta x).bind (JavaMta.addAll E.H · []) = some j := h1
    cases g : JavaMta.add E.H s.mta x with
    | none => rw [g] at h1; cases h1
    | some k => exact ⟨k, rfl⟩
  constructor
  · rintro ⟨⟨s', ret⟩, h⟩
    obtain ⟨h1, s1, hd, ms, hb, _⟩ := handle_ok h
    refine ⟨h1, ?_⟩
    rw [hc] at hb
    have hb : ((verifyBlockUpdates E [u] s.mta s.validators).bind fun x =>
        match u.header with
        | some h => R.ok ({ s with mta := x.1, validators := x.2 }, h)
        | none => .err .crash) = .ok (s1, hd) := hb
    unfold verifyBlockUpdates at hb
    have e0 : updateAll E ⟨s.mta, s.validators, E.H (E.validatorBytes s.validators), false⟩ [u] =
      (update E ⟨s.mta, s.validators, E.H (E.validatorBytes s.validators), false⟩ u).bind fun l => .ok l := rfl
    rw [e0] at hb
    cases g : update E ⟨s.mta, s.validators, E.H (E.validatorBytes s.validators), false⟩ u with
    | err e => rw [g] at hb; cases hb
    | ok l =>
      unfold update at g
      cases gh : u.header with
      | none => rw [gh] at g; cases g
      | some d =>
        rw [gh] at g
        dsimp only at g
        by_cases hh : s.mta.height + 1 = d.height
        · rw [if_pos hh] at g
          cases gv : verifyVotes E u.votes d.height (E.H (E.headerBytes d)) s.validators with
          | err e => rw [gv] at g; cases g
          | ok x =>
            rw [gv] at g
            refine ⟨d, rfl, hh.symm, gv, ?_⟩
            unfold R.bind at g
            dsimp only at g
            unfold nextVals at g
            dsimp only at g
            by_cases hn : some (E.H (E.validatorBytes s.validators)) = d.nextValidatorHash
            · exact .inl hn.symm
            · right
              rw [if_neg hn] at g
              cases gw : u.nextValidators with
              | none => rw [gw] at g; cases g
              | some W =>
                refine ⟨W, rfl, ?_⟩
                rw [gw] at g
                dsimp only at g
                by_cases hw : some (E.H (E.validatorBytes W)) = d.nextValidatorHash
                · exact hw.symm
                · rw [if_pos hw] at g; cases g
        · rw [if_neg hh] at g
          split at g <;> cases g
  · rintro ⟨h1, d, hd, hh, hv, hn⟩
    obtain ⟨m, hm⟩ := hadd (E.H (E.headerBytes d)) (hH _)
    have hu : ∃ l, update E ⟨s.mta, s.validators, E.H (E.validatorBytes s.validators), false⟩ u = .ok l := by
      unfold update
      rw [hd]
      dsimp only
      rw [if_pos hh.symm, hv]
      unfold R.bind nextVals
      dsimp only
      by_cases hn' : some (E.H (E.validatorBytes s.validators)) = d.nextValidatorHash
      · rw [if_pos hn']
        dsimp only
        rw [hm]
        exact ⟨_, rfl⟩
      · rw [if_neg hn']
        rcases hn with hn | ⟨W, hW, hn⟩
        · exact absurd hn.symm hn'
        · rw [hW]
          dsimp only
          rw [if_neg (by simp [hn])]
          dsimp only
          rw [hm]
          exact ⟨_, rfl⟩
    obtain ⟨l, hl⟩ := hu
    have hb : ∃ x, blocks E s ⟨some [u], none, none⟩ = .ok x := by
      refine ⟨({ s with mta := l.mta, validators := if l.changed then l.validators else s.validators }, d), ?_⟩
      have e0 : blocks E s ⟨some [u], none, none⟩ = ((((update E ⟨s.mta, s.validators, E.H (E.validatorBytes s.validators), false⟩ u).bind fun l => R.ok l).bind fun l =>
          R.ok (l.mta, if l.changed then l.validators else s.validators)).bind fun x =>
        match u.header with
        | some h => R.ok ({ s with mta := x.1, validators := x.2 }, h)
        | none => .err .crash) := rfl
      rw [e0, hl, hd]
      rfl
    obtain ⟨x, hb⟩ := hb
    unfold handleRelay
    rw [if_neg (by simp [h1]), hc, hb]
    exact ⟨_, rfl⟩

/-! ### Messages -/

/-- The event is a message of the contract `prev` for `bmc`: signature `Message(…`, the addressee, the sequence number, then the message. -/
def IsMessage (prev bmc : Bytes) (e : EventLog) (seq : Int) (msg : Bytes) : Prop :=
  e.address = some prev ∧ ∃ args q rest more, e.indexed = ([0x4d, 0x65, 0x73, 0x73, 0x61, 0x67, 0x65] ++ 0x28 :: args) :: bmc :: q :: rest ∧
    e.data = msg :: more ∧ q ≠ [] ∧ seq = IntConv.bigIntSetBytes q

/-- The messages of events, in their order. -/
inductive Sel (prev bmc : Bytes) : List EventLog → List (Int × Bytes) → Prop where
  | nil : Sel prev bmc [] []
  | skip (e : EventLog) (es : List EventLog) (l : List (Int × Bytes)) : (∀ q m, ¬ IsMessage prev bmc e q m) → Sel prev bmc es l →
      Sel prev bmc (e :: es) l
  | take (e : EventLog) (es : List EventLog) (l : List (Int × Bytes)) (q : Int) (m : Bytes) : IsMessage prev bmc e q m → Sel prev bmc es l →
      Sel prev bmc (e :: es) ((q, m) :: l)

theorem takeWhile_sig (s : Bytes) : (0x28 ∈ s ∧ s.takeWhile (· ≠ 0x28) = messageSig) ↔ ∃ args, s = messageSig ++ 0x28 :: args := by
  constructor
  · rintro ⟨h1, h2⟩
    refine ⟨(s.dropWhile (· ≠ 0x28)).tail, ?_⟩
    have h3 := List.takeWhile_append_dropWhile (p := fun x : UInt8 => decide (x ≠ 0x28)) (l := s)
    have h4 : s.dropWhile (· ≠ 0x28) = 0x28 :: (s.dropWhile (· ≠ 0x28)).tail := by
      cases g : s.dropWhile (· ≠ 0x28) with
      | nil =>
        exfalso
        rw [g, h2] at h3
        rw [← h3] at h1
        revert h1
        decide
      | cons x l =>
        have := List.head_dropWhile_not (fun x : UInt8 => decide (x ≠ 0x28)) (l := s) (by rw [g]; simp)
        simp only [g, List.head_cons, decide_eq_false_iff_not, Decidable.not_not] at this
        rw [this]; rfl
    rw [← h4, ← h2]
    exact h3.symm
  · rintro ⟨args, rfl⟩
    refine ⟨by simp, ?_⟩
    rw [List.takeWhile_append_of_pos (by decide)]
    simp

theorem toMessage_iff (e : EventLog) (m : Msg) : toMessage e = .ok (some m) ↔
    ∃ args q rest more, e.indexed = (messageSig ++ 0x28 :: args) :: m.next :: q :: rest ∧ e.data = m.msg :: more ∧ q ≠ [] ∧
      m.seq = IntConv.bigIntSetBytes q := by
  unfold toMessage
  cases hi : e.indexed with
  | nil => simp [methodSig]
  | cons s idx =>
    unfold methodSig
    dsimp only
    by_cases h1 : 0x28 ∈ s
    · rw [if_pos h1]
      dsimp only
      by_cases h2 : s.takeWhile (· ≠ 0x28) = messageSig
      · rw [if_pos h2]
        obtain ⟨args, hs⟩ := (takeWhile_sig s).1 ⟨h1, h2⟩
        match idx, hd : e.data with
        | [], _ => simp
        | [_], _ => simp
        | n :: q :: rest, [] => simp
        | n :: q :: rest, d :: more =>
          dsimp only
          by_cases hq : q = []
          · rw [if_pos hq]
            simp only [reduceCtorEq, false_iff]
            rintro ⟨_, _, _, _, he, _, hq', _⟩
            simp only [List.cons.injEq] at he
            exact hq' (he.2.2.1 ▸ hq)
          · rw [if_neg hq]
            constructor
            · intro h; cases h; exact ⟨args, q, rest, more, by rw [hs], rfl, hq, rfl⟩
            · rintro ⟨_, q', _, _, he, hd', _, hs'⟩
              simp only [List.cons.injEq] at he hd'
              obtain ⟨_, e1, e2, _⟩ := he
              obtain ⟨m1, m2, m3⟩ := m
              dsimp only at e1 hd' hs'
              rw [e1, hd'.1, hs', e2]
      · rw [if_neg h2]
        simp only [R.ok.injEq, reduceCtorEq, false_iff]
        rintro ⟨args, _, _, _, he, _⟩
        simp only [List.cons.injEq] at he
        exact h2 ((takeWhile_sig s).2 ⟨args, he.1⟩).2
    · rw [if_neg h1]
      simp only [reduceCtorEq, false_iff]
      rintro ⟨args, _, _, _, he, _⟩
      simp only [List.cons.injEq] at he
      exact h1 ((takeWhile_sig s).2 ⟨args, he.1⟩).1

theorem events_sel (prev bmc : Bytes) (es : List EventLog) : ∀ (n n' : Int) (ms ms' : List Bytes), events prev bmc n ms es = .ok (n', ms') →
    ∃ l, Sel prev bmc es l ∧ ms' = ms ++ l.map (·.2) ∧ n' = n + l.length ∧ ∀ (i : Nat) (x : Int × Bytes), l[i]? = some x → x.1 = n + i := by
  induction es with
  | nil => intro n n' ms ms' h; cases h; exact ⟨[], .nil, by simp, by simp, by simp⟩
  | cons e es ih =>
    intro n n' ms ms' h
    unfold events at h
    cases ga : e.address with
    | none => rw [ga] at h; cases h
    | some a =>
      rw [ga] at h
      dsimp only at h
      by_cases hp : prev = a
      · subst hp
        rw [if_neg (by simp)] at h
        cases gm : toMessage e with
        | err x => rw [gm] at h; cases h
        | ok o =>
          rw [gm] at h
          unfold R.bind at h
          cases o with
          | none =>
            dsimp only at h
            obtain ⟨l, h1, h2⟩ := ih _ _ _ _ h
            refine ⟨l, .skip _ _ _ ?_ h1, h2⟩
            rintro q m ⟨_, args, q', rest, more, i1, i2, i3, i4⟩
            have := (toMessage_iff e ⟨bmc, q, m⟩).2 ⟨args, q', rest, more, i1, i2, i3, i4⟩
            rw [gm] at this
            cases this
          | some m =>
            dsimp only at h
            have hm := (toMessage_iff e m).1 gm
            by_cases hb : m.next = bmc
            · rw [if_neg (by simp [hb])] at h
              split at h
              · cases h
              · split at h
                · cases h
                · obtain ⟨l, h1, h2, h3, h4⟩ := ih _ _ _ _ h
                  refine ⟨(m.seq, m.msg) :: l, .take _ _ _ _ _ ⟨ga, ?_⟩ h1, by simp [h2], ?_, ?_⟩
                  · rw [hb] at hm; exact hm
                  · simp only [List.length_cons]; omega
                  · intro i x hx
                    cases i with
                    | zero => simp only [List.getElem?_cons_zero, Option.some.injEq] at hx; subst hx; dsimp only; omega
                    | succ i => rw [List.getElem?_cons_succ] at hx; have := h4 i x hx; omega
            · rw [if_pos hb] at h
              obtain ⟨l, h1, h2⟩ := ih _ _ _ _ h
              refine ⟨l, .skip _ _ _ ?_ h1, h2⟩
              rintro q w ⟨_, args, q', rest, more, i1, i2, i3, i4⟩
              have := (toMessage_iff e ⟨bmc, q, w⟩).2 ⟨args, q', rest, more, i1, i2, i3, i4⟩
              rw [gm] at this
              cases this
              exact hb rfl
      · rw [if_pos hp] at h
        obtain ⟨l, h1, h2⟩ := ih _ _ _ _ h
        refine ⟨l, .skip _ _ _ ?_ h1, h2⟩
        rintro q m ⟨h, _⟩
        rw [ga] at h
        cases h
        exact hp rfl

theorem Sel.append {prev bmc : Bytes} {a b : List EventLog} {l m : List (Int × Bytes)} (h1 : Sel prev bmc a l) (h2 : Sel prev bmc b m) :
    Sel prev bmc (a ++ b) (l ++ m) := by
  induction h1 with
  | nil => exact h2
  | skip e es l h _ ih => exact .skip _ _ _ h ih
  | take e es l q x h _ ih => exact .take _ _ _ _ _ h ih

theorem receipts_sel (E : Env) (root : Option Bytes) (prev bmc : Bytes) (ps : List ReceiptProof) : ∀ (n n' : Int) (ms ms' : List Bytes),
    receipts E root prev bmc n ms ps = .ok (n', ms') →
    ∃ ess : List (List EventLog), ps.map (proveReceipt E root) = ess.map .ok ∧ ∃ l, Sel prev bmc ess.flatten l ∧ ms' = ms ++ l.map (·.2) ∧
      n' = n + l.length ∧ ∀ (i : Nat) (x : Int × Bytes), l[i]? = some x → x.1 = n + i := by
  induction ps with
  | nil => intro n n' ms ms' h; cases h; exact ⟨[], rfl, [], .nil, by simp, by simp, by simp⟩
  | cons p ps ih =>
    intro n n' ms ms' h
    unfold receipts at h
    cases g : proveReceipt E root p with
    | err e => rw [g] at h; cases h
    | ok es =>
      rw [g] at h
      unfold R.bind at h
      dsimp only at h
      cases ge : events prev bmc n ms es with
      | err e => rw [ge] at h; cases h
      | ok x =>
        obtain ⟨n1, m1⟩ := x
        rw [ge] at h
        dsimp only at h
        obtain ⟨l1, a1, a2, a3, a4⟩ := events_sel prev bmc es _ _ _ _ ge
        obtain ⟨ess, b0, l2, b1, b2, b3, b4⟩ := ih _ _ _ _ h
        refine ⟨es :: ess, by simp [g, b0], l1 ++ l2, ?_, by simp [b2, a2], by simp only [List.length_append]; omega, ?_⟩
        · rw [List.flatten_cons]; exact a1.append b1
        · intro i x hx
          rcases Nat.lt_or_ge i l1.length with hi | hi
          · rw [List.getElem?_append_left hi] at hx; exact a4 i x hx
          · rw [List.getElem?_append_right hi] at hx
            have := b4 _ x hx
            omega

/-- The array returned for the messages `ms`: the last one in the first place, the others null. -/
theorem fill_eq (ms : List Bytes) : ∀ (x : Option Bytes) (r : List (Option Bytes)),
    fill (x :: r) ms = (match ms.getLast? with | some m => some m | none => x) :: r := by
  induction ms with
  | nil => intro x r; rfl
  | cons m ms ih =>
    intro x r
    show fill (some m :: r) ms = _
    rw [ih]
    cases ms with
    | nil => rfl
    | cons a as => rw [List.getLast?_cons_cons]; cases h : (a :: as).getLast? with
      | none => simp at h
      | some z => rfl

/-- The header of a call is one of the chain, or it is that of the block proof in the call and the hash of headers or of the
accumulator has a collision between this block proof and the chain. -/
def HeaderIn (E : Env) (s : Props) (ds : List (Header × List Bytes)) (c : Call) (h : Header) : Prop :=
  (∃ d ∈ ds, d.1 = h) ∨ ∃ w ws, c.msg.blockProof = some ⟨some h, some ⟨w, some ws⟩⟩ ∧ (Collision E.H [E.headerBytes h] (ds.map fun d => E.headerBytes d.1) ∨
    ∃ st n, Collision E.H (JavaMta.wcalls E.H ws (E.H (E.headerBytes h)) (h.height - 1 - s.mta.offset))
      (Merkle.inputs E.H (((ds.map fun d => E.H (E.headerBytes d.1)).drop st).take n)))

/-- **C96**, messages: in any history, an accepted call with messages has a header of the verified chain (or there is a collision of
the hash in the call and the chain); its receipts are proved against this header's receipt root; the messages are the events `Message`
of the source contract for this contract, in order and all of them, with sequence numbers counting from the caller's. -/
theorem C96_messages {E : Env} (hH : ∀ x, (E.H x).length = 32) (hinj : ∀ a b, E.headerBytes a = E.headerBytes b → a = b) (bmc net : Bytes)
    (V : List Bytes) (o : Int) (cs : List Call) (c : Call) (s' : Props) (ret : List (Option Bytes))
    (h : handleRelay E (run E (init bmc net V o) cs) c = .ok (s', ret)) :
    ∃ ds hd, Accepted E (shown V (cs ++ [c])) o V s' ds ∧ HeaderIn E (run E (init bmc net V o) cs) ds c hd ∧
      ((c.msg.receipts = none ∨ c.msg.receipts = some []) ∧ ret = [] ∨
       ∃ (rs : List ReceiptProof) (root : Option Bytes) (ess : List (List EventLog)) (l : List (Int × Bytes)), c.msg.receipts = some rs ∧ hd.receiptHash = some root ∧ rs.map (proveReceipt E root) = ess.map .ok ∧
        Sel c.prev c.bmc ess.flatten l ∧ (∀ (i : Nat) (x : Int × Bytes), l[i]? = some x → x.1 = c.seq + 1 + i) ∧
        ret = fill (List.replicate l.length none) (l.map (·.2))) := by
  obtain ⟨ds, ha⟩ := run_accepted cs (init_accepted E bmc net V o (cs ++ [c])) (fun c' hc => shown_shows (List.mem_append_left _ hc))
  have hk := shown_shows (V := V) (List.mem_append_right cs (List.mem_singleton.2 rfl) : c ∈ cs ++ [c])
  rw [List.nil_append] at ha
  generalize run E (init bmc net V o) cs = s at h ha ⊢
  obtain ⟨_, s1, hd, ms, hb, hm, hr, hs⟩ := handle_ok h
  obtain ⟨new, hacc, _⟩ := step_accepted ha hk h
  have hmsg : ((c.msg.receipts = none ∨ c.msg.receipts = some []) ∧ ret = [] ∨
       ∃ (rs : List ReceiptProof) (root : Option Bytes) (ess : List (List EventLog)) (l : List (Int × Bytes)), c.msg.receipts = some rs ∧ hd.receiptHash = some root ∧ rs.map (proveReceipt E root) = ess.map .ok ∧
        Sel c.prev c.bmc ess.flatten l ∧ (∀ (i : Nat) (x : Int × Bytes), l[i]? = some x → x.1 = c.seq + 1 + i) ∧
        ret = fill (List.replicate l.length none) (l.map (·.2))) := by
    unfold messages at hm
    cases gr : c.msg.receipts with
    | none => rw [gr] at hm; cases hm; exact .inl ⟨.inl rfl, hr⟩
    | some rs =>
      cases rs with
      | nil => rw [gr] at hm; cases hm; exact .inl ⟨.inr rfl, hr⟩
      | cons r rs =>
        rw [gr] at hm
        right
        cases gh : hd.receiptHash with
        | none => rw [gh] at hm; cases hm
        | some root =>
          rw [gh] at hm
          dsimp only at hm
          cases gx : receipts E root c.prev c.bmc (c.seq + 1) [] (r :: rs) with
          | err e => rw [gx] at hm; cases hm
          | ok x =>
            rw [gx] at hm
            cases hm
            obtain ⟨ess, a1, l, a2, a3, _, a4⟩ := receipts_sel E root c.prev c.bmc _ _ x.1 _ x.2 gx
            refine ⟨_, root, ess, l, rfl, rfl, a1, a2, a4, ?_⟩
            rw [hr, a3]
            simp
  rcases blocks_ok ha hk hb with ⟨us, new', e1, e2, e3, e4, e5, e6⟩ | ⟨rfl, hu, w, ws, p1, p2, p3⟩
  · refine ⟨ds ++ new', hd, ?_, Or.inl ?_, hmsg⟩
    · rcases hs with rfl | ⟨rfl, hms⟩ | ⟨_, _, h⟩
      · exact e4
      · exact ⟨e4.chain, e4.vals, e4.mta⟩
      · cases us with
        | nil => exact absurd rfl e2
        | cons u us => exact absurd e1 (h u us)
    · obtain ⟨d, h1, h2⟩ := Option.map_eq_some_iff.1 e5
      exact ⟨d, List.mem_append_right _ (List.mem_of_getLast? h1), h2⟩
  · refine ⟨ds, hd, ?_, ?_, hmsg⟩
    all_goals try unfold HeaderIn
    · rcases hs with rfl | ⟨rfl, hms⟩ | ⟨rfl, _, _⟩
      · exact ha
      · exact ⟨ha.chain, ha.vals, ha.mta⟩
      · exact ha
    · rcases JavaMta.C93_sound hH o _ _ ⟨rfl, rfl, rfl, by simp [JavaMta.init]⟩ _ (by intro x hx; obtain ⟨d, _, rfl⟩ := List.mem_map.1 hx; exact hH _) ha.mta ws _ (hH _) _ _ p3 with h | h
      · obtain ⟨d, hd1, hd2⟩ := List.mem_map.1 h
        by_cases he : E.headerBytes hd = E.headerBytes d.1
        · exact .inl ⟨d, hd1, (hinj _ _ he).symm⟩
        · exact .inr ⟨w, ws, p1, .inl ⟨_, List.mem_singleton.2 rfl, _, List.mem_map.2 ⟨d, hd1, rfl⟩, he, hd2.symm⟩⟩
      · exact .inr ⟨w, ws, p1, .inr h⟩

/-- **C96**, the array: a single message is returned as it is. -/
theorem C96_single_partial (ms : List Bytes) (h : ms.length ≤ 1) : fill (List.replicate ms.length none) ms = ms.map some := by
  match ms, h with
  | [], _ => rfl
  | [m], _ => rfl

/-- **C96** fails for more than one message in a call: for all of them, only the last is in the array, in the first place; the others
are null. -/
theorem C96_lost (ms : List Bytes) (m : Bytes) :
    fill (List.replicate (ms ++ [m]).length none) (ms ++ [m]) = some m :: List.replicate ms.length none := by
  rw [List.length_append, List.length_singleton, List.replicate_succ, fill_eq, List.getLast?_concat]

theorem C96_null (ms : List Bytes) (h : 2 ≤ ms.length) : none ∈ fill (List.replicate ms.length none) ms := by
  have hne : ms ≠ [] := by rintro rfl; simp at h
  rw [← List.dropLast_concat_getLast hne, C96_lost]
  refine List.mem_cons_of_mem _ (List.mem_replicate.2 ⟨?_, rfl⟩)
  rw [List.length_dropLast]
  omega

/-- **C96**, access: in any history only calls of the message center given at the start, for the network given at the start, succeed. -/
theorem C96_access (E : Env) (bmc net : Bytes) (V : List Bytes) (o : Int) (cs : List Call) (c : Call) (x : Props × List (Option Bytes))
    (h : handleRelay E (run E (init bmc net V o) cs) c = .ok x) : c.caller = bmc ∧ c.bmcAccount = bmc ∧ c.prevNet = net := by
  have hrun : ∀ (cs : List Call) (s : Props), (run E s cs).bmc = s.bmc ∧ (run E s cs).net = s.net := by
    intro cs
    induction cs with
    | nil => intro s; exact ⟨rfl, rfl⟩
    | cons c cs ih =>
      intro s
      unfold run
      cases g : handleRelay E s c with
      | err e => exact ih s
      | ok y =>
        obtain ⟨y, r⟩ := y
        dsimp only
        have hy : y.bmc = s.bmc ∧ y.net = s.net := by
          obtain ⟨_, s1, hd, ms, hb, _, _, hs⟩ := handle_ok g
          have h1 : s1.bmc = s.bmc ∧ s1.net = s.net := by
            unfold blocks at hb
            split at hb
            · revert hb
              generalize verifyBlockUpdates E _ s.mta s.validators = v
              cases v with
              | err e => intro hb; cases hb
              | ok v =>
                unfold R.bind
                dsimp only
                split
                · intro hb; cases hb; exact ⟨rfl, rfl⟩
                · intro hb; cases hb
            · rename_i p _ _
              revert hb
              generalize verifyBlockProof E p s.mta = v
              cases v with
              | err e => intro hb; cases hb
              | ok v =>
                unfold R.bind
                dsimp only
                split
                · intro hb; cases hb; exact ⟨rfl, rfl⟩
                · intro hb; cases hb
            · cases hb
          rcases hs with rfl | ⟨rfl, hms⟩ | ⟨rfl, _, _⟩
          · exact h1
          · exact h1
          · exact ⟨rfl, rfl⟩
        rw [(ih y).1, (ih y).2]
        exact hy
  obtain ⟨h1, _⟩ := handle_ok (s' := x.1) (ret := x.2) h
  unfold accessible at h1
  have h2 := of_decide_eq_true h1
  rw [(hrun cs _).1, (hrun cs _).2] at h2
  exact ⟨h2.2.1, h2.2.2, h2.1.symm⟩

/-- **C96**, receipts: with the receipts of the block in a trie of RLP keys, an accepted receipt proof gives the receipt stored under
the index of the proof (an empty value aside), or its nodes and those of the trie collide. -/
theorem C96_receipt_partial {E : Env} (enc : List Bytes → Bytes) (t : JavaMpt.Trie) (ht : t.Nib) (p : ReceiptProof) (es : List EventLog)
    (hkeys : ∀ k w, t.lookup k = some w → ∃ ty x, k = JavaMpt.toNibbles [] (Rlp.enc ty x) ∧ (Rlp.enc ty x).length < 2 ^ 63)
    (ty : Rlp.Ty) (x : Rlp.Val ty) (hidx : E.indexKey p.index = Rlp.enc ty x) (hx : (Rlp.enc ty x).length < 2 ^ 63)
    (hdec : ∀ l, enc l ∈ t.path E.H enc (JavaMpt.toNibbles [] (Rlp.enc ty x)) → E.nodeItems (enc l) = some (l.map some))
    (hne : E.readReceipt [] = none) (h : proveReceipt E (some (t.root E.H enc)) p = .ok es) :
    ∃ b r ps, p.proofs = some ps ∧ E.readReceipt b = some r ∧
      (t.lookup (JavaMpt.toNibbles [] (E.indexKey p.index)) = some b ∨
        Collision E.H ps (t.path E.H enc (JavaMpt.toNibbles [] (E.indexKey p.index)))) ∧
      (p.events = none ∧ es = r.logs ∨ ∃ eps, p.events = some eps ∧ proveEvents E r.logsHash eps = .ok es) := by
  unfold proveReceipt at h
  cases g : proveMpt E (some (t.root E.H enc)) p.index p.proofs with
  | err e => rw [g] at h; cases h
  | ok b =>
    rw [g] at h
    unfold R.bind at h
    dsimp only at h
    cases gr : E.readReceipt b with
    | none => rw [gr] at h; cases h
    | some r =>
      rw [gr] at h
      dsimp only at h
      cases gp : p.proofs with
      | none => unfold proveMpt at g; rw [gp] at g; cases g
      | some ps =>
        refine ⟨b, r, ps, rfl, gr, ?_, ?_⟩
        · unfold proveMpt at g
          rw [gp] at g
          dsimp only at g
          cases gk : JavaMpt.proveKey E.H E.nodeItems (t.root E.H enc) (E.indexKey p.index) ps with
          | mpt => rw [gk] at g; cases g
          | crash => rw [gk] at g; cases g
          | ok v =>
            rw [gk] at g
            cases g
            have hb : b ≠ [] := by rintro rfl; rw [hne] at gr; cases gr
            rw [hidx] at gk ⊢
            exact JavaMpt.C94_index_partial enc E.nodeItems t ht ps b hb hkeys ty x hx hdec gk
        · cases ge : p.events with
          | none => rw [ge] at h; cases h; exact .inl ⟨rfl, rfl⟩
          | some eps => rw [ge] at h; exact .inr ⟨eps, rfl, h⟩

/-- **C96**, no messages: a call with a block proof and without messages leaves everything as it was; one without updates never
changes the accumulator or the validators. -/
theorem C96_proof_keeps (E : Env) (s s' : Props) (c : Call) (ret : List (Option Bytes)) (hu : ∀ u us, c.msg.updates ≠ some (u :: us))
    (h : handleRelay E s c = .ok (s', ret)) : s'.mta = s.mta ∧ s'.validators = s.validators ∧ (ret = [] → s' = s) := by
  obtain ⟨_, s1, hd, ms, hb, _, hr, hs⟩ := handle_ok h
  have e : s1 = s := by
    unfold blocks at hb
    split at hb
    · exact absurd (by assumption) (hu _ _)
    · rename_i p _ _
      revert hb
      generalize verifyBlockProof E p s.mta = v
      cases v with
      | err e => intro hb; cases hb
      | ok v =>
        unfold R.bind
        dsimp only
        split
        · intro hb; cases hb; rfl
        · intro hb; cases hb
    · cases hb
  subst e
  have hl : ret = [] → ms = [] := by
    rintro rfl
    have := congrArg List.length hr
    rw [set_length, List.length_replicate] at this
    exact List.length_eq_zero_iff.1 this.symm
  rcases hs with rfl | ⟨rfl, hms⟩ | ⟨rfl, _, _⟩
  · exact ⟨rfl, rfl, fun _ => rfl⟩
  · refine ⟨rfl, rfl, fun h0 => ?_⟩
    exact absurd (hl h0) hms
  · exact ⟨rfl, rfl, fun _ => rfl⟩

/-! ### Examples -/

/-- A platform for the examples: a signature is its signer and part of the hash signed; the receipt `[n]` has `n` messages. -/
def exE : Env where
  H := JavaMpt.exH
  headerBytes d := [UInt8.ofNat d.height.toNat] ++ (d.nextValidatorHash.getD []) ++ ((d.receiptHash.getD none).getD []) ++ d.rest
  validatorBytes vs := vs.flatten
  voteBytes v := [UInt8.ofNat v.height.toNat] ++ v.blockId
  recover h s := match s with
    | a :: m => if m = h.drop 31 then some [a] else none
    | [] => none
  nodeItems := JavaMpt.exDec
  indexKey i := [UInt8.ofNat i.toNat]
  readReceipt b := match b with
    | [n] => some ⟨(List.range n.toNat).map fun i =>
        ⟨some [0xcc], [messageSig ++ [0x28, 0x29], [0xbb], [UInt8.ofNat (i + 1)]], [[0x77, UInt8.ofNat i]]⟩, none⟩
    | _ => none
  readEvent _ := none

def exVals : List Bytes := [[1], [2], [3], [4]]
def exVotes (l : List UInt8) (hash : Bytes) (height : UInt8) : Votes :=
  ⟨0, none, l.map fun a => ⟨0, a :: (exE.H (height :: hash)).drop 31⟩⟩

/-- Three of four validators are enough; two are not, nor three of which two are the same or one is a stranger. -/
example : verifyVotes exE (some (exVotes [1, 2, 3] [9, 9] 7)) 7 [9, 9] exVals = .ok () := by decide +kernel
example : verifyVotes exE (some (exVotes [1, 2] [9, 9] 7)) 7 [9, 9] exVals = .err .votes := by decide +kernel
example : verifyVotes exE (some (exVotes [1, 2, 2] [9, 9] 7)) 7 [9, 9] exVals = .err .votes := by decide +kernel
example : verifyVotes exE (some (exVotes [1, 2, 5] [9, 9] 7)) 7 [9, 9] exVals = .err .votes := by decide +kernel
example : verifyVotes exE (some (exVotes [1, 2, 3] [9, 9] 7)) 8 [9, 9] exVals = .err .crash := by decide +kernel

/-- A block at height 1 with receipts of one and two messages, naming new validators, and a second block signed by these. -/
def exTrie : JavaMpt.Trie := .branch (fun i => if i.val = 0 then .branch (fun j => if j.val = 1 then .leaf [] [1] else if j.val = 2 then .leaf [] [2]
  else .empty) [] else .empty) []
def exRoot : Bytes := exTrie.root exE.H JavaMpt.exEnc
def exHead : Header := ⟨1, some (exE.H (exE.validatorBytes [[5], [6]])), some (some exRoot), [42]⟩
def exHead2 : Header := ⟨2, some (exE.H (exE.validatorBytes [[5], [6]])), some (some exRoot), [43]⟩
def exReceipt (i : UInt8) : ReceiptProof := ⟨i.toNat, some (exTrie.path exE.H JavaMpt.exEnc (JavaMpt.toNibbles [] [i])), none⟩
def exUpdates : List Update := [⟨some exHead, some (exVotes [1, 2, 4] (exE.H (exE.headerBytes exHead)) 1), some [[5], [6]]⟩,
  ⟨some exHead2, some (exVotes [6, 5] (exE.H (exE.headerBytes exHead2)) 2), none⟩]
def exCall (us : Option (List Update)) (bp : Option BlockProof) (rs : Option (List ReceiptProof)) : Call :=
  ⟨[0xaa], [0xbb], [0xaa], [0x11], [0xcc], 0, ⟨us, bp, rs⟩⟩
def exInit : Props := init [0xaa] [0x11] exVals 0
def exOut : R (Props × List (Option Bytes)) → Option (Int × List Bytes × List (Option Bytes))
  | .ok (s, r) => some (s.mta.height, s.validators, r)
  | .err _ => none

example : exOut (handleRelay exE exInit (exCall (some exUpdates) none none)) = some (2, [[5], [6]], []) := by decide +kernel
example : exOut (handleRelay exE exInit (exCall (some exUpdates) none (some [exReceipt 1]))) = some (2, [[5], [6]], [some [0x77, 0]]) := by
  decide +kernel
/-- Two messages: the first is lost and the array has a null. -/
example : exOut (handleRelay exE exInit (exCall (some exUpdates) none (some [exReceipt 2]))) =
    some (2, [[5], [6]], [some [0x77, 1], none]) := by decide +kernel
/-- The receipt of one index does not pass for another; another caller is refused; the second block alone is refused. -/
example : exOut (handleRelay exE exInit (exCall (some exUpdates) none (some [{ exReceipt 1 with index := 2 }]))) = none := by decide +kernel
example : exOut (handleRelay exE exInit { exCall (some exUpdates) none none with caller := [0xab] }) = none := by decide +kernel
example : exOut (handleRelay exE exInit (exCall (some (exUpdates.drop 1)) none none)) = none := by decide +kernel
/-- Messages of the first block with a block proof after both. -/
example : exOut (handleRelay exE (run exE exInit [exCall (some exUpdates) none none])
    (exCall none (some ⟨some exHead, some ⟨2, some [exE.H (exE.headerBytes exHead2)]⟩⟩) (some [exReceipt 1]))) =
    some (2, [[5], [6]], [some [0x77, 0]]) := by decide +kernel

end Verif.JavaIconBmv
