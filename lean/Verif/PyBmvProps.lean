import Verif.PyBmv
import Verif.PyMtaProps
import Verif.PyMptProps
import Verif.PyBase64Props
/-!
C120, C121: the Python verifier contract for ICON blocks: votes, validators, headers and messages.
-/
namespace Verif.PyBmv
open Verif Verif.BtpAddress Verif.Mbt
open Verif.PyRlp (Val Obj)

/-! ### Votes -/

/-- Data that somebody has shown: votes (round, part set, timestamp and signature), headers and validators. Which signatures and which bytes
with a given hash there are at all says nothing; what matters are those shown. -/
structure Known where
  vote : Obj → Obj → Obj → Option Bytes → Prop
  header : Header → Prop
  vals : Vals → Prop

/-- `a` signed a precommit (type 1) for the block `hash` at `height`: the signature of a vote that was shown recovers to it. -/
def Signed (E : Env) (K : Known) (a : Bytes) (height : Int) (hash : Bytes) : Prop :=
  ∃ round ps ts sig, K.vote round ps ts sig ∧ E.recover (E.H (PyRlp.encode (.list [.int height, round, .int 1, .bytes hash, ps, ts]))) sig = some a

/-- More than two thirds of the validators signed the block. -/
def Quorum (E : Env) (K : Known) (vals : List Bytes) (height : Int) (hash : Bytes) : Prop :=
  ∃ as : List Bytes, as.Nodup ∧ (∀ a ∈ as, a ∈ vals ∧ Signed E K a height hash) ∧ 2 * vals.length < 3 * as.length

theorem voteLoop_iff (E : Env) (height : Int) (hash : Bytes) (vals : List Bytes) (round ps : Obj) (items : List Vote) : ∀ (seen r : List Bytes),
    voteLoop E height hash vals round ps seen items = .ok r ↔
      ∃ as, r = seen ++ as ∧ as.length = items.length ∧ (∀ a ∈ as, a ∈ vals ∧ a ∉ seen) ∧ as.Nodup ∧
        ∀ (i : Nat) (v : Vote), items[i]? = some v →
          ∃ a, as[i]? = some a ∧ E.recover (E.H (PyRlp.encode (.list [.int height, round, .int 1, .bytes hash, ps, v.timestamp]))) v.signature = some a := by
  induction items with
  | nil =>
    intro seen r
    constructor
    · intro h; cases h; exact ⟨[], by simp⟩
    · rintro ⟨as, rfl, hl, _⟩
      have : as = [] := List.length_eq_zero_iff.1 hl
      subst this; simp [voteLoop]
  | cons v items ih =>
    intro seen r
    have e : voteLoop E height hash vals round ps seen (v :: items) =
      match E.recover (E.H (PyRlp.encode (.list [.int height, round, .int 1, .bytes hash, ps, v.timestamp]))) v.signature with
      | none => .err .other
      | some a =>
        if a ∉ vals then .err .other
        else if a ∈ seen then .err .other
        else voteLoop E height hash vals round ps (seen ++ [a]) items := rfl
    rw [e]
    cases g : E.recover (E.H (PyRlp.encode (.list [.int height, round, .int 1, .bytes hash, ps, v.timestamp]))) v.signature with
    | none =>
      simp only [reduceCtorEq, false_iff]
      rintro ⟨as, _, _, _, _, h⟩
      obtain ⟨a, _, h⟩ := h 0 v rfl
      rw [g] at h; cases h
    | some a =>
      dsimp only
      by_cases h1 : a ∈ vals
      · rw [if_neg (by simpa using h1)]
        by_cases h2 : a ∈ seen
        · rw [if_pos h2]
          simp only [reduceCtorEq, false_iff]
          rintro ⟨as, _, _, hm, _, h⟩
          obtain ⟨a', h3, h4⟩ := h 0 v rfl
          rw [g] at h4; cases h4
          exact (hm a (List.mem_of_getElem? h3)).2 h2
        · rw [if_neg h2, ih]
          constructor
          · rintro ⟨as, rfl, hl, hm, hn, h⟩
            refine ⟨a :: as, by simp, by simp [hl], ?_, ?_, ?_⟩
            · intro x hx
              rcases List.mem_cons.1 hx with rfl | hx
              · exact ⟨h1, h2⟩
              · exact ⟨(hm x hx).1, fun h => (hm x hx).2 (List.mem_append_left _ h)⟩
            · rw [List.nodup_cons]
              exact ⟨fun hx => (hm a hx).2 (by simp), hn⟩
            · intro i w hw
              cases i with
              | zero => simp only [List.getElem?_cons_zero, Option.some.injEq] at hw; subst hw; exact ⟨a, rfl, g⟩
              | succ i => rw [List.getElem?_cons_succ] at hw ⊢; exact h i w hw
          · rintro ⟨as, rfl, hl, hm, hn, h⟩
            cases as with
            | nil => simp at hl
            | cons x as =>
              obtain ⟨a', h3, h4⟩ := h 0 v rfl
              rw [g] at h4; cases h4
              simp only [List.getElem?_cons_zero, Option.some.injEq] at h3
              subst h3
              rw [List.nodup_cons] at hn
              refine ⟨as, by simp, by simpa using hl, ?_, hn.2, fun i w hw => ?_⟩
              · intro y hy
                refine ⟨(hm y (by simp [hy])).1, fun hs => ?_⟩
                rcases List.mem_append.1 hs with hs | hs
                · exact (hm y (by simp [hy])).2 hs
                · rw [List.mem_singleton.1 hs] at hy; exact hn.1 hy
              · have := h (i + 1) w (by simpa using hw)
                rwa [List.getElem?_cons_succ] at this
      · rw [if_pos (by simpa using h1)]
        simp only [reduceCtorEq, false_iff]
        rintro ⟨as, _, _, hm, _, h⟩
        obtain ⟨a', h3, h4⟩ := h 0 v rfl
        rw [g] at h4; cases h4
        exact h1 (hm a (List.mem_of_getElem? h3)).1

/-- **C120**, votes: they are accepted exactly when every one recovers to a validator, no two to the same one, and they are more than
two thirds of the validators. -/
theorem C120_votes (E : Env) (vs : Votes) (height : Int) (hash : Bytes) (vals : Vals) :
    verifyVotes E vs height hash vals = .ok () ↔
      ∃ as : List Bytes, as.length = vs.items.length ∧ as.Nodup ∧ (∀ a ∈ as, a ∈ vals.addrs) ∧ 2 * vals.addrs.length < 3 * vs.items.length ∧
        ∀ (i : Nat) (v : Vote), vs.items[i]? = some v → ∃ a, as[i]? = some a ∧
          E.recover (E.H (PyRlp.encode (.list [.int height, vs.round, .int 1, .bytes hash, vs.partSet, v.timestamp]))) v.signature = some a := by
  unfold verifyVotes
  constructor
  · intro h
    cases g : voteLoop E height hash vals.addrs vs.round vs.partSet [] vs.items with
    | err e => rw [g] at h; cases h
    | ok r =>
      rw [g] at h
      unfold R.bind at h
      dsimp only at h
      split at h
      · cases h
      · rename_i hc
        obtain ⟨as, he, hl, hm, hn, hs⟩ := (voteLoop_iff E height hash vals.addrs _ _ vs.items [] r).1 g
        rw [List.nil_append] at he
        subst he
        simp only [hl] at hc
        exact ⟨r, hl, hn, fun a ha => (hm a ha).1, by omega, hs⟩
  · rintro ⟨as, hl, hn, hm, hc, hs⟩
    rw [(voteLoop_iff E height hash vals.addrs _ _ vs.items [] as).2 ⟨as, rfl, hl, fun a ha => ⟨hm a ha, by simp⟩, hn, hs⟩]
    unfold R.bind
    dsimp only
    rw [if_neg (by omega)]

theorem votes_quorum {E : Env} {K : Known} {vs : Votes} {height : Int} {hash : Bytes} {vals : Vals}
    (hk : ∀ v ∈ vs.items, K.vote vs.round vs.partSet v.timestamp v.signature)
    (h : verifyVotes E vs height hash vals = .ok ()) : Quorum E K vals.addrs height hash := by
  obtain ⟨as, hl, hn, hm, hc, hs⟩ := (C120_votes E vs height hash vals).1 h
  refine ⟨as, hn, fun a ha => ⟨hm a ha, ?_⟩, by omega⟩
  obtain ⟨i, hi, he⟩ := List.getElem_of_mem ha
  have hi' : i < vs.items.length := by omega
  obtain ⟨a', h1, h2⟩ := hs i _ (List.getElem?_eq_getElem hi')
  rw [List.getElem?_eq_getElem hi, he, Option.some.injEq] at h1
  subst h1
  exact ⟨_, _, _, _, hk _ (List.getElem_mem hi'), h2⟩

/-- **C120**, overlap: of any two blocks accepted by the same validators, more than a third of the validators signed both. -/
theorem C120_overlap (E : Env) (K K' : Known) (vals : List Bytes) (h1 h2 : Int) (b1 b2 : Bytes) (q1 : Quorum E K vals h1 b1) (q2 : Quorum E K' vals h2 b2) :
    ∃ cs : List Bytes, cs.Nodup ∧ (∀ a ∈ cs, a ∈ vals ∧ Signed E K a h1 b1 ∧ Signed E K' a h2 b2) ∧ vals.length < 3 * cs.length := by
  obtain ⟨as, n1, m1, c1⟩ := q1
  obtain ⟨bs, n2, m2, c2⟩ := q2
  refine ⟨as.filter (· ∈ bs), n1.filter _, ?_, ?_⟩
  · intro a ha
    rw [List.mem_filter] at ha
    have := of_decide_eq_true ha.2
    exact ⟨(m1 a ha.1).1, (m1 a ha.1).2, (m2 a this).2⟩
  · have hn : (as.filter (· ∉ bs) ++ bs).Nodup := by
      rw [List.nodup_append]
      refine ⟨n1.filter _, n2, ?_⟩
      intro a ha b hb hab
      subst hab
      rw [List.mem_filter] at ha
      exact of_decide_eq_true ha.2 hb
    have hsub : (as.filter (· ∉ bs) ++ bs) ⊆ vals := by
      intro a ha
      rcases List.mem_append.1 ha with ha | ha
      · exact (m1 a (List.mem_filter.1 ha).1).1
      · exact (m2 a ha).1
    have hle := hn.length_le_of_subset hsub
    rw [List.length_append] at hle
    have hsplit : ∀ l : List Bytes, l.length = (l.filter (· ∈ bs)).length + (l.filter (· ∉ bs)).length := by
      intro l
      induction l with
      | nil => rfl
      | cons x l ih =>
        by_cases hx : x ∈ bs
        · rw [List.filter_cons_of_pos (by simpa using hx), List.filter_cons_of_neg (by simpa using hx)]
          simp only [List.length_cons]; omega
        · rw [List.filter_cons_of_neg (by simpa using hx), List.filter_cons_of_pos (by simpa using hx)]
          simp only [List.length_cons]; omega
    have := hsplit as
    omega

/-! ### The chain of headers -/

/-- Headers from a height and validators on, each with the validators it names: header and validators are read from their bytes, the
heights count up, each block is signed by more than two thirds of the validators that the block before it named; headers, validators and
votes are among those shown. -/
def Chain (E : Env) (K : Known) : Int → Vals → List (Header × Vals) → Prop
  | _, _, [] => True
  | h, V, (d, W) :: ds => readHeader E d.bytes = some d ∧ d.height = some (h + 1) ∧ (K.header d ∧ K.vals W ∧ Quorum E K V.addrs (h + 1) (E.H d.bytes)) ∧
      readVals E W.bytes = some W ∧ d.nextVals = some (E.H W.bytes) ∧ Chain E K (h + 1) W ds

/-- The validators after the headers. -/
def finalVals (V : Vals) : List (Header × Vals) → Vals
  | [] => V
  | (_, W) :: ds => finalVals W ds

theorem Chain.append {E : Env} {K : Known} (a b : List (Header × Vals)) : ∀ {h : Int} {V : Vals}, Chain E K h V a →
    Chain E K (h + a.length) (finalVals V a) b → Chain E K h V (a ++ b) := by
  induction a with
  | nil => intro h V _ hb; simpa [finalVals] using hb
  | cons p a ih =>
    obtain ⟨d, W⟩ := p
    intro h V ha hb
    obtain ⟨a1, a2, a3, a4, a5, a6⟩ := ha
    refine ⟨a1, a2, a3, a4, a5, ih a6 ?_⟩
    rw [show h + 1 + (a.length : Int) = h + (((d, W) :: a).length : Int) by simp; omega]
    exact hb

theorem finalVals_append (a b : List (Header × Vals)) : ∀ V, finalVals V (a ++ b) = finalVals (finalVals V a) b := by
  induction a with
  | nil => intro V; rfl
  | cons p a ih => intro V; exact ih _

theorem Chain.heights {E : Env} {K : Known} (a : List (Header × Vals)) : ∀ {h : Int} {V : Vals}, Chain E K h V a →
    ∀ (i : Nat) (d : Header × Vals), a[i]? = some d → d.1.height = some (h + 1 + i) := by
  induction a with
  | nil => intro h V _ i d hd; simp at hd
  | cons p a ih =>
    obtain ⟨d, W⟩ := p
    intro h V ha i d' hd
    obtain ⟨a1, a2, a3, a4, a5, a6⟩ := ha
    cases i with
    | zero => simp only [List.getElem?_cons_zero, Option.some.injEq] at hd; subst hd; rw [a2]; simp
    | succ i => rw [List.getElem?_cons_succ] at hd; have := ih a6 i d' hd; rw [this]; congr 1; omega

theorem Chain.reads {E : Env} {K : Known} (a : List (Header × Vals)) : ∀ {h : Int} {V : Vals}, Chain E K h V a → ∀ d ∈ a, readHeader E d.1.bytes = some d.1 := by
  induction a with
  | nil => intro h V _ d hd; cases hd
  | cons p a ih =>
    intro h V ha d hd
    obtain ⟨a1, a2, a3, a4, a5, a6⟩ := ha
    rcases List.mem_cons.1 hd with rfl | hd
    · exact a1
    · exact ih a6 d hd

theorem add_height (H : Bytes → Bytes) (m : PyMta.M) (x : Bytes) : (PyMta.add H m x).height = m.height + 1 := by
  unfold PyMta.add PyMta.putCache
  dsimp only
  split
  · rfl
  · split <;> rfl

theorem addAll_height (H : Bytes → Bytes) (a : List Bytes) : ∀ m, (PyMta.addAll H m a).height = m.height + a.length := by
  induction a with
  | nil => intro m; simp [PyMta.addAll]
  | cons x a ih =>
    intro m
    have := ih (PyMta.add H m x)
    rw [add_height] at this
    show (PyMta.addAll H (PyMta.add H m x) a).height = _
    rw [this]
    simp only [List.length_cons]
    omega

theorem addAll_append (H : Bytes → Bytes) (m : PyMta.M) (a b : List Bytes) : PyMta.addAll H m (a ++ b) = PyMta.addAll H (PyMta.addAll H m a) b := by
  simp [PyMta.addAll]

/-- The headers and validators of an update come from reading bytes. -/
def Read (E : Env) (u : Update) : Prop := (∀ d, u.header = some d → readHeader E d.bytes = some d) ∧ ∀ W, u.next = some W → readVals E W.bytes = some W

theorem readHeader_bytes {E : Env} {b : Bytes} {d : Header} (h : readHeader E b = some d) : d.bytes = b := by
  unfold readHeader at h
  split at h
  · obtain ⟨rh, _, rfl⟩ := Option.map_eq_some_iff.1 h; rfl
  · cases h

theorem readVals_bytes {E : Env} {b : Bytes} {d : Vals} (h : readVals E b = some d) : d.bytes = b := by
  unfold readVals at h
  split at h
  · obtain ⟨rh, _, rfl⟩ := Option.map_eq_some_iff.1 h; rfl
  · cases h

theorem headerOf_read {E : Env} {b : Option Bytes} {d : Header} (h : headerOf E b = some (some d)) : readHeader E d.bytes = some d := by
  unfold headerOf at h
  split at h
  · cases h
  · obtain ⟨x, hx, e⟩ := Option.map_eq_some_iff.1 h
    cases e
    rw [readHeader_bytes hx]; exact hx

theorem readUpdate_read {E : Env} {b : Option Bytes} {u : Update} (h : readUpdate E b = some u) : Read E u := by
  unfold readUpdate at h
  obtain ⟨b, _, h⟩ := Option.bind_eq_some_iff.1 h
  split at h
  · obtain ⟨hd, h1, h⟩ := Option.bind_eq_some_iff.1 h
    obtain ⟨vs, _, h⟩ := Option.bind_eq_some_iff.1 h
    obtain ⟨nv, h2, rfl⟩ := Option.map_eq_some_iff.1 h
    refine ⟨fun d hd' => ?_, fun W hW => ?_⟩
    · dsimp only at hd'; subst hd'; exact headerOf_read h1
    · dsimp only at hW; subst hW
      unfold valsOf at h2
      split at h2
      · cases h2
      · obtain ⟨x, hx, e⟩ := Option.map_eq_some_iff.1 h2
        cases e
        rw [readVals_bytes hx]; exact hx
  · cases h

theorem mapM_mem {α β : Type} {f : α → Option β} : ∀ {l : List α} {r : List β}, l.mapM f = some r → ∀ y ∈ r, ∃ x ∈ l, f x = some y := by
  intro l
  induction l with
  | nil => intro r h y hy; simp at h; subst h; cases hy
  | cons a l ih =>
    intro r h y hy
    rw [List.mapM_cons] at h
    obtain ⟨b, hb, h⟩ := Option.bind_eq_some_iff.1 h
    obtain ⟨bs, hbs, h⟩ := Option.bind_eq_some_iff.1 h
    cases h
    rcases List.mem_cons.1 hy with rfl | hy
    · exact ⟨a, List.mem_cons_self, hb⟩
    · obtain ⟨x, hx, h⟩ := ih hbs y hy; exact ⟨x, List.mem_cons_of_mem _ hx, h⟩

/-- What is read from the bytes of a relay message. -/
def ReadMsg (E : Env) (m : Relay) : Prop := (∀ u ∈ m.updates, Read E u) ∧ ∀ p, m.proof = some p → ∀ d, p.header = some d → readHeader E d.bytes = some d

theorem readRelay_read {E : Env} {b : Bytes} {m : Relay} (h : readRelay E b = some m) : ReadMsg E m := by
  unfold readRelay at h
  split at h
  · obtain ⟨us, h1, h⟩ := Option.bind_eq_some_iff.1 h
    obtain ⟨p, h2, h⟩ := Option.bind_eq_some_iff.1 h
    obtain ⟨rs, _, rfl⟩ := Option.map_eq_some_iff.1 h
    refine ⟨fun u hu => ?_, fun q hq d hd => ?_⟩
    · obtain ⟨x, _, hx⟩ := mapM_mem h1 u hu
      exact readUpdate_read hx
    · dsimp only at hq
      subst hq
      unfold proofOf at h2
      split at h2
      · obtain ⟨x, hx, e⟩ := Option.map_eq_some_iff.1 h2
        cases e
        unfold readProof at hx
        split at hx
        · obtain ⟨y, hy, rfl⟩ := Option.map_eq_some_iff.1 hx
          dsimp only at hd; subst hd; exact headerOf_read hy
        · cases hx
      · cases h2
  · cases h

/-- One accepted update. -/
theorem update_iff {E : Env} {l l' : Loop} {u : Update} : update E l u = .ok l' ↔
    ∃ d vs, u.header = some d ∧ d.height = some (l.mta.height + 1) ∧ u.votes = some vs ∧ verifyVotes E vs (l.mta.height + 1) (E.H d.bytes) l.vals = .ok () ∧
      ((d.nextVals = some (E.H l.vals.bytes) ∧ l'.vals = l.vals) ∨
        (d.nextVals ≠ some (E.H l.vals.bytes) ∧ ∃ W, u.next = some W ∧ d.nextVals = some (E.H W.bytes) ∧ l'.vals = W)) ∧
      l'.mta = PyMta.add E.H l.mta (E.H d.bytes) ∧ l'.receiptHash = d.receiptHash ∧ l'.lastHeight = l.mta.height + 1 := by
  unfold update
  cases gh : u.header with
  | none => simp
  | some d =>
    dsimp only
    cases gt : d.height with
    | none => simp only [reduceCtorEq, false_iff]; rintro ⟨d', _, e, e2, _⟩; cases e; rw [gt] at e2; cases e2
    | some height =>
      dsimp only
      by_cases hh : l.mta.height + 1 = height
      · rw [if_pos hh]
        subst hh
        unfold verifyUpdate
        cases gv : u.votes with
        | none => simp [R.bind]
        | some vs =>
          dsimp only
          cases gq : verifyVotes E vs (l.mta.height + 1) (E.H d.bytes) l.vals with
          | err e =>
            simp only [R.bind, reduceCtorEq, false_iff]
            rintro ⟨d', vs', e1, e2, e3, e4, _⟩
            cases e1; cases e3
            rw [gq] at e4; cases e4
          | ok x =>
            simp only [R.bind]
            by_cases hn : d.nextVals = some (E.H l.vals.bytes)
            · rw [if_neg (by simpa using hn)]
              dsimp only
              constructor
              · intro h; cases h; exact ⟨d, vs, rfl, gt, rfl, gq, .inl ⟨hn, rfl⟩, rfl, rfl, rfl⟩
              · rintro ⟨d', vs', e1, e2, e3, e4, e5, e6, e7, e8⟩
                cases e1
                rcases e5 with ⟨_, e5⟩ | ⟨h, _⟩
                · obtain ⟨a1, a2, a3, a4⟩ := l'
                  dsimp only at e5 e6 e7 e8
                  rw [e5, e6, e7, e8]
                · exact absurd hn h
            · rw [if_pos hn]
              cases gn : u.next with
              | none =>
                simp only [reduceCtorEq, false_iff]
                rintro ⟨d', vs', e1, e2, e3, e4, e5, _⟩
                cases e1
                rcases e5 with ⟨h, _⟩ | ⟨_, W, h, _⟩
                · exact hn h
                · cases h
              | some W =>
                dsimp only
                by_cases hw : some (E.H W.bytes) = d.nextVals
                · rw [if_pos hw]
                  dsimp only
                  constructor
                  · intro h; cases h; exact ⟨d, vs, rfl, gt, rfl, gq, .inr ⟨hn, W, rfl, hw.symm, rfl⟩, rfl, rfl, rfl⟩
                  · rintro ⟨d', vs', e1, e2, e3, e4, e5, e6, e7, e8⟩
                    cases e1
                    rcases e5 with ⟨h, _⟩ | ⟨_, W', h, _, e5⟩
                    · exact absurd h hn
                    · cases h
                      obtain ⟨a1, a2, a3, a4⟩ := l'
                      dsimp only at e5 e6 e7 e8
                      rw [e5, e6, e7, e8]
                · rw [if_neg hw]
                  simp only [reduceCtorEq, false_iff]
                  rintro ⟨d', vs', e1, e2, e3, e4, e5, _⟩
                  cases e1
                  rcases e5 with ⟨h, _⟩ | ⟨_, W', h, e5, _⟩
                  · exact hn h
                  · cases h; exact hw e5.symm
      · rw [if_neg hh]
        constructor
        · intro h; split at h <;> cases h
        · rintro ⟨d', vs', e1, e2, _⟩
          cases e1
          rw [gt] at e2
          cases e2
          exact absurd rfl hh

/-- The block update is among the data. -/
def Shows (K : Known) (u : Update) : Prop :=
  (∀ d, u.header = some d → K.header d) ∧ (∀ W, u.next = some W → K.vals W) ∧
    ∀ vs, u.votes = some vs → ∀ v ∈ vs.items, K.vote vs.round vs.partSet v.timestamp v.signature

theorem updateAll_chain (E : Env) (K : Known) (us : List Update) : ∀ (l l' : Loop), readVals E l.vals.bytes = some l.vals → K.vals l.vals → (∀ u ∈ us, Read E u) →
    (∀ u ∈ us, Shows K u) → updateAll E l us = .ok l' → ∃ ds : List (Header × Vals), us.map (·.header) = ds.map (fun d => some d.1) ∧
      Chain E K l.mta.height l.vals ds ∧ finalVals l.vals ds = l'.vals ∧ (readVals E l'.vals.bytes = some l'.vals ∧ K.vals l'.vals) ∧
      l'.mta = PyMta.addAll E.H l.mta (ds.map fun d => E.H d.1.bytes) ∧
      (l'.receiptHash, some l'.lastHeight) = (match ds.getLast? with | some d => (d.1.receiptHash, d.1.height) | none => (l.receiptHash, some l.lastHeight)) := by
  induction us with
  | nil => intro l l' hv hk _ _ h; cases h; exact ⟨[], rfl, trivial, rfl, ⟨hv, hk⟩, rfl, rfl⟩
  | cons u us ih =>
    intro l l' hv hk hr hs h
    have e0 : updateAll E l (u :: us) = (update E l u).bind fun l => updateAll E l us := rfl
    rw [e0] at h
    cases g : update E l u with
    | err e => rw [g] at h; cases h
    | ok l1 =>
      rw [g] at h
      have h : updateAll E l1 us = .ok l' := h
      obtain ⟨d, vs, g1, g2, g3, g4, g5, g6, g7, g8⟩ := update_iff.1 g
      obtain ⟨r1, r2⟩ := hr u List.mem_cons_self
      obtain ⟨s1, s2, s3⟩ := hs u List.mem_cons_self
      have hv1 : readVals E l1.vals.bytes = some l1.vals ∧ d.nextVals = some (E.H l1.vals.bytes) ∧ K.vals l1.vals := by
        rcases g5 with ⟨a, b⟩ | ⟨_, W, a, b, c⟩
        · rw [b]; exact ⟨hv, a, hk⟩
        · rw [c]; exact ⟨r2 W a, b, s2 W a⟩
      obtain ⟨ds, h1, h2, hf, hl, h3, h4⟩ := ih l1 l' hv1.1 hv1.2.2 (fun u hu => hr u (List.mem_cons_of_mem _ hu)) (fun u hu => hs u (List.mem_cons_of_mem _ hu)) h
      refine ⟨(d, l1.vals) :: ds, by simp [g1, h1], ?_, hf, hl, ?_, ?_⟩
      · refine ⟨r1 d g1, g2, ⟨s1 d g1, hv1.2.2, votes_quorum (s3 vs g3) g4⟩, hv1.1, hv1.2.1, ?_⟩
        have hm := add_height E.H l.mta (E.H d.bytes)
        rw [← hm, ← g6]
        exact h2
      · rw [h3, g6]; rfl
      · rw [h4]
        cases ds with
        | nil => simp [g7, g8, g2]
        | cons x ds =>
          rw [List.getLast?_cons_cons]
          cases gx : (x :: ds).getLast? with
          | none => simp at gx
          | some y => rfl

/-- What a contract with initial validators `V` at `o` has accepted: the headers `ds`. -/
structure Accepted (E : Env) (K : Known) (o : Int) (V : Vals) (s : Props) (ds : List (Header × Vals)) : Prop where
  chain : Chain E K o V ds
  vals : finalVals V ds = s.vals
  read : readVals E s.vals.bytes = some s.vals ∧ K.vals s.vals
  mta : s.mta = PyMta.addAll E.H (PyMta.init o) (ds.map fun d => E.H d.1.bytes)

theorem Accepted.height {E : Env} {K : Known} {o : Int} {V : Vals} {s : Props} {ds : List (Header × Vals)} (h : Accepted E K o V s ds) : s.mta.height = o + ds.length := by
  rw [h.mta, addAll_height, List.length_map]; rfl

/-- A verified block proof. -/
theorem verifyProof_ok {E : Env} {p : Proof} {m : PyMta.M} {x : Option Bytes × Int} (h : verifyProof E p m = .ok x) :
    ∃ d wh, p.header = some d ∧ d.height = some x.2 ∧ d.receiptHash = x.1 ∧ x.2 ≤ m.height ∧ p.witnessHeight = some wh ∧
      PyMta.verify E.H m (p.witness.map (·.getD [])) (E.H d.bytes) x.2 wh = .ok := by
  unfold verifyProof at h
  cases g1 : p.header with
  | none => rw [g1] at h; cases h
  | some d =>
    rw [g1] at h
    dsimp only at h
    cases g2 : d.height with
    | none => rw [g2] at h; cases h
    | some height =>
      rw [g2] at h
      dsimp only at h
      by_cases c1 : m.height < height
      · rw [if_pos c1] at h; cases h
      · rw [if_neg c1] at h
        cases g3 : p.witnessHeight with
        | none => rw [g3] at h; cases h
        | some wh =>
          rw [g3] at h
          dsimp only at h
          split at h
          · cases h
          · cases g4 : PyMta.verify E.H m (p.witness.map (·.getD [])) (E.H d.bytes) height wh with
            | ok => rw [g4] at h; cases h; exact ⟨d, wh, rfl, g2, rfl, Int.not_lt.1 c1, rfl, g4⟩
            | newer => rw [g4] at h; cases h
            | old => rw [g4] at h; cases h
            | bad => rw [g4] at h; cases h

/-- The block part of an accepted call: the headers of the updates are added; the messages are proved against the header of the block
proof if there is one, else against the last update. -/
theorem blocks_ok {E : Env} {K : Known} {o : Int} {V : Vals} {s : Props} {ds : List (Header × Vals)} (ha : Accepted E K o V s ds) {m : Relay} (hm : ReadMsg E m)
    (hk : ∀ u ∈ m.updates, Shows K u) {l : Loop}
    (h : blocks E s m = .ok l) :
    ∃ new, m.updates.map (·.header) = new.map (fun d => some d.1) ∧ Accepted E K o V { s with vals := l.vals, mta := l.mta } (ds ++ new) ∧
      ((m.proof = none ∧ (l.receiptHash, some l.lastHeight) = (match new.getLast? with | some d => (d.1.receiptHash, d.1.height) | none => (none, some 0))) ∨
       ∃ p d wh, m.proof = some p ∧ p.header = some d ∧ d.height = some l.lastHeight ∧ d.receiptHash = l.receiptHash ∧ l.lastHeight ≤ l.mta.height ∧
         p.witnessHeight = some wh ∧ PyMta.verify E.H l.mta (p.witness.map (·.getD [])) (E.H d.bytes) l.lastHeight wh = .ok) := by
  unfold blocks at h
  cases g : updateAll E ⟨s.vals, s.mta, none, 0⟩ m.updates with
  | err e => rw [g] at h; cases h
  | ok l1 =>
    rw [g] at h
    unfold R.bind at h
    dsimp only at h
    obtain ⟨new, h1, h2, hf, hr, h3, h4⟩ := updateAll_chain E K m.updates _ l1 ha.read.1 ha.read.2 hm.1 hk g
    dsimp only at h2 hf h3 h4
    have acc : Accepted E K o V { s with vals := l1.vals, mta := l1.mta } (ds ++ new) := by
      refine ⟨Chain.append _ _ ha.chain ?_, ?_, hr, ?_⟩
      · rw [ha.vals, ← ha.height]; exact h2
      · rw [finalVals_append, ha.vals]; exact hf
      · rw [List.map_append, addAll_append, ← ha.mta]; exact h3
    cases gp : m.proof with
    | none =>
      rw [gp] at h
      cases h
      exact ⟨new, h1, acc, .inl ⟨rfl, h4⟩⟩
    | some p =>
      rw [gp] at h
      dsimp only at h
      cases gv : verifyProof E p l1.mta with
      | err e => rw [gv] at h; cases h
      | ok x =>
        rw [gv] at h
        cases h
        obtain ⟨d, wh, a1, a2, a3, a4, a5, a6⟩ := verifyProof_ok gv
        exact ⟨new, h1, acc, .inr ⟨p, d, wh, rfl, a1, a2, a3, a4, a5, a6⟩⟩

theorem handle_ok {E : Env} {s : Props} {prev : Str} {bmc : Bytes} {seq : Int} {m : Relay} {s' : Props} {ret : List Val}
    (h : handle E s prev bmc seq m = .ok (s', ret)) : (m.updates ≠ [] ∨ m.proof ≠ none) ∧ ∃ l n, blocks E s m = .ok l ∧
      receipts E l.receiptHash prev bmc (seq + 1) [] m.receipts = .ok (n, ret) ∧
      s' = { s with vals := l.vals, mta := l.mta, lastHeight := if ret.length > 0 then l.lastHeight else s.lastHeight } := by
  unfold handle at h
  split at h
  · cases h
  · rename_i hc
    refine ⟨?_, ?_⟩
    · by_cases h1 : m.updates = []
      · right
        intro h2
        apply hc
        rw [h1, h2]
        exact ⟨rfl, rfl⟩
      · exact .inl h1
    · cases g : blocks E s m with
      | err e => rw [g] at h; cases h
      | ok l =>
        rw [g] at h
        unfold R.bind at h
        dsimp only at h
        cases gr : receipts E l.receiptHash prev bmc (seq + 1) [] m.receipts with
        | err e => rw [gr] at h; cases h
        | ok x =>
          rw [gr] at h
          cases h
          exact ⟨l, x.1, rfl, gr, rfl⟩

theorem handleRelay_iff {E : Env} {s : Props} {c : Call} {x : Props × List Val} : handleRelay E s c = .ok x ↔
    ∃ cur prev b m, PyAddr.fromString (E.text c.bmc) = some cur ∧ PyAddr.fromString (E.text c.prev) = some prev ∧ accessible E s c.caller cur prev = true ∧
      PyBase64.urlDecode c.msg = some b ∧ readRelay E b = some m ∧ handle E s prev.contract c.bmc c.seq m = .ok x := by
  unfold handleRelay
  constructor
  · intro h
    split at h
    · rename_i cur prev h1 h2
      split at h
      · cases h
      · rename_i h3
        cases g : (PyBase64.urlDecode c.msg).bind (readRelay E) with
        | none => rw [g] at h; cases h
        | some m =>
          rw [g] at h
          obtain ⟨b, g1, g2⟩ := Option.bind_eq_some_iff.1 g
          exact ⟨cur, prev, b, m, h1, h2, by simpa using h3, g1, g2, h⟩
    · cases h
  · rintro ⟨cur, prev, b, m, h1, h2, h3, h4, h5, h6⟩
    rw [h1, h2]
    dsimp only
    rw [if_neg (by simp [h3]), h4, Option.bind_some, h5]
    exact h6

/-- The relay message `m` is in one of the calls. -/
def Brings (E : Env) (cs : List Call) (m : Relay) : Prop := ∃ c ∈ cs, ∃ b, PyBase64.urlDecode c.msg = some b ∧ readRelay E b = some m

/-- What is shown to a contract with the validators `V` by calls: the block updates in their relay messages. -/
def shown (E : Env) (V : Vals) (cs : List Call) : Known where
  vote := fun r ps ts sig => ∃ m, Brings E cs m ∧ ∃ u ∈ m.updates, ∃ vs, u.votes = some vs ∧ vs.round = r ∧ vs.partSet = ps ∧
    ∃ v ∈ vs.items, v.timestamp = ts ∧ v.signature = sig
  header := fun d => ∃ m, Brings E cs m ∧ ∃ u ∈ m.updates, u.header = some d
  vals := fun W => W = V ∨ ∃ m, Brings E cs m ∧ ∃ u ∈ m.updates, u.next = some W

theorem shown_shows {E : Env} {V : Vals} {cs : List Call} {m : Relay} (h : Brings E cs m) : ∀ u ∈ m.updates, Shows (shown E V cs) u := fun u hu =>
  ⟨fun _ hd => ⟨m, h, u, hu, hd⟩, fun _ hW => .inr ⟨m, h, u, hu, hW⟩, fun vs hv v hvi => ⟨m, h, u, hu, vs, hv, rfl, rfl, v, hvi, rfl, rfl⟩⟩

theorem step_accepted {E : Env} {K : Known} {o : Int} {V : Vals} {s : Props} {ds : List (Header × Vals)} (ha : Accepted E K o V s ds) {c : Call} {s' : Props}
    (hk : ∀ m, Brings E [c] m → ∀ u ∈ m.updates, Shows K u) {ret : List Val} (h : handleRelay E s c = .ok (s', ret)) :
    ∃ new, Accepted E K o V s' (ds ++ new) ∧ s'.bmc = s.bmc ∧ s'.net = s.net := by
  obtain ⟨cur, prev, b, m, _, _, _, h4, h5, h6⟩ := handleRelay_iff.1 h
  obtain ⟨_, l, n, hb, hr, rfl⟩ := handle_ok h6
  obtain ⟨new, _, acc, _⟩ := blocks_ok ha (readRelay_read h5) (hk m ⟨c, List.mem_singleton.2 rfl, b, h4, h5⟩) hb
  exact ⟨new, ⟨acc.chain, acc.vals, acc.read, acc.mta⟩, rfl, rfl⟩

theorem run_accepted {E : Env} {K : Known} {o : Int} {V : Vals} (cs : List Call) : ∀ {s : Props} {ds : List (Header × Vals)}, Accepted E K o V s ds →
    (∀ m, Brings E cs m → ∀ u ∈ m.updates, Shows K u) → (∃ new, Accepted E K o V (run E s cs) (ds ++ new)) ∧ (run E s cs).bmc = s.bmc ∧ (run E s cs).net = s.net := by
  induction cs with
  | nil => intro s ds h _; exact ⟨⟨[], by rw [List.append_nil]; exact h⟩, rfl, rfl⟩
  | cons c cs ih =>
    intro s ds h hk
    have hk1 : ∀ m, Brings E [c] m → ∀ u ∈ m.updates, Shows K u := fun m hm => hk m (by obtain ⟨c', h1, r⟩ := hm; rw [List.mem_singleton.1 h1] at r; exact ⟨c, List.mem_cons_self, r⟩)
    have hk2 : ∀ m, Brings E cs m → ∀ u ∈ m.updates, Shows K u := fun m hm => hk m (by obtain ⟨c', h1, r⟩ := hm; exact ⟨c', List.mem_cons_of_mem _ h1, r⟩)
    unfold run
    cases g : handleRelay E s c with
    | err e => exact ih h hk2
    | ok x =>
      obtain ⟨new, h1, h3, h4⟩ := step_accepted (ret := x.2) h hk1 g
      obtain ⟨⟨new2, h2⟩, h5, h6⟩ := ih h1 hk2
      exact ⟨⟨new ++ new2, by simpa using h2⟩, h5.trans h3, h6.trans h4⟩

theorem init_accepted (E : Env) (bmc : Bytes) (net : Str) {V : Vals} (hV : readVals E V.bytes = some V) (o : Int) (cs : List Call) :
    Accepted E (shown E V cs) o V (init bmc net V o) [] := ⟨trivial, rfl, ⟨hV, .inl rfl⟩, rfl⟩

/-- **C120**, all histories: after any calls the contract holds the accumulator of a chain of headers from its first block on, each
signed by more than two thirds of the validators named by the block before it, and the current validators are those the last one
named; the headers, validators and signatures are those in the calls. -/
theorem C120_history (E : Env) (bmc : Bytes) (net : Str) (V : Vals) (hV : readVals E V.bytes = some V) (o : Int) (cs : List Call) :
    ∃ ds : List (Header × Vals), Chain E (shown E V cs) o V ds ∧ finalVals V ds = (run E (init bmc net V o) cs).vals ∧
      (run E (init bmc net V o) cs).mta = PyMta.addAll E.H (PyMta.init o) (ds.map fun d => E.H d.1.bytes) ∧
      (run E (init bmc net V o) cs).mta.height = o + ds.length ∧
      ∀ (i : Nat) (d : Header × Vals), ds[i]? = some d → d.1.height = some (o + 1 + i) := by
  obtain ⟨⟨ds, h⟩, _⟩ := run_accepted cs (init_accepted E bmc net hV o cs) (fun m hm => shown_shows hm)
  rw [List.nil_append] at h
  exact ⟨ds, h.chain, h.vals, h.mta, h.height, Chain.heights _ h.chain⟩

/-- **C120**, forks: if two contracts with the same first validators accept headers of which neither are the beginning of the other,
then more than a third of the validators of some block signed two different blocks at the same height, by signatures shown to the one contract and
to the other, or two different serializations in the chains (of headers or of validators) have the same hash. -/
theorem C120_fork {E : Env} {K K' : Known} (ds : List (Header × Vals)) : ∀ (es : List (Header × Vals)) (o : Int) (V : Vals), Chain E K o V ds → Chain E K' o V es →
    ds <+: es ∨ es <+: ds ∨
    (∃ W ∈ V :: ds.map (·.2), ∃ h, ∃ d ∈ ds, ∃ e ∈ es, d.1.height = some h ∧ e.1.height = some h ∧ d.1.bytes ≠ e.1.bytes ∧
      ∃ cs : List Bytes, cs.Nodup ∧ W.addrs.length < 3 * cs.length ∧
        ∀ a ∈ cs, a ∈ W.addrs ∧ Signed E K a h (E.H d.1.bytes) ∧ Signed E K' a h (E.H e.1.bytes)) ∨
    Collision E.H (ds.map fun d => d.2.bytes) (es.map fun d => d.2.bytes) := by
  induction ds with
  | nil => intro es o V _ _; exact .inl (List.nil_prefix)
  | cons p ds ih =>
    intro es o V h1 h2
    cases es with
    | nil => exact .inr (.inl List.nil_prefix)
    | cons q es =>
      obtain ⟨d, W⟩ := p
      obtain ⟨e, U⟩ := q
      obtain ⟨a0, a1, a2, a3, a4, a5⟩ := h1
      obtain ⟨b0, b1, b2, b3, b4, b5⟩ := h2
      by_cases hde : d.bytes = e.bytes
      · rw [← hde, a0, Option.some.injEq] at b0
        subst b0
        rw [a4, Option.some.injEq] at b4
        by_cases hv : W.bytes = U.bytes
        · rw [← hv, a3, Option.some.injEq] at b3
          subst b3
          rcases ih es (o + 1) W a5 b5 with h | h | h | h
          · exact .inl (by rw [List.cons_prefix_cons]; exact ⟨rfl, h⟩)
          · exact .inr (.inl (by rw [List.cons_prefix_cons]; exact ⟨rfl, h⟩))
          · obtain ⟨X, hX, h, x, hx, y, hy, r⟩ := h
            refine .inr (.inr (.inl ⟨X, ?_, h, x, by simp [hx], y, by simp [hy], r⟩))
            exact List.mem_cons_of_mem _ hX
          · obtain ⟨x, hx, y, hy, r⟩ := h
            exact .inr (.inr (.inr ⟨x, List.mem_cons_of_mem _ hx, y, List.mem_cons_of_mem _ hy, r⟩))
        · exact .inr (.inr (.inr ⟨_, List.mem_cons_self, _, List.mem_cons_self, hv, b4⟩))
      · obtain ⟨cs, c1, c2, c3⟩ := C120_overlap E K K' V.addrs _ _ _ _ a2.2.2 b2.2.2
        exact .inr (.inr (.inl ⟨V, List.mem_cons_self, o + 1, (d, W), List.mem_cons_self, (e, U), List.mem_cons_self, a1, b1, hde,
          cs, c1, c3, c2⟩))

/-- **C120**, acceptance: in any state, a block alone is accepted exactly when it is the next one, its votes are (see `C120_votes`), and
it names the current validators or comes with those it names. -/
theorem C120_next_iff {E : Env} (s : Props) (prev : Str) (bmc : Bytes) (seq : Int) (u : Update) :
    (∃ x, handle E s prev bmc seq ⟨[u], none, []⟩ = .ok x) ↔
      ∃ d vs, u.header = some d ∧ d.height = some (s.mta.height + 1) ∧ u.votes = some vs ∧
        verifyVotes E vs (s.mta.height + 1) (E.H d.bytes) s.vals = .ok () ∧
        (d.nextVals = some (E.H s.vals.bytes) ∨ ∃ W, u.next = some W ∧ d.nextVals = some (E.H W.bytes)) := by
  have e : handle E s prev bmc seq ⟨[u], none, []⟩ = (((update E ⟨s.vals, s.mta, none, 0⟩ u).bind fun l => R.ok l).bind fun l => R.ok l).bind fun l =>
      R.ok ({ s with vals := l.vals, mta := l.mta, lastHeight := s.lastHeight }, []) := rfl
  rw [e]
  constructor
  · rintro ⟨x, h⟩
    cases g : update E ⟨s.vals, s.mta, none, 0⟩ u with
    | err e => rw [g] at h; cases h
    | ok l =>
      obtain ⟨d, vs, g1, g2, g3, g4, g5, _⟩ := update_iff.1 g
      refine ⟨d, vs, g1, g2, g3, g4, ?_⟩
      rcases g5 with ⟨a, _⟩ | ⟨_, W, a, b, _⟩
      · exact .inl a
      · exact .inr ⟨W, a, b⟩
  · rintro ⟨d, vs, g1, g2, g3, g4, g5⟩
    have : ∃ l, update E ⟨s.vals, s.mta, none, 0⟩ u = .ok l := by
      by_cases hn : d.nextVals = some (E.H s.vals.bytes)
      · exact ⟨⟨s.vals, PyMta.add E.H s.mta (E.H d.bytes), d.receiptHash, s.mta.height + 1⟩,
          update_iff.2 ⟨d, vs, g1, g2, g3, g4, .inl ⟨hn, rfl⟩, rfl, rfl, rfl⟩⟩
      · rcases g5 with h | ⟨W, a, b⟩
        · exact absurd h hn
        · exact ⟨⟨W, PyMta.add E.H s.mta (E.H d.bytes), d.receiptHash, s.mta.height + 1⟩,
            update_iff.2 ⟨d, vs, g1, g2, g3, g4, .inr ⟨hn, W, a, b, rfl⟩, rfl, rfl, rfl⟩⟩
    obtain ⟨l, hl⟩ := this
    rw [hl]
    exact ⟨_, rfl⟩

/-- **C120**, the codes of heights: an update that is not the next block is refused as too high or too low before its votes are looked
at, whatever else the message has. -/
theorem C120_height_codes {E : Env} (s : Props) (prev : Str) (bmc : Bytes) (seq : Int) (u : Update) (us : List Update) (p : Option Proof) (rs : List ReceiptProof)
    (d : Header) (hd : u.header = some d) (height : Int) (hh : d.height = some height) :
    (s.mta.height + 1 < height → handle E s prev bmc seq ⟨u :: us, p, rs⟩ = .err .updateHigher) ∧
    (height < s.mta.height + 1 → handle E s prev bmc seq ⟨u :: us, p, rs⟩ = .err .updateLower) := by
  have e : ∀ x, update E ⟨s.vals, s.mta, none, 0⟩ u = .err x → handle E s prev bmc seq ⟨u :: us, p, rs⟩ = .err x := by
    intro x hx
    unfold handle blocks
    rw [if_neg (by simp)]
    have e0 : updateAll E ⟨s.vals, s.mta, none, 0⟩ (u :: us) = (update E ⟨s.vals, s.mta, none, 0⟩ u).bind fun l => updateAll E l us := rfl
    rw [e0, hx]
    rfl
  refine ⟨fun h => e _ ?_, fun h => e _ ?_⟩
  · unfold update
    rw [hd]
    dsimp only
    rw [hh]
    dsimp only
    rw [if_neg (by omega), if_pos h]
  · unfold update
    rw [hd]
    dsimp only
    rw [hh]
    dsimp only
    rw [if_neg (by omega), if_neg (by omega)]

/-- **C120**, the codes of block proofs: in any history, a block beyond the accumulator is refused as too high, and a witness made when the
accumulator was lower as old: the relay has to make it anew. -/
theorem C120_proof_codes {E : Env} (bmc : Bytes) (net : Str) (V : Vals) (hV : readVals E V.bytes = some V) (o : Int) (cs : List Call)
    (p : Proof) (d : Header) (hd : p.header = some d) (height : Int) (hh : d.height = some height) :
    ((run E (init bmc net V o) cs).mta.height < height → verifyProof E p (run E (init bmc net V o) cs).mta = .err .proofHigher) ∧
    (∀ wh, p.witnessHeight = some wh → height < (run E (init bmc net V o) cs).mta.height → wh < (run E (init bmc net V o) cs).mta.height →
      verifyProof E p (run E (init bmc net V o) cs).mta = .err .witnessOld) := by
  obtain ⟨ds, _, _, hm, _⟩ := C120_history E bmc net V hV o cs
  obtain ⟨q1, q2, q3⟩ := PyMta.deployed (H := E.H) (ds.map fun d => E.H d.1.bytes) (PyMta.init o) rfl rfl rfl
  rw [← hm] at q1 q2 q3
  generalize (run E (init bmc net V o) cs).mta = m at q1 q2 q3 ⊢
  constructor
  · intro h
    unfold verifyProof
    rw [hd]
    dsimp only
    rw [hh]
    dsimp only
    rw [if_pos h]
  · intro wh hw h1 h2
    have hv : ∀ ws x, PyMta.verify E.H m ws x height wh = .old := by
      intro ws x
      unfold PyMta.verify
      rw [if_neg (by omega), if_neg (by omega), q1, if_neg (by omega)]
    unfold verifyProof
    rw [hd]
    dsimp only
    rw [hh]
    dsimp only
    rw [if_neg (by omega), hw]
    dsimp only
    rw [if_neg (by omega), hv]

/-! ### Messages -/

/-- The event is a message of the contract `prev` with the sequence number `q` for `nb` (a text or not): event `Message` with at least three parameters, the second
a number or a truth value. -/
def IsMessage (E : Env) (prev : Str) (e : EventLog) (nb : Val) (q : Int) (m : Val) : Prop :=
  E.addrText e.addr = some prev ∧ e.method = [0x4d, 0x65, 0x73, 0x73, 0x61, 0x67, 0x65] ∧
    ∃ qv rest, e.params = nb :: qv :: m :: rest ∧ (qv = .int q ∨ (qv = .bool true ∧ q = 1) ∨ (qv = .bool false ∧ q = 0))

/-- The events read from sequence number `n` on and the messages returned: events of other contracts and other events of the contract are passed
over; messages for others must have the next number and are passed over; messages for `bmc` must have the next number and are returned. -/
inductive Sel (E : Env) (prev : Str) (bmc : Bytes) : Int → List EventLog → List Val → Prop where
  | nil (n : Int) : Sel E prev bmc n [] []
  | contract (n : Int) (e : EventLog) (es : List EventLog) (l : List Val) (a : Str) : E.addrText e.addr = some a → a ≠ prev → Sel E prev bmc n es l →
      Sel E prev bmc n (e :: es) l
  | event (n : Int) (e : EventLog) (es : List EventLog) (l : List Val) : E.addrText e.addr = some prev → e.method ≠ [0x4d, 0x65, 0x73, 0x73, 0x61, 0x67, 0x65] →
      Sel E prev bmc n es l → Sel E prev bmc n (e :: es) l
  | foreign (n : Int) (e : EventLog) (es : List EventLog) (l : List Val) (nb m : Val) : IsMessage E prev e nb n m → nb ≠ .str bmc → Sel E prev bmc n es l →
      Sel E prev bmc n (e :: es) l
  | take (n : Int) (e : EventLog) (es : List EventLog) (l : List Val) (m : Val) : IsMessage E prev e (.str bmc) n m → Sel E prev bmc (n + 1) es l →
      Sel E prev bmc n (e :: es) (m :: l)

theorem seqOf_iff (v : Val) (q : Int) : seqOf v = some q ↔ (v = .int q ∨ (v = .bool true ∧ q = 1) ∨ (v = .bool false ∧ q = 0)) := by
  cases v with
  | int x => simp [seqOf]
  | bool b => cases b <;> simp [seqOf, eq_comm]
  | none => simp [seqOf]
  | bytes b => simp [seqOf]
  | str b => simp [seqOf]
  | items b => simp [seqOf]
  | list b => simp [seqOf]

theorem isFor_iff (bmc : Bytes) (v : Val) : isFor bmc v = true ↔ v = .str bmc := by
  cases v <;> simp [isFor]

/-- One event of the contract. -/
theorem message_iff (bmc : Bytes) (n : Int) (ms : List Val) (e : EventLog) (x : Int × List Val) : message bmc n ms e = .ok x ↔
    (e.method ≠ messageName ∧ x = (n, ms)) ∨ (e.method = messageName ∧ ∃ nb qv m rest, e.params = nb :: qv :: m :: rest ∧ seqOf qv = some n ∧
      ((nb = .str bmc ∧ x = (n + 1, ms ++ [m])) ∨ (nb ≠ .str bmc ∧ x = (n, ms)))) := by
  unfold message
  by_cases hm : e.method = messageName
  · rw [if_pos hm]
    match hp : e.params with
    | [] => simp [hm]
    | [_] => simp [hm]
    | [_, _] => simp [hm]
    | nb :: qv :: m :: rest =>
      dsimp only
      cases gq : seqOf qv with
      | none => simp [hm, gq]
      | some q =>
        dsimp only
        by_cases c1 : q > n
        · rw [if_pos c1]
          simp only [hm, reduceCtorEq, false_iff]
          rintro (⟨h, _⟩ | ⟨_, nb', qv', m', r', h1, h2, _⟩)
          · exact h rfl
          · cases h1; rw [gq] at h2; cases h2; omega
        · rw [if_neg c1]
          by_cases c2 : q < n
          · rw [if_pos c2]
            simp only [hm, reduceCtorEq, false_iff]
            rintro (⟨h, _⟩ | ⟨_, nb', qv', m', r', h1, h2, _⟩)
            · exact h rfl
            · cases h1; rw [gq] at h2; cases h2; omega
          · rw [if_neg c2]
            have hq : q = n := by omega
            subst hq
            by_cases hb : nb = .str bmc
            · rw [if_pos ((isFor_iff bmc nb).2 hb)]
              constructor
              · intro h; cases h; exact .inr ⟨hm, nb, qv, m, rest, rfl, gq, .inl ⟨hb, rfl⟩⟩
              · rintro (⟨h, _⟩ | ⟨_, nb', qv', m', r', h1, h2, h3⟩)
                · exact absurd hm h
                · cases h1
                  rcases h3 with ⟨_, rfl⟩ | ⟨h, _⟩
                  · rfl
                  · exact absurd hb h
            · rw [if_neg (fun h => hb ((isFor_iff bmc nb).1 h))]
              constructor
              · intro h; cases h; exact .inr ⟨hm, nb, qv, m, rest, rfl, gq, .inr ⟨hb, rfl⟩⟩
              · rintro (⟨h, _⟩ | ⟨_, nb', qv', m', r', h1, h2, h3⟩)
                · exact absurd hm h
                · cases h1
                  rcases h3 with ⟨h, _⟩ | ⟨_, rfl⟩
                  · exact absurd h hb
                  · rfl
  · rw [if_neg hm]
    simp [hm, eq_comm]

/-- The loop over events accepts exactly the lists of `Sel`. -/
theorem events_iff (E : Env) (prev : Str) (bmc : Bytes) (es : List EventLog) : ∀ (n n' : Int) (ms ms' : List Val),
    events E prev bmc n ms es = .ok (n', ms') ↔ ∃ l, Sel E prev bmc n es l ∧ ms' = ms ++ l ∧ n' = n + l.length := by
  induction es with
  | nil =>
    intro n n' ms ms'
    constructor
    · intro h; cases h; exact ⟨[], .nil n, by simp, by simp⟩
    · rintro ⟨l, h, rfl, rfl⟩; cases h; simp [events]
  | cons e es ih =>
    intro n n' ms ms'
    unfold events
    cases ga : E.addrText e.addr with
    | none =>
      simp only [reduceCtorEq, false_iff]
      rintro ⟨l, h, _⟩
      cases h with
      | contract _ _ _ _ a h1 => rw [ga] at h1; cases h1
      | event _ _ _ _ h1 => rw [ga] at h1; cases h1
      | foreign _ _ _ _ _ _ h1 => have := h1.1; rw [ga] at this; cases this
      | take _ _ _ _ _ h1 => have := h1.1; rw [ga] at this; cases this
    | some a =>
      dsimp only
      by_cases hp : a = prev
      · subst hp
        rw [if_neg (by simp)]
        constructor
        · intro h
          cases g : message bmc n ms e with
          | err x => rw [g] at h; cases h
          | ok x =>
            obtain ⟨n1, m1⟩ := x
            rw [g] at h
            have h : events E a bmc n1 m1 es = .ok (n', ms') := h
            obtain ⟨l, h1, h2, h3⟩ := (ih _ _ _ _).1 h
            rcases (message_iff bmc n ms e (n1, m1)).1 g with ⟨g1, g2⟩ | ⟨g1, nb, qv, m, rest, g2, g3, g4⟩
            · cases g2; exact ⟨l, .event _ _ _ _ ga g1 h1, h2, h3⟩
            · rcases g4 with ⟨rfl, g5⟩ | ⟨g4, g5⟩
              · cases g5
                refine ⟨m :: l, .take _ _ _ _ _ ⟨ga, g1, qv, rest, g2, (seqOf_iff _ _).1 g3⟩ h1, by simp [h2], ?_⟩
                simp only [List.length_cons]; omega
              · cases g5
                exact ⟨l, .foreign _ _ _ _ nb m ⟨ga, g1, qv, rest, g2, (seqOf_iff _ _).1 g3⟩ g4 h1, h2, h3⟩
        · rintro ⟨l, h, h2, h3⟩
          have fin : ∀ x : Int × List Val, message bmc n ms e = .ok x → events E a bmc x.1 x.2 es = .ok (n', ms') →
              ((message bmc n ms e).bind fun x => events E a bmc x.1 x.2 es) = .ok (n', ms') := by
            intro x hx h; rw [hx]; exact h
          cases h with
          | contract _ _ _ _ b h1 h4 => rw [ga] at h1; cases h1; exact absurd rfl h4
          | event _ _ _ _ h1 h4 h5 => exact fin (n, ms) ((message_iff _ _ _ _ _).2 (.inl ⟨h4, rfl⟩)) ((ih _ _ _ _).2 ⟨l, h5, h2, h3⟩)
          | foreign _ _ _ _ nb m h1 h4 h5 =>
            obtain ⟨_, q1, qv, rest, q2, q3⟩ := h1
            exact fin (n, ms) ((message_iff _ _ _ _ _).2 (.inr ⟨q1, nb, qv, m, rest, q2, (seqOf_iff _ _).2 q3, .inr ⟨h4, rfl⟩⟩)) ((ih _ _ _ _).2 ⟨l, h5, h2, h3⟩)
          | take _ _ _ l m h1 h5 =>
            obtain ⟨_, q1, qv, rest, q2, q3⟩ := h1
            refine fin (n + 1, ms ++ [m]) ((message_iff _ _ _ _ _).2 (.inr ⟨q1, _, qv, m, rest, q2, (seqOf_iff _ _).2 q3, .inl ⟨rfl, rfl⟩⟩)) ((ih _ _ _ _).2 ⟨l, h5, by simp [h2], ?_⟩)
            simp only [List.length_cons] at h3; omega
      · rw [if_pos (by simpa using hp), ih]
        constructor
        · rintro ⟨l, h1, h2⟩; exact ⟨l, .contract _ _ _ _ a ga hp h1, h2⟩
        · rintro ⟨l, h, h2⟩
          cases h with
          | contract _ _ _ _ b h1 h4 h5 => exact ⟨l, h5, h2⟩
          | event _ _ _ _ h1 h4 h5 => rw [ga] at h1; cases h1; exact absurd rfl hp
          | foreign _ _ _ _ nb m h1 h4 h5 => have := h1.1; rw [ga] at this; cases this; exact absurd rfl hp
          | take _ _ _ _ m h1 h5 => have := h1.1; rw [ga] at this; cases this; exact absurd rfl hp

theorem Sel.append {E : Env} {prev : Str} {bmc : Bytes} {n : Int} {a b : List EventLog} {l m : List Val} (h1 : Sel E prev bmc n a l)
    (h2 : Sel E prev bmc (n + l.length) b m) : Sel E prev bmc n (a ++ b) (l ++ m) := by
  induction h1 with
  | nil n => simpa using h2
  | contract n e es l x hx hp _ ih => exact .contract _ _ _ _ x hx hp (ih h2)
  | event n e es l hx hp _ ih => exact .event _ _ _ _ hx hp (ih h2)
  | foreign n e es l nb x hx hp _ ih => exact .foreign _ _ _ _ nb x hx hp (ih h2)
  | take n e es l x hx _ ih =>
    refine .take _ _ _ _ _ hx (ih ?_)
    rw [show n + 1 + (l.length : Int) = n + ((x :: l).length : Int) by simp only [List.length_cons]; omega]
    exact h2

theorem Sel.split {E : Env} {prev : Str} {bmc : Bytes} (a : List EventLog) : ∀ {n : Int} {b : List EventLog} {l : List Val}, Sel E prev bmc n (a ++ b) l →
    ∃ l1 l2, l = l1 ++ l2 ∧ Sel E prev bmc n a l1 ∧ Sel E prev bmc (n + l1.length) b l2 := by
  induction a with
  | nil => intro n b l h; exact ⟨[], l, rfl, .nil n, by simpa using h⟩
  | cons e a ih =>
    intro n b l h
    rw [List.cons_append] at h
    cases h with
    | contract _ _ _ _ x hx hp h => obtain ⟨l1, l2, q1, q2, q3⟩ := ih h; exact ⟨l1, l2, q1, .contract _ _ _ _ x hx hp q2, q3⟩
    | event _ _ _ _ hx hp h => obtain ⟨l1, l2, q1, q2, q3⟩ := ih h; exact ⟨l1, l2, q1, .event _ _ _ _ hx hp q2, q3⟩
    | foreign _ _ _ _ nb x hx hp h => obtain ⟨l1, l2, q1, q2, q3⟩ := ih h; exact ⟨l1, l2, q1, .foreign _ _ _ _ nb x hx hp q2, q3⟩
    | take _ _ _ _ x hx h =>
      obtain ⟨l1, l2, q1, q2, q3⟩ := ih h
      refine ⟨x :: l1, l2, by simp [q1], .take _ _ _ _ _ hx q2, ?_⟩
      rw [show n + ((x :: l1).length : Int) = n + 1 + (l1.length : Int) by simp only [List.length_cons]; omega]
      exact q3

theorem receipts_iff (E : Env) (root : Option Bytes) (prev : Str) (bmc : Bytes) (ps : List ReceiptProof) : ∀ (n n' : Int) (ms ms' : List Val),
    receipts E root prev bmc n ms ps = .ok (n', ms') ↔
    ∃ ess : List (List EventLog), ps.map (proveReceipt E root) = ess.map some ∧ ∃ l, Sel E prev bmc n ess.flatten l ∧ ms' = ms ++ l ∧ n' = n + l.length := by
  induction ps with
  | nil =>
    intro n n' ms ms'
    constructor
    · intro h; cases h; exact ⟨[], rfl, [], .nil n, by simp, by simp⟩
    · rintro ⟨ess, h, l, hs, rfl, rfl⟩
      cases ess with
      | nil => cases hs; simp [receipts]
      | cons _ _ => simp at h
  | cons p ps ih =>
    intro n n' ms ms'
    unfold receipts
    cases g : proveReceipt E root p with
    | none =>
      simp only [reduceCtorEq, false_iff]
      rintro ⟨ess, h, _⟩
      cases ess with
      | nil => simp at h
      | cons es ess => simp [g] at h
    | some es =>
      dsimp only
      constructor
      · intro h
        cases ge : events E prev bmc n ms es with
        | err e => rw [ge] at h; cases h
        | ok x =>
          obtain ⟨n1, m1⟩ := x
          rw [ge] at h
          have h : receipts E root prev bmc n1 m1 ps = .ok (n', ms') := h
          obtain ⟨l1, a1, a2, a3⟩ := (events_iff E prev bmc es _ _ _ _).1 ge
          obtain ⟨ess, b0, l2, b1, b2, b3⟩ := (ih _ _ _ _).1 h
          refine ⟨es :: ess, by simp [g, b0], l1 ++ l2, ?_, by simp [b2, a2], by simp only [List.length_append]; omega⟩
          rw [List.flatten_cons]; exact a1.append (a3 ▸ b1)
      · rintro ⟨ess, h, l, hs, h2, h3⟩
        cases ess with
        | nil => simp at h
        | cons es' ess =>
          simp only [List.map_cons, List.cons.injEq, g, Option.some.injEq] at h
          obtain ⟨rfl, h⟩ := h
          rw [List.flatten_cons] at hs
          obtain ⟨l1, l2, rfl, q2, q3⟩ := Sel.split es hs
          have := (events_iff E prev bmc es n (n + l1.length) ms (ms ++ l1)).2 ⟨l1, q2, rfl, rfl⟩
          rw [this]
          show receipts E root prev bmc (n + l1.length) (ms ++ l1) ps = _
          rw [ih]
          refine ⟨ess, h, l2, q3, by simp [h2], ?_⟩
          simp only [List.length_append] at h3; omega

/-- The header of a call is one of the chain, or it is that of the block proof in the call and the hash of headers or of the accumulator has a
collision between this block proof and the chain. -/
def HeaderIn (E : Env) (o : Int) (ds : List (Header × Vals)) (m : Relay) (h : Header) : Prop :=
  (∃ d ∈ ds, d.1 = h) ∨ ∃ p, m.proof = some p ∧ p.header = some h ∧ (Collision E.H [h.bytes] (ds.map fun d => d.1.bytes) ∨
    ∃ height st n, h.height = some height ∧
      Collision E.H (PyMta.calls E.H (p.witness.map (·.getD [])) (E.H h.bytes) (height - 1 - o)) (Merkle.inputs E.H (((ds.map fun d => E.H d.1.bytes).drop st).take n)))

/-- **C121**, messages: in any history, an accepted call has a header of the verified chain (or there is a collision of the hash in the call
and the chain); its receipts are proved against this header's receipt root; the messages returned are the events `Message` of the source
contract for this contract, in order and all of them, with sequence numbers counting from the caller's; if there are any, the stored height is
that of the header. -/
theorem C121_messages {E : Env} (hH : ∀ x, (E.H x).length = 32) (bmc : Bytes) (net : Str) (V : Vals) (hV : readVals E V.bytes = some V) (o : Int) (ho : 0 ≤ o)
    (cs : List Call) (c : Call) (s' : Props) (ret : List Val) (h : handleRelay E (run E (init bmc net V o) cs) c = .ok (s', ret)) :
    ∃ b m prev ds hd, PyBase64.urlDecode c.msg = some b ∧ readRelay E b = some m ∧ PyAddr.fromString (E.text c.prev) = some prev ∧ Accepted E (shown E V (cs ++ [c])) o V s' ds ∧
      HeaderIn E o ds m hd ∧
      ∃ ess : List (List EventLog), m.receipts.map (proveReceipt E hd.receiptHash) = ess.map some ∧
        Sel E prev.contract c.bmc (c.seq + 1) ess.flatten ret ∧ (ret ≠ [] → hd.height = some s'.lastHeight) := by
  obtain ⟨⟨ds, ha⟩, _⟩ := run_accepted cs (init_accepted E bmc net hV o (cs ++ [c]))
    (fun m hm => shown_shows (by obtain ⟨c', h1, r⟩ := hm; exact ⟨c', List.mem_append_left _ h1, r⟩))
  rw [List.nil_append] at ha
  generalize run E (init bmc net V o) cs = s at h ha
  obtain ⟨cur, prev, b, m, h1, h2, h3, h4, h5, h6⟩ := handleRelay_iff.1 h
  obtain ⟨hne, l, n, hb, hr, rfl⟩ := handle_ok h6
  obtain ⟨new, e1, acc, e2⟩ := blocks_ok ha (readRelay_read h5) (shown_shows ⟨c, List.mem_append_right _ (List.mem_singleton.2 rfl), b, h4, h5⟩) hb
  have acc' : Accepted E (shown E V (cs ++ [c])) o V { s with vals := l.vals, mta := l.mta, lastHeight := if ret.length > 0 then l.lastHeight else s.lastHeight } (ds ++ new) :=
    ⟨acc.chain, acc.vals, acc.read, acc.mta⟩
  obtain ⟨ess, r1, l', r2, r3, _⟩ := (receipts_iff E l.receiptHash prev.contract c.bmc m.receipts _ _ _ _).1 hr
  rw [List.nil_append] at r3
  subst r3
  have hlast : ∀ hd : Header, hd.height = some l.lastHeight →
      ret ≠ [] → hd.height = some (if ret.length > 0 then l.lastHeight else s.lastHeight) := by
    intro hd hh hre
    rw [if_pos (List.length_pos_iff.2 hre), hh]
  rcases e2 with ⟨e2, e3⟩ | ⟨p, d, wh, p1, p2, p3, p4, p5, p6, p7⟩
  · cases gl : new.getLast? with
    | none =>
      exfalso
      have : new = [] := List.getLast?_eq_none_iff.1 gl
      subst this
      have : m.updates = [] := by simpa using e1
      rcases hne with h | h
      · exact h this
      · exact h e2
    | some d =>
      rw [gl] at e3
      simp only [Prod.mk.injEq] at e3
      refine ⟨b, m, prev, ds ++ new, d.1, h4, h5, h2, acc', .inl ⟨d, List.mem_append_right _ (List.mem_of_getLast? gl), rfl⟩, ess, ?_, r2, hlast d.1 e3.2.symm⟩
      rw [← e3.1]; exact r1
  · refine ⟨b, m, prev, ds ++ new, d, h4, h5, h2, acc', ?_, ess, by rw [p4]; exact r1, r2, hlast d p3⟩
    have hm : l.mta = PyMta.addAll E.H (PyMta.init o) ((ds ++ new).map fun d => E.H d.1.bytes) := acc.mta
    rw [hm] at p7
    rcases PyMta.C118_sound_partial hH o ho _ (by intro x hx; obtain ⟨d, _, rfl⟩ := List.mem_map.1 hx; exact hH _) _ _ (hH _) _ _ p7 with ⟨i, hi, _⟩ | ⟨st, k, hc⟩
    · obtain ⟨e, he, hd2⟩ := List.mem_map.1 (List.mem_of_getElem? hi)
      by_cases heq : d.bytes = e.1.bytes
      · left
        have q1 := (readRelay_read h5).2 p p1 d p2
        have q2 := Chain.reads _ acc.chain e he
        rw [heq, q2, Option.some.injEq] at q1
        exact ⟨e, he, q1⟩
      · exact .inr ⟨p, p1, p2, .inl ⟨_, List.mem_singleton.2 rfl, _, List.mem_map.2 ⟨e, he, rfl⟩, heq, hd2.symm⟩⟩
    · exact .inr ⟨p, p1, p2, .inr ⟨l.lastHeight, st, k, p3, hc⟩⟩

/-- **C121**, the sequence numbers of what is returned. -/
theorem C121_consecutive {E : Env} {prev : Str} {bmc : Bytes} {n : Int} {es : List EventLog} {ret : List Val} (h : Sel E prev bmc n es ret) :
    (∀ (i : Nat) (m : Val), ret[i]? = some m → ∃ e ∈ es, IsMessage E prev e (.str bmc) (n + i) m) ∧
    (∀ e ∈ es, ∀ q m, IsMessage E prev e (.str bmc) q m → ∃ i : Nat, q = n + i ∧ ret[i]? = some m) := by
  have uniq : ∀ {e : EventLog} {nb nb' m m' : Val} {q q' : Int}, IsMessage E prev e nb q m → IsMessage E prev e nb' q' m' → nb = nb' ∧ q = q' ∧ m = m' := by
    intro e nb nb' m m' q q' h1 h2
    obtain ⟨_, _, qv, r, p1, p2⟩ := h1
    obtain ⟨_, _, qv', r', p3, p4⟩ := h2
    rw [p1] at p3
    cases p3
    have a := (seqOf_iff _ _).2 p2
    rw [(seqOf_iff _ _).2 p4] at a
    cases a
    exact ⟨rfl, rfl, rfl⟩
  induction h with
  | nil n => exact ⟨by simp, by simp⟩
  | contract n e es l x hx hp _ ih =>
    refine ⟨fun i m hm => ?_, fun e' he q m hq => ?_⟩
    · obtain ⟨e', he, h⟩ := ih.1 i m hm; exact ⟨e', List.mem_cons_of_mem _ he, h⟩
    · rcases List.mem_cons.1 he with rfl | he
      · have := hq.1; rw [hx] at this; cases this; exact absurd rfl hp
      · exact ih.2 e' he q m hq
  | event n e es l hx hp _ ih =>
    refine ⟨fun i m hm => ?_, fun e' he q m hq => ?_⟩
    · obtain ⟨e', he, h⟩ := ih.1 i m hm; exact ⟨e', List.mem_cons_of_mem _ he, h⟩
    · rcases List.mem_cons.1 he with rfl | he
      · exact absurd hq.2.1 hp
      · exact ih.2 e' he q m hq
  | foreign n e es l nb x hx hp _ ih =>
    refine ⟨fun i m hm => ?_, fun e' he q m hq => ?_⟩
    · obtain ⟨e', he, h⟩ := ih.1 i m hm; exact ⟨e', List.mem_cons_of_mem _ he, h⟩
    · rcases List.mem_cons.1 he with rfl | he
      · exact absurd (uniq hx hq).1 hp
      · exact ih.2 e' he q m hq
  | take n e es l x hx _ ih =>
    refine ⟨fun i m hm => ?_, fun e' he q m hq => ?_⟩
    · cases i with
      | zero => simp only [List.getElem?_cons_zero, Option.some.injEq] at hm; subst hm; exact ⟨e, List.mem_cons_self, by simpa using hx⟩
      | succ i =>
        rw [List.getElem?_cons_succ] at hm
        obtain ⟨e', he, h⟩ := ih.1 i m hm
        refine ⟨e', List.mem_cons_of_mem _ he, ?_⟩
        rw [show n + ((i + 1 : Nat) : Int) = n + 1 + (i : Int) by omega]; exact h
    · rcases List.mem_cons.1 he with rfl | he
      · obtain ⟨_, rfl, rfl⟩ := uniq hx hq
        exact ⟨0, by simp, rfl⟩
      · obtain ⟨i, h1, h2⟩ := ih.2 e' he q m hq
        exact ⟨i + 1, by omega, by rw [List.getElem?_cons_succ]; exact h2⟩

/-- **C121**, exactness of the messages: with the events proved, the call's messages are accepted exactly when `Sel` holds. -/
theorem C121_messages_iff {E : Env} (root : Option Bytes) (prev : Str) (bmc : Bytes) (seq : Int) (ps : List ReceiptProof) (ret : List Val) :
    (∃ n, receipts E root prev bmc (seq + 1) [] ps = .ok (n, ret)) ↔
      ∃ ess : List (List EventLog), ps.map (proveReceipt E root) = ess.map some ∧ Sel E prev bmc (seq + 1) ess.flatten ret := by
  constructor
  · rintro ⟨n, h⟩
    obtain ⟨ess, h1, l, h2, h3, _⟩ := (receipts_iff E root prev bmc ps _ _ _ _).1 h
    rw [List.nil_append] at h3
    subst h3
    exact ⟨ess, h1, h2⟩
  · rintro ⟨ess, h1, h2⟩
    exact ⟨_, (receipts_iff E root prev bmc ps _ _ _ _).2 ⟨ess, h1, ret, h2, rfl, rfl⟩⟩

/-- **C121**: a message of the source contract for another chain that is proved with the others must have the next number of this link too: with
any other number the whole call is refused (as a sequence error), although the message is not for this contract. -/
theorem C121_foreign_refused {E : Env} (prev : Str) (bmc : Bytes) (n : Int) (ms : List Val) (e : EventLog) (es : List EventLog) (nb m : Val) (q : Int)
    (he : IsMessage E prev e nb q m) : (n < q → events E prev bmc n ms (e :: es) = .err .seqHigher) ∧ (q < n → events E prev bmc n ms (e :: es) = .err .seq) := by
  obtain ⟨h1, h2, qv, rest, h3, h4⟩ := he
  have h2 : e.method = messageName := h2
  have hs := (seqOf_iff _ _).2 h4
  have key : ∀ x, message bmc n ms e = .err x → events E prev bmc n ms (e :: es) = .err x := by
    intro x hx
    unfold events
    rw [h1]
    dsimp only
    rw [if_neg (by simp), hx]
    rfl
  refine ⟨fun hq => key _ ?_, fun hq => key _ ?_⟩
  · unfold message
    rw [if_pos h2, h3]
    dsimp only
    rw [hs]
    dsimp only
    rw [if_pos hq]
  · unfold message
    rw [if_pos h2, h3]
    dsimp only
    rw [hs]
    dsimp only
    rw [if_neg (by omega), if_pos hq]

/-- **C121**, access: in any history only calls of the message center given at the start, for its own address and for the network given at the
start, succeed. -/
theorem C121_access (E : Env) (bmc : Bytes) (net : Str) (V : Vals) (hV : readVals E V.bytes = some V) (o : Int) (cs : List Call) (c : Call) (x : Props × List Val)
    (h : handleRelay E (run E (init bmc net V o) cs) c = .ok x) :
    c.caller = bmc ∧ ∃ cur prev, PyAddr.fromString (E.text c.bmc) = some cur ∧ PyAddr.fromString (E.text c.prev) = some prev ∧
      E.addrFrom cur.contract = some bmc ∧ prev.net = net := by
  obtain ⟨_, hb, hn⟩ := run_accepted cs (init_accepted E bmc net hV o cs) (fun m hm => shown_shows hm)
  obtain ⟨cur, prev, b, m, h1, h2, h3, _⟩ := handleRelay_iff.1 h
  unfold accessible at h3
  have h3 := of_decide_eq_true h3
  rw [hb, hn] at h3
  exact ⟨h3.2.1, cur, prev, h1, h2, h3.2.2, h3.1.symm⟩

theorem readReceipt_items {E : Env} {b : Bytes} {h : Option Bytes} (hr : readReceipt E b = some h) : ∃ l, PyRlp.whole b = some (.items l) := by
  unfold readReceipt at hr
  cases g : PyRlp.decode E.utf8 (.struct [.int, .bytes, .bytes, .bytes, .bytes, .bytes, .raw, .bytes, .bytes]) b with
  | none => rw [g] at hr; cases hr
  | some v =>
    rw [PyRlp.decode] at g
    cases gw : PyRlp.whole b with
    | none => rw [gw] at g; cases g
    | some p =>
      cases p with
      | null => rw [gw] at g; cases g
      | bytes _ => rw [gw] at g; cases g
      | items l => exact ⟨l, rfl⟩

theorem readEvent_items {E : Env} {b : Bytes} {e : EventLog} (hr : readEvent E b = some e) : ∃ l, PyRlp.whole b = some (.items l) := by
  unfold readEvent at hr
  cases g : PyRlp.decode E.utf8 (.struct [.bytes, .each .bytes, .each .bytes]) b with
  | none => rw [g] at hr; cases hr
  | some v =>
    rw [PyRlp.decode] at g
    cases gw : PyRlp.whole b with
    | none => rw [gw] at g; cases g
    | some p =>
      cases p with
      | null => rw [gw] at g; cases g
      | bytes _ => rw [gw] at g; cases g
      | items l => exact ⟨l, rfl⟩

/-- **C121**, receipts: with the receipts of the block in a trie of RLP keys, an accepted receipt proof is for the receipt stored under the key
of the proof, or its nodes and those of the trie collide; the events are those proved against the hash in this receipt, never those written in
the receipt itself. -/
theorem C121_receipt_partial {E : Env} (hH : ∀ x, (E.H x).length = 32) (emb : Bytes → Bool) (t : JavaMpt.Trie) (ht : t.Nib) (hs : PyMpt.Short E.H emb t)
    (hkeys : ∀ k w, t.lookup k = some w → ∃ ty x, k = JavaMpt.toNibbles [] (Rlp.enc ty x) ∧ (Rlp.enc ty x).length < 2 ^ 63)
    (p : ReceiptProof)
    (ty : Rlp.Ty) (x : Rlp.Val ty) (hidx : p.mpt.key = Rlp.enc ty x) (hx : (Rlp.enc ty x).length < 2 ^ 63)
    (hlen : ∀ b, proveMpt E (some (PyMpt.root E.H emb t)) p.mpt = some b → b.length < 2 ^ 64) (es : List EventLog) (h : proveReceipt E (some (PyMpt.root E.H emb t)) p = some es) :
    ∃ b root, readReceipt E b = some root ∧ p.events.mapM (proveEvent E root) = some es ∧
      (t.lookup (JavaMpt.toNibbles [] p.mpt.key) = some b ∨
        Collision E.H p.mpt.proofs (PyMpt.ser E.H emb t :: PyMpt.below E.H emb t (JavaMpt.toNibbles [] p.mpt.key))) := by
  unfold proveReceipt at h
  obtain ⟨b, h1, h⟩ := Option.bind_eq_some_iff.1 h
  obtain ⟨root, h2, h⟩ := Option.bind_eq_some_iff.1 h
  obtain ⟨l, hl⟩ := readReceipt_items h2
  refine ⟨b, root, h2, h, ?_⟩
  have hb := hlen b h1
  unfold proveMpt at h1
  rw [Option.bind_some, hidx] at h1
  rw [hidx]
  exact PyMpt.C119_index_partial hH emb t ht hs hkeys ty x hx p.mpt.proofs b l hl hb h1

/-- **C121**, events: with the events of the receipt in a trie of RLP keys, an accepted event proof is for the event stored under its key. -/
theorem C121_event_partial {E : Env} (hH : ∀ x, (E.H x).length = 32) (emb : Bytes → Bool) (t : JavaMpt.Trie) (ht : t.Nib) (hs : PyMpt.Short E.H emb t)
    (hkeys : ∀ k w, t.lookup k = some w → ∃ ty x, k = JavaMpt.toNibbles [] (Rlp.enc ty x) ∧ (Rlp.enc ty x).length < 2 ^ 63)
    (p : Mpt) (ty : Rlp.Ty) (x : Rlp.Val ty) (hidx : p.key = Rlp.enc ty x) (hx : (Rlp.enc ty x).length < 2 ^ 63)
    (hlen : ∀ b, proveMpt E (some (PyMpt.root E.H emb t)) p = some b → b.length < 2 ^ 64) (e : EventLog)
    (h : proveEvent E (some (PyMpt.root E.H emb t)) p = some e) :
    ∃ b, readEvent E b = some e ∧ (t.lookup (JavaMpt.toNibbles [] p.key) = some b ∨
        Collision E.H p.proofs (PyMpt.ser E.H emb t :: PyMpt.below E.H emb t (JavaMpt.toNibbles [] p.key))) := by
  unfold proveEvent at h
  obtain ⟨b, h1, h⟩ := Option.bind_eq_some_iff.1 h
  obtain ⟨l, hl⟩ := readEvent_items h
  refine ⟨b, h, ?_⟩
  have hb := hlen b h1
  unfold proveMpt at h1
  rw [Option.bind_some, hidx] at h1
  rw [hidx]
  exact PyMpt.C119_index_partial hH emb t ht hs hkeys ty x hx p.proofs b l hl hb h1

/-- **C121**: the proof of a receipt and of an event fixes what is proved: two accepted proofs for the same root and key are of the same
receipt or event, or their nodes collide. -/
theorem C121_unique {E : Env} (root : Option Bytes) (p q : Mpt) (hk : p.key = q.key) (v w : Bytes) (h1 : proveMpt E root p = some v)
    (h2 : proveMpt E root q = some w) : v = w ∨ Collision E.H p.proofs q.proofs := by
  unfold proveMpt at h1 h2
  obtain ⟨r, e, h1⟩ := Option.bind_eq_some_iff.1 h1
  rw [e, Option.bind_some] at h2
  unfold PyMpt.proveKey at h1 h2
  split at h1
  · rename_i hr
    rw [if_pos hr, ← hk] at h2
    exact PyMpt.C119_unique E.H _ _ _ _ _ _ h1 h2
  · cases h1

/-! ### From the bytes -/

theorem readHeader_nil (E : Env) : readHeader E [] = none := by
  unfold readHeader
  rw [PyRlp.decode, show PyRlp.whole [] = none from rfl]

theorem readVotes_nil (E : Env) : readVotes E [] = none := by
  unfold readVotes
  rw [PyRlp.decode, show PyRlp.whole [] = none from rfl]

def optObj : Option Bytes → Obj
  | none => .none
  | some b => .bytes b

def optVal : Option Bytes → Val
  | none => .none
  | some b => .bytes b

/-- The bytes of a block update, a header, its votes and the next validators if there are any, as the relay writes them. -/
def updateBytes (hb vb : Bytes) (nb : Option Bytes) : Bytes := PyRlp.encode (.list [.bytes hb, .bytes vb, optObj nb])

/-- The bytes of a relay message. -/
def relayBytes (us : List Bytes) (bp : Option Bytes) (rs : List Bytes) : Bytes := PyRlp.encode (.list [.list (us.map .bytes), optObj bp, .list (rs.map .bytes)])

theorem expect_bytes (u : Bytes → Bool) (b : Option Bytes) : PyRlp.expect u .bytes (optObj b) = some (optVal b) := by
  cases b <;> rw [optObj, PyRlp.expect] <;> rfl

theorem expect_each (u : Bytes → Bool) (us : List Bytes) : PyRlp.expect u (.each .bytes) (.list (us.map .bytes)) = some (.list (us.map .bytes)) := by
  rw [PyRlp.expect]
  have : (us.map Obj.bytes).mapM (PyRlp.expect u .bytes) = some (us.map Val.bytes) := by
    induction us with
    | nil => rfl
    | cons x us ih =>
      rw [List.map_cons, List.mapM_cons, ih, PyRlp.expect]
      rfl
  rw [this]
  rfl

theorem readUpdate_bytes {E : Env} {hb vb : Bytes} {nb : Option Bytes} {d : Header} {vs : Votes} {W : Option Vals} (h1 : readHeader E hb = some d)
    (h2 : readVotes E vb = some vs) (h3 : valsOf E nb = some W) (hl : (updateBytes hb vb nb).length < 65536) :
    readUpdate E (some (updateBytes hb vb nb)) = some ⟨some d, some vs, W⟩ := by
  have hne1 : ¬ ((some hb).getD []).length < 1 := by
    intro h
    have : hb = [] := List.length_eq_zero_iff.1 (by simpa using h)
    rw [this, readHeader_nil] at h1; cases h1
  have hne2 : ¬ ((some vb).getD []).length < 1 := by
    intro h
    have : vb = [] := List.length_eq_zero_iff.1 (by simpa using h)
    rw [this, readVotes_nil] at h2; cases h2
  have hx : PyRlp.expect E.utf8 (.struct [.bytes, .bytes, .bytes]) (.list [.bytes hb, .bytes vb, optObj nb]) =
      some (.list [.bytes hb, .bytes vb, optVal nb]) := by
    rw [PyRlp.expect, PyRlp.expects, PyRlp.expect, PyRlp.expects, PyRlp.expect, PyRlp.expects, expect_bytes, PyRlp.expects]
    rfl
  have := PyRlp.C115_roundtrip_partial E.utf8 _ _ _ hx hl
  unfold readUpdate
  rw [Option.bind_some, show updateBytes hb vb nb = PyRlp.encode (.list [.bytes hb, .bytes vb, optObj nb]) from rfl, this]
  dsimp only
  have e1 : headerOf E (bytesOf (.bytes hb)) = some (some d) := by
    unfold headerOf
    rw [show bytesOf (.bytes hb) = some hb from rfl, if_neg hne1]
    show (readHeader E hb).map some = _
    rw [h1]; rfl
  have e2 : votesOf E (bytesOf (.bytes vb)) = some (some vs) := by
    unfold votesOf
    rw [show bytesOf (.bytes vb) = some vb from rfl, if_neg hne2]
    show (readVotes E vb).map some = _
    rw [h2]; rfl
  have e3 : bytesOf (optVal nb) = nb := by cases nb <;> rfl
  rw [e1, e2, e3, h3]
  rfl

theorem readRelay_bytes {E : Env} {us rs : List Bytes} {bp : Option Bytes} {us' : List Update} {p : Option Proof} {rs' : List ReceiptProof}
    (h1 : us.mapM (fun b => readUpdate E (some b)) = some us') (h2 : proofOf E bp = some p) (h3 : rs.mapM (fun b => readReceiptProof E (some b)) = some rs')
    (hl : (relayBytes us bp rs).length < 65536) : readRelay E (relayBytes us bp rs) = some ⟨us', p, rs'⟩ := by
  have hx : PyRlp.expect E.utf8 (.struct [.each .bytes, .bytes, .each .bytes]) (.list [.list (us.map .bytes), optObj bp, .list (rs.map .bytes)]) =
      some (.list [.list (us.map .bytes), optVal bp, .list (rs.map .bytes)]) := by
    rw [PyRlp.expect, PyRlp.expects, expect_each, PyRlp.expects, expect_bytes, PyRlp.expects, expect_each, PyRlp.expects]
    rfl
  have := PyRlp.C115_roundtrip_partial E.utf8 _ _ _ hx hl
  unfold readRelay
  rw [show relayBytes us bp rs = PyRlp.encode (.list [.list (us.map .bytes), optObj bp, .list (rs.map .bytes)]) from rfl, this]
  dsimp only
  have mm : ∀ {β : Type} (f : Option Bytes → Option β) (l : List Bytes), (l.map Val.bytes).mapM (fun v => f (bytesOf v)) = l.mapM fun b => f (some b) := by
    intro β f l
    induction l with
    | nil => rfl
    | cons x l ih => rw [List.map_cons, List.mapM_cons, List.mapM_cons, ih]; rfl
  have e3 : bytesOf (optVal bp) = bp := by cases bp <;> rfl
  rw [mm (readUpdate E), h1, Option.bind_some, e3, h2, Option.bind_some, mm (readReceiptProof E), h3]
  rfl

/-- **C120**, from the bytes: the next block with votes of more than two thirds of the validators, written as the relay writes it and in
base64, is accepted by the contract in any state, if the message is shorter than 65536 bytes (C115: longer ones may not be readable). -/
theorem C120_accepts_partial {E : Env} (s : Props) (caller bmc prev : Bytes) (seq : Int) (hb vb : Bytes) (nb bp : Option Bytes) (hbp : (bp.getD []).length = 0)
    (cur pa : PyAddr.Addr) (hc : PyAddr.fromString (E.text bmc) = some cur) (hp : PyAddr.fromString (E.text prev) = some pa)
    (hacc : s.net = pa.net ∧ caller = s.bmc ∧ E.addrFrom cur.contract = some s.bmc)
    (d : Header) (hd : readHeader E hb = some d) (hh : d.height = some (s.mta.height + 1)) (vs : Votes) (hv : readVotes E vb = some vs)
    (as : List Bytes) (h1 : as.length = vs.items.length) (h2 : as.Nodup) (h3 : ∀ a ∈ as, a ∈ s.vals.addrs) (h4 : 2 * s.vals.addrs.length < 3 * as.length)
    (h5 : ∀ (i : Nat) (v : Vote), vs.items[i]? = some v → ∃ a, as[i]? = some a ∧
      E.recover (E.H (PyRlp.encode (.list [.int (s.mta.height + 1), vs.round, .int 1, .bytes (E.H hb), vs.partSet, v.timestamp]))) v.signature = some a)
    (W : Option Vals) (hW : valsOf E nb = some W)
    (hn : d.nextVals = some (E.H s.vals.bytes) ∨ ∃ b, nb = some b ∧ d.nextVals = some (E.H b))
    (hl1 : (updateBytes hb vb nb).length < 65536) (hl2 : (relayBytes [updateBytes hb vb nb] bp []).length < 65536) :
    ∃ x, handleRelay E s ⟨caller, bmc, prev, seq, PyBase64.encode true (relayBytes [updateBytes hb vb nb] bp [])⟩ = .ok x := by
  have hdb := readHeader_bytes hd
  have hu := readUpdate_bytes hd hv hW hl1
  have hr : readRelay E (relayBytes [updateBytes hb vb nb] bp []) = some ⟨[⟨some d, some vs, W⟩], none, []⟩ := by
    refine readRelay_bytes ?_ ?_ rfl hl2
    · rw [List.mapM_cons, hu]; rfl
    · unfold proofOf
      rw [if_neg (by omega)]
  have hq : verifyVotes E vs (s.mta.height + 1) (E.H d.bytes) s.vals = .ok () := by
    rw [hdb]
    exact (C120_votes E vs _ _ _).2 ⟨as, h1, h2, h3, by omega, h5⟩
  have hk : ∃ x, handle E s pa.contract bmc seq ⟨[⟨some d, some vs, W⟩], none, []⟩ = .ok x := by
    refine (C120_next_iff s pa.contract bmc seq _).2 ⟨d, vs, rfl, hh, rfl, hq, ?_⟩
    rcases hn with h | ⟨b, rfl, h⟩
    · exact .inl h
    · right
      obtain ⟨w, hw, rfl⟩ := Option.map_eq_some_iff.1 (show (readVals E b).map some = some W from hW)
      refine ⟨w, rfl, ?_⟩
      rw [readVals_bytes hw]; exact h
  obtain ⟨x, hx⟩ := hk
  exact ⟨x, handleRelay_iff.2 ⟨cur, pa, _, _, hc, hp, decide_eq_true hacc, PyBase64.C116_url_roundtrip _, hr, hx⟩⟩

/-- "Message(str,int,bytes)". -/
def messageSig : Bytes := [0x4d, 0x65, 0x73, 0x73, 0x61, 0x67, 0x65, 0x28, 0x73, 0x74, 0x72, 0x2c, 0x69, 0x6e, 0x74, 0x2c, 0x62, 0x79, 0x74, 0x65, 0x73, 0x29]

/-- The bytes of the event a message center emits for a message: addressee and number are indexed. -/
def eventBytes (a nb : Bytes) (q : Int) (m : Bytes) : Bytes :=
  PyRlp.encode (.list [.bytes a, .list ([messageSig, nb, (PyInt.intBytes q).getD []].map .bytes), .list ([m].map .bytes)])

/-- **C121**, from the bytes: the event a message center emits is read as the message with this addressee, number and content. -/
theorem C121_event_read {E : Env} (a nb : Bytes) (q : Int) (m : Bytes) (hs : E.utf8 messageSig = true) (hn : E.utf8 nb = true)
    (hstrip : E.strip tStr = tStr ∧ E.strip tInt = tInt ∧ E.strip tBytes = tBytes) (hl : (eventBytes a nb q m).length < 65536)
    (prev : Str) (ha : E.addrText (some a) = some prev) :
    ∃ e, readEvent E (eventBytes a nb q m) = some e ∧ IsMessage E prev e (.str nb) q (.bytes m) := by
  have hx : PyRlp.expect E.utf8 (.struct [.bytes, .each .bytes, .each .bytes])
      (.list [.bytes a, .list ([messageSig, nb, (PyInt.intBytes q).getD []].map .bytes), .list ([m].map .bytes)]) =
      some (.list [.bytes a, .list ([messageSig, nb, (PyInt.intBytes q).getD []].map .bytes), .list ([m].map .bytes)]) := by
    rw [PyRlp.expect, PyRlp.expects, PyRlp.expect, PyRlp.expects, expect_each, PyRlp.expects, expect_each, PyRlp.expects]
    rfl
  have hd := PyRlp.C115_roundtrip_partial E.utf8 _ _ _ hx hl
  have hp : parseSig E messageSig = some (messageName, [tStr, tInt, tBytes]) := by
    unfold parseSig
    rw [if_pos ⟨hs, by decide, by decide⟩]
    have e1 : messageSig.take (messageSig.idxOf 0x28) = messageName := by decide +kernel
    have e2 : splitComma ((messageSig.take (messageSig.idxOf 0x29)).drop (messageSig.idxOf 0x28 + 1)) = [tStr, tInt, tBytes] := by decide +kernel
    rw [e1, e2]
    show some (messageName, [E.strip tStr, E.strip tInt, E.strip tBytes]) = _
    rw [hstrip.1, hstrip.2.1, hstrip.2.2]
  have hi : PyInt.intFrom ((PyInt.intBytes q).getD []) = q := by
    obtain ⟨bs, h1, _, h2⟩ := PyInt.intFrom_intBytes q
    rw [h1]
    exact h2
  have hc : params E [tStr, tInt, tBytes] [some nb, some ((PyInt.intBytes q).getD []), some m] = some [.str nb, .int q, .bytes m] := by
    have c1 : convert E tStr (some nb) = some (.str nb) := by
      unfold convert
      rw [if_neg (by decide), if_pos rfl]
      show (if E.utf8 nb then some (Val.str nb) else none) = _
      rw [if_pos hn]
    have c2 : convert E tInt (some ((PyInt.intBytes q).getD [])) = some (.int q) := by
      unfold convert
      rw [if_pos rfl]
      show some (Val.int (PyInt.intFrom ((PyInt.intBytes q).getD []))) = _
      rw [hi]
    have c3 : convert E tBytes (some m) = some (.bytes m) := by
      unfold convert
      rw [if_neg (by decide), if_neg (by decide), if_neg (by decide), if_pos rfl]
      rfl
    simp only [params, c1, c2, c3, Option.bind_some, Option.map_some]
  refine ⟨⟨some a, messageName, [.str nb, .int q, .bytes m]⟩, ?_, ha, rfl, .int q, [], rfl, .inl rfl⟩
  unfold readEvent
  rw [show eventBytes a nb q m = PyRlp.encode (.list [.bytes a, .list ([messageSig, nb, (PyInt.intBytes q).getD []].map .bytes), .list ([m].map .bytes)]) from rfl, hd]
  show (parseSig E messageSig).bind (fun p => Option.map (fun ps => EventLog.mk (some a) p.1 ps) (params E p.2 [some nb, some ((PyInt.intBytes q).getD []), some m])) = _
  rw [hp, Option.bind_some, hc]
  rfl

/-! ### Examples -/

def exE : Env where
  H := Mta.exH
  recover := fun m s => s.bind fun s => if s.drop 1 = m.drop 31 then some (s.take 1) else none
  addrOf := fun b => b.bind fun b => if b = [] then none else some b
  addrText := fun b => b.map fun b => b.map fun c => Char.ofNat c.toNat
  addrFrom := fun s => some (s.map fun c => UInt8.ofNat c.toNat)
  utf8 := fun _ => true
  text := fun b => b.map fun c => Char.ofNat c.toNat
  strip := fun b => b.dropWhile (· = 0x20)

def ascii (s : List Char) : Bytes := s.map fun c => UInt8.ofNat c.toNat

def exValsBytes (l : List UInt8) : Bytes := PyRlp.encode (.list (l.map fun a => .bytes [a]))
def exVals : Vals := ⟨exValsBytes [1, 2, 3, 4], [[1], [2], [3], [4]]⟩
example : readVals exE exVals.bytes = some exVals := by decide +kernel

/-- An event `Message(str,int,bytes)` with two indexed values. -/
def exEvent (a nb : List Char) (q : Int) (m : Bytes) : Bytes :=
  PyRlp.encode (.list [.bytes (ascii a), .list [.bytes (ascii ['M', 'e', 's', 's', 'a', 'g', 'e', '(', 's', 't', 'r', ',', 'i', 'n', 't', ',', ' ', 'b', 'y', 't', 'e', 's', ')']), .bytes (ascii nb), .bytes ((PyInt.intBytes q).getD [])], .list [.bytes m]])
def exEvents (l : List Bytes) : JavaMpt.Trie := .branch (fun i => if i.val = 0 then .branch (fun j => match l[j.val]? with | some b => .leaf [] b | none => .empty) [] else .empty) []
def emb (b : Bytes) : Bool := decide (b.length < 32)
def exEv : JavaMpt.Trie := exEvents [exEvent ['c', 'x', '1'] ['b', 't', 'p', ':', '/', '/', 'x', '/', 'c', 'x', 'B'] 1 [7], exEvent ['c', 'x', '9'] ['b', 't', 'p', ':', '/', '/', 'x', '/', 'c', 'x', 'B'] 5 [8], exEvent ['c', 'x', '1'] ['b', 't', 'p', ':', '/', '/', 'x', '/', 'c', 'x', 'B'] 2 [9], exEvent ['c', 'x', '1'] ['b', 't', 'p', ':', '/', '/', 'y', '/', 'c', 'x', 'B'] 3 [10]]
def exReceiptBytes : Bytes := PyRlp.encode (.list [.int 0, .bytes [1], .bytes [2], .bytes [3], .bytes [4], .bytes [5], .list [], .none, .bytes (PyMpt.root exE.H emb exEv)])
def exRs : JavaMpt.Trie := exEvents [exReceiptBytes]
def exHeadBytes (h : Int) (vals : List UInt8) (rs : Bytes) : Bytes := PyRlp.encode (.list [.int 2, .int h, .int 99, .bytes [1], .bytes [2], .bytes [3],
  .bytes (exE.H (exValsBytes vals)), .none, .none, .bytes [], .bytes (PyRlp.encode (.list [.bytes [], .none, .bytes rs]))])
/-- The vote of `a`: its number and the last byte of the hash signed. -/
def exVote (l : List UInt8) (h : Int) (b : Bytes) : Bytes :=
  PyRlp.encode (.list [.int 0, .list [.int 1, .bytes [5]], .list (l.map fun a => .list [.int 50, .bytes (a :: (exE.H (voteMsg h (exE.H b) (.int 0) (.list [.int 1, .bytes [5]]) (.int 50))).drop 31)])])
def exHead1 : Bytes := exHeadBytes 1 [5, 6] (PyMpt.root exE.H emb exRs)
def exHead2 : Bytes := exHeadBytes 2 [5, 6] []
def exUp1 : Bytes := updateBytes exHead1 (exVote [1, 2, 4] 1 exHead1) (some (exValsBytes [5, 6]))
def exUp2 : Bytes := updateBytes exHead2 (exVote [6, 5] 2 exHead2) none
def exNodes (t : JavaMpt.Trie) (k : Bytes) : Bytes := PyRlp.encode (.list ((PyMpt.ser exE.H emb t :: PyMpt.below exE.H emb t (JavaMpt.toNibbles [] k)).map .bytes))
def exProof (l : List UInt8) : Bytes := PyRlp.encode (.list [.int 0, .bytes (exNodes exRs [0]), .list (l.map fun i => .list [.int i.toNat, .bytes (exNodes exEv [i])])])
def exCall (us : List Bytes) (bp : Option Bytes) (rs : List Bytes) : Call :=
  ⟨ascii ['c', 'x', 'B'], ascii ['b', 't', 'p', ':', '/', '/', 'x', '/', 'c', 'x', 'B'], ascii ['b', 't', 'p', ':', '/', '/', 'p', '/', 'c', 'x', '1'], 0, PyBase64.encode true (relayBytes us bp rs)⟩
def exInit : Props := init (ascii ['c', 'x', 'B']) ['p'] exVals 0
def exOut : R (Props × List Val) → Option (Int × List Bytes × List (Option Bytes))
  | .ok (s, r) => some (s.mta.height, s.vals.addrs, r.map bytesOf)
  | .err _ => none
def exErr : R (Props × List Val) → Option Err
  | .ok _ => none
  | .err e => some e

/-- Three of four validators are enough and the block brings new ones, who sign the second block; two are not, nor three of which two are the same or one is a stranger. -/
example : exOut (handleRelay exE exInit (exCall [exUp1, exUp2] none [])) = some (2, [[5], [6]], []) := by decide +kernel
example : [[1, 2], [1, 2, 2], [1, 2, 5]].map (fun l => exErr (handleRelay exE exInit (exCall [updateBytes exHead1 (exVote l 1 exHead1) (some (exValsBytes [5, 6]))] none []))) =
    [some .other, some .other, some .other] := by decide +kernel
/-- The codes of heights. -/
example : exErr (handleRelay exE exInit (exCall [exUp2] none [])) = some .updateHigher ∧ exErr (handleRelay exE exInit (exCall [exUp1, exUp1] none [])) = some .updateLower := by decide +kernel
/-- The call after base64. -/
def exHandle (s : Props) (b : Bytes) : R (Props × List Val) :=
  match readRelay exE b with
  | some m => handle exE s ['c', 'x', '1'] (ascii ['b', 't', 'p', ':', '/', '/', 'x', '/', 'c', 'x', 'B']) 0 m
  | none => .err .other
/-- Two messages of the first block, all returned; the event of another contract is passed over; a message for another network that has the next number is too, with another number it is not. -/
example : exOut (exHandle exInit (relayBytes [exUp1] none [exProof [0, 1, 2, 3]])) = some (1, [[5], [6]], [some [7], some [9]]) := by decide +kernel
example : exErr (exHandle exInit (relayBytes [exUp1] none [exProof [0, 3]])) = some .seqHigher ∧ exErr (exHandle exInit (relayBytes [exUp1] none [exProof [2]])) = some .seqHigher ∧
    exErr (exHandle exInit (relayBytes [exUp1] none [exProof [0, 0]])) = some .seq := by decide +kernel
/-- Messages of the first block with a block proof after both; an old witness is told apart. -/
def exBlockProof (at_ : Int) (w : List Bytes) : Bytes := PyRlp.encode (.list [.bytes exHead1, .list [.int at_, .list (w.map .bytes)]])
example : exOut (exHandle (run exE exInit [exCall [exUp1, exUp2] none []]) (relayBytes [] (some (exBlockProof 2 [exE.H exHead2])) [exProof [0]])) =
    some (2, [[5], [6]], [some [7]]) := by decide +kernel
example : exErr (exHandle (run exE exInit [exCall [exUp1, exUp2] none []]) (relayBytes [] (some (exBlockProof 1 [])) [exProof [0]])) = some .witnessOld ∧
    exErr (exHandle exInit (relayBytes [] (some (exBlockProof 1 [])) [exProof [0]])) = some .proofHigher := by decide +kernel
/-- Another caller is refused. -/
example : exErr (handleRelay exE exInit { exCall [exUp1] none [] with caller := ascii ['c', 'x', 'C'] }) = some .other := by decide +kernel

end Verif.PyBmv
