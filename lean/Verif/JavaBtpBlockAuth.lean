import Verif.JavaBtpBlockProps
/-!
C51, C52, C73, C74, C75 for the ICON block verifier: paths, quorum, liveness, validator handover, what a signature
commits to.
-/
namespace Verif.JavaBtpBlock
open Verif Verif.BtpBlock Verif.Merkle Verif.Mbt

/-! ### C49: sequence numbers -/

theorem msgs_seq {E : Env} (msgs : List Msg) {s s' : St} {bu : Option Header} {out : List Bytes}
    (hk : handleMsgs E s bu msgs = .ok (s', out)) :
    s'.lastSeq = s.lastSeq + out.length ∧ s'.off = s.off ∧ s'.bmc = s.bmc ∧ s'.src = s.src ∧ s'.ty = s.ty ∧ s'.nid = s.nid := by
  induction msgs generalizing s bu out with
  | nil => simp only [handleMsgs] at hk; cases hk; simp
  | cons m t ih =>
    cases m with
    | upd h sigs =>
      simp only [handleMsgs] at hk
      split at hk
      · cases hk
      rename_i s1 h1
      obtain ⟨q1, q2, q3, q4, q5, q6⟩ := ih hk
      rcases (handleUpdate_ok h1).2.2.2.2.2 with ⟨_, rfl⟩ | ⟨_, c, _, _, _, rfl⟩ <;> exact ⟨q1, q2, q3, q4, q5, q6⟩
    | proof p =>
      simp only [handleMsgs] at hk
      split at hk
      · cases hk
      rename_i s1 h1
      split at hk
      · cases hk
      rename_i s2 o h2
      cases hk
      obtain ⟨q1, q2, q3, q4, q5, q6⟩ := ih h2
      obtain ⟨_, _, _, _, _, _, _, rfl⟩ := handleProof_ok h1
      refine ⟨?_, q2, q3, q4, q5, q6⟩
      rw [q1]
      simp only [List.length_append]
      omega

/-- C49: in every history the number the verifier asks for next is the offset plus the number of messages released;
a call with any other number, from another caller or for another network is rejected. -/
theorem C49_java_sequence (E : Env) (s : St) (calls : List Call) :
    (run E s calls).1.lastSeq = s.lastSeq + (run E s calls).2.2.length ∧
    (run E s calls).1.off = s.off ∧ (run E s calls).1.bmc = s.bmc ∧
    ∀ c s' out, handleRelay E (run E s calls).1 c = .ok (s', out) →
      c.seq = s.off + s.lastSeq + (run E s calls).2.2.length ∧ c.caller = s.bmc ∧ c.cur = s.bmc := by
  have key : (run E s calls).1.lastSeq = s.lastSeq + (run E s calls).2.2.length ∧
      (run E s calls).1.off = s.off ∧ (run E s calls).1.bmc = s.bmc := by
    induction calls generalizing s with
    | nil => simp [run]
    | cons c t ih =>
      unfold run
      cases hr : handleRelay E s c with
      | error e => exact ih s
      | ok r =>
        obtain ⟨s', out⟩ := r
        have hm : handleMsgs E s none c.msgs = .ok (s', out) := by
          unfold handleRelay at hr
          repeat (split at hr; · cases hr)
          exact hr
        obtain ⟨q1, q2, q3, _⟩ := msgs_seq _ hm
        obtain ⟨i1, i2, i3⟩ := ih s'
        refine ⟨?_, i2.trans q2, i3.trans q3⟩
        simp only [List.length_append]
        rw [i1, q1]
        omega
  refine ⟨key.1, key.2.1, key.2.2, fun c s' out hc => ?_⟩
  unfold handleRelay at hc
  split at hc
  · cases hc
  split at hc
  · cases hc
  split at hc
  · cases hc
  split at hc
  · cases hc
  rename_i h1 h2 h3 h4
  have h2' := Decidable.not_not.mp h2
  have h3' := Decidable.not_not.mp h3
  refine ⟨?_, h2'.trans key.2.2, h3'.trans key.2.2⟩
  have := Decidable.not_not.mp h4
  rw [key.1, key.2.1] at this
  omega

/-! ### C52 -/

theorem collect_iff (rec : Bytes → Option Bytes) (vals seen sigs l : List Bytes) (hs : seen.Nodup) :
    collect rec vals seen sigs = some l ↔
      ∃ as, sigs.mapM rec = some as ∧ (seen ++ as).Nodup ∧ (∀ a ∈ as, a ∈ vals) ∧ l = seen ++ as := by
  induction sigs generalizing seen with
  | nil => simp [collect, eq_comm]; exact fun _ => hs
  | cons sig t ih =>
    unfold collect
    rw [List.mapM_cons]
    cases hr : rec sig with
    | none => simp
    | some a =>
      simp only
      by_cases h1 : a ∈ vals
      · by_cases h2 : a ∈ seen
        · rw [if_neg (by simpa using h1), if_pos h2]
          simp only [reduceCtorEq, false_iff]
          rintro ⟨as, e1, e2, _⟩
          cases ht : t.mapM rec with
          | none => simp [ht] at e1
          | some as' =>
            simp [ht] at e1
            subst e1
            rw [List.nodup_append] at e2
            exact e2.2.2 a h2 a (by simp) rfl
        · rw [if_neg (by simpa using h1), if_neg h2, ih (seen ++ [a]) (by
            rw [List.nodup_append]
            refine ⟨hs, by simp, ?_⟩
            intro x hx y hy
            simp only [List.mem_singleton] at hy
            rintro rfl
            exact h2 (hy ▸ hx))]
          constructor
          · rintro ⟨as, e1, e2, e3, e4⟩
            exact ⟨a :: as, by simp [e1], by simpa using e2, by simpa [h1] using e3, by simpa using e4⟩
          · rintro ⟨as, e1, e2, e3, e4⟩
            cases ht : t.mapM rec with
            | none => simp [ht] at e1
            | some as' =>
              simp [ht] at e1
              subst e1
              exact ⟨as', rfl, by simpa using e2, fun x hx => e3 x (by simp [hx]), by simpa using e4⟩
      · rw [if_pos (by simpa using h1)]
        simp only [reduceCtorEq, false_iff]
        rintro ⟨as, e1, _, e3, _⟩
        cases ht : t.mapM rec with
        | none => simp [ht] at e1
        | some as' =>
          simp [ht] at e1
          subst e1
          exact h1 (e3 a (by simp))

/-- C52: signatures are accepted exactly if each of them is by a current validator, no two by the same one, and they are
more than two thirds of the validators. -/
theorem C52_java_quorum (E : Env) (pc : Option Bytes) (d : Bytes) (sigs : List Bytes) :
    verifyProof E pc d sigs = true ↔
      ∃ c vals signers, pc = some c ∧ E.ctx c = some vals ∧ sigs.mapM (E.recover d) = some signers ∧
        signers.Nodup ∧ (∀ a ∈ signers, a ∈ vals) ∧ 2 * vals.length < 3 * signers.length := by
  unfold verifyProof
  cases pc with
  | none => simp
  | some c =>
    simp only [Option.bind_some]
    cases hv : E.ctx c with
    | none => simp [hv]
    | some vals =>
      simp only
      cases hc : collect (E.recover d) vals [] sigs with
      | none =>
        simp only [Bool.false_eq_true, Option.some.injEq, false_iff]
        rintro ⟨c', vals', as, h0, h1, h2, h3, h4, h5⟩
        subst h0
        rw [hv] at h1
        cases h1
        have := (collect_iff (E.recover d) vals [] sigs as (by simp)).mpr ⟨as, h2, by simpa using h3, h4, by simp⟩
        rw [hc] at this; simp at this
      | some l =>
        obtain ⟨as, e1, e2, e3, e4⟩ := (collect_iff (E.recover d) vals [] sigs l (by simp)).mp hc
        simp only [List.nil_append] at e2 e4
        subst e4
        simp only [Bool.not_eq_true', decide_eq_false_iff_not]
        constructor
        · intro h
          exact ⟨c, vals, l, rfl, hv, e1, e2, e3, by omega⟩
        · rintro ⟨c', vals', as', h0, h1, h2, h3, h4, h5⟩
          cases h0
          rw [hv] at h1
          cases h1
          rw [e1] at h2
          cases h2
          omega

/-- C52: an accepted block update carries signatures of more than two thirds of the validators of the state it is
applied to, all on the decision derived from its header. -/
theorem C52_java_accepted (E : Env) (s s' : St) (h : Header) (sigs : List Bytes) (hk : handleUpdate E s h sigs = .ok s') :
    ∃ r c vals signers, s.pc = some c ∧ E.ctx c = some vals ∧
      sectionsRoot E.H (E.H (secBytes h.sec)) (some (E.H (secBytes h.sec))) h.path = some r ∧
      sigs.mapM (E.recover (decision E s h r)) = some signers ∧
      signers.Nodup ∧ (∀ a ∈ signers, a ∈ vals) ∧ 2 * vals.length < 3 * signers.length := by
  obtain ⟨_, _, _, _, ⟨r, hr, hv⟩, _⟩ := handleUpdate_ok hk
  obtain ⟨c, vals, as, h1, h2, h3, h4, h5, h6⟩ := (C52_java_quorum _ _ _ _).mp hv
  exact ⟨r, c, vals, as, h1, h2, hr, h3, h4, h5, h6⟩

/-! ### C51 -/

/-- The one path step that counts: the last one with a known direction. -/
def effective : List (Int × Bytes) → List (Bool × Bytes)
  | [] => []
  | (d, v) :: t =>
    match effective t with
    | [] => if d = 0 then [(false, v.take 32)] else if d = 1 then [(true, v.take 32)] else []
    | l => l

theorem effective_le (p : List (Int × Bytes)) : (effective p).length ≤ 1 := by
  induction p with
  | nil => simp [effective]
  | cons x t ih =>
    unfold effective
    split
    · split
      · simp
      · split <;> simp
    · exact ih

theorem sectionsRoot_eq (H : Bytes → Bytes) (leaf : Bytes) (hl : leaf.length = 32) (p : List (Int × Bytes)) (h r : Bytes)
    (hr : sectionsRoot H leaf (some h) p = some r) :
    (∀ n ∈ effective p, n.2.length = 32) ∧ r = (if effective p = [] then h else climb H leaf (effective p)) := by
  induction p generalizing h with
  | nil => simp only [sectionsRoot, Option.some.injEq] at hr; simp [effective, hr]
  | cons x t ih =>
    obtain ⟨d, v⟩ := x
    have hnone : ∀ p', sectionsRoot H leaf none p' ≠ some r := by
      intro p'; cases p' <;> simp [sectionsRoot]
    have htk : leaf.take 32 = leaf := List.take_of_length_le (by omega)
    unfold sectionsRoot at hr
    by_cases h0 : d = 0
    · rw [if_pos h0] at hr
      unfold concatAndHash at hr
      split at hr
      · exact absurd hr (hnone t)
      rename_i hv
      obtain ⟨i1, i2⟩ := ih _ hr
      unfold effective
      split
      · rename_i he
        rw [he] at i2
        rw [if_pos h0]
        refine ⟨by intro n hn; simp only [List.mem_singleton] at hn; subst hn; simp; omega, ?_⟩
        simpa [climb, htk] using i2
      · rename_i l he
        refine ⟨i1, ?_⟩
        rw [if_neg he] at i2 ⊢
        exact i2
    · by_cases h1 : d = 1
      · rw [if_neg h0, if_pos h1] at hr
        unfold concatAndHash at hr
        split at hr
        · exact absurd hr (hnone t)
        rename_i hv
        obtain ⟨i1, i2⟩ := ih _ hr
        unfold effective
        split
        · rename_i he
          rw [he] at i2
          rw [if_neg h0, if_pos h1]
          refine ⟨by intro n hn; simp only [List.mem_singleton] at hn; subst hn; simp; omega, ?_⟩
          simpa [climb, htk] using i2
        · rename_i l he
          refine ⟨i1, ?_⟩
          rw [if_neg he] at i2 ⊢
          exact i2
      · rw [if_neg h0, if_neg h1] at hr
        obtain ⟨i1, i2⟩ := ih _ hr
        unfold effective
        split
        · rename_i he
          rw [he] at i2
          rw [if_neg h0, if_neg h1]
          exact ⟨by simp, by simpa using i2⟩
        · rename_i l he
          refine ⟨i1, ?_⟩
          rw [if_neg he] at i2 ⊢
          exact i2

/-- C51, Java: whatever the length of the path, at most its last step is used. -/
theorem C51_java_one_step (H : Bytes → Bytes) (leaf : Bytes) (hl : leaf.length = 32) (p : List (Int × Bytes)) (r : Bytes)
    (hr : sectionsRoot H leaf (some leaf) p = some r) :
    (effective p).length ≤ 1 ∧ (∀ n ∈ effective p, n.2.length = 32) ∧ r = climb H leaf (effective p) := by
  obtain ⟨h1, h2⟩ := sectionsRoot_eq H leaf hl p leaf r hr
  refine ⟨effective_le p, h1, ?_⟩
  rw [h2]
  split
  · rename_i he; rw [he]; rfl
  · rfl

/-- A path in the form of the header. -/
def encPath (p : List (Bool × Bytes)) : List (Int × Bytes) := p.map (fun n => (if n.1 then 1 else 0, n.2))

theorem effective_encPath (p : List (Bool × Bytes)) (n : Bool × Bytes) (h : n.2.length = 32) :
    effective (encPath (p ++ [n])) = [n] := by
  induction p with
  | nil =>
    obtain ⟨b, v⟩ := n
    simp only [List.nil_append, encPath, List.map_cons, List.map_nil, effective]
    have : v.take 32 = v := List.take_of_length_le (by simp at h; omega)
    cases b <;> simp [this]
  | cons x t ih =>
    simp only [List.cons_append, encPath, List.map_cons]
    unfold effective
    rw [show List.map (fun n => (if n.1 then 1 else 0, n.2)) (t ++ [n]) = encPath (t ++ [n]) from rfl, ih]

theorem sectionsRoot_some (H : Bytes → Bytes) (leaf : Bytes) (hl : leaf.length = 32) (p : List (Bool × Bytes)) (h : Bytes)
    (hp : ∀ n ∈ p, n.2.length = 32) : ∃ r, sectionsRoot H leaf (some h) (encPath p) = some r := by
  induction p generalizing h with
  | nil => exact ⟨h, rfl⟩
  | cons n t ih =>
    obtain ⟨b, v⟩ := n
    have hv := hp (b, v) (by simp)
    simp only at hv
    have ht := fun x => ih x (fun m hm => hp m (by simp [hm]))
    have htk : v.take 32 = v := List.take_of_length_le (by omega)
    simp only [encPath, List.map_cons]
    unfold sectionsRoot
    cases b
    · simp only [Bool.false_eq_true, if_false, if_true]
      unfold concatAndHash
      rw [if_neg (by omega)]
      exact ht _
    · simp only [if_true, if_neg (show ¬ (1 : Int) = 0 by omega)]
      unfold concatAndHash
      rw [if_neg (by omega)]
      exact ht _

/-- C51, Java, part: for at most two networks the root is right. -/
theorem C51_java_two_networks_partial (H : Bytes → Bytes) (hs : List Bytes) (hn : hs.length ≤ 2) (hl : ∀ h ∈ hs, h.length = 32)
    (i : Nat) (leaf : Bytes) (hi : hs[i]? = some leaf) :
    sectionsRoot H leaf (some leaf) (encPath (spath H hs.length hs i)) = some (mroot H hs) := by
  have hleaf := hl leaf (List.mem_of_getElem? hi)
  have hc := climb_spath H hs.length hs (Nat.le_refl _) i leaf hi
  have hlt : i < hs.length := by
    rcases Nat.lt_or_ge i hs.length with h | h
    · exact h
    · rw [List.getElem?_eq_none h] at hi; simp at hi
  match hs, hn, hlt with
  | [x], _, _ =>
    simp only [List.length_cons, List.length_nil, spath] at hc ⊢
    simp only [Nat.zero_add, Nat.le_refl, if_true] at hc ⊢
    rw [← hc]; rfl
  | [x, y], _, hlt =>
    have sp : split 2 = 1 := by decide
    have hx := hl x (by simp)
    have hy := hl y (by simp)
    have hp : spath H 2 [x, y] i = if i < 1 then [(true, y)] else [(false, x)] := by
      simp [spath, sp, mroot_one]
    simp only [List.length_cons, List.length_nil, Nat.zero_add] at hc hlt ⊢
    rw [hp] at hc ⊢
    have hpl : ∀ n ∈ (if i < 1 then [(true, y)] else [(false, x)] : List (Bool × Bytes)), n.2.length = 32 := by
      intro n hn'
      split at hn' <;> simp only [List.mem_singleton] at hn' <;> subst hn' <;> assumption
    obtain ⟨r, hr⟩ := sectionsRoot_some H leaf hleaf _ leaf hpl
    rw [hr]
    have he := (C51_java_one_step H leaf hleaf _ r hr).2.2
    rw [he, ← hc]
    congr 1
    have : ∃ n : Bool × Bytes, (if i < 1 then [(true, y)] else [(false, x)] : List (Bool × Bytes)) = [] ++ [n] ∧ n.2.length = 32 := by
      split
      · exact ⟨_, rfl, hy⟩
      · exact ⟨_, rfl, hx⟩
    obtain ⟨n, e, e2⟩ := this
    rw [e, effective_encPath [] n e2]
    rfl

/-- C51 is false of the Java code for deeper paths: for every network whose path has two or more steps the computed root
is not the root of the tree, unless a hash collision shows or the network's section is as long as two hashes. -/
theorem C51_java_deep_wrong (H : Bytes → Bytes) (hH : ∀ x, (H x).length = 32) (xs : List Bytes)
    (h64 : ∀ x ∈ xs, x.length ≠ 64) (i : Nat) (x : Bytes) (hi : xs[i]? = some x)
    (hd : 2 ≤ (spath H xs.length (xs.map H) i).length) :
    sectionsRoot H (H x) (some (H x)) (encPath (spath H xs.length (xs.map H) i)) ≠ some (mroot H (xs.map H)) ∨
    Collision H (x :: climbCalls H (H x) (effective (encPath (spath H xs.length (xs.map H) i))))
      (climbCalls H (H x) (spath H xs.length (xs.map H) i)) := by
  have hc := climb_spath H xs.length (xs.map H) (by simp) i (H x) (by rw [List.getElem?_map, hi]; rfl)
  have hpl : ∀ (f : Nat) (hs : List Bytes) (j : Nat), (∀ h ∈ hs, h.length = 32) → j < hs.length →
      ∀ n ∈ spath H f hs j, n.2.length = 32 := by
    intro f
    induction f with
    | zero => intro hs j _ _ n hn; simp [spath] at hn
    | succ f ih =>
      intro hs j hall hj n hn
      unfold spath at hn
      split at hn
      · simp at hn
      rename_i h2
      have s1 := split_lt (n := hs.length) (by omega)
      have s2 := split_pos hs.length
      split at hn
      · rename_i hlt
        simp only [List.mem_append, List.mem_singleton] at hn
        rcases hn with hn | rfl
        · exact ih _ j (fun h hh => hall h (List.mem_of_mem_take hh)) (by rw [List.length_take]; omega) n hn
        · exact mroot_length H 32 hH _ (by
            intro h0; have := congrArg List.length h0; rw [List.length_drop, List.length_nil] at this; omega)
            (fun h hh => hall h (List.mem_of_mem_drop hh))
      · simp only [List.mem_append, List.mem_singleton] at hn
        rcases hn with hn | rfl
        · exact ih _ _ (fun h hh => hall h (List.mem_of_mem_drop hh)) (by rw [List.length_drop]; omega) n hn
        · exact mroot_length H 32 hH _ (by
            intro h0; have := congrArg List.length h0; rw [List.length_take, List.length_nil] at this; omega)
            (fun h hh => hall h (List.mem_of_mem_take hh))
  have hilt : i < xs.length := by
    rcases Nat.lt_or_ge i xs.length with h | h
    · exact h
    · rw [List.getElem?_eq_none h] at hi; simp at hi
  have hall := hpl xs.length (xs.map H) i (by
    intro h hh; simp only [List.mem_map] at hh; obtain ⟨y, _, rfl⟩ := hh; exact hH y) (by simpa using hilt)
  generalize spath H xs.length (xs.map H) i = p at *
  rcases List.eq_nil_or_concat p with rfl | ⟨q, n, rfl⟩
  · simp at hd
  rw [List.concat_eq_append] at *
  have hn := hall n (by simp)
  by_cases heq : sectionsRoot H (H x) (some (H x)) (encPath (q ++ [n])) = some (mroot H (xs.map H))
  · refine Or.inr ?_
    have he := (C51_java_one_step H (H x) (hH x) _ _ heq).2.2
    rw [effective_encPath q n hn] at he ⊢
    rw [← hc, climb_snoc] at he
    -- the string hashed last on each side
    rcases List.eq_nil_or_concat q with rfl | ⟨q', m, rfl⟩
    · simp at hd
    rw [List.concat_eq_append] at *
    have hm := hall m (by simp)
    have hcalls : ∀ (l : List (Bool × Bytes)) (h : Bytes) (k : Bool × Bytes),
        (if k.1 then climb H h l ++ k.2 else k.2 ++ climb H h l) ∈ climbCalls H h (l ++ [k]) := by
      intro l
      induction l with
      | nil => intro h k; simp [climb, climbCalls]
      | cons a l ih =>
        intro h k
        simp only [List.cons_append, climbCalls, List.mem_cons]
        exact Or.inr (ih _ k)
    have hsub : ∀ (l : List (Bool × Bytes)) (h : Bytes) (k : Bool × Bytes), ∀ z ∈ climbCalls H h l, z ∈ climbCalls H h (l ++ [k]) := by
      intro l
      induction l with
      | nil => intro h k z hz; simp [climbCalls] at hz
      | cons a l ih =>
        intro h k z hz
        simp only [climbCalls, List.mem_cons, List.cons_append] at hz ⊢
        rcases hz with hz | hz
        · exact Or.inl hz
        · exact Or.inr (ih _ k z hz)
    by_cases hsame : climb H (H x) (q' ++ [m]) = H x
    · rw [climb_snoc] at hsame
      refine ⟨x, by simp, _, hsub _ _ n _ (hcalls q' (H x) m), ?_, ?_⟩
      · intro h0
        apply h64 x (List.mem_of_getElem? hi)
        rw [h0]
        have hcl : (climb H (H x) q').length = 32 := by
          rcases List.eq_nil_or_concat q' with rfl | ⟨q'', k, rfl⟩
          · exact hH x
          · rw [List.concat_eq_append, climb_snoc]; split <;> exact hH _
        split <;> simp <;> omega
      · refine hsame.symm.trans ?_
        split <;> rfl
    · have hl1 : (H x).length = 32 := hH x
      have hl2 : (climb H (H x) (q' ++ [m])).length = 32 := by
        rw [climb_snoc]; split <;> exact hH _
      refine ⟨_, List.mem_cons_of_mem _ (hcalls [] (H x) n), _, hcalls (q' ++ [m]) (H x) n, ?_, ?_⟩
      · intro h0
        cases hb : n.1 with
        | true =>
          rw [hb] at h0
          simp only [if_true] at h0
          exact hsame (List.append_cancel_right h0).symm
        | false =>
          rw [hb] at h0
          simp only [Bool.false_eq_true, if_false] at h0
          exact hsame (List.append_cancel_left h0).symm
      · have he' : (if n.1 then H (climb H (H x) (q' ++ [m]) ++ n.2) else H (n.2 ++ climb H (H x) (q' ++ [m]))) =
            (if n.1 then H (H x ++ n.2) else H (n.2 ++ H x)) := by
          rw [he]; rfl
        cases hb : n.1 with
        | true => rw [hb] at he'; simpa [climb] using he'.symm
        | false => rw [hb] at he'; simpa [climb] using he'.symm
  · exact Or.inl heq

/-! ### C49: what is missing -/

/-- C49 is false of the code for proofs with a leaf count of zero: for every state that waits for the one message
`H m' ++ z` of a block, the verifier releases `m'` instead. -/
theorem C49_java_zero_count_forgery (E : Env) (s : St) (m' z : Bytes) (hr : s.root = some (mroot E.H ([E.H m' ++ z].map E.H)))
    (hc : s.cnt = 1) (hp : s.processed = 0) :
    ∃ s', handleMsgs E s none [.proof ⟨[], [m'], [⟨0, z⟩]⟩] = .ok (s', [m']) := by
  have hk := C65_zero_count_forgery E.H m' z
  have h1 : ¬ s.remain ≤ 0 := by unfold St.remain; omega
  simp only [handleMsgs, handleProof, hk, if_neg h1, hp]
  simp [misplaced, expCnt, expRoot, hc, hr, hp, i32]

/-- C49, instance: the verifier waits for a 34-byte message and releases a different one. -/
example : ∃ s', handleMsgs ⟨fun x => x ++ [7], fun _ _ => none, fun _ => none⟩
    ⟨[], 1, 1, none, none, [], [], 0, some (mroot (fun x => x ++ [7]) [[1, 7, 2, 7]]), 1, 0, 5, 0⟩ none
    [.proof ⟨[], [[1]], [⟨0, [2]⟩]⟩] = .ok (s', [[1]]) :=
  C49_java_zero_count_forgery _ _ [1] [2] rfl rfl rfl

/-! ### C75 -/

/-- The strings hashed for one block update. -/
def updCalls (E : Env) (s : St) (h : Header) (r : Bytes) : List Bytes :=
  [secBytes h.sec, ntsBytes h.npch r, decBytes s.src s.ty (i64 h.height) (i32 h.round) (E.H (ntsBytes h.npch r))] ++
    climbCalls E.H (E.H (secBytes h.sec)) (effective h.path)

/-- The strings hashed for an honest decision over the encoded sections `xs`. -/
def decCalls (H : Bytes → Bytes) (src : Bytes) (ty height round : Int) (npch : Option Bytes) (xs : List Bytes) : List Bytes :=
  [ntsBytes npch (mroot H (xs.map H)), decBytes src ty height round (H (ntsBytes npch (mroot H (xs.map H))))] ++
    (xs ++ inputs H (xs.map H))

/-- C75: if the decision derived from a header is the decision the validators made over the sections `xs` of all
networks, then the header carries one of these sections, the decided validator hash, height and round - or a collision
shows. -/
theorem C75_java_decision_commits (E : Env) (hH : ∀ x, (E.H x).length = 32) (s : St) (h : Header) (r : Bytes)
    (hr : sectionsRoot E.H (E.H (secBytes h.sec)) (some (E.H (secBytes h.sec))) h.path = some r)
    (src : Bytes) (ty height round : Int) (npch : Option Bytes) (xs : List Bytes) (hx : xs ≠ [])
    (h64 : ∀ x ∈ secBytes h.sec :: xs, x.length ≠ 64)
    (hl1 : (ntsBytes h.npch r).length < 2 ^ 63)
    (hl2 : (decBytes s.src s.ty (i64 h.height) (i32 h.round) (E.H (ntsBytes h.npch r))).length < 2 ^ 63)
    (hd : decision E s h r = E.H (decBytes src ty height round (E.H (ntsBytes npch (mroot E.H (xs.map E.H)))))) :
    Collision E.H (updCalls E s h r) (decCalls E.H src ty height round npch xs) ∨
    (secBytes h.sec ∈ xs ∧ h.npch = npch ∧ s.src = src ∧ s.ty = ty ∧ i64 h.height = height ∧ i32 h.round = round) := by
  unfold decision at hd
  by_cases e1 : decBytes s.src s.ty (i64 h.height) (i32 h.round) (E.H (ntsBytes h.npch r)) =
      decBytes src ty height round (E.H (ntsBytes npch (mroot E.H (xs.map E.H))))
  · obtain ⟨d1, d2, d3, d4, d5⟩ := dec_inj e1 hl2
    by_cases e2 : ntsBytes h.npch r = ntsBytes npch (mroot E.H (xs.map E.H))
    · obtain ⟨n1, n2⟩ := nts_inj e2 hl1
      obtain ⟨_, p2, p3⟩ := C51_java_one_step E.H _ (hH _) _ _ hr
      rw [n2] at p3
      rcases climb_sound E.H 32 hH xs hx (fun x h => h64 x (by simp [h])) (effective h.path) p2 _ (hH _) p3.symm with hc | hm
      · refine Or.inl (collision_mono ?_ ?_ hc)
        · intro x hx; simp only [updCalls, List.mem_append]; exact Or.inr hx
        · intro x hx; simp only [decCalls, List.mem_append] at hx ⊢; exact Or.inr hx
      · unfold nodes at hm
        simp only [List.mem_append, List.mem_map] at hm
        rcases hm with ⟨x, hx1, hx2⟩ | ⟨y, hy1, hy2⟩
        · by_cases e : secBytes h.sec = x
          · exact Or.inr ⟨e ▸ hx1, n1, d1, d2, d3, d4⟩
          · exact Or.inl ⟨_, by simp [updCalls], x, by simp [decCalls, hx1], e, hx2.symm⟩
        · refine Or.inl ⟨_, by simp [updCalls], y, by simp [decCalls, hy1], ?_, hy2.symm⟩
          intro e
          obtain ⟨l, hl, q, hq, e'⟩ := inputs_split E.H _ _ (Nat.le_refl _) y hy1
          have nl : ∀ w ∈ nodes E.H (xs.map E.H), w.length = 32 := by
            intro w hw
            unfold nodes at hw
            simp only [List.mem_append, List.mem_map] at hw
            rcases hw with ⟨_, _, rfl⟩ | ⟨_, _, rfl⟩ <;> exact hH _
          apply h64 (secBytes h.sec) (by simp)
          rw [e, e', List.length_append, nl l hl, nl q hq]
    · exact Or.inl ⟨_, by simp [updCalls], _, by simp [decCalls], e2, d5⟩
  · exact Or.inl ⟨_, by simp [updCalls], _, by simp [decCalls], e1, hd⟩

/-! ### C74 -/

/-- C74: an accepted update changes the validators exactly if its flag is set, and then to the context whose hash its
decision names; the hash of the installed context is always the stored one. -/
theorem C74_java_handover (E : Env) (s s' : St) (h : Header) (sigs : List Bytes) (hk : handleUpdate E s h sigs = .ok s') :
    (h.upd % 2 = 1 → s'.pc = h.npc ∧ s'.pch = h.npch ∧ s'.pch ≠ s.pch ∧ s'.pch = s'.pc.map E.H) ∧
    (h.upd % 2 ≠ 1 → s'.pc = s.pc ∧ s'.pch = s.pch) := by
  rcases (handleUpdate_ok hk).2.2.2.2.2 with ⟨h1, rfl⟩ | ⟨h1, c, h2, h3, h4, rfl⟩
  · exact ⟨fun h => absurd h h1, fun _ => ⟨rfl, rfl⟩⟩
  · exact ⟨fun _ => ⟨h2.symm, rfl, Ne.symm h4, h3⟩, fun h => absurd h1 h⟩

/-- C74: in every history the stored validators are those of the stored hash. -/
theorem C74_java_context_invariant (E : Env) (src bmc : Bytes) (ty off : Int) (h0 : Header) (s0 : St)
    (hi : init E src ty bmc off h0 = some s0) (calls : List Call) :
    (run E s0 calls).1.pch = (run E s0 calls).1.pc.map E.H ∧ (run E s0 calls).1.pc ≠ none := by
  have hm : ∀ (msgs : List Msg) (s s' : St) (bu : Option Header) (out : List Bytes), handleMsgs E s bu msgs = .ok (s', out) →
      s.pch = s.pc.map E.H ∧ s.pc ≠ none → s'.pch = s'.pc.map E.H ∧ s'.pc ≠ none := by
    intro msgs
    induction msgs with
    | nil => intro s s' bu out hk h; simp only [handleMsgs] at hk; cases hk; exact h
    | cons m t ih =>
      intro s s' bu out hk h
      cases m with
      | upd hd sigs =>
        simp only [handleMsgs] at hk
        split at hk
        · cases hk
        rename_i s1 h1
        refine ih _ _ _ _ hk ?_
        rcases (handleUpdate_ok h1).2.2.2.2.2 with ⟨_, rfl⟩ | ⟨_, c, _, h3, _, rfl⟩
        · exact h
        · exact ⟨h3, by simp⟩
      | proof p =>
        simp only [handleMsgs] at hk
        split at hk
        · cases hk
        rename_i s1 h1
        split at hk
        · cases hk
        rename_i s2 o h2
        cases hk
        refine ih _ _ _ _ h2 ?_
        obtain ⟨_, _, _, _, _, _, _, rfl⟩ := handleProof_ok h1
        exact h
  have key : ∀ (calls : List Call) (s : St), s.pch = s.pc.map E.H ∧ s.pc ≠ none →
      (run E s calls).1.pch = (run E s calls).1.pc.map E.H ∧ (run E s calls).1.pc ≠ none := by
    intro calls
    induction calls with
    | nil => intro s h; exact h
    | cons c t ih =>
      intro s h
      unfold run
      cases hr : handleRelay E s c with
      | error e => exact ih s h
      | ok r =>
        obtain ⟨s', out⟩ := r
        refine ih s' ?_
        unfold handleRelay at hr
        repeat (split at hr; · cases hr)
        exact hm _ _ _ _ _ hr h
  refine key calls s0 ?_
  unfold init at hi
  split at hi
  · simp at hi
  split at hi
  · simp at hi
  split at hi
  · simp at hi
  rename_i h3
  cases hi
  exact ⟨(Decidable.not_not.mp h3).symm, by simp⟩

/-! ### C73 -/

/-- A header of the honest block `b` after state `s`. -/
structure Honest (E : Env) (s : St) (b : Block) (sn : Nat) (h : Header) (sigs : List Bytes) : Prop where
  sec : h.sec = secOf E.H s.nid (some s.lastHash) sn b
  /-- at most two networks of the type, see C51 -/
  path : ∃ hs i, hs.length ≤ 2 ∧ (∀ x ∈ hs, x.length = 32) ∧ hs[i]? = some (E.H (secBytes h.sec)) ∧
    h.path = encPath (spath E.H hs.length hs i) ∧
    ∃ c vals signers, s.pc = some c ∧ E.ctx c = some vals ∧
      sigs.mapM (E.recover (E.H (decBytes s.src s.ty (i64 h.height) (i32 h.round) (E.H (ntsBytes h.npch (mroot E.H hs)))))) = some signers ∧
      signers.Nodup ∧ (∀ a ∈ signers, a ∈ vals) ∧ 2 * vals.length < 3 * signers.length
  ctx : b.flag = true → ∃ c, h.npc = some c ∧ h.npch = some (E.H c) ∧ h.npch ≠ s.pch

/-- All messages of the accepted blocks are released and the next one has number `sn`. -/
structure Synced (s : St) (sn : Nat) : Prop where
  off : s.off = 0
  seq : s.lastSeq = sn
  next : s.first + s.cnt = sn

theorem flag_mod (b : Block) (sn : Nat) : ((2 * (sn : Int) + (if b.flag then 1 else 0)) % 2 = 1 ↔ b.flag = true) ∧
    (2 * (sn : Int) + (if b.flag then 1 else 0)) / 2 = sn := by
  cases b.flag <;> constructor <;> simp <;> omega

theorem update_honest {E : Env} {s : St} {b : Block} {sn : Nat} {h : Header} {sigs : List Bytes}
    (hs : Synced s sn) (hh : Honest E s b sn h sigs) :
    ∃ s', handleUpdate E s h sigs = .ok s' ∧ s'.off = 0 ∧ s'.lastSeq = sn ∧ s'.first = sn ∧ s'.cnt = b.msgs.length ∧
      s'.root = h.root ∧ s'.lastHash = E.H (secBytes h.sec) ∧ s'.src = s.src ∧ s'.nid = s.nid ∧ s'.bmc = s.bmc ∧ s'.ty = s.ty := by
  obtain ⟨p, i, g1, g2, g3, g4, c, vals, as, g5, g6, g7, g8, g9, g10⟩ := hh.path
  have e := hh.sec
  unfold Header.sec secOf at e
  simp only [Sec.mk.injEq] at e
  obtain ⟨e1, e2, e3, e4, e5⟩ := e
  obtain ⟨f1, f2⟩ := flag_mod b sn
  have hsn : h.sn = sn := by unfold Header.sn; rw [e2]; exact f2
  have ho := hs.off
  have hq := hs.seq
  have hn := hs.next
  have hroot := C51_java_two_networks_partial E.H p g1 g2 i _ g3
  have hq' : verifyProof E s.pc (decision E s h (mroot E.H p)) sigs = true :=
    (C52_java_quorum _ _ _ _).mpr ⟨c, vals, as, g5, g6, g7, g8, g9, g10⟩
  unfold handleUpdate
  simp only
  rw [if_neg (by omega), if_neg (by omega), if_neg (by unfold St.remain St.processed; omega), if_neg (by simp [e1]),
    if_neg (by simp [e3]), g4, hroot]
  simp only [hq', Bool.true_eq_false, if_false]
  by_cases hb : b.flag = true
  · obtain ⟨c', c1, c2, c3⟩ := hh.ctx hb
    rw [if_pos (by rw [e2]; exact f1.mpr hb), c1]
    simp only
    rw [if_neg (Ne.symm c3), if_neg (by simp [c2])]
    exact ⟨_, rfl, ho, hq, hsn, e4, rfl, rfl, rfl, rfl, rfl, rfl⟩
  · rw [if_neg (by rw [e2]; exact fun h => hb (f1.mp h))]
    exact ⟨_, rfl, ho, hq, hsn, e4, rfl, rfl, rfl, rfl, rfl, rfl⟩

/-- C73: the relay's proof for the messages from the first unreleased one is accepted, whatever its length, if it comes
in a call after that of its block update; in the same call only if nothing of the block is released yet. -/
theorem C73_java_range (E : Env) (hH : ∀ x, E.H x ≠ []) (s : St) (cs : List Bytes) (hM : cs.length < 2 ^ 31) (t : Tree)
    (ht : newTree goCfg E.H (cs.map some) = some t) (k e : Nat) (h2 : k < e) (h3 : e ≤ cs.length)
    (hp : s.processed = k) (hc : s.cnt = cs.length) (hr : s.root = some (mroot E.H (cs.map E.H))) :
    ∃ p, t.proof (k + 1) e = some p ∧ p.contents = (cs.drop k).take (e - k) ∧
      (∃ s', handleMsgs E s none [.proof p] = .ok (s', p.contents) ∧ s'.processed = e ∧ s'.cnt = s.cnt ∧ s'.first = s.first ∧
        (e < cs.length → s'.root = s.root)) ∧
      (∀ h : Header, h.cnt = s.cnt → h.root = s.root →
        ((∃ s', handleMsgs E s (some h) [.proof p] = .ok (s', p.contents)) ↔ k = 0)) := by
  obtain ⟨p, q1, q2⟩ := C15_java_accepts E.H hH cs hM t ht (k + 1) e (by omega) (by omega) h3
  obtain ⟨t', u1, _, u3⟩ := C11_bulk_root E.H hH cs (by omega)
  rw [ht] at u1; simp at u1; subst u1
  have hcont : p.contents = (cs.drop k).take (e - k) := by
    obtain ⟨ls, rs, e1, _⟩ := proof_segs E.H hH cs (by omega) t ht (k + 1) e (by omega) (by omega) h3
    rw [q1] at e1
    cases e1
    rw [List.drop_take]
    rfl
  have hlen : p.contents.length = e - k := by rw [hcont]; simp; omega
  rw [show (((k + 1 : Nat) : Int) - 1) = (k : Int) by omega] at q2
  have hrem : ¬ s.remain ≤ 0 := by unfold St.remain; omega
  have ik : i32 (k : Int) = k := i32_small (by omega) (by omega)
  have ic : i32 (cs.length : Int) = cs.length := i32_small (by omega) (by omega)
  have hpr : handleProof E s none p = .ok { s with
      root := (if i32 ((cs.length : Int) - k - p.contents.length) = 0 then none else s.root)
      lastSeq := s.lastSeq + p.contents.length } := by
    simp only [handleProof, q2, if_neg hrem, hp]
    simp only [misplaced, expCnt, expRoot, hc, ic, hr, u3, Option.getD_some, ne_eq, not_true_eq_false, if_false, hp, ik]
    simp
  have hm : handleMsgs E s none [.proof p] = .ok ({ s with
      root := (if i32 ((cs.length : Int) - k - p.contents.length) = 0 then none else s.root)
      lastSeq := s.lastSeq + p.contents.length }, p.contents) := by
    simp only [handleMsgs, hpr, List.append_nil]
  refine ⟨p, q1, hcont, ⟨_, hm, ?_, rfl, rfl, ?_⟩, ?_⟩
  · simp only [St.processed] at hp ⊢; omega
  · intro hlt
    have : i32 ((cs.length : Int) - k - p.contents.length) ≠ 0 := by
      rw [i32_small (by omega) (by omega)]; omega
    simp only [this, if_false]
  · intro h hc' hr'
    simp only [handleMsgs, handleProof, q2, if_neg hrem, hp]
    simp only [misplaced, expCnt, expRoot, hc', hc, ic, hr', hr, u3, Option.getD_some, ne_eq, not_true_eq_false, if_false]
    constructor
    · rintro ⟨s', h⟩
      by_cases h0 : k = 0
      · exact h0
      · rw [if_pos (by simp; omega)] at h; simp at h
    · rintro rfl
      simp

/-- One call that relays a block: the update, and the proof of all its messages built by the relay if there are any. -/
def blockCall (H : Bytes → Bytes) (s : St) (sn : Nat) (b : Block) (h : Header) (sigs : List Bytes) : Call :=
  ⟨s.bmc, s.network, s.bmc, sn, .upd h sigs ::
    (((newTree goCfg H (b.msgs.map some)).bind (fun t => t.proof 1 b.msgs.length)).map Msg.proof).toList⟩

/-- C73: a synced verifier accepts the call that relays the next honest block, releases its messages and is synced
again. -/
theorem C73_java_block (E : Env) (hH : ∀ x, (E.H x).length = 32) (s : St) (b : Block) (sn : Nat) (h : Header) (sigs : List Bytes)
    (hb : b.msgs.length < 2 ^ 31) (hs : Synced s sn) (hh : Honest E s b sn h sigs) :
    ∃ s', handleRelay E s (blockCall E.H s sn b h sigs) = .ok (s', b.msgs) ∧ Synced s' (sn + b.msgs.length) ∧
      s'.lastHash = E.H (secBytes h.sec) ∧ s'.nid = s.nid := by
  obtain ⟨s1, a1, a2, a3, a4, a5, a6, a7, a8, a9, a10, a11⟩ := update_honest hs hh
  have hpre : handleRelay E s (blockCall E.H s sn b h sigs) = handleMsgs E s none (blockCall E.H s sn b h sigs).msgs := by
    unfold handleRelay blockCall
    simp [hs.off, hs.seq]
  have hne : ∀ x, E.H x ≠ [] := fun x h0 => by have := hH x; rw [h0] at this; simp at this
  obtain ⟨t, u1, u2, u3⟩ := C11_bulk_root E.H hne b.msgs (by omega)
  rw [hpre]
  unfold blockCall
  simp only [handleMsgs, a1, u1, Option.bind_some]
  by_cases hm : b.msgs = []
  · have hnone : t.proof 1 b.msgs.length = none := C13_out_of_range t _ _ (by rw [hm]; simp)
    refine ⟨s1, by rw [hnone]; simp [hm, handleMsgs], ⟨a2, ?_, ?_⟩, a7, a9⟩
    · simp [a3, hm]
    · rw [a4, a5]; omega
  · have e := hh.sec
    unfold Header.sec secOf at e
    simp only [Sec.mk.injEq, if_neg hm] at e
    obtain ⟨_, _, _, hcnt, hroot⟩ := e
    have hpos : 0 < b.msgs.length := List.length_pos_iff.mpr hm
    obtain ⟨p, q1, q2, ⟨s2, q5, q6, q7, q8, _⟩, q4⟩ := C73_java_range E hne s1 b.msgs hb t u1 0 b.msgs.length hpos (Nat.le_refl _)
      (by unfold St.processed; omega) a5 (a6.trans hroot)
    obtain ⟨s', hs'⟩ := (q4 h (hcnt.trans a5.symm) (a6.symm)).mpr rfl
    simp only [List.drop_zero, Nat.sub_zero, List.take_length] at q2
    have q1' : t.proof 1 b.msgs.length = some p := q1
    rw [q1']
    simp only [Option.map_some, Option.toList_some]
    rw [q2] at hs'
    obtain ⟨m1, m2, m3, m4, m5, m6⟩ := msgs_seq _ hs'
    have hp' : ∃ hash total, s' = { s1 with
        root := (if i32 (total - s1.processed - p.contents.length) = 0 then hash else s1.root)
        lastSeq := s1.lastSeq + p.contents.length } := by
      simp only [handleMsgs] at hs'
      split at hs'
      · cases hs'
      rename_i s3 h3
      simp only [Except.ok.injEq, Prod.mk.injEq] at hs'
      obtain ⟨rfl, _⟩ := hs'
      obtain ⟨_, _, total, _, _, _, _, h3⟩ := handleProof_ok h3
      exact ⟨none, total, h3⟩
    obtain ⟨_, _, hp'⟩ := hp'
    refine ⟨s', hs', ⟨m2.trans a2, ?_, ?_⟩, ?_, m6.trans a9⟩
    · rw [m1, a3]; omega
    · rw [hp']; simp only; rw [a4, a5]; omega
    · rw [hp']; exact a7

/-- Signed blocks, each honest after the calls that relay the ones before it. -/
def HonestFrom (E : Env) : St → Nat → List (Block × Header × List Bytes) → Prop
  | _, _, [] => True
  | s, sn, (b, h, sigs) :: t =>
    b.msgs.length < 2 ^ 31 ∧ Honest E s b sn h sigs ∧
    ∀ s', (handleRelay E s (blockCall E.H s sn b h sigs)).toOption.map (·.1) = some s' → HonestFrom E s' (sn + b.msgs.length) t

/-- The calls that relay blocks one by one. -/
def relayAll (E : Env) : St → Nat → List (Block × Header × List Bytes) → List Call
  | _, _, [] => []
  | s, sn, (b, h, sigs) :: t =>
    blockCall E.H s sn b h sigs ::
      match handleRelay E s (blockCall E.H s sn b h sigs) with
      | .ok (s', _) => relayAll E s' (sn + b.msgs.length) t
      | .error _ => []

/-- C73: every honest chain of signed blocks can be relayed: from a synced state the calls for the blocks are all
accepted and release exactly the messages of the blocks. -/
theorem C73_java_chain (E : Env) (hH : ∀ x, (E.H x).length = 32) (s : St) (sn : Nat) (bs : List (Block × Header × List Bytes))
    (hs : Synced s sn) (hh : HonestFrom E s sn bs) :
    (run E s (relayAll E s sn bs)).2.2 = bs.flatMap (·.1.msgs) ∧
    Synced (run E s (relayAll E s sn bs)).1 (sn + (bs.flatMap (·.1.msgs)).length) := by
  induction bs generalizing s sn with
  | nil => simp [relayAll, run, hs]
  | cons x t ih =>
    obtain ⟨b, h, sigs⟩ := x
    obtain ⟨h1, h2, h3⟩ := hh
    obtain ⟨s', q1, q2, _⟩ := C73_java_block E hH s b sn h sigs h1 hs h2
    obtain ⟨i1, i2⟩ := ih s' (sn + b.msgs.length) q2 (h3 s' (by rw [q1]; rfl))
    simp only [relayAll, q1, run, List.flatMap_cons, List.length_append]
    exact ⟨by rw [i1], by rw [← Nat.add_assoc]; exact i2⟩

/-- C73 fails with a sequence offset: block numbers go on from the last block, but the verifier expects them lowered by
the offset, so no honest next block is accepted. -/
theorem C73_java_offset_stuck (E : Env) (s : St) (h : Header) (sigs : List Bytes) (ho : s.off ≠ 0) (hn : h.sn = s.first + s.cnt) :
    handleUpdate E s h sigs = .error (if 0 < s.off then .notVerifiable else .alreadyVerified) := by
  unfold handleUpdate
  simp only
  by_cases hp : 0 < s.off
  · rw [if_neg (by omega), if_pos (by omega), if_pos hp]
  · rw [if_pos (by omega), if_neg hp]

theorem proof_offset_nonneg (H : Bytes → Bytes) (p : Proof) (hf : Fine H p) {hash : Bytes} {left total : Int}
    (h : proofRoot javaCfg H p = some (hash, left, total)) : 0 ≤ left := by
  obtain ⟨h1, h2⟩ := hf
  have hcnt : count (blocks H p) = count p.lefts + (p.contents.length : Int) + count p.rights := by
    simp only [blocks, count_append, count_ones]
  have hlp : ∀ x ∈ p.lefts, 1 ≤ x.num := fun x hx => h1 x (by simp [hx])
  have hr0 : 0 ≤ count p.rights := count_nonneg (fun x hx => h1 x (by simp [hx]))
  have w1 := foldl_wrap javaCfg (2 ^ 31) javaOk p.lefts 0 (by omega) hlp (by omega)
  unfold proofRoot at h
  simp only [w1.1] at h
  split at h
  · simp at h
  split at h
  · simp at h
  split at h
  · simp only [Option.some.injEq, Prod.mk.injEq] at h
    omega
  · simp at h

/-- C73 fails for a verifier set up with a first block whose first message does not have number 0: nothing is ever
accepted, as long as proofs have positive leaf counts. -/
theorem C73_java_first_number_stuck (E : Env) (src bmc : Bytes) (ty off : Int) (h0 : Header) (s : St)
    (hi : init E src ty bmc off h0 = some s) (hsn : 0 < h0.sn) (hc : 0 ≤ h0.cnt) (bu : Option Header) (m : Msg) (t : List Msg)
    (hf : ∀ p, m = .proof p → Fine E.H p) : (handleMsgs E s bu (m :: t)).toOption = none := by
  have hs : s.lastSeq = 0 ∧ s.first = h0.sn ∧ s.cnt = h0.cnt := by
    unfold init at hi
    repeat (split at hi; · simp at hi)
    cases hi
    exact ⟨rfl, rfl, rfl⟩
  obtain ⟨h1, h2, h3⟩ := hs
  cases m with
  | upd h sigs =>
    simp only [handleMsgs]
    cases hu : handleUpdate E s h sigs with
    | error e => rfl
    | ok s' =>
      have := (handleUpdate_ok hu).2.1
      unfold St.remain St.processed at this
      omega
  | proof p =>
    simp only [handleMsgs]
    cases hu : handleProof E s bu p with
    | error e => rfl
    | ok s' =>
      obtain ⟨_, hash, total, hp, _⟩ := handleProof_ok hu
      have := proof_offset_nonneg E.H p (hf p rfl) hp
      unfold St.processed at this
      omega

/-! ### cases that meet the hypotheses -/

namespace Toy

/-- A hash of 32 bytes. -/
def hash (x : Bytes) : Bytes := x.foldl (fun a b => 3 * a + b) 1 :: List.replicate 31 0

/-- Four validators; a signature is the address of the signer. -/
def env : Env := ⟨hash, fun _ s => some s, fun _ => some [[1], [2], [3], [4]]⟩

def first : Header := ⟨10, 0, some (hash [9]), [], 3, 0, none, 0, none, some [9]⟩
def start : St := ⟨[0x61, 0x2f, 0x62], 1, 3, some (hash [9]), some [9], hash (secBytes first.sec), [7], 0, none, 0, 0, 10, 0⟩
def block : Block := ⟨true, [[5], [6, 6], [8]]⟩
def other : Bytes := hash [1, 2, 3]
def sec : Sec := secOf hash 3 (some start.lastHash) 0 block
def header : Header :=
  ⟨11, 0, some (hash [4, 4]), encPath (spath hash 2 [other, hash (secBytes sec)] 1), 3, 1, some start.lastHash, 3,
    some (Merkle.mroot hash (block.msgs.map hash)), some [4, 4]⟩
def sigs : List Bytes := [[3], [1], [4]]

theorem hash_len (x : Bytes) : (hash x).length = 32 := by simp [hash]

example : init env [0x61, 0x2f, 0x62] 1 [7] 0 first = some start := by
  unfold init
  rfl

example : verifyProof env (some [9]) [] sigs = true := by decide +kernel

theorem synced : Synced start 0 := ⟨rfl, rfl, rfl⟩

theorem honest : Honest env start block 0 header sigs where
  sec := by decide +kernel
  path := ⟨[other, hash (secBytes sec)], 1, by decide, by
      intro x hx
      simp only [List.mem_cons, List.not_mem_nil, or_false] at hx
      rcases hx with rfl | rfl <;> exact hash_len _, by decide +kernel, rfl,
    [9], [[1], [2], [3], [4]], [[3], [1], [4]], rfl, rfl, rfl, by decide, by decide, by decide⟩
  ctx := fun _ => ⟨[4, 4], rfl, rfl, by decide +kernel⟩

example : HonestFrom env start 0 [(block, header, sigs)] := ⟨by decide, honest, fun _ _ => trivial⟩

example : (run env start (relayAll env start 0 [(block, header, sigs)])).2.2 = [[5], [6, 6], [8]] :=
  (C73_java_chain env hash_len start 0 [(block, header, sigs)] synced ⟨by decide, honest, fun _ _ => trivial⟩).1

/-- The update and the proof of all messages, in one call. -/
def call : Call := ⟨[7], [0x62], [7], 0, [.upd header sigs, .proof ⟨[], block.msgs, []⟩]⟩

/-- C49: the hypotheses hold of this call and the chain of two blocks. -/
example : (∀ p, Msg.proof p ∈ (run env start [call]).2.1 → Fine env.H p) ∧
    tip env.H none (chain env.H 3 none 0 [⟨false, []⟩, block]) = some (run env start [call]).1.lastHash ∧
    (run env start [call]).2.2 = [[5], [6, 6], [8]] := by
  have h : ∃ s', handleRelay env start call = .ok (s', [[5], [6, 6], [8]]) ∧
      some s'.lastHash = tip env.H none (chain env.H 3 none 0 [⟨false, []⟩, block]) := by
    have : (match handleRelay env start call with
      | .ok (s', out) => decide (out = [[5], [6, 6], [8]] ∧ some s'.lastHash = tip env.H none (chain env.H 3 none 0 [⟨false, []⟩, block]))
      | .error _ => false) = true := by decide +kernel
    split at this
    · rename_i s' out h
      simp only [decide_eq_true_eq] at this
      exact ⟨s', by rw [h, this.1], this.2⟩
    · simp at this
  obtain ⟨s', h1, h2⟩ := h
  simp only [run, h1]
  refine ⟨?_, h2.symm, rfl⟩
  intro p hp
  simp [call] at hp
  subst hp
  exact ⟨by simp, by decide +kernel⟩

/-- C51: three networks, the first one has a path of two steps and gets a wrong root. -/
example : 2 ≤ (spath hash 3 ([[1], [2], [3]].map hash) 0).length ∧
    sectionsRoot hash (hash [1]) (some (hash [1])) (encPath (spath hash 3 ([[1], [2], [3]].map hash) 0)) ≠
      some (Merkle.mroot hash ([[1], [2], [3]].map hash)) := by decide +kernel

/-- C75: the header above carries one of the two sections decided on. -/
example : sectionsRoot env.H (env.H (secBytes header.sec)) (some (env.H (secBytes header.sec))) header.path =
      some (Merkle.mroot hash ([[1, 2, 3], secBytes sec].map hash)) ∧
    (∀ x ∈ secBytes header.sec :: [[1, 2, 3], secBytes sec], x.length ≠ 64) ∧
    secBytes header.sec ∈ [[1, 2, 3], secBytes sec] := by decide +kernel

/-- C73: a first block that starts at message 5 is never left. -/
example : ∃ s, init env [] 1 [7] 0 ⟨10, 0, some (hash [9]), [], 3, 10, none, 2, none, some [9]⟩ = some s := ⟨_, rfl⟩

/-- C73: after two of the three messages, the rest is refused in the call of the update and accepted in a later one. -/
example : ((handleMsgs env start none [.upd header sigs, .proof ⟨[], [[5], [6, 6]], [⟨1, hash [8]⟩]⟩]).toOption.map (·.2) =
      some [[5], [6, 6]]) ∧
    ((handleMsgs env start none [.upd header sigs, .proof ⟨[], [[5], [6, 6]], [⟨1, hash [8]⟩]⟩,
      .proof ⟨[⟨2, hash (hash [5] ++ hash [6, 6])⟩], [[8]], []⟩]).toOption.map (·.2) = none) := by decide +kernel

end Toy

end Verif.JavaBtpBlock
