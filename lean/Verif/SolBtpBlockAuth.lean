import Verif.SolBtpBlockProps
import Verif.JavaBtpBlockAuth
/-!
C50, C51, C52, C73, C74, C75 for the EVM block verifier: numbers, replay, paths, quorum, liveness, validator handover,
what a signature commits to.
-/
namespace Verif.SolBtpBlock
open Verif Verif.IntConv Verif.Rlp Verif.BtpBlock Verif.SolProof Verif.Merkle Verif.Mbt
open Verif.JavaBtpBlock (collision_mono)

/-! ### C50: numbers -/

theorem msgs_seq {E : Env} {C : Cfg} (msgs : List Msg) {s s' : St} {r r' : Nat} {out : List Bytes}
    (hk : handleMsgs E C s r msgs = some (s', r', out)) : s'.next = s.next + out.length := by
  induction msgs generalizing s r out with
  | nil => simp only [handleMsgs] at hk; cases hk; simp
  | cons m t ih =>
    cases m with
    | other => exact ih hk
    | upd h sigs =>
      simp only [handleMsgs] at hk
      cases hu : handleUpdate E C s r h sigs with
      | none => simp [hu] at hk
      | some x =>
        simp only [hu, Option.bind_some] at hk
        obtain ⟨_, _, _, _, d, sec, _, _, _, _, _, _, k, _⟩ := handleUpdate_ok (s' := x.1) (r' := x.2) hu
        rw [ih hk, k]
    | proof p =>
      simp only [handleMsgs] at hk
      cases hu : handleProof E s r p with
      | none => simp [hu] at hk
      | some x =>
        simp only [hu, Option.bind_some, Option.map_eq_some_iff] at hk
        obtain ⟨⟨y1, y2, y3⟩, h2, hy⟩ := hk
        simp only [Prod.mk.injEq] at hy
        obtain ⟨rfl, rfl, rfl⟩ := hy
        obtain ⟨_, _, _, k⟩ := handleProof_ok (s' := x.1) (r' := x.2) hu
        rw [ih h2, k]
        simp only [List.length_append]
        omega

/-- C50: in every history the number the verifier asks for next is the first one plus the number of messages released,
and a call with any other number, from another caller or for another network is rejected. -/
theorem C50_solidity_sequence (E : Env) (C : Cfg) (s : St) (calls : List Call) :
    (run E C s calls).1.next = s.next + (run E C s calls).2.2.length ∧
    ∀ c s' out, handleRelay E C (run E C s calls).1 c = some (s', out) →
      c.sn = C.off + s.next + (run E C s calls).2.2.length ∧ c.caller = C.bmc ∧ c.net = C.src := by
  have key : (run E C s calls).1.next = s.next + (run E C s calls).2.2.length := by
    induction calls generalizing s with
    | nil => simp [run]
    | cons c t ih =>
      unfold run
      cases hr : handleRelay E C s c with
      | none => exact ih s
      | some x =>
        obtain ⟨_, _, _, _, _, y, r, g, q3, q4⟩ := handleRelay_ok (s' := x.1) (out := x.2) hr
        have := msgs_seq _ q3
        simp only [List.length_append]
        rw [ih x.1, q4]
        simp only
        omega
  refine ⟨key, fun c s' out hc => ?_⟩
  obtain ⟨h1, h2, h3, _⟩ := handleRelay_ok hc
  exact ⟨by omega, h1, h2⟩

/-! ### C50: what is missing -/

theorem calculate_ne_zero {H : Bytes → Bytes} {q : List SNode} (h : (calculate H q).isSome) : q ≠ [] := by
  rintro rfl
  simp [calculate, rounds, pass, halvings] at h

/-- C50 is false of the code: for every block and every number of messages at most half of it, the relay's proof of the
first messages is accepted twice, so these messages are delivered twice and as many others never. -/
theorem C50_solidity_replay (E : Env) (hH : ∀ x, E.H x ≠ []) (C : Cfg) (s : St) (cs : List Bytes) (hM : cs.length < 2 ^ 63) (t : Tree)
    (ht : newTree goCfg E.H (cs.map some) = some t) (k : Nat) (h1 : 1 ≤ k) (h2 : 2 * k ≤ cs.length)
    (hr : s.root = mroot E.H (cs.map E.H)) (hc : s.cnt = cs.length) (hn : s.next = s.first) (hs : s.first + cs.length < 2 ^ 256) :
    ∃ p s' r', t.proof 1 k = some p ∧
      handleMsgs E C s (s.cnt - (s.next - s.first)) [.proof (ofProof p), .proof (ofProof p)] =
        some (s', r', cs.take k ++ cs.take k) := by
  obtain ⟨p, q1, q2, q3⟩ := C15_solidity_accepts E.H hH cs hM t ht 1 k (by omega) h1 (by omega)
  obtain ⟨t', u1, _, u3⟩ := C11_bulk_root E.H hH cs hM
  rw [ht] at u1; simp at u1; subst u1
  simp only [Nat.sub_self, List.drop_zero] at q2
  have hlen : (ofProof p).mesgs.length = k := by rw [q2]; simp; omega
  rw [u3] at q3
  have step : ∀ (x : St) (r : Nat), x.root = s.root → x.cnt = s.cnt → k ≤ r → x.next + k < 2 ^ 256 →
      handleProof E x r (ofProof p) = some ({ x with next := x.next + k }, r - k) := by
    intro x r x1 x2 x3 x4
    unfold handleProof
    rw [if_neg (by rw [q3, x1, x2, hr, hc]; simp), hlen, if_neg (by omega), if_neg (by omega)]
  generalize 2 ^ 256 = M at *
  have e1 := step s (s.cnt - (s.next - s.first)) rfl rfl (by omega) (by omega)
  have e2 := step { s with next := s.next + k } (s.cnt - (s.next - s.first) - k) rfl rfl (by omega) (by simp only; omega)
  refine ⟨p, { s with next := s.next + k + k }, s.cnt - (s.next - s.first) - k - k, q1, ?_⟩
  simp only [handleMsgs, e1, e2, Option.bind_some, Option.map_some, List.append_nil, q2]

/-- C50 is false for leaf counts of zero too: for every state that waits for the one message `H m' ++ z` of a block, the
verifier releases `m'` instead. -/
theorem C50_solidity_zero_count_forgery (E : Env) (C : Cfg) (s : St) (m' z : Bytes)
    (hr : s.root = mroot E.H ([E.H m' ++ z].map E.H)) (hc : s.cnt = 1) (hn : s.next = s.first) (hs : s.first + 1 < 2 ^ 256) :
    ∃ s' r', handleMsgs E C s (s.cnt - (s.next - s.first)) [.proof ⟨[], [m'], [(0, z)]⟩] = some (s', r', [m']) := by
  have hk := C66_zero_count_forgery E.H m' z
  simp only [handleMsgs, handleProof]
  rw [if_neg (by rw [hk, hr, hc]; simp), if_neg (by simp; omega), if_neg (by simp; omega)]
  simp

/-! ### C51 -/

/-- A path in the form of the header. -/
def encPath (p : List (Bool × Bytes)) : List (Nat × Bytes) := p.map (fun n => (if n.1 then 1 else 0, n.2))

/-- What a path in the header means: any direction but 0 is right. -/
def readPath (p : List (Nat × Bytes)) : List (Bool × Bytes) := p.map (fun n => (n.1 ≠ 0, n.2))

theorem calcPath_climb (H : Bytes → Bytes) (leaf : Bytes) (p : List (Nat × Bytes)) : calcPath H leaf p = climb H leaf (readPath p) := by
  unfold calcPath climb readPath
  rw [List.foldl_map]
  congr 1
  funext t n
  by_cases h : n.1 = 0 <;> simp [h]

theorem readPath_encPath (p : List (Bool × Bytes)) : readPath (encPath p) = p := by
  unfold readPath encPath
  rw [List.map_map]
  conv => rhs; rw [← List.map_id p]
  apply List.map_congr_left
  rintro ⟨b, v⟩ _
  cases b <;> simp

/-- C51, Solidity: for every number of networks and every network the computed root is the root of the tree. -/
theorem C51_solidity_root (H : Bytes → Bytes) (hs : List Bytes) (i : Nat) (leaf : Bytes) (hi : hs[i]? = some leaf) :
    calcPath H leaf (encPath (spath H hs.length hs i)) = mroot H hs := by
  rw [calcPath_climb, readPath_encPath]
  exact climb_spath H hs.length hs (Nat.le_refl _) i leaf hi

/-! ### C52 -/

/-- Number of positions at which the signature recovers to the validator. -/
def matches_ (rec : Bytes → Option Bytes) : List Bytes → List Bytes → Nat
  | sig :: t, v :: vs => (if rec sig = some v then 1 else 0) + matches_ rec t vs
  | _, _ => 0

theorem countVotes_le {rec : Bytes → Option Bytes} {n : Nat} (sigs vs : List Bytes) (v w : Nat)
    (h : countVotes rec n v sigs vs = some w) : w ≤ v + matches_ rec sigs vs := by
  induction sigs generalizing v vs with
  | nil => simp [countVotes] at h; omega
  | cons sig t ih =>
    unfold countVotes at h
    split at h
    · simp at h; omega
    · split at h
      · rename_i a b vs' ha
        have := ih _ _ h
        unfold matches_
        rw [ha]
        by_cases hab : a = b
        · rw [if_pos hab] at this; rw [if_pos (by rw [hab])]; omega
        · rw [if_neg hab] at this; rw [if_neg (by simpa using hab)]; omega
      · simp at h

theorem matches_prefix (rec : Bytes → Option Bytes) (n : Nat) (sigs vs : List Bytes) (v : Nat)
    (hr : ∀ s ∈ sigs, (rec s).isSome) (hl : sigs.length ≤ vs.length) (hq : 2 * n < 3 * (v + matches_ rec sigs vs)) :
    ∃ w, countVotes rec n v sigs vs = some w ∧ 2 * n < 3 * w := by
  induction sigs generalizing v vs with
  | nil => exact ⟨v, rfl, by simpa [matches_] using hq⟩
  | cons sig t ih =>
    unfold countVotes
    by_cases hq0 : hasQuorumOf n v = true
    · rw [if_pos hq0]
      refine ⟨v, rfl, ?_⟩
      simp [hasQuorumOf] at hq0; omega
    · rw [if_neg hq0]
      cases ha : rec sig with
      | none => have := hr sig (by simp); simp [ha] at this
      | some a =>
        match vs, hl, hq with
        | b :: vs', hl, hq =>
          simp only
          refine ih vs' _ (fun s hs => hr s (by simp [hs])) (by simpa using hl) ?_
          unfold matches_ at hq
          rw [ha] at hq
          by_cases hab : a = b
          · rw [if_pos hab]; rw [if_pos (by rw [hab])] at hq; omega
          · rw [if_neg hab]; rw [if_neg (by simpa using hab)] at hq; omega

/-- C52, Solidity, part: if signatures are accepted, more than two thirds of the positions have a signature by the validator at
that position. -/
theorem C52_solidity_accepted_partial (E : Env) (d : Bytes) (sigs vals : List Bytes) (h : checkBlockProof E d sigs vals = true) :
    2 * vals.length < 3 * matches_ (recoverSigner E d) sigs vals := by
  unfold checkBlockProof at h
  split at h
  · simp at h
  · rename_i w hw
    have := countVotes_le sigs vals 0 w hw
    simp [hasQuorumOf] at h
    omega

/-- The validators whose position has their signature. -/
def signers (rec : Bytes → Option Bytes) : List Bytes → List Bytes → List Bytes
  | sig :: t, v :: vs => (if rec sig = some v then [v] else []) ++ signers rec t vs
  | _, _ => []

theorem signers_facts (rec : Bytes → Option Bytes) (sigs vs : List Bytes) :
    (signers rec sigs vs).length = matches_ rec sigs vs ∧ (signers rec sigs vs).Sublist vs ∧
    ∀ a ∈ signers rec sigs vs, ∃ s ∈ sigs, rec s = some a := by
  induction sigs generalizing vs with
  | nil => cases vs <;> simp [signers, matches_]
  | cons sig t ih =>
    cases vs with
    | nil => simp [signers, matches_]
    | cons v vs =>
      obtain ⟨h1, h2, h3⟩ := ih vs
      unfold signers matches_
      by_cases h : rec sig = some v
      · rw [if_pos h, if_pos h]
        refine ⟨by simp [h1]; omega, by simpa using h2, ?_⟩
        intro a ha
        simp only [List.cons_append, List.nil_append, List.mem_cons] at ha
        rcases ha with rfl | ha
        · exact ⟨sig, by simp, h⟩
        · obtain ⟨s, hs, e⟩ := h3 a ha; exact ⟨s, by simp [hs], e⟩
      · rw [if_neg h, if_neg h]
        refine ⟨by simp [h1], by simpa using h2.cons v, ?_⟩
        intro a ha
        obtain ⟨s, hs, e⟩ := h3 a (by simpa using ha)
        exact ⟨s, by simp [hs], e⟩

/-- C52, Solidity: with a validator list without duplicates, accepted signatures are by more than two thirds of the
validators, each counted once. -/
theorem C52_solidity_quorum (E : Env) (d : Bytes) (sigs vals : List Bytes) (hn : vals.Nodup)
    (h : checkBlockProof E d sigs vals = true) :
    ∃ as : List Bytes, as.Nodup ∧ (∀ a ∈ as, a ∈ vals) ∧ (∀ a ∈ as, ∃ s ∈ sigs, recoverSigner E d s = some a) ∧
      2 * vals.length < 3 * as.length := by
  obtain ⟨h1, h2, h3⟩ := signers_facts (recoverSigner E d) sigs vals
  exact ⟨_, hn.sublist h2, fun a ha => h2.subset ha, h3, by rw [h1]; exact C52_solidity_accepted_partial E d sigs vals h⟩

/-- C52, Solidity: an accepted update has these signatures over its decision, by the validators in charge before it. -/
theorem C52_solidity_update (E : Env) (C : Cfg) (s s' : St) (r r' : Nat) (h : Header) (sigs : List Bytes) (hn : s.vals.Nodup)
    (hk : handleUpdate E C s r h sigs = some (s', r')) :
    ∃ d, decEnc E.H C.src C.ty h = some d ∧ ∃ as : List Bytes, as.Nodup ∧ (∀ a ∈ as, a ∈ s.vals) ∧
      (∀ a ∈ as, ∃ x ∈ sigs, recoverSigner E (E.H d) x = some a) ∧ 2 * s.vals.length < 3 * as.length := by
  obtain ⟨_, _, _, _, d, sec, h1, _, h2, _⟩ := handleUpdate_ok hk
  exact ⟨d, h1, C52_solidity_quorum E (E.H d) sigs s.vals hn h2⟩

/-- C52: the list of validators is not checked for duplicates: one validator named three times decides alone. -/
theorem C52_solidity_duplicate_witness (E : Env) (d sig v : Bytes) (hs : recoverSigner E d sig = some v) (k : Nat) (hk : 1 ≤ k) :
    checkBlockProof E d (List.replicate k sig) (List.replicate k v) = true := by
  have hm : ∀ m, matches_ (recoverSigner E d) (List.replicate m sig) (List.replicate m v) = m := by
    intro m
    induction m with
    | zero => rfl
    | succ m ih => simp [List.replicate_succ, matches_, hs, ih]; omega
  obtain ⟨w, h1, h2⟩ := matches_prefix (recoverSigner E d) (List.replicate k v).length (List.replicate k sig) (List.replicate k v) 0
    (by intro s h; rw [List.eq_of_mem_replicate h, hs]; rfl) (by simp) (by rw [hm]; simp; omega)
  unfold checkBlockProof
  rw [h1]
  simp [hasQuorumOf]
  simp at h2
  omega

/-- C52: signatures in the order of the validators, absent ones filled with any 65 bytes that recover to something, are
accepted if more than two thirds signed. -/
theorem C52_solidity_accepts (E : Env) (d : Bytes) (sigs vals : List Bytes) (hr : ∀ s ∈ sigs, (recoverSigner E d s).isSome)
    (hl : sigs.length ≤ vals.length) (hq : 2 * vals.length < 3 * matches_ (recoverSigner E d) sigs vals) :
    checkBlockProof E d sigs vals = true := by
  obtain ⟨w, h1, h2⟩ := matches_prefix (recoverSigner E d) vals.length sigs vals 0 hr hl (by omega)
  unfold checkBlockProof
  rw [h1]
  simp [hasQuorumOf]
  omega

/-- C73, Solidity: an empty signature, which stands for an absent validator in the proof of the chain, before the quorum is
complete makes every proof fail, however many validators signed. -/
theorem C73_solidity_absent_validator (E : Env) (d : Bytes) (pre post vals : List Bytes) (hq : 3 * pre.length ≤ 2 * vals.length) :
    checkBlockProof E d (pre ++ [] :: post) vals = false := by
  have key : ∀ (pre vs : List Bytes) (v : Nat), 3 * (v + pre.length) ≤ 2 * vals.length →
      countVotes (recoverSigner E d) vals.length v (pre ++ [] :: post) vs = none := by
    intro pre
    induction pre with
    | nil =>
      intro vs v hv
      simp only [List.nil_append, countVotes]
      rw [if_neg (by simp [hasQuorumOf]; simp at hv; omega)]
      simp [recoverSigner]
    | cons s t ih =>
      intro vs v hv
      simp only [List.length_cons] at hv
      simp only [List.cons_append, countVotes]
      rw [if_neg (by simp [hasQuorumOf]; omega)]
      split
      · exact ih _ _ (by split <;> omega)
      · rfl
  unfold checkBlockProof
  rw [key pre vals 0 (by omega)]

/-! ### C75 -/

/-- The encodings the EVM side signs are those of the ICON side. -/
theorem ntsEnc_eq (H : Bytes → Bytes) (hH : ∀ x, (H x).length = 32) (h : Header) (ht : h.Typed) (sec : Bytes) :
    ntsEnc H h sec = ntsBytes (some h.npch) (climb H (H sec) (readPath h.path)) ∧ (ntsEnc H h sec).length < 2 ^ 63 := by
  have hl : (climb H (H sec) (readPath h.path)).length = 32 := by
    rcases List.eq_nil_or_concat (readPath h.path) with e | ⟨q, n, e⟩
    · rw [e]; exact hH _
    · rw [e, List.concat_eq_append, climb_snoc]; split <;> exact hH _
  have e1 := SolRlp.encodeBytes_eq h.npch (by rw [ht.npch]; omega) (by intro h0; have := ht.npch; rw [h0] at this; simp at this)
  have e2 := SolRlp.encodeBytes_eq (climb H (H sec) (readPath h.path)) (by omega) (by intro h0; rw [h0] at hl; simp at hl)
  have l1 := SolRlp.wBytes_len_le h.npch (by rw [ht.npch]; omega)
  have l2 := SolRlp.wBytes_len_le (climb H (H sec) (readPath h.path)) (by omega)
  rw [ht.npch] at l1
  have hq : ntsEnc H h sec = ntsBytes (some h.npch) (climb H (H sec) (readPath h.path)) := by
    unfold ntsEnc ntsBytes
    rw [calcPath_climb, e1, e2]
    unfold SolRlp.encodeList
    rw [SolRlp.wList_form _ (by simp only [wNul, List.length_append, List.length_nil]; omega)]
    simp [wNul]
  refine ⟨hq, ?_⟩
  rw [hq]
  unfold ntsBytes
  have := wList_len_le (wNul (some h.npch) ++ (wBytes (climb H (H sec) (readPath h.path)) ++ []))
    (by simp only [wNul, List.length_append, List.length_nil]; omega)
  simp only [wNul, List.length_append, List.length_nil] at this ⊢
  omega

theorem decEnc_eq (H : Bytes → Bytes) (hH : ∀ x, (H x).length = 32) (src : Bytes) (hs : src.length < 2 ^ 32) (hs' : src ≠ [0x80]) (ty : Nat)
    (h : Header) (ht : h.Typed) {d : Bytes} (hd : decEnc H src ty h = some d) :
    h.secEnc = some (secBytes h.sec) ∧
    d = decBytes src ty h.height h.round (H (ntsBytes (some h.npch) (climb H (H (secBytes h.sec)) (readPath h.path)))) ∧
    d.length < 2 ^ 63 := by
  unfold decEnc at hd
  cases e1 : h.secEnc with
  | none => simp [e1] at hd
  | some sec =>
  obtain ⟨e0, _⟩ := secEnc_eq h ht e1
  subst e0
  cases e2 : SolRlp.encodeUint ty with
  | none => simp [e1, e2] at hd
  | some a =>
  cases e3 : SolRlp.encodeUint h.height with
  | none => simp [e1, e2, e3] at hd
  | some b =>
  cases e4 : SolRlp.encodeUint h.round with
  | none => simp [e1, e2, e3, e4] at hd
  | some c =>
  obtain ⟨n1, rfl⟩ := encodeUint_some e2
  obtain ⟨n2, rfl⟩ := encodeUint_some e3
  obtain ⟨n3, rfl⟩ := encodeUint_some e4
  simp only [e1, e2, e3, e4, Option.bind_some, Option.map_some, Option.some.injEq] at hd
  obtain ⟨q1, _⟩ := ntsEnc_eq H hH h ht (secBytes h.sec)
  rw [q1] at hd
  generalize ntsBytes (some h.npch) (climb H (H (secBytes h.sec)) (readPath h.path)) = nts at hd ⊢
  have hl := hH nts
  have f1 := SolRlp.encodeBytes_eq src (by omega) hs'
  have f2 := SolRlp.encodeBytes_eq (H nts) (by omega) (by intro h0; rw [h0] at hl; simp at hl)
  have l0 := SolRlp.wBytes_len_le src (by omega)
  have l1 := wInt_len _ n1
  have l2 := wInt_len _ n2
  have l3 := wInt_len _ n3
  have l4 := SolRlp.wBytes_len_le (H nts) (by omega)
  have hq : d = decBytes src ty h.height h.round (H nts) := by
    rw [← hd, f1, f2]
    unfold decBytes SolRlp.encodeList
    rw [SolRlp.wList_form _ (by simp only [List.length_append, List.length_nil]; omega)]
    simp
  refine ⟨rfl, hq, ?_⟩
  rw [hq]
  unfold decBytes
  have := wList_len_le (wBytes src ++ (wInt (ty : Nat) ++ (wInt (h.height : Nat) ++ (wInt (h.round : Nat) ++ (wBytes (H nts) ++ [])))))
    (by simp only [List.length_append, List.length_nil]; omega)
  simp only [List.length_append, List.length_nil] at this ⊢
  omega

/-- The strings hashed for one block update. -/
def updCalls (E : Env) (C : Cfg) (h : Header) : List Bytes :=
  let r := climb E.H (E.H (secBytes h.sec)) (readPath h.path)
  [secBytes h.sec, ntsBytes (some h.npch) r, decBytes C.src C.ty h.height h.round (E.H (ntsBytes (some h.npch) r))] ++
    climbCalls E.H (E.H (secBytes h.sec)) (readPath h.path)

/-- C75: if the decision derived from a header is the decision the validators made over the sections `xs` of all
networks, then the header carries one of these sections, the decided validator hash, height and round - or a collision
shows. -/
theorem C75_solidity_decision_commits (E : Env) (hH : ∀ x, (E.H x).length = 32) (C : Cfg) (hsrc : C.src.length < 2 ^ 32) (h80 : C.src ≠ [0x80])
    (h : Header) (ht : h.Typed) (d : Bytes) (hd : decEnc E.H C.src C.ty h = some d)
    (src : Bytes) (ty height round : Int) (npch : Option Bytes) (xs : List Bytes) (hx : xs ≠ [])
    (h64 : ∀ x ∈ secBytes h.sec :: xs, x.length ≠ 64)
    (he : E.H d = E.H (decBytes src ty height round (E.H (ntsBytes npch (mroot E.H (xs.map E.H)))))) :
    Collision E.H (updCalls E C h) (JavaBtpBlock.decCalls E.H src ty height round npch xs) ∨
    (secBytes h.sec ∈ xs ∧ some h.npch = npch ∧ C.src = src ∧ C.ty = ty ∧ h.height = height ∧ h.round = round) := by
  obtain ⟨_, q1, q2⟩ := decEnc_eq E.H hH C.src hsrc h80 C.ty h ht hd
  obtain ⟨w1, w2⟩ := ntsEnc_eq E.H hH h ht (secBytes h.sec)
  rw [w1] at w2
  have hpl : ∀ n ∈ readPath h.path, n.2.length = 32 := by
    intro n hn
    simp only [readPath, List.mem_map] at hn
    obtain ⟨m, hm, rfl⟩ := hn
    exact ht.path m hm
  rw [q1] at he q2
  by_cases e1 : decBytes C.src C.ty h.height h.round
      (E.H (ntsBytes (some h.npch) (climb E.H (E.H (secBytes h.sec)) (readPath h.path)))) =
      decBytes src ty height round (E.H (ntsBytes npch (mroot E.H (xs.map E.H))))
  · obtain ⟨d1, d2, d3, d4, d5⟩ := dec_inj e1 q2
    by_cases e2 : ntsBytes (some h.npch) (climb E.H (E.H (secBytes h.sec)) (readPath h.path)) = ntsBytes npch (mroot E.H (xs.map E.H))
    · obtain ⟨n1, n2⟩ := nts_inj e2 w2
      rcases climb_sound E.H 32 hH xs hx (fun x h => h64 x (by simp [h])) (readPath h.path) hpl _ (hH _) n2 with hc | hm
      · refine Or.inl (collision_mono ?_ ?_ hc)
        · intro x hx; simp only [updCalls, List.mem_append]; exact Or.inr hx
        · intro x hx; simp only [JavaBtpBlock.decCalls, List.mem_append] at hx ⊢; exact Or.inr hx
      · unfold nodes at hm
        simp only [List.mem_append, List.mem_map] at hm
        rcases hm with ⟨x, hx1, hx2⟩ | ⟨y, hy1, hy2⟩
        · by_cases e : secBytes h.sec = x
          · exact Or.inr ⟨e ▸ hx1, n1, d1, d2, d3, d4⟩
          · exact Or.inl ⟨_, by simp [updCalls], x, by simp [JavaBtpBlock.decCalls, hx1], e, hx2.symm⟩
        · refine Or.inl ⟨_, by simp [updCalls], y, by simp [JavaBtpBlock.decCalls, hy1], ?_, hy2.symm⟩
          intro e
          obtain ⟨l, hl, q, hq, e'⟩ := inputs_split E.H _ _ (Nat.le_refl _) y hy1
          have nl : ∀ w ∈ nodes E.H (xs.map E.H), w.length = 32 := by
            intro w hw
            unfold nodes at hw
            simp only [List.mem_append, List.mem_map] at hw
            rcases hw with ⟨_, _, rfl⟩ | ⟨_, _, rfl⟩ <;> exact hH _
          apply h64 (secBytes h.sec) (by simp)
          rw [e, e', List.length_append, nl l hl, nl q hq]
    · exact Or.inl ⟨_, by simp [updCalls], _, by simp [JavaBtpBlock.decCalls], e2, d5⟩
  · exact Or.inl ⟨_, by simp [updCalls], _, by simp [JavaBtpBlock.decCalls], e1, he⟩

/-! ### C74 -/

/-- C74, part: validators change only with an accepted update that has the flag set. -/
theorem C74_solidity_flag_partial (E : Env) (C : Cfg) (s s' : St) (r r' : Nat) (h : Header) (sigs : List Bytes)
    (hk : handleUpdate E C s r h sigs = some (s', r')) : s'.vals = if h.flag = true then h.vals else s.vals := by
  obtain ⟨_, _, _, _, d, sec, _, _, _, _, _, k, _⟩ := handleUpdate_ok hk
  exact k

/-- C74 is false of the code: the next validators are not compared with the signed hash. Whoever relays an accepted update
with the flag set can put any validators into it. -/
theorem C74_solidity_any_validators (E : Env) (C : Cfg) (s s' : St) (r r' : Nat) (h : Header) (sigs : List Bytes)
    (hk : handleUpdate E C s r h sigs = some (s', r')) (hf : h.flag = true) (evil : List Bytes) :
    handleUpdate E C s r { h with vals := evil } sigs = some ({ s' with vals := evil }, r') := by
  unfold handleUpdate at hk ⊢
  split at hk
  · cases hk
  rename_i h1
  split at hk
  · cases hk
  rename_i h2
  split at hk
  · cases hk
  rename_i h3
  split at hk
  · cases hk
  rename_i h4
  rw [if_neg h1, if_neg (by exact h2), if_neg (by exact h3), if_neg (by exact h4)]
  have e1 : decEnc E.H C.src C.ty { h with vals := evil } = decEnc E.H C.src C.ty h := rfl
  have e2 : ({ h with vals := evil } : Header).secEnc = h.secEnc := rfl
  have e3 : ({ h with vals := evil } : Header).flag = true := hf
  rw [e1, e2]
  split at hk
  · rename_i d sec hd hs
    split at hk
    · cases hk
    rename_i h5
    rw [if_neg h5]
    rw [e3, if_pos rfl]
    unfold setMsgs at hk ⊢
    simp only at hk ⊢
    have e4 : ({ h with vals := evil } : Header).sn = h.sn := rfl
    rw [e4]
    split at hk
    · rename_i g
      cases hk
      rw [if_pos g]
    · rename_i g1
      split at hk
      · cases hk
      rename_i g2
      split at hk
      · cases hk
      rename_i g3
      cases hk
      rw [if_neg g1, if_neg g2, if_neg g3]
  · cases hk

/-! ### C73 -/

/-- What the chain guarantees about a signed block: it has the number, the section hash and the messages of the chain, its
section is one of those the decision is about, and more than two thirds of the validators signed the decision, in the order
of the validators. -/
structure Honest (E : Env) (C : Cfg) (s : St) (b : Block) (sn : Nat) (h : Header) (sigs : List Bytes) : Prop where
  typed : h.Typed
  sec : h.nid = C.nid ∧ h.upd = 2 * sn + (if b.flag then 1 else 0) ∧ h.prev = s.secHash ∧ h.cnt = b.msgs.length ∧
    h.root = if b.msgs = [] then zero32 else mroot E.H (b.msgs.map E.H)
  root : b.msgs ≠ [] → h.root ≠ zero32
  small : C.ty < 2 ^ 128 - 1 ∧ h.height < 2 ^ 128 - 1 ∧ h.round < 2 ^ 128 - 1 ∧ h.nid < 2 ^ 128 - 1 ∧ h.upd < 2 ^ 128 - 1
  signed : ∃ (hs : List Bytes) (i : Nat), hs[i]? = some (E.H (secBytes h.sec)) ∧ h.path = encPath (spath E.H hs.length hs i) ∧
    let d := E.H (decBytes C.src C.ty h.height h.round (E.H (ntsBytes (some h.npch) (mroot E.H hs))))
    (∀ x ∈ sigs, (recoverSigner E d x).isSome) ∧ sigs.length ≤ s.vals.length ∧
      2 * s.vals.length < 3 * matches_ (recoverSigner E d) sigs s.vals

/-- The verifier has released all messages before number `sn`. -/
structure Synced (s : St) (sn : Nat) : Prop where
  next : s.next = sn
  last : s.first + s.cnt = sn

theorem uint_some (n : Nat) (h : n < 2 ^ 128 - 1) : ∃ b, SolRlp.encodeUint n = some b := ⟨_, (SolRlp.C59_uint n).1 h⟩

theorem update_honest {E : Env} (hH : ∀ x, (E.H x).length = 32) {C : Cfg} (hsrc : C.src.length < 2 ^ 32) (h80 : C.src ≠ [0x80])
    {s : St} {b : Block} {sn : Nat} {h : Header} {sigs : List Bytes} (hb : b.msgs.length < 2 ^ 63)
    (hs : Synced s sn) (hh : Honest E C s b sn h sigs) :
    ∃ s', handleUpdate E C s 0 h sigs = some (s', b.msgs.length) ∧ s'.next = sn ∧ s'.first + s'.cnt = sn + b.msgs.length ∧
      s'.secHash = E.H (secBytes h.sec) ∧ s'.vals = (if b.flag = true then h.vals else s.vals) ∧
      (b.msgs ≠ [] → s'.root = mroot E.H (b.msgs.map E.H) ∧ s'.cnt = b.msgs.length ∧ s'.first = sn) := by
  obtain ⟨g1, g2, g3, g4, g5⟩ := hh.sec
  obtain ⟨k1, k2, k3, k4, k5⟩ := hh.small
  have hsn : h.sn = sn := by unfold Header.sn; rw [g2]; split <;> omega
  have hfl : h.flag = b.flag := by
    unfold Header.flag; rw [g2]
    cases b.flag <;> simp <;> omega
  obtain ⟨u1, v1⟩ := uint_some _ k1
  obtain ⟨u2, v2⟩ := uint_some _ k2
  obtain ⟨u3, v3⟩ := uint_some _ k3
  obtain ⟨u4, v4⟩ := uint_some _ k4
  obtain ⟨u5, v5⟩ := uint_some _ k5
  obtain ⟨u6, v6⟩ := uint_some h.cnt (by omega)
  have hd : ∃ d, decEnc E.H C.src C.ty h = some d := by
    unfold decEnc Header.secEnc
    simp only [v1, v2, v3, v4, v5, v6, Option.bind_some, Option.map_some]
    exact ⟨_, rfl⟩
  obtain ⟨d, hd⟩ := hd
  obtain ⟨w1, w2, _⟩ := decEnc_eq E.H hH C.src hsrc h80 C.ty h hh.typed hd
  obtain ⟨hs', i, p1, p2, p3, p4, p5⟩ := hh.signed
  rw [p2, readPath_encPath, climb_spath E.H hs'.length hs' (Nat.le_refl _) i _ p1] at w2
  have hv : checkBlockProof E (E.H d) sigs s.vals = true := by
    rw [w2]
    exact C52_solidity_accepts E _ sigs s.vals p3 p4 p5
  have hsmall : s.first + s.cnt < 2 ^ 256 := by
    rw [hs.last]
    have : 2 * sn ≤ h.upd := by omega
    omega
  unfold handleUpdate
  rw [if_neg (by omega), if_neg (by simp [g1]), if_neg (by simp [g3]), if_neg (by rw [hs.next, hsn]; simp), hd, w1]
  simp only
  rw [if_neg (by simp [hv]), hfl]
  unfold setMsgs
  by_cases hm : b.msgs = []
  · rw [if_pos (by rw [g5, if_pos hm])]
    exact ⟨{ s with height := h.height, secHash := E.H (secBytes h.sec), vals := (if b.flag = true then h.vals else s.vals) },
      by rw [hm]; rfl, hs.next, by simp only; rw [hs.last, hm]; rfl, rfl, rfl, fun h0 => absurd hm h0⟩
  · rw [if_neg (hh.root hm)]
    simp only
    rw [if_neg (by omega), if_neg (by rw [hs.last, hsn]; simp)]
    exact ⟨⟨E.H (secBytes h.sec), h.root, h.height, h.cnt, h.sn, s.next, if b.flag = true then h.vals else s.vals⟩, by rw [g4], hs.next, by simp only; omega, rfl, rfl, fun _ => ⟨by simp only; rw [g5, if_neg hm], g4, hsn⟩⟩

/-- C73: when `j` messages of the block are out, the relay's proof of the messages from the next one to the `k`-th is
accepted. -/
theorem C73_solidity_range (E : Env) (hH : ∀ x, E.H x ≠ []) (s : St) (cs : List Bytes) (hM : cs.length < 2 ^ 63) (t : Tree)
    (ht : newTree goCfg E.H (cs.map some) = some t) (j k : Nat) (h1 : j < k) (h2 : k ≤ cs.length)
    (hr : s.root = mroot E.H (cs.map E.H)) (hc : s.cnt = cs.length) (hn : s.next = s.first + j) (hs : s.first + cs.length < 2 ^ 256) :
    ∃ p, t.proof (j + 1 : Nat) k = some p ∧ (ofProof p).mesgs = (cs.drop j).take (k - j) ∧
      handleProof E s (cs.length - j) (ofProof p) = some ({ s with next := s.first + k }, cs.length - k) := by
  obtain ⟨p, q1, q2, q3⟩ := C15_solidity_accepts E.H hH cs hM t ht (j + 1) k (by omega) (by omega) h2
  obtain ⟨t', u1, _, u3⟩ := C11_bulk_root E.H hH cs hM
  rw [ht] at u1; simp at u1; subst u1
  have hl : (ofProof p).mesgs.length = k - j := by rw [q2]; simp; omega
  refine ⟨p, q1, by rw [q2, Nat.add_sub_cancel, List.drop_take], ?_⟩
  unfold handleProof
  rw [q3, u3]
  have hlt : s.next + (k - j) < 2 ^ 256 := Nat.lt_of_le_of_lt (by omega) hs
  rw [if_neg (by rw [hr, hc]; simp), hl, if_neg (by omega), if_neg (Nat.not_le.mpr hlt)]
  simp only [Option.some.injEq, Prod.mk.injEq]
  exact ⟨by congr 1; omega, by omega⟩

/-- The call that relays one block. -/
def blockCall (H : Bytes → Bytes) (C : Cfg) (sn : Nat) (b : Block) (h : Header) (sigs : List Bytes) : Call :=
  ⟨C.bmc, C.src, C.off + sn, .upd h sigs ::
    (((newTree goCfg H (b.msgs.map some)).bind (fun t => t.proof 1 b.msgs.length)).map (fun p => Msg.proof (ofProof p))).toList⟩

/-- C73: a synced verifier accepts the call that relays the next honest block, releases its messages and is synced
again; any sequence offset, any number of networks. -/
theorem C73_solidity_block (E : Env) (hH : ∀ x, (E.H x).length = 32) (C : Cfg) (hsrc : C.src.length < 2 ^ 32) (h80 : C.src ≠ [0x80])
    (s : St) (b : Block) (sn : Nat) (h : Header) (sigs : List Bytes)
    (hb : b.msgs.length < 2 ^ 63) (hs : Synced s sn) (hh : Honest E C s b sn h sigs) :
    ∃ s', handleRelay E C s (blockCall E.H C sn b h sigs) = some (s', b.msgs) ∧ Synced s' (sn + b.msgs.length) ∧
      s'.secHash = E.H (secBytes h.sec) := by
  obtain ⟨s1, a1, a2, a3, a4, a5, a6⟩ := update_honest hH hsrc h80 hb hs hh
  have hpre : handleRelay E C s (blockCall E.H C sn b h sigs) =
      (handleMsgs E C s 0 (blockCall E.H C sn b h sigs).msgs).map (fun x =>
        ({ x.1 with height := (if x.1.height ≠ 0 then x.1.height else s.height) }, x.2.2)) := by
    unfold handleRelay blockCall
    have l := hs.last
    have n := hs.next
    rw [if_neg (by simp), if_neg (by simp), if_neg (by simp), if_neg (by simp only; omega), if_neg (by omega), if_neg (by omega)]
    congr 2
    omega
  have hne : ∀ x, E.H x ≠ [] := fun x h0 => by have := hH x; rw [h0] at this; simp at this
  obtain ⟨t, u1, u2, u3⟩ := C11_bulk_root E.H hne b.msgs (by omega)
  rw [hpre]
  unfold blockCall
  simp only [handleMsgs, a1, u1, Option.bind_some]
  by_cases hm : b.msgs = []
  · have hnone : t.proof 1 b.msgs.length = none := C13_out_of_range t _ _ (by rw [hm]; simp)
    rw [hnone]
    simp only [Option.map_none, Option.toList_none, handleMsgs, Option.map_some, hm]
    refine ⟨_, rfl, ⟨by simp only; rw [a2]; simp, by simp only; rw [a3, hm]⟩, a4⟩
  · obtain ⟨b1, b2, b3⟩ := a6 hm
    have hpos : 0 < b.msgs.length := List.length_pos_iff.mpr hm
    have hsmall : s1.first + b.msgs.length < 2 ^ 256 := by
      have := hh.small.2.2.2.2
      have h2 := hh.sec.2.1
      omega
    obtain ⟨p, q1, q2, q3⟩ := C73_solidity_range E hne s1 b.msgs hb t u1 0 b.msgs.length hpos (Nat.le_refl _) b1 b2
      (by rw [a2, b3]; rfl) hsmall
    have q1' : t.proof 1 b.msgs.length = some p := q1
    simp only [List.drop_zero, Nat.sub_zero, List.take_length] at q2 q3
    rw [q1']
    simp only [Option.map_some, Option.toList_some, handleMsgs, q3, Option.bind_some, q2, List.append_nil]
    exact ⟨_, rfl, ⟨by simp only; omega, a3⟩, a4⟩

/-- Signed blocks, each honest after the calls that relay the ones before it. -/
def HonestFrom (E : Env) (C : Cfg) : St → Nat → List (Block × Header × List Bytes) → Prop
  | _, _, [] => True
  | s, sn, (b, h, sigs) :: t =>
    b.msgs.length < 2 ^ 63 ∧ Honest E C s b sn h sigs ∧
    ∀ s', (handleRelay E C s (blockCall E.H C sn b h sigs)).map (·.1) = some s' → HonestFrom E C s' (sn + b.msgs.length) t

/-- The calls that relay blocks one by one. -/
def relayAll (H : Bytes → Bytes) (C : Cfg) : Nat → List (Block × Header × List Bytes) → List Call
  | _, [] => []
  | sn, (b, h, sigs) :: t => blockCall H C sn b h sigs :: relayAll H C (sn + b.msgs.length) t

/-- C73: every honest chain of signed blocks can be relayed: from a synced state the calls for the blocks are all
accepted and release exactly the messages of the blocks. -/
theorem C73_solidity_chain (E : Env) (hH : ∀ x, (E.H x).length = 32) (C : Cfg) (hsrc : C.src.length < 2 ^ 32) (h80 : C.src ≠ [0x80])
    (s : St) (sn : Nat) (bs : List (Block × Header × List Bytes)) (hs : Synced s sn) (hh : HonestFrom E C s sn bs) :
    (run E C s (relayAll E.H C sn bs)).2.2 = bs.flatMap (·.1.msgs) ∧
    Synced (run E C s (relayAll E.H C sn bs)).1 (sn + (bs.flatMap (·.1.msgs)).length) := by
  induction bs generalizing s sn with
  | nil => simp [relayAll, run, hs]
  | cons x t ih =>
    obtain ⟨b, h, sigs⟩ := x
    obtain ⟨h1, h2, h3⟩ := hh
    obtain ⟨s', q1, q2, _⟩ := C73_solidity_block E hH C hsrc h80 s b sn h sigs h1 hs h2
    obtain ⟨i1, i2⟩ := ih s' (sn + b.msgs.length) q2 (h3 s' (by rw [q1]; rfl))
    simp only [relayAll, q1, run, List.flatMap_cons, List.length_append]
    exact ⟨by rw [i1], by rw [← Nat.add_assoc]; exact i2⟩

/-! ### cases that meet the hypotheses -/

namespace Toy

def hash : Bytes → Bytes := JavaBtpBlock.Toy.hash

/-- A signature is 64 bytes, of which the first is the signer, and 0. -/
def env : Env := ⟨hash, fun _ _ r _ => r.take 1⟩

def sig (a : UInt8) : Bytes := a :: List.replicate 64 0
def cfg : Cfg := ⟨[7], [0x62], 1, 3, 100⟩
def first : Header := ⟨10, 0, hash [9], [], 3, 11, zero32, 0, zero32, [[1], [2], [3], [4]]⟩
def start : St := ⟨hash (secBytes first.sec), zero32, 10, 0, 5, 5, [[1], [2], [3], [4]]⟩
def block : Block := ⟨true, [[5], [6, 6], [8]]⟩
def upd : Header := ⟨11, 0, hash [4, 4], [], 3, 11, start.secHash, 3, mroot hash (block.msgs.map hash), [[8]]⟩
def nets : List Bytes := [hash [1], hash (secBytes upd.sec), hash [3]]
def header : Header := { upd with path := encPath (spath hash 3 nets 1) }

/-- Validators 1, 2 and 4 signed; validator 3 did not and the place is filled. -/
def sigs : List Bytes := [sig 1, sig 2, sig 0, sig 4]

example : init env [7] [0x62] 1 100 first = some (cfg, start) := by
  decide +kernel

theorem hash_len (x : Bytes) : (hash x).length = 32 := JavaBtpBlock.Toy.hash_len x

theorem synced : Synced start 5 := ⟨rfl, rfl⟩

theorem typed : header.Typed where
  npch := by decide +kernel
  prev := by decide +kernel
  root := by decide +kernel
  path := by decide +kernel

theorem honest : Honest env cfg start block 5 header sigs where
  typed := typed
  sec := by decide +kernel
  root := by decide +kernel
  small := by decide +kernel
  signed := ⟨nets, 1, by decide +kernel, rfl, by decide +kernel, by decide +kernel, by decide +kernel⟩

example : (run env cfg start (relayAll env.H cfg 5 [(block, header, sigs)])).2.2 = [[5], [6, 6], [8]] :=
  (C73_solidity_chain env hash_len cfg (by decide) (by decide) start 5 [(block, header, sigs)] synced
    ⟨by decide, honest, fun _ _ => trivial⟩).1

/-- C50: a first block at number 0, a second one with three messages, relayed in one call. -/
def first0 : Header := ⟨10, 0, hash [9], [], 3, 1, zero32, 0, zero32, [[1], [2], [3], [4]]⟩
def start0 : St := ⟨hash (secBytes first0.sec), zero32, 10, 0, 0, 0, [[1], [2], [3], [4]]⟩
def header0 : Header :=
  ⟨11, 0, hash [4, 4], [], 3, 1, start0.secHash, 3, mroot hash (block.msgs.map hash), [[8]]⟩
def call0 : Call := ⟨[7], [0x62], 100, [.upd header0 sigs, .proof ⟨[], [[5], [6, 6]], [(1, hash [8])]⟩]⟩

example : init env [7] [0x62] 1 100 first0 = some (cfg, start0) ∧
    optOf first0.prev = tip hash none (chain hash 3 none 0 []) ∧
    tip hash none (chain hash 3 none 0 [⟨true, []⟩, block]) = some (run env cfg start0 [call0]).1.secHash ∧
    (run env cfg start0 [call0]).2.2 = [[5], [6, 6]] := by decide +kernel

example : PlacedRun env cfg start0 [call0] := by
  have h : handleUpdate env cfg start0 0 header0 sigs =
      some ({ start0 with secHash := hash (secBytes header0.sec), height := 11, root := header0.root, cnt := 3, vals := [[8]] }, 3) := by
    decide +kernel
  simp only [PlacedRun]
  split
  · trivial
  · refine ⟨⟨⟨by decide +kernel, by decide +kernel, by decide +kernel, by decide +kernel⟩, fun x hx => ?_⟩, trivial⟩
    rw [show start0.cnt - (start0.next - start0.first) = 0 from rfl, h] at hx
    simp only [Option.some.injEq] at hx
    subst hx
    exact ⟨⟨rfl, by decide⟩, fun _ _ => trivial⟩

/-- C52, C74: the update above is accepted, also with other validators. -/
example : (handleUpdate env cfg start 0 header sigs).isSome ∧ header.flag = true ∧ start.vals.Nodup := by decide +kernel
example : ((handleUpdate env cfg start 0 { header with vals := [[66]] } sigs).map (·.1.vals)) = some [[66]] := by decide +kernel

/-- C73: with an empty string in the place of validator 3 the same signatures are refused. -/
example : ((handleUpdate env cfg start 0 header [sig 1, sig 2, [], sig 4]).map (·.1.vals)) = none := by decide +kernel

/-- C50: a block of two messages, its first one delivered twice. -/
example : (handleMsgs env cfg { start with root := mroot hash ([[5], [6]].map hash), cnt := 2 } 2
    [.proof ⟨[], [[5]], [(1, hash [6])]⟩, .proof ⟨[], [[5]], [(1, hash [6])]⟩]).map (·.2.2) = some [[5], [5]] := by decide +kernel

/-- C75: the header carries one of the three sections decided on. -/
example : hash ((decEnc hash cfg.src cfg.ty header).getD []) =
      hash (decBytes cfg.src 1 11 0 (hash (ntsBytes (some (hash [4, 4])) (mroot hash ([[1], secBytes upd.sec, [3]].map hash))))) ∧
    (∀ x ∈ secBytes header.sec :: [[1], secBytes upd.sec, [3]], x.length ≠ 64) ∧
    secBytes header.sec ∈ [[1], secBytes upd.sec, [3]] := by decide +kernel

end Toy

end Verif.SolBtpBlock
