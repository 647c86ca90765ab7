import Verif.JavaBtpBlock
/-!
C49, C51, C52 and further properties of the ICON block verifier.
-/
namespace Verif.JavaBtpBlock
open Verif Verif.BtpBlock Verif.Merkle Verif.Mbt

/-! ### what acceptance means -/

theorem handleUpdate_ok {E : Env} {s s' : St} {h : Header} {sigs : List Bytes} (hk : handleUpdate E s h sigs = .ok s') :
    h.sn = s.first + s.cnt - s.off ∧ s.remain = 0 ∧ h.nid = s.nid ∧ h.prev = some s.lastHash ∧
    (∃ r, sectionsRoot E.H (E.H (secBytes h.sec)) (some (E.H (secBytes h.sec))) h.path = some r ∧
      verifyProof E s.pc (decision E s h r) sigs = true) ∧
    ((h.upd % 2 ≠ 1 ∧ s' = s.advance E h) ∨
     (h.upd % 2 = 1 ∧ ∃ c, h.npc = some c ∧ h.npch = some (E.H c) ∧ s.pch ≠ h.npch ∧
       s' = { s.advance E h with pch := h.npch, pc := some c })) := by
  unfold handleUpdate at hk
  simp only at hk
  split at hk
  · cases hk
  split at hk
  · cases hk
  split at hk
  · cases hk
  split at hk
  · cases hk
  split at hk
  · cases hk
  rename_i h1 h2 h3 h4 h5
  split at hk
  · cases hk
  rename_i r hr
  split at hk
  · cases hk
  rename_i h6
  refine ⟨by omega, by simpa using h3, by simpa using Eq.symm (Decidable.not_not.mp h4), by simpa using h5,
    ⟨r, hr, by simpa using h6⟩, ?_⟩
  split at hk
  · rename_i h7
    split at hk
    · cases hk
    rename_i c hc
    split at hk
    · cases hk
    rename_i h8
    split at hk
    · cases hk
    rename_i h9
    cases hk
    exact Or.inr ⟨h7, c, hc, (Decidable.not_not.mp h9).symm, h8, rfl⟩
  · rename_i h7
    cases hk
    exact Or.inl ⟨h7, rfl⟩

theorem handleProof_ok {E : Env} {s s' : St} {bu : Option Header} {p : Proof} (hk : handleProof E s bu p = .ok s') :
    0 < s.remain ∧ ∃ hash total, proofRoot javaCfg E.H p = some (hash, s.processed, total) ∧
      (∀ h, bu = some h → s.processed ≤ 0) ∧
      i32 (expCnt s bu) = total ∧ (expRoot s bu).getD [] = hash ∧
      s' = { s with
        root := (if i32 (total - s.processed - p.contents.length) = 0 then none else s.root)
        lastSeq := s.lastSeq + p.contents.length } := by
  unfold handleProof at hk
  split at hk
  · cases hk
  rename_i h1
  split at hk
  · cases hk
  rename_i hash offset total hp
  split at hk
  · cases hk
  rename_i h2
  split at hk
  · cases hk
  rename_i h3
  split at hk
  · cases hk
  rename_i h4
  split at hk
  · cases hk
  rename_i h5
  cases hk
  have h2' := Decidable.not_not.mp h2
  subst h2'
  refine ⟨by omega, hash, total, hp, ?_, Decidable.not_not.mp h4, Decidable.not_not.mp h5, rfl⟩
  intro h hb
  subst hb
  simp [misplaced] at h3
  exact h3

/-! ### C49 -/

/-- Accepted sections with the messages released from each, newest first. -/
abbrev Book := List (Sec × List Bytes)

/-- How one accepted message changes the book. -/
def book : Book → Msg → Book
  | l, .upd h _ => (h.sec, []) :: l
  | (s, ms) :: t, .proof p => (s, ms ++ p.contents) :: t
  | [], .proof _ => []

/-- The strings the verifier hashes as sections and message trees. -/
def hashed (H : Bytes → Bytes) : Msg → List Bytes
  | .upd h _ => [secBytes h.sec]
  | .proof p => proofCalls javaCfg H p

/-- Everything released, oldest first. -/
def released (l : Book) : List Bytes := (l.reverse.map (·.2)).flatten

/-- A proof whose leaf counts are positive and do not overflow. -/
def Fine (H : Bytes → Bytes) (p : Proof) : Prop :=
  (∀ x ∈ p.lefts ++ p.rights, 1 ≤ x.num) ∧ count (blocks H p) < 2 ^ 31

/-- The messages released from a section are the first ones of any list of messages the section commits to, unless a
collision shows. -/
def GoodEntry (H : Bytes → Bytes) (hs : List Bytes) (e : Sec × List Bytes) : Prop :=
  ∀ cs : List Bytes, e.1.root = some (mroot H (cs.map H)) → e.1.cnt = cs.length → cs.length < 2 ^ 31 →
    Collision H hs (treeCalls H cs) ∨ e.2 = cs.take e.2.length

theorem collision_mono {H : Bytes → Bytes} {a a' b b' : List Bytes} (ha : ∀ x ∈ a, x ∈ a') (hb : ∀ x ∈ b, x ∈ b')
    (h : Collision H a b) : Collision H a' b' := by
  obtain ⟨x, h1, y, h2, h3⟩ := h
  exact ⟨x, ha x h1, y, hb y h2, h3⟩

theorem GoodEntry.mono {H : Bytes → Bytes} {a a' : List Bytes} {e : Sec × List Bytes} (h : GoodEntry H a e)
    (ha : ∀ x ∈ a, x ∈ a') : GoodEntry H a' e := by
  intro cs h1 h2 h3
  rcases h cs h1 h2 h3 with h | h
  · exact Or.inl (collision_mono ha (fun _ h => h) h)
  · exact Or.inr h

structure Inv (E : Env) (s : St) (l : Book) (hs : List Bytes) : Prop where
  off : s.off = 0
  cur : ∃ sec ms t, l = (sec, ms) :: t ∧ s.lastHash = E.H (secBytes sec) ∧ s.cnt = sec.cnt ∧
    s.lastSeq = s.first + ms.length ∧ (∀ e ∈ t, e.1.cnt = e.2.length) ∧ (sec.cnt ≤ 0 → ms = []) ∧
    (s.cnt < 2 ^ 31 → 0 < s.remain → s.root = sec.root)
  linked : Linked E.H none (l.map (·.1)).reverse
  good : ∀ e ∈ l, GoodEntry E.H hs e

theorem init_inv {E : Env} {src bmc : Bytes} {ty : Int} {h : Header} {s : St} (hi : init E src ty bmc 0 h = some s)
    (h0 : h.sn = 0) : Inv E s [(h.sec, [])] [] ∧ h.prev = none := by
  unfold init at hi
  split at hi
  · cases hi
  rename_i hp
  have hp' : h.prev = none := Decidable.not_not.mp hp
  split at hi
  · cases hi
  split at hi
  · cases hi
  cases hi
  refine ⟨⟨rfl, ⟨h.sec, [], [], rfl, ?_, rfl, ?_, ?_, fun _ => rfl, fun _ _ => rfl⟩, ?_, ?_⟩, hp'⟩
  · simp [Header.sec, hp']
  · simp [h0]
  · simp
  · simp [Linked, Header.sec, hp']
  · intro e he
    simp only [List.mem_singleton] at he
    subst he
    intro cs _ _ _
    exact Or.inr (by simp)

theorem update_inv {E : Env} {s s' : St} {l : Book} {hs : List Bytes} {h : Header} {sigs : List Bytes} (hI : Inv E s l hs)
    (hk : handleUpdate E s h sigs = .ok s') :
    Inv E s' ((h.sec, []) :: l) (hs ++ [secBytes h.sec]) := by
  obtain ⟨k1, k2, k3, k4, _, k6⟩ := handleUpdate_ok hk
  obtain ⟨sec, ms, t, e1, e2, e3, e4, e5, e6, e7⟩ := hI.cur
  have hoff := hI.off
  have hseq : s.lastSeq = h.sn := by
    unfold St.remain St.processed at k2
    omega
  have hfull : sec.cnt = ms.length := by
    unfold St.remain St.processed at k2
    omega
  have hs' : s'.off = 0 ∧ s'.lastHash = E.H (secBytes h.sec) ∧ s'.cnt = h.cnt ∧ s'.lastSeq = s.lastSeq ∧ s'.first = h.sn ∧
      s'.root = h.root := by
    rcases k6 with ⟨_, rfl⟩ | ⟨_, c, _, _, _, rfl⟩ <;> exact ⟨hoff, rfl, rfl, rfl, rfl, rfl⟩
  obtain ⟨q1, q2, q3, q4, q5, q6⟩ := hs'
  refine ⟨q1, ⟨h.sec, [], l, rfl, q2, q3, ?_, ?_, fun _ => rfl, fun _ _ => q6⟩, ?_, ?_⟩
  · rw [q4, q5, hseq]; simp
  · intro e he
    rw [e1] at he
    simp only [List.mem_cons] at he
    rcases he with rfl | he
    · exact hfull
    · exact e5 e he
  · simp only [List.map_cons, List.reverse_cons]
    refine linked_append.mpr ⟨hI.linked, ?_, trivial⟩
    rw [e1]
    simp only [List.map_cons, List.reverse_cons]
    rw [tip_snoc, ← e2]
    exact k4
  · intro e he
    simp only [List.mem_cons] at he
    rcases he with rfl | he
    · intro cs _ _ _
      exact Or.inr (by simp)
    · exact (hI.good e he).mono (by intro x hx; simp [hx])

theorem i32_small {n : Int} (h0 : 0 ≤ n) (h : n < 2 ^ 31) : i32 n = n := by unfold i32; omega

theorem proof_inv {E : Env} {s s' : St} {l : Book} {hs : List Bytes} {bu : Option Header} {p : Proof} (L : Nat)
    (hH : ∀ x, (E.H x).length = L) (hI : Inv E s l hs) (hb : ∀ h, bu = some h → ∃ ms t, l = (h.sec, ms) :: t)
    (hf : Fine E.H p) (hk : handleProof E s bu p = .ok s') :
    Inv E s' (book l (.proof p)) (hs ++ proofCalls javaCfg E.H p) := by
  obtain ⟨k1, hash, total, k2, k3, k4, k5, k6⟩ := handleProof_ok hk
  obtain ⟨sec, ms, t, e1, e2, e3, e4, e5, e6, e7⟩ := hI.cur
  have hproc : s.processed = ms.length := by unfold St.processed; omega
  have hrem : s.remain = sec.cnt - ms.length := by unfold St.remain; rw [hproc, e3]
  have hcnt : expCnt s bu = sec.cnt := by
    cases bu with
    | none => exact e3
    | some h =>
      obtain ⟨m, t', hl⟩ := hb h rfl
      rw [e1] at hl
      injection hl with h1 h2
      injection h1 with h3 h4
      rw [h3]; rfl
  have hroot : sec.cnt < 2 ^ 31 → expRoot s bu = sec.root := by
    intro hlt
    cases bu with
    | none => exact e7 (by omega) (by omega)
    | some h =>
      obtain ⟨m, t', hl⟩ := hb h rfl
      rw [e1] at hl
      injection hl with h1 h2
      injection h1 with h3 h4
      rw [h3]; rfl
  have hpos : 0 < sec.cnt := by omega
  subst e1
  simp only [book]
  refine ⟨by rw [k6]; exact hI.off, ⟨sec, ms ++ p.contents, t, rfl, by rw [k6]; exact e2, by rw [k6]; exact e3, ?_, e5,
    fun h => by omega, ?_⟩, hI.linked, ?_⟩
  · rw [k6]; simp only [List.length_append]; omega
  · intro hlt hr
    have hlt' : sec.cnt < 2 ^ 31 := by rw [k6] at hlt; simp only at hlt; omega
    rw [k6]
    simp only
    rw [if_neg, e7 (by omega) (by omega)]
    · rw [hcnt, i32_small (by omega) hlt'] at k4
      rw [← k4, hproc]
      have : s'.remain = sec.cnt - ms.length - p.contents.length := by
        rw [k6]; simp only [St.remain, St.processed]; omega
      intro h0
      rw [i32_small (by omega) (by omega)] at h0
      omega
  · intro e he
    simp only [List.mem_cons] at he
    rcases he with rfl | he
    · intro cs c1 c2 c3
      rcases hI.good (sec, ms) (by simp) cs c1 c2 c3 with hc | hc
      · exact Or.inl (collision_mono (by intro x hx; simp [hx]) (fun _ h => h) hc)
      · simp only at c1 c2 hc ⊢
        by_cases hp : p.contents = []
        · refine Or.inr ?_
          rw [hp, List.append_nil]; exact hc
        · rw [hroot (by omega), c1] at k5
          rw [hcnt, c2, i32_small (by omega) (by omega)] at k4
          simp only [Option.getD_some] at k5
          rw [← k4, ← k5, hproc] at k2
          rcases (C65_java_soundness_partial E.H L hH cs p hf.1 hf.2 _ hp k2).2 with hc' | hc'
          · exact Or.inl (collision_mono (by intro x hx; simp [hx]) (fun _ h => h) hc')
          · refine Or.inr ?_
            rw [Int.toNat_natCast] at hc'
            rw [List.length_append, List.take_add, ← hc, ← hc']
    · exact (hI.good e (by simp [he])).mono (by intro x hx; simp [hx])

theorem msgs_inv {E : Env} (L : Nat) (hH : ∀ x, (E.H x).length = L) (msgs : List Msg) {s s' : St} {l : Book} {hs : List Bytes}
    {bu : Option Header} {out : List Bytes} (hI : Inv E s l hs)
    (hb : ∀ h, bu = some h → ∃ ms t, l = (h.sec, ms) :: t)
    (hf : ∀ p, Msg.proof p ∈ msgs → Fine E.H p) (hk : handleMsgs E s bu msgs = .ok (s', out)) :
    Inv E s' (msgs.foldl book l) (hs ++ msgs.flatMap (hashed E.H)) ∧ released (msgs.foldl book l) = released l ++ out := by
  induction msgs generalizing s l hs bu out with
  | nil =>
    simp only [handleMsgs] at hk
    cases hk
    simpa using hI
  | cons m t ih =>
    cases m with
    | upd h sigs =>
      simp only [handleMsgs] at hk
      split at hk
      · cases hk
      rename_i s1 h1
      have := ih (update_inv hI h1) (by intro h' hh; cases hh; exact ⟨[], l, rfl⟩)
        (fun p hp => hf p (by simp [hp])) hk
      refine ⟨by simpa [List.foldl_cons, book, hashed, List.append_assoc] using this.1, ?_⟩
      rw [List.foldl_cons]
      refine Eq.trans this.2 ?_
      simp [released]
    | proof p =>
      simp only [handleMsgs] at hk
      split at hk
      · cases hk
      rename_i s1 h1
      split at hk
      · cases hk
      rename_i s2 o h2
      cases hk
      have hp := proof_inv L hH hI hb (hf p (by simp)) h1
      obtain ⟨sec, ms, t', e1, _⟩ := hI.cur
      have := ih hp (by
        intro h hh
        obtain ⟨m, t2, hl⟩ := hb h hh
        rw [hl]
        exact ⟨m ++ p.contents, t2, rfl⟩) (fun q hq => hf q (by simp [hq])) h2
      refine ⟨by simpa [List.foldl_cons, hashed, List.append_assoc] using this.1, ?_⟩
      rw [List.foldl_cons]
      refine Eq.trans this.2 ?_
      rw [e1]
      simp [released, book, List.append_assoc]

theorem run_inv {E : Env} (L : Nat) (hH : ∀ x, (E.H x).length = L) (calls : List Call) {s : St} {l : Book} {hs : List Bytes}
    (hI : Inv E s l hs) (hf : ∀ p, Msg.proof p ∈ (run E s calls).2.1 → Fine E.H p) :
    Inv E (run E s calls).1 ((run E s calls).2.1.foldl book l) (hs ++ (run E s calls).2.1.flatMap (hashed E.H)) ∧
      released ((run E s calls).2.1.foldl book l) = released l ++ (run E s calls).2.2 := by
  induction calls generalizing s l hs with
  | nil => simpa [run] using hI
  | cons c t ih =>
    unfold run at hf ⊢
    cases hr : handleRelay E s c with
    | error e =>
      rw [hr] at hf
      exact ih hI hf
    | ok r =>
      obtain ⟨s', out⟩ := r
      rw [hr] at hf
      simp only at hf ⊢
      have hm : handleMsgs E s none c.msgs = .ok (s', out) := by
        unfold handleRelay at hr
        repeat (split at hr; · cases hr)
        exact hr
      obtain ⟨i1, i2⟩ := msgs_inv L hH c.msgs hI (by intro h hh; cases hh) (fun p hp => hf p (by simp [hp])) hm
      obtain ⟨j1, j2⟩ := ih i1 (fun p hp => hf p (by simp [hp]))
      rw [List.foldl_append]
      refine ⟨by simpa [List.append_assoc] using j1, ?_⟩
      rw [j2, i2, List.append_assoc]

/-- The strings hashed by the honest chain. -/
def honestHashed (H : Bytes → Bytes) (nid : Int) (bs : List Block) : List Bytes :=
  (chain H nid none 0 bs).map secBytes ++ bs.flatMap (fun b => treeCalls H b.msgs)

theorem entries_match (H : Bytes → Bytes) (nid : Int) (hs : List Bytes) (bs : List Block) (prev : Option Bytes) (sn : Nat)
    (l : Book) (hl : l.map (·.1) = chain H nid prev sn bs) (hg : ∀ e ∈ l, GoodEntry H hs e)
    (hfull : ∀ e ∈ l, e.1.cnt = e.2.length) (hb : ∀ b ∈ bs, b.msgs.length < 2 ^ 31) :
    Collision H hs (bs.flatMap (fun b => treeCalls H b.msgs)) ∨ (l.map (·.2)).flatten = bs.flatMap (·.msgs) := by
  induction bs generalizing prev sn l with
  | nil =>
    simp only [chain, List.map_eq_nil_iff] at hl
    subst hl; simp
  | cons b t ih =>
    match l, hl with
    | (sec, ms) :: l', hl =>
      simp only [chain, List.map_cons, List.cons.injEq] at hl
      obtain ⟨h1, h2⟩ := hl
      have hfl := hfull (sec, ms) (by simp)
      rw [h1] at hfl
      simp only [secOf] at hfl
      have hlen : ms.length = b.msgs.length := by omega
      have hms : Collision H hs (treeCalls H b.msgs) ∨ ms = b.msgs := by
        by_cases hb0 : b.msgs = []
        · rw [hb0] at hlen ⊢
          exact Or.inr (List.length_eq_zero_iff.mp (by simpa using hlen))
        · rcases hg (sec, ms) (by simp) b.msgs (by rw [h1]; simp [secOf, hb0]) (by rw [h1]; simp [secOf]) (hb b (by simp))
            with h | h
          · exact Or.inl h
          · simp only [hlen, List.take_length] at h; exact Or.inr h
      rcases hms with hc | rfl
      · refine Or.inl (collision_mono (fun _ h => h) ?_ hc)
        intro x hx; simp only [List.flatMap_cons, List.mem_append]; exact Or.inl hx
      · rcases ih _ _ l' h2 (fun e he => hg e (by simp [he])) (fun e he => hfull e (by simp [he]))
          (fun x hx => hb x (by simp [hx])) with hc | hc
        · refine Or.inl (collision_mono (fun _ h => h) ?_ hc)
          intro x hx; simp only [List.flatMap_cons, List.mem_append]; exact Or.inr hx
        · refine Or.inr ?_
          simp only [List.map_cons, List.flatten_cons, List.flatMap_cons, hc]

theorem chain_append (H : Bytes → Bytes) (nid : Int) (prev : Option Bytes) (sn : Nat) (a b : List Block) :
    ∃ prev' sn', chain H nid prev sn (a ++ b) = chain H nid prev sn a ++ chain H nid prev' sn' b := by
  induction a generalizing prev sn with
  | nil => exact ⟨prev, sn, rfl⟩
  | cons x t ih =>
    obtain ⟨p, n, h⟩ := ih (some (H (secBytes (secOf H nid prev sn x)))) (sn + x.msgs.length)
    exact ⟨p, n, by simp [chain, h]⟩

/-- C49, part: whatever relay calls are made, if all accepted proofs have positive leaf counts and the last accepted
section is that of an honest chain, then the verifier has released, in order and each once, all messages of the chain
up to its last block and the first ones of the last block - or a hash collision shows. -/
theorem C49_java_in_order_partial (E : Env) (L : Nat) (hH : ∀ x, (E.H x).length = L) (src bmc : Bytes) (ty : Int) (h0 : Header)
    (s0 : St) (hi : init E src ty bmc 0 h0 = some s0) (hsn : h0.sn = 0) (calls : List Call)
    (hf : ∀ p, Msg.proof p ∈ (run E s0 calls).2.1 → Fine E.H p)
    (hsmall : ∀ h sigs, (h = h0 ∨ Msg.upd h sigs ∈ (run E s0 calls).2.1) → (secBytes h.sec).length < 2 ^ 63)
    (nid : Int) (bs : List Block) (hb : ∀ b ∈ bs, b.msgs.length < 2 ^ 31)
    (htip : tip E.H none (chain E.H nid none 0 bs) = some (run E s0 calls).1.lastHash) :
    Collision E.H (secBytes h0.sec :: (run E s0 calls).2.1.flatMap (hashed E.H)) (honestHashed E.H nid bs) ∨
    ∃ done last k, bs = done ++ [last] ∧ (run E s0 calls).2.2 = done.flatMap (·.msgs) ++ last.msgs.take k := by
  obtain ⟨iI, ip⟩ := init_inv hi hsn
  obtain ⟨jI, jr⟩ := run_inv L hH calls iI hf
  have hsecs : ∀ (ms : List Msg) (l : Book), ∀ x ∈ (ms.foldl book l).map (·.1), x ∈ l.map (·.1) ∨ ∃ h sigs, Msg.upd h sigs ∈ ms ∧ x = h.sec := by
    intro ms
    induction ms with
    | nil => intro l x hx; exact Or.inl hx
    | cons m t ih =>
      intro l x hx
      rw [List.foldl_cons] at hx
      rcases ih _ x hx with h | ⟨h, sg, h1, h2⟩
      · match l, m, h with
        | l, .upd h' sg, h =>
          simp only [book, List.map_cons, List.mem_cons] at h
          rcases h with h | h
          · exact Or.inr ⟨h', sg, by simp, h⟩
          · exact Or.inl h
        | (s, m) :: t, .proof p, h => simp only [book, List.map_cons, List.mem_cons] at h ⊢; exact Or.inl h
        | [], .proof _, h => simp [book] at h
      · exact Or.inr ⟨h, sg, by simp [h1], h2⟩
  generalize hrun : run E s0 calls = r at *
  obtain ⟨s, acc, out⟩ := r
  simp only at hf hsmall htip jI jr ⊢
  simp only [released, List.reverse_cons, List.reverse_nil, List.nil_append, List.map_cons, List.map_nil, List.flatten_cons,
    List.flatten_nil] at jr
  have hmem : ∀ x ∈ (acc.foldl book [(h0.sec, [])]).map (·.1),
      (secBytes x).length < 2 ^ 63 ∧ secBytes x ∈ secBytes h0.sec :: acc.flatMap (hashed E.H) := by
    intro x hx
    rcases hsecs acc _ x hx with h | ⟨h, sg, h1, rfl⟩
    · simp only [List.map_cons, List.map_nil, List.mem_singleton] at h
      rw [h]
      exact ⟨hsmall h0 [] (Or.inl rfl), by simp⟩
    · refine ⟨hsmall h sg (Or.inr h1), ?_⟩
      simp only [List.mem_cons, List.mem_flatMap]
      exact Or.inr ⟨_, h1, by simp [hashed]⟩
  obtain ⟨sec, ms, t, e1, e2, e3, e4, e5, e6, e7⟩ := jI.cur
  have hlink := jI.linked
  have hgood := jI.good
  rw [e1] at hlink hgood hmem jr
  have htip' : tip E.H none (((sec, ms) :: t).map (·.1)).reverse = some s.lastHash := by
    simp only [List.map_cons, List.reverse_cons]
    rw [tip_snoc, e2]
  rcases linked_unique E.H _ _ hlink (chain_linked E.H nid none 0 bs) (by
      intro x hx
      exact (hmem x (List.mem_reverse.mp hx)).1) (by rw [htip', htip]) with hc | hc
  · refine Or.inl (collision_mono ?_ ?_ hc)
    · intro x hx
      obtain ⟨y, hy, rfl⟩ := List.mem_map.mp hx
      exact (hmem y (List.mem_reverse.mp hy)).2
    · intro x hx; unfold honestHashed; simp only [List.mem_append]; exact Or.inl hx
  · rcases List.eq_nil_or_concat bs with rfl | ⟨done, last, rfl⟩
    · simp [chain] at hc
    · rw [List.concat_eq_append] at *
      obtain ⟨p', n', hch⟩ := chain_append E.H nid none 0 done [last]
      rw [hch] at hc
      simp only [List.map_cons, List.reverse_cons, chain] at hc
      obtain ⟨hc1, hc2⟩ := List.append_inj' hc rfl
      simp only [List.cons.injEq, and_true] at hc2
      rw [← List.map_reverse] at hc1
      rcases entries_match E.H nid (secBytes h0.sec :: acc.flatMap (hashed E.H)) done none 0 t.reverse hc1 (by
        intro e he
        exact (hgood e (by simp at he; simp [he])).mono (by intro x hx; simp at hx; simp [hx])) (by
        intro e he
        exact e5 e (by simpa using he)) (fun b hb' => hb b (by simp [hb'])) with hcol | hdone
      · refine Or.inl (collision_mono (fun _ h => h) ?_ hcol)
        intro x hx; unfold honestHashed; simp only [List.mem_append, List.flatMap_append]; exact Or.inr (Or.inl hx)
      · have hlast : Collision E.H (secBytes h0.sec :: acc.flatMap (hashed E.H)) (treeCalls E.H last.msgs) ∨
            ms = last.msgs.take ms.length := by
          by_cases hl0 : last.msgs = []
          · refine Or.inr ?_
            rw [e6 (by rw [hc2]; simp [secOf, hl0])]; simp
          · rcases hgood (sec, ms) (by simp) last.msgs (by rw [hc2]; simp [secOf, hl0]) (by rw [hc2]; simp [secOf])
              (hb last (by simp)) with h | h
            · exact Or.inl (collision_mono (by intro x hx; simp at hx; simp [hx]) (fun _ h => h) h)
            · exact Or.inr h
        rcases hlast with hcol | hl
        · refine Or.inl (collision_mono (fun _ h => h) ?_ hcol)
          intro x hx; unfold honestHashed
          simp only [List.mem_append, List.flatMap_append, List.flatMap_cons, List.flatMap_nil, List.append_nil]
          exact Or.inr (Or.inr hx)
        · refine Or.inr ⟨done, last, ms.length, rfl, ?_⟩
          rw [← hl, ← hdone]
          simp only [List.reverse_cons, List.map_append, List.flatten_append, List.map_cons, List.map_nil, List.flatten_cons,
            List.flatten_nil, List.append_nil] at jr
          exact jr.symm

end Verif.JavaBtpBlock
