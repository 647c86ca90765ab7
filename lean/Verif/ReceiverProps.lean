import Verif.Receiver
import Verif.LinkProps
import Verif.MbtProps
import Verif.BmvBridge
/-! Theorems on the relay's receivers: bridge (C32), btp2 (C33, C82), ethbr (C34), alone and inside the link. -/
namespace Verif.Receiver
open Verif Verif.Link Verif.Mbt

/-! ### C32: bridge -/

theorem brEvents_all (rx sn : Int) (ms : List Bytes) (h : rx < sn) :
    brEvents rx sn ms = ms.zipIdx.map (fun p => (sn + p.2, p.1)) := by
  suffices H : ∀ (k : Nat) (sn : Int), rx < sn →
      brEvents rx sn ms = (ms.zipIdx k).map (fun p => (sn - k + p.2, p.1)) by
    have := H 0 sn h
    simpa using this
  induction ms with
  | nil => intro k sn _; rfl
  | cons m ms ih =>
    intro k sn hs
    simp only [brEvents, List.zipIdx_cons, List.map_cons, if_pos (show sn > rx by omega)]
    rw [ih (k + 1) (sn + 1) (by omega)]
    have e1 : sn - (k : Int) + (k : Int) = sn := by omega
    have e2 : sn + 1 - ((k + 1 : Nat) : Int) = sn - k := by omega
    rw [e1, e2]

theorem brEvents_length (rx sn : Int) (ms : List Bytes) (h : rx < sn) : (brEvents rx sn ms).length = ms.length := by
  rw [brEvents_all rx sn ms h]; simp

theorem brEvents_get (rx sn : Int) (ms : List Bytes) (h : rx < sn) (i : Nat) :
    (brEvents rx sn ms)[i]? = (ms[i]?).map (fun m => (sn + i, m)) := by
  rw [brEvents_all rx sn ms h, List.getElem?_map, List.getElem?_zipIdx]
  cases ms[i]? <;> simp

/-- C32 is false of the code. For every block of `k ≥ 1` messages none of which is delivered yet, the proof the bridge
receiver builds holds only the block's last message, while the status it reports has all `k` delivered. -/
theorem C32_bridge_only_last (plen : Int → List Ev → Nat) (rss : List BrRS) (b : Bls) (limit h : Int) (ms : List Bytes)
    (m : Bytes) (hl : 8 ≤ limit)
    (hat : brAt rss (b.rx + 1) = some (brStatus h b.rx (b.rx + 1) (ms ++ [m]))) :
    brMsgProof plen rss b limit =
      .ok (some ⟨.message, plen h [(b.rx + (ms.length + 1), m)], ⟨b.rx + (ms.length + 1), b.height⟩, 0,
        some (h, [(b.rx + (ms.length + 1), m)])⟩) := by
  have hlen : (brEvents b.rx (b.rx + 1) (ms ++ [m])).length = ms.length + 1 := by
    rw [brEvents_length _ _ _ (by omega)]; simp
  have hget := brEvents_get b.rx (b.rx + 1) (ms ++ [m]) (by omega) ms.length
  unfold brMsgProof
  rw [hat]
  simp only [brStatus, hlen]
  have e1 : (((ms.length + 1 : Nat) : Int) - (b.rx - (b.rx + 1 - ((ms.length + 1 : Nat) : Int)))).toNat = 1 := by omega
  have e2 : b.rx - (b.rx + 1 - ((ms.length + 1 : Nat) : Int)) = (ms.length : Int) := by omega
  rw [e1, e2]
  have e3 : at? (brEvents b.rx (b.rx + 1) (ms ++ [m])) (ms.length : Int) = some (b.rx + (ms.length + 1), m) := by
    unfold at?
    rw [if_neg (by omega), Int.toNat_natCast, hget]
    simp
    omega
  unfold brLoop
  simp only [e3]
  rw [if_neg (by omega)]
  unfold brLoop
  simp only [hlen, mkProof, List.nil_append]
  norm_cast

/-- C32: a block with one undelivered message is handled right: the proof holds exactly that message, under its
sequence number, and reports it as the last. -/
theorem C32_bridge_single_partial (plen : Int → List Ev → Nat) (rss : List BrRS) (b : Bls) (limit h : Int) (m : Bytes)
    (hl : 8 ≤ limit) (hat : brAt rss (b.rx + 1) = some (brStatus h b.rx (b.rx + 1) [m])) :
    ∃ len, brMsgProof plen rss b limit =
      .ok (some ⟨.message, len, ⟨b.rx + 1, b.height⟩, 0, some (h, [(b.rx + 1, m)])⟩) := by
  have := C32_bridge_only_last plen rss b limit h [] m hl hat
  simp only [List.length_nil, Int.natCast_zero, Int.zero_add] at this
  exact ⟨_, this⟩

/-- C32: a block without messages (a change of validators) that comes next in sequence makes the receiver panic, with
any limit. -/
theorem C32_bridge_empty_block_panics (plen : Int → List Ev → Nat) (rss : List BrRS) (b : Bls) (limit h : Int)
    (hat : brAt rss (b.rx + 1) = some (brStatus h b.rx (b.rx + 1) [])) : brMsgProof plen rss b limit = .panic := by
  unfold brMsgProof
  rw [hat]
  simp only [brStatus, brEvents, List.length_nil, Int.natCast_zero]
  have e1 : (0 - (b.rx - (b.rx + 1 - 0))).toNat = 1 := by omega
  rw [e1]
  unfold brLoop
  have e2 : at? ([] : List Ev) (b.rx - (b.rx + 1 - 0)) = none := by
    unfold at?; rw [if_pos (by omega)]
  simp only [e2]

/-- C32: the rest of a block that is partly delivered is never offered: the status of such a block carries the number
of its first message, so no proof is built from it. -/
theorem C32_bridge_partly_delivered (plen : Int → List Ev → Nat) (b : Bls) (limit h sn : Int) (ms : List Bytes)
    (hs : sn ≤ b.rx) : brMsgProof plen [brStatus h b.rx sn ms] b limit = .ok none := by
  unfold brMsgProof brAt
  have : ¬ (b.rx + 1 ≤ sn ∧ b.rx + 1 ≥ sn) := by omega
  simp [List.find?, brStatus, this]

/-- C32, at the destination: the relay message made of that proof is refused by the Solidity bridge verifier for every
block of two or more messages, so the block is never delivered. -/
theorem C32_refused (bmc : Bytes) (rx h vh : Nat) (ms : List Bytes) (m : Bytes) (hms : ms ≠ []) (hh : vh ≤ h)
    (next : Bytes) :
    BmvBridge.sHandle true bmc vh rx [⟨h, [⟨next, rx + (ms.length + 1), m⟩]⟩] = none := by
  have hl : 0 < ms.length := List.length_pos_iff.mpr hms
  unfold BmvBridge.sHandle
  simp only [if_true]
  unfold BmvBridge.inc256
  split
  · rfl
  · rename_i n hn
    have hn' : n = rx + 1 := by
      split at hn
      · simp only [Option.some.injEq] at hn; omega
      · cases hn
    subst hn'
    unfold BmvBridge.sProofs
    simp only [BmvBridge.sEvents]
    rw [if_neg (by omega), if_neg (by omega), if_pos (by omega)]

/-! ### C33: btp2 -/

/-- The loop of the btp2 receiver: with `k` rounds left it returns a proof for the messages after `o` up to some `i`,
reports `rx + i`, and stops before the last message only when the proof it returns is over the limit. -/
theorem b2Loop_spec (E : B2Env) (hH : ∀ x, E.H x ≠ []) (cs : List Bytes) (hM : cs.length < 2 ^ 63) (t : Tree)
    (ht : newTree goCfg E.H (cs.map some) = some t) (hc : t.contents = cs) (b : Bls) (limit : Int) (o : Nat) (k i : Nat)
    (hi : o < i) (hk : i + k = cs.length) :
    ∃ j p, o < j ∧ i ≤ j ∧ j ≤ cs.length ∧ t.proof (o + 1 : Nat) (j : Nat) = some p ∧ p.contents = (cs.take j).drop o ∧
      b2Loop E b limit t o k i = .ok (some (mkProof b (b.rx + j) (E.plen p) p)) ∧
      (j < cs.length → limit < E.plen p) ∧
      (∀ j', i ≤ j' → j' < j → ∃ p', t.proof (o + 1 : Nat) (j' : Nat) = some p' ∧ (E.plen p' : Int) ≤ limit) := by
  induction k generalizing i with
  | zero =>
    obtain ⟨p, h1, h2, _⟩ := C13_range_proof E.H hH cs hM t ht (o + 1) cs.length (by omega) (by omega) (by omega)
    refine ⟨cs.length, p, by omega, by omega, by omega, h1, by simpa using h2, ?_, by omega, by omega⟩
    unfold b2Loop
    have e : (o : Int) + 1 = ((o + 1 : Nat) : Int) := by omega
    rw [hc, e, h1]
  | succ k ih =>
    obtain ⟨p, h1, h2, _⟩ := C13_range_proof E.H hH cs hM t ht (o + 1) i (by omega) (by omega) (by omega)
    have e : (o : Int) + 1 = ((o + 1 : Nat) : Int) := by omega
    by_cases hl : limit < E.plen p
    · refine ⟨i, p, hi, by omega, by omega, h1, by simpa using h2, ?_, fun _ => hl, by omega⟩
      unfold b2Loop
      rw [e, h1]
      simp only [if_pos hl]
    · obtain ⟨j, p', q1, q2, q3, q4, q5, q6, q7, q8⟩ := ih (i + 1) (by omega) (by omega)
      refine ⟨j, p', q1, by omega, q3, q4, q5, ?_, q7, ?_⟩
      · unfold b2Loop
        rw [e, h1]
        simp only [if_neg hl]
        exact q6
      · intro j' a1 a2
        by_cases hj : j' = i
        · subst hj; exact ⟨p, h1, by omega⟩
        · exact q8 j' (by omega) a2

/-- What the btp2 receiver knows of a block with messages `cs` that ends with sequence number `seq`. -/
def B2Block (E : B2Env) (rss : List B2RS) (h seq : Int) (cs : List Bytes) : Prop :=
  ∃ t, newTree goCfg E.H (cs.map some) = some t ∧ b2At rss h = some ⟨h, seq, t⟩

theorem newTree_contents (H : Bytes → Bytes) (hH : ∀ x, H x ≠ []) (cs : List Bytes) (hM : cs.length < 2 ^ 63) (t : Tree)
    (ht : newTree goCfg H (cs.map some) = some t) : t.contents = cs := by
  obtain ⟨t', u1, u2, _⟩ := C11_bulk_root H hH cs hM
  rw [ht] at u1
  simp only [Option.some.injEq] at u1
  subst u1
  exact u2

/-- C33, all cases: a block with messages `cs`, of which the first `o` are delivered. The receiver returns a proof of the
messages after the `o`-th up to some `j`-th, in order, and reports the last sequence number as `rx + j`. The true number
is `rx + (j - o)`. -/
theorem C33_btp2_part (E : B2Env) (hH : ∀ x, E.H x ≠ []) (s : B2) (b : Bls) (limit : Int) (cs : List Bytes)
    (hM : cs.length < 2 ^ 63) (o : Nat) (ho : o < cs.length)
    (hb : B2Block E s.rss b.height (b.rx - o + cs.length) cs) :
    ∃ j p, o < j ∧ j ≤ cs.length ∧ p.contents = (cs.take j).drop o ∧
      b2MsgProof E s b limit = .ok (some ⟨.message, E.plen p, ⟨b.rx + j, b.height⟩, 0, some p⟩) ∧
      (j < cs.length → limit < E.plen p) := by
  obtain ⟨t, ht, hat⟩ := hb
  have hc := newTree_contents E.H hH cs hM t ht
  unfold b2MsgProof
  rw [hat]
  simp only [hc]
  have e1 : b.rx - (b.rx - (o : Int) + (cs.length : Int) - (cs.length : Int)) = (o : Int) := by omega
  have e2 : ¬ (b.rx - (b.rx - (o : Int) + (cs.length : Int)) = 0) := by omega
  have e3 : ((cs.length : Int) - ((o : Int) + 1)).toNat = cs.length - (o + 1) := by omega
  have e4 : (o : Int) + 1 = ((o + 1 : Nat) : Int) := by omega
  rw [e1, if_neg e2, if_pos (by omega), e3, e4]
  obtain ⟨j, p, q1, q2, q3, q4, q5, q6, q7, _⟩ :=
    b2Loop_spec E hH cs hM t ht hc b limit o (cs.length - (o + 1)) (o + 1) (by omega) (by omega)
  exact ⟨j, p, q1, q3, q5, q6, q7⟩

/-- C33, the part that holds: a proof that starts at the block's first message is right, for every limit: it holds the
first `j` messages and reports exactly them. -/
theorem C33_btp2_first_partial (E : B2Env) (hH : ∀ x, E.H x ≠ []) (s : B2) (b : Bls) (limit : Int) (cs : List Bytes)
    (hM : cs.length < 2 ^ 63) (hne : cs ≠ []) (hb : B2Block E s.rss b.height (b.rx + cs.length) cs) :
    ∃ j p, 0 < j ∧ j ≤ cs.length ∧ p.contents = cs.take j ∧
      b2MsgProof E s b limit = .ok (some ⟨.message, E.plen p, ⟨b.rx + j, b.height⟩, 0, some p⟩) := by
  have hl : 0 < cs.length := List.length_pos_iff.mpr hne
  obtain ⟨j, p, h1, h2, h3, h4, _⟩ := C33_btp2_part E hH s b limit cs hM 0 hl (by simpa using hb)
  exact ⟨j, p, h1, h2, by simpa using h3, h4⟩

/-- C33 is false of the code: every later part of a block reports too many messages, by exactly the number delivered
before it. -/
theorem C33_btp2_overshoots (E : B2Env) (hH : ∀ x, E.H x ≠ []) (s : B2) (b : Bls) (limit : Int) (cs : List Bytes)
    (hM : cs.length < 2 ^ 63) (o : Nat) (h0 : 0 < o) (ho : o < cs.length)
    (hb : B2Block E s.rss b.height (b.rx - o + cs.length) cs) :
    ∃ it p, b2MsgProof E s b limit = .ok (some it) ∧ it.body = some p ∧ 0 < p.contents.length ∧
      it.next.rx = b.rx + p.contents.length + o ∧ it.next.rx ≠ b.rx + p.contents.length := by
  obtain ⟨j, p, h1, h2, h3, h4, _⟩ := C33_btp2_part E hH s b limit cs hM o ho hb
  have hp : p.contents.length = j - o := by rw [h3]; simp; omega
  refine ⟨_, p, h4, rfl, by omega, ?_, ?_⟩
  · show b.rx + (j : Int) = b.rx + p.contents.length + o
    omega
  · show b.rx + (j : Int) ≠ b.rx + p.contents.length
    omega

/-- C33, the consequence: with the status too far by `o`, the proof built for the next block leaves out that block's
first `o` messages. -/
theorem C33_btp2_next_block_skips (E : B2Env) (hH : ∀ x, E.H x ≠ []) (s : B2) (b : Bls) (limit seq : Int) (cs : List Bytes)
    (hM : cs.length < 2 ^ 63) (o : Nat) (ho : o < cs.length) (hrx : b.rx = seq + o)
    (hb : B2Block E s.rss b.height (seq + cs.length) cs) :
    ∃ it p j, b2MsgProof E s b limit = .ok (some it) ∧ it.body = some p ∧ p.contents = (cs.take j).drop o := by
  obtain ⟨j, p, h1, h2, h3, h4, _⟩ := C33_btp2_part E hH s b limit cs hM o ho
    (by rw [hrx, show seq + (o : Int) - o = seq by omega]; exact hb)
  exact ⟨_, p, j, h4, rfl, h3⟩

/-- C82 is false of the btp2 receiver: whenever it cuts a block, the proof it returns is over the limit it was given. -/
theorem C82_btp2_ignores_limit (E : B2Env) (hH : ∀ x, E.H x ≠ []) (s : B2) (b : Bls) (limit : Int) (cs : List Bytes)
    (hM : cs.length < 2 ^ 63) (o : Nat) (ho : o < cs.length)
    (hb : B2Block E s.rss b.height (b.rx - o + cs.length) cs) (it : Item Proof)
    (h : b2MsgProof E s b limit = .ok (some it)) (hcut : it.next.rx < b.rx + cs.length) : limit < it.len := by
  obtain ⟨j, p, h1, h2, h3, h4, h5⟩ := C33_btp2_part E hH s b limit cs hM o ho hb
  rw [h4] at h
  simp only [R.ok.injEq, Option.some.injEq] at h
  subst h
  have h6 : b.rx + (j : Int) < b.rx + cs.length := hcut
  exact h5 (by omega)

/-! ### C34: ethbr -/

/-- C34 is false of the code: whatever is known of the source chain, if no known block's last sequence number is the
next one to deliver, building a proof is a nil dereference. -/
theorem C34_ethbr_panics (plen : List Rcpt → Nat) (rss : List EbRS) (b : Bls) (limit : Int)
    (h : ∀ rs ∈ rss, rs.seq ≠ b.rx + 1) : ebMsgProof plen rss b limit = .panic := by
  have : ebAt rss (b.rx + 1) = none := by
    unfold ebAt
    rw [List.find?_eq_none]
    intro rs hrs
    have := h rs hrs
    simp only [decide_eq_true_eq]
    omega
  unfold ebMsgProof
  rw [this]

/-- Logs come in order of their transactions. -/
def Ordered (logs : List (Int × Bool × Ev)) : Prop := logs.Pairwise (fun a b => a.1 ≤ b.1)

theorem ebInsert_last (ix : Int) (e : Ev) (l : List Rcpt) (h : ∀ r ∈ l, r.1 ≤ ix)
    (hs : l.Pairwise (fun a b => a.1 < b.1)) :
    ∃ es, (ebInsert ix e l).getLast? = some (ix, es ++ [e]) ∧ (∀ r ∈ ebInsert ix e l, r.1 ≤ ix) ∧
      (ebInsert ix e l).Pairwise (fun a b => a.1 < b.1) := by
  induction l with
  | nil => exact ⟨[], rfl, by simp [ebInsert], by simp [ebInsert]⟩
  | cons r rest ih =>
    obtain ⟨j, es⟩ := r
    rw [List.pairwise_cons] at hs
    by_cases hj : ix = j
    · subst hj
      have hr : rest = [] := by
        cases rest with
        | nil => rfl
        | cons x xs =>
          have h1 := hs.1 x (by simp)
          have h2 := h x (by simp)
          simp only at h1
          omega
      subst hr
      exact ⟨es, by simp [ebInsert], by simp [ebInsert], by simp [ebInsert]⟩
    · have hlt : ¬ ix < j := by have := h (j, es) (by simp); simp only at this; omega
      obtain ⟨es', q1, q2, q3⟩ := ih (fun r hr => h r (by simp [hr])) hs.2
      have hne : ebInsert ix e rest ≠ [] := by intro h0; rw [h0] at q1; cases q1
      simp only [ebInsert, if_neg hj, if_neg hlt]
      refine ⟨es', ?_, ?_, ?_⟩
      · rw [List.getLast?_cons, q1]; rfl
      · intro r hr
        rcases List.mem_cons.mp hr with rfl | hr
        · exact h (j, es) (by simp)
        · exact q2 r hr
      · rw [List.pairwise_cons]
        refine ⟨?_, q3⟩
        intro r hr
        have hin : ∀ (l : List Rcpt) (r : Rcpt), r ∈ ebInsert ix e l → r.1 = ix ∨ ∃ r' ∈ l, r'.1 = r.1 := by
          intro l
          induction l with
          | nil => intro r hr; simp only [ebInsert, List.mem_singleton] at hr; subst hr; exact .inl rfl
          | cons y ys ih2 =>
            obtain ⟨jy, ey⟩ := y
            intro r hr
            simp only [ebInsert] at hr
            split at hr
            · rename_i hx
              rcases List.mem_cons.mp hr with rfl | hr
              · exact .inl hx.symm
              · exact .inr ⟨r, by simp [hr], rfl⟩
            · split at hr
              · rcases List.mem_cons.mp hr with rfl | hr
                · exact .inl rfl
                · exact .inr ⟨r, by simpa using hr, rfl⟩
              · rcases List.mem_cons.mp hr with rfl | hr
                · exact .inr ⟨(jy, ey), by simp, rfl⟩
                · rcases ih2 r hr with h1 | ⟨r', h1, h2⟩
                  · exact .inl h1
                  · exact .inr ⟨r', by simp [h1], h2⟩
        have h4 := h (j, es) (by simp)
        rcases hin rest r hr with h1 | ⟨r', h1, h2⟩
        · simp only at h4 ⊢; omega
        · have := hs.1 r' h1
          simp only at this ⊢; omega

/-- One round of the grouping loop. -/
def ebAdd (seq : Int) (acc : List Rcpt) (l : Int × Bool × Ev) : List Rcpt :=
  if l.2.2.1 ≤ seq then acc else if !l.2.1 then acc else ebInsert l.1 l.2.2 acc

theorem ebGroup_last (seq : Int) (logs : List (Int × Bool × Ev)) (ix : Int) (e : Ev) (ho : Ordered (logs ++ [(ix, true, e)]))
    (he : seq < e.1) : ∃ es, (ebGroup seq (logs ++ [(ix, true, e)])).getLast? = some (ix, es ++ [e]) := by
  have key : ∀ (ls : List (Int × Bool × Ev)) (acc : List Rcpt) (m : Int), (∀ r ∈ acc, r.1 ≤ m) →
      acc.Pairwise (fun a b => a.1 < b.1) → ls.Pairwise (fun a b => a.1 ≤ b.1) → (∀ l ∈ ls, m ≤ l.1 ∧ l.1 ≤ ix) → m ≤ ix →
      (∀ r ∈ ls.foldl (ebAdd seq) acc, r.1 ≤ ix) ∧ (ls.foldl (ebAdd seq) acc).Pairwise (fun a b => a.1 < b.1) := by
    intro ls
    induction ls with
    | nil => intro acc m h1 h2 _ _ h5; exact ⟨fun r hr => by have := h1 r hr; omega, h2⟩
    | cons l ls ih =>
      intro acc m h1 h2 h3 h4 h5
      rw [List.pairwise_cons] at h3
      rw [List.foldl_cons]
      have hl := h4 l (by simp)
      have h6 : ∀ x ∈ ls, l.1 ≤ x.1 ∧ x.1 ≤ ix := fun x hx => ⟨h3.1 x hx, (h4 x (by simp [hx])).2⟩
      by_cases c1 : l.2.2.1 ≤ seq
      · rw [show ebAdd seq acc l = acc by unfold ebAdd; rw [if_pos c1]]
        exact ih acc m h1 h2 h3.2 (fun x hx => h4 x (by simp [hx])) h5
      · by_cases c2 : (!l.2.1) = true
        · rw [show ebAdd seq acc l = acc by unfold ebAdd; rw [if_neg c1, if_pos c2]]
          exact ih acc m h1 h2 h3.2 (fun x hx => h4 x (by simp [hx])) h5
        · rw [show ebAdd seq acc l = ebInsert l.1 l.2.2 acc by unfold ebAdd; rw [if_neg c1, if_neg c2]]
          obtain ⟨_, _, q2, q3⟩ := ebInsert_last l.1 l.2.2 acc (fun r hr => by have := h1 r hr; omega) h2
          exact ih _ l.1 q2 q3 h3.2 h6 hl.2
  unfold ebGroup
  rw [List.foldl_append, List.foldl_cons, List.foldl_nil]
  simp only [if_neg (show ¬ e.1 ≤ seq by omega), Bool.not_true, Bool.false_eq_true, if_false]
  unfold Ordered at ho
  rw [List.pairwise_append] at ho
  have hall : ∀ l ∈ logs, l.1 ≤ ix := fun l hl => ho.2.2 l hl (ix, true, e) (by simp)
  have hk : (∀ r ∈ logs.foldl (ebAdd seq) [], r.1 ≤ ix) ∧ (logs.foldl (ebAdd seq) []).Pairwise (fun a b => a.1 < b.1) := by
    cases hlogs : logs with
    | nil => exact ⟨fun r hr => (by cases hr), List.Pairwise.nil⟩
    | cons x xs =>
      rw [hlogs] at ho hall
      refine key (x :: xs) [] x.1 (fun r hr => by cases hr) .nil ho.1 ?_ (hall x (by simp))
      intro l hl
      refine ⟨?_, hall l hl⟩
      rcases List.mem_cons.mp hl with rfl | hl
      · omega
      · exact (List.pairwise_cons.mp ho.1).1 l hl
  obtain ⟨es, q1, _, _⟩ := ebInsert_last ix e _ hk.1 hk.2
  exact ⟨es, q1⟩

/-- C34: the status recorded for a block is that of its last new event. -/
theorem C34_status_last (h seq : Int) (logs : List (Int × Bool × Ev)) (ix : Int) (e : Ev)
    (ho : Ordered (logs ++ [(ix, true, e)])) (he : seq < e.1) :
    ∃ rs, ebStatus h seq (logs ++ [(ix, true, e)]) = some rs ∧ rs.height = h ∧ rs.seq = e.1 := by
  obtain ⟨es, h1⟩ := ebGroup_last seq logs ix e ho he
  refine ⟨⟨h, e.1, ebGroup seq (logs ++ [(ix, true, e)])⟩, ?_, rfl, rfl⟩
  unfold ebStatus
  simp only [h1]
  simp

/-- C34 for real blocks: a block whose last event is not the next one to deliver, that is every block with two or more
new events, makes the receiver panic when it is the only block known. -/
theorem C34_multi_event_block_panics (plen : List Rcpt → Nat) (b : Bls) (limit h : Int) (logs : List (Int × Bool × Ev))
    (ix : Int) (e : Ev) (ho : Ordered (logs ++ [(ix, true, e)])) (he : b.rx + 1 < e.1) :
    ∃ rs, ebStatus h b.rx (logs ++ [(ix, true, e)]) = some rs ∧ ebMsgProof plen [rs] b limit = .panic := by
  obtain ⟨rs, h1, _, h3⟩ := C34_status_last h b.rx logs ix e ho (by omega)
  refine ⟨rs, h1, C34_ethbr_panics plen [rs] b limit ?_⟩
  intro r hr
  simp only [List.mem_singleton] at hr
  subst hr
  omega

/-- C34, the part that holds: a block with exactly one new event, the next one in sequence, gives a proof of that
event and reports it as the last. -/
theorem C34_single_event_partial (plen : List Rcpt → Nat) (b : Bls) (limit h ix : Int) (m : Bytes) (hl : 8 ≤ limit) :
    ∃ rs len, ebStatus h b.rx [(ix, true, (b.rx + 1, m))] = some rs ∧
      ebMsgProof plen [rs] b limit =
        .ok (some ⟨.message, len, ⟨b.rx + 1, b.height⟩, 0, some [(ix, [(b.rx + 1, m)])]⟩) := by
  refine ⟨⟨h, b.rx + 1, [(ix, [(b.rx + 1, m)])]⟩, plen [(ix, [(b.rx + 1, m)])], ?_, ?_⟩
  · unfold ebStatus ebGroup
    simp only [List.foldl_cons, List.foldl_nil, if_neg (show ¬ b.rx + 1 ≤ b.rx by omega), Bool.not_true,
      Bool.false_eq_true, if_false, ebInsert]
    rfl
  · unfold ebMsgProof ebAt
    simp only [List.find?, Int.le_refl, ge_iff_le, and_self, decide_true, List.length_cons, List.length_nil]
    have e1 : b.rx - (b.rx + 1 - ((0 + 1 : Nat) : Int)) = 0 := by omega
    rw [e1]
    simp only [Nat.zero_add]
    have e2 : (((1 : Nat) : Int) - 0).toNat = 1 := by decide
    rw [if_pos (by decide), e2]
    unfold ebLoop
    have e3 : at? ([(ix, [(b.rx + 1, m)])] : List Rcpt) 0 = some (ix, [(b.rx + 1, m)]) := rfl
    simp only [e3, ebEvents]
    rw [if_neg (by omega)]
    simp only
    rw [if_neg (by omega)]
    unfold ebLoop
    simp [mkProof]

/-- C34, inside the link: when the link has taken a block whose last event is beyond the next one to deliver, and no
known block ends with the next one, building the relay message crashes. -/
theorem C34_link_panics (plen : List Rcpt → Nat) (n c : Nat) (bu : Option (Item (List Rcpt)))
    (s : L (List EbRS) (List Rcpt) (Option (List Rcpt))) (rs : RS)
    (hst : statusAt s.rss (s.cells c).height = some rs) (hseq : (s.cells c).rx < rs.seq) (hlim : s.size ≤ s.txLimit)
    (h : ∀ rs ∈ s.r, rs.seq ≠ (s.cells c).rx + 1) : (buildProof (ebRcv plen) (n + 1) c bu s).1 = .panic := by
  unfold buildProof
  rw [hst]
  unfold proofLoop
  have c1 : ¬ rs.seq ≤ (s.cells c).rx := by omega
  have c2 : ¬ s.txLimit < s.size := by omega
  have hp := C34_ethbr_panics plen s.r (s.cells c) (s.limitSize - s.size) h
  simp only [if_neg c1, bnd, isOverLimit, if_neg c2, Bool.false_eq_true, if_false, buildMessageProof]
  have : (ebRcv plen).msgProof s.r (s.cells c) (s.limitSize - s.size) = .panic := hp
  rw [this]

/-! ### Examples -/
section Examples
instance exDec : DecidableEq (Item (Int × List Ev)) := inferInstance
instance exDec1 : DecidableEq Rcpt := inferInstance
instance exDec2 : DecidableEq (Item (List Rcpt)) := inferInstance

def exPl : Int → List Ev → Nat := fun _ l => 10 * l.length
def exPl2 : List Rcpt → Nat := fun l => 10 * l.length

-- C32: a block of three messages after number 5: only number 8 is in the proof, which says it covers all three
example : brMsgProof exPl [brStatus 20 5 6 [[1], [2], [3]]] ⟨5, 19⟩ 1000 =
    .ok (some ⟨.message, 10, ⟨8, 19⟩, 0, some (20, [(8, [3])])⟩) := by decide +kernel
example : brMsgProof exPl [brStatus 20 5 6 [[1]]] ⟨5, 19⟩ 1000 =
    .ok (some ⟨.message, 10, ⟨6, 19⟩, 0, some (20, [(6, [1])])⟩) := by decide +kernel
example : brMsgProof exPl [brStatus 20 5 6 []] ⟨5, 19⟩ 1000 = .panic := by decide +kernel
example : brMsgProof exPl [brStatus 20 7 6 [[1], [2], [3]]] ⟨7, 19⟩ 1000 = .ok none := by decide +kernel
example : BmvBridge.sHandle true [9] 19 5 [⟨20, [⟨[9], 8, [3]⟩]⟩] = none := by decide +kernel
example : (BmvBridge.sHandle true [9] 19 5 [⟨20, [⟨[9], 6, [1]⟩]⟩]).isSome = true := by decide +kernel

/-- A hash for examples. -/
def exH : Bytes → Bytes := fun x => [UInt8.ofNat (x.length + 7 * (x.map (·.toNat)).sum)]
def exE : B2Env := ⟨exH, fun h => some (h, 20), fun p => 10 * p.contents.length⟩
example : ∀ x, exE.H x ≠ [] := by intro x; simp [exE, exH]

/-- A block of three messages at height 7, numbers 6 to 8. -/
def exRss : List B2RS := match newTree goCfg exH ([[1], [2], [3]].map some) with | some t => [⟨7, 8, t⟩] | none => []
example : B2Block exE exRss 7 8 [[1], [2], [3]] := by
  unfold B2Block
  have h0 : newTree goCfg exH ([[1], [2], [3]].map some) =
      some ((newTree goCfg exH ([[1], [2], [3]].map some)).getD ⟨none, []⟩) := by
    have : (newTree goCfg exH ([[1], [2], [3]].map some)).isSome = true := by decide +kernel
    cases hx : newTree goCfg exH ([[1], [2], [3]].map some) with
    | none => rw [hx] at this; cases this
    | some t => rfl
  refine ⟨_, h0, ?_⟩
  have h : exRss = [⟨7, 8, (newTree goCfg exH ([[1], [2], [3]].map some)).getD ⟨none, []⟩⟩] := by
    unfold exRss
    have : (newTree goCfg exH ([[1], [2], [3]].map some)).isSome = true := by decide +kernel
    cases hx : newTree goCfg exH ([[1], [2], [3]].map some) with
    | none => rw [hx] at this; cases this
    | some t => rfl
  rw [h]
  simp [b2At]

/-- `RxSeq` of the item and its messages. -/
def exShow (x : R (Option (Item Proof))) : Option (Int × Int × List Bytes) :=
  match x with
  | .ok (some it) => it.body.map (fun p => (it.next.rx, it.len, p.contents))
  | _ => none
-- C33: from the start of the block; from its second message the reported number is too high by 1
example : exShow (b2MsgProof exE ⟨exRss, 8⟩ ⟨5, 7⟩ 1000) = some (8, 30, [[1], [2], [3]]) := by decide +kernel
example : exShow (b2MsgProof exE ⟨exRss, 8⟩ ⟨6, 7⟩ 1000) = some (9, 20, [[2], [3]]) := by decide +kernel
-- C82: a limit of 15: the proof of two messages has length 20
example : exShow (b2MsgProof exE ⟨exRss, 8⟩ ⟨5, 7⟩ 15) = some (7, 20, [[1], [2]]) := by decide +kernel

-- C34: two events in the block: the status carries 7, the next is 6
example : ebStatus 20 5 [(0, true, (6, [1])), (1, true, (7, [2]))] = some ⟨20, 7, [(0, [(6, [1])]), (1, [(7, [2])])]⟩ := by
  decide +kernel
example : ebMsgProof exPl2 [⟨20, 7, [(0, [(6, [1])]), (1, [(7, [2])])]⟩] ⟨5, 19⟩ 1000 = .panic := by decide +kernel
example : ebMsgProof exPl2 [⟨20, 6, [(0, [(6, [1])])]⟩] ⟨5, 19⟩ 1000 =
    .ok (some ⟨.message, 10, ⟨6, 19⟩, 0, some [(0, [(6, [1])])]⟩) := by decide +kernel
example : Ordered [(0, true, (6, [1])), (1, true, (7, [2]))] := by unfold Ordered; simp
example : (receive (ebRcv exPl2) 9 0 false ⟨20, 7⟩
    (start [⟨20, 7, [(0, [(6, [1])]), (1, [(7, [2])])]⟩] 1000 1000 (fun _ => ⟨5, 19⟩) (fun _ => 0))).1 = .panic := by decide +kernel
example : (receive (ebRcv exPl2) 9 0 false ⟨20, 6⟩
    (start [⟨20, 6, [(0, [(6, [1])])]⟩] 1000 1000 (fun _ => ⟨5, 19⟩) (fun _ => 0))).1 = .ok () := by decide +kernel

end Examples
end Verif.Receiver
