import Verif.BmvBridge
/-!
C39, C40: the bridge verifiers return the events that continue the link's sequence, in order. True of the Solidity contract
and of the Java contract's internal list; false of the array the Java contract returns when there are two or more messages.
-/
namespace Verif.BmvBridge
open Verif

theorem inc256_some {n m : Nat} (h : inc256 n = some m) : m = n + 1 := by
  unfold inc256 at h
  split at h
  · exact (Option.some.inj h).symm
  · cases h

theorem idx_cons {α : Type} (P : Nat → α → Prop) (e : α) (l : List α) (h0 : P 0 e)
    (h : ∀ i ev, l[i]? = some ev → P (i + 1) ev) : ∀ i ev, (e :: l)[i]? = some ev → P i ev := by
  intro i ev hi
  cases i with
  | zero => simp at hi; subst hi; exact h0
  | succ i => exact h i ev (by simpa using hi)

theorem idx_append {α : Type} (P : Nat → α → Prop) (l1 l2 : List α) (h1 : ∀ i ev, l1[i]? = some ev → P i ev)
    (h2 : ∀ i ev, l2[i]? = some ev → P (l1.length + i) ev) : ∀ i ev, (l1 ++ l2)[i]? = some ev → P i ev := by
  intro i ev hi
  by_cases h : i < l1.length
  · rw [List.getElem?_append_left h] at hi; exact h1 i ev hi
  · rw [List.getElem?_append_right (by omega)] at hi
    have := h2 _ _ hi
    rwa [show l1.length + (i - l1.length) = i by omega] at this

theorem sEvents_sound (bmc : Bytes) : ∀ (es : List (Ev Nat)) (next : Nat) (msgs : List Bytes) (next' : Nat) (msgs' : List Bytes),
    sEvents bmc es next msgs = some (next', msgs') →
    ∃ evs : List (Ev Nat), evs.Sublist es ∧ msgs' = msgs ++ evs.map (·.msg) ∧ next' = next + evs.length ∧
      (∀ i ev, evs[i]? = some ev → ev.seq = next + i ∧ ev.next = bmc) ∧
      (∀ ev ∈ es, ev.seq ≤ next' ∧ (ev.next = bmc → ev.seq < next'))
  | [], next, msgs, next', msgs', h => by
    simp only [sEvents, Option.some.injEq, Prod.mk.injEq] at h
    obtain ⟨rfl, rfl⟩ := h
    exact ⟨[], by simp, by simp, by simp, by simp, by simp⟩
  | e :: t, next, msgs, next', msgs', h => by
    simp only [sEvents] at h
    by_cases h1 : e.seq < next
    · rw [if_pos h1] at h
      obtain ⟨evs, a, b, c, d, f⟩ := sEvents_sound bmc t next msgs next' msgs' h
      refine ⟨evs, a.trans (List.sublist_cons_self _ _), b, c, d, ?_⟩
      intro ev hev
      rcases List.mem_cons.1 hev with rfl | m
      · exact ⟨by omega, fun _ => by omega⟩
      · exact f ev m
    · rw [if_neg h1] at h
      by_cases h2 : e.seq > next
      · rw [if_pos h2] at h; cases h
      · rw [if_neg h2] at h
        by_cases h3 : e.next ≠ bmc
        · rw [if_pos h3] at h
          obtain ⟨evs, a, b, c, d, f⟩ := sEvents_sound bmc t next msgs next' msgs' h
          refine ⟨evs, a.trans (List.sublist_cons_self _ _), b, c, d, ?_⟩
          intro ev hev
          rcases List.mem_cons.1 hev with rfl | m
          · exact ⟨by omega, fun k => absurd k h3⟩
          · exact f ev m
        · rw [if_neg h3] at h
          cases hi : inc256 next with
          | none => rw [hi] at h; cases h
          | some n =>
            rw [hi] at h
            have hn := inc256_some hi
            subst hn
            obtain ⟨evs, a, b, c, d, f⟩ := sEvents_sound bmc t _ _ next' msgs' h
            refine ⟨e :: evs, a.cons_cons e, by rw [b]; simp, by rw [c]; simp; omega, ?_, ?_⟩
            · refine idx_cons _ e evs ⟨by omega, Classical.not_not.1 h3⟩ (fun i ev hi => ?_)
              have := d i ev hi
              exact ⟨by omega, this.2⟩
            · intro ev hev
              rcases List.mem_cons.1 hev with rfl | m
              · exact ⟨by omega, fun _ => by omega⟩
              · exact f ev m

theorem sProofs_sound (bmc : Bytes) (h0 : Nat) : ∀ (rps : List (Rp Nat)) (height next : Nat) (msgs : List Bytes) (h' next' : Nat) (msgs' : List Bytes),
    h0 ≤ height → sProofs bmc rps height next msgs = some (h', next', msgs') →
    height ≤ h' ∧ (h' = height ∨ ∃ rp ∈ rps, rp.height = h') ∧ ∃ evs : List (Ev Nat), evs.Sublist ((rps.filter (fun rp => h0 ≤ rp.height)).flatMap (·.events)) ∧
      msgs' = msgs ++ evs.map (·.msg) ∧ next' = next + evs.length ∧
      (∀ i ev, evs[i]? = some ev → ev.seq = next + i ∧ ev.next = bmc) ∧
      (∀ rp ∈ rps, h' ≤ rp.height → ∀ ev ∈ rp.events, ev.seq ≤ next' ∧ (ev.next = bmc → ev.seq < next'))
  | [], height, next, msgs, h', next', msgs', _, h => by
    simp only [sProofs, Option.some.injEq, Prod.mk.injEq] at h
    obtain ⟨rfl, rfl, rfl⟩ := h
    exact ⟨by omega, .inl rfl, [], by simp, by simp, by simp, by simp, by simp⟩
  | rp :: t, height, next, msgs, h', next', msgs', hh, h => by
    simp only [sProofs] at h
    by_cases h1 : rp.height < height
    · rw [if_pos h1] at h
      obtain ⟨a, a', evs, b, c, d, f, g⟩ := sProofs_sound bmc h0 t height next msgs h' next' msgs' hh h
      refine ⟨a, a'.imp id (fun ⟨r, m, e⟩ => ⟨r, List.mem_cons_of_mem _ m, e⟩), evs, b.trans ?_, c, d, f, ?_⟩
      · by_cases hp : h0 ≤ rp.height
        · rw [List.filter_cons_of_pos (by simpa using hp), List.flatMap_cons]
          exact List.sublist_append_right _ _
        · rw [List.filter_cons_of_neg (by simpa using hp)]
          exact List.Sublist.refl _
      · intro r hr hle
        rcases List.mem_cons.1 hr with rfl | m
        · omega
        · exact g r m hle
    · rw [if_neg h1] at h
      cases he : sEvents bmc rp.events next msgs with
      | none => rw [he] at h; cases h
      | some p =>
        obtain ⟨n1, m1⟩ := p
        rw [he] at h
        obtain ⟨ev1, b1, c1, d1, f1, g1⟩ := sEvents_sound bmc _ _ _ _ _ he
        obtain ⟨a, a', evs, b, c, d, f, g⟩ := sProofs_sound bmc h0 t rp.height n1 m1 h' next' msgs' (by omega) h
        refine ⟨by omega, ?_, ev1 ++ evs, ?_, by rw [c, c1]; simp, by rw [d, d1]; simp; omega, ?_, ?_⟩
        · rcases a' with e | ⟨r, m, e⟩
          · exact .inr ⟨rp, by simp, e.symm⟩
          · exact .inr ⟨r, List.mem_cons_of_mem _ m, e⟩
        · have hp : h0 ≤ rp.height := by omega
          rw [List.filter_cons_of_pos (by simpa using hp), List.flatMap_cons]
          exact b1.append b
        · refine idx_append _ ev1 evs f1 (fun i ev hi => ?_)
          have := f i ev hi
          exact ⟨by omega, this.2⟩
        · intro r hr hle
          rcases List.mem_cons.1 hr with rfl | m
          · intro ev hev
            have := g1 ev hev
            exact ⟨by omega, fun k => by have := this.2 k; omega⟩
          · exact g r m hle

/-- C40, soundness: the returned messages are those of a subsequence of the relayed events, all addressed to this BMC, numbered
    consecutively from the link's next number, from proofs not below the recorded height; the height never decreases. -/
theorem C40_sound (acc : Bool) (bmc : Bytes) (height seq : Nat) (rps : List (Rp Nat)) (h' : Nat) (ms : List Bytes)
    (h : sHandle acc bmc height seq rps = some (h', ms)) :
    acc = true ∧ height ≤ h' ∧ (h' = height ∨ ∃ rp ∈ rps, rp.height = h') ∧
    ∃ evs : List (Ev Nat), evs.Sublist ((rps.filter (fun rp => height ≤ rp.height)).flatMap (·.events)) ∧
      ms = evs.map (·.msg) ∧ (∀ i ev, evs[i]? = some ev → ev.seq = seq + 1 + i ∧ ev.next = bmc) := by
  cases acc with
  | false => simp [sHandle] at h
  | true =>
    simp only [sHandle, if_true] at h
    cases hi : inc256 seq with
    | none => rw [hi] at h; cases h
    | some n =>
      rw [hi] at h
      have hn := inc256_some hi
      subst hn
      cases hp : sProofs bmc rps height (seq + 1) [] with
      | none => simp only [hp] at h; cases h
      | some p =>
        obtain ⟨a, b, c⟩ := p
        simp only [hp, Option.some.injEq, Prod.mk.injEq] at h
        obtain ⟨rfl, rfl⟩ := h
        obtain ⟨x, x', evs, y, z, _, w, _⟩ := sProofs_sound bmc height rps height _ _ _ _ _ (Nat.le_refl _) hp
        exact ⟨rfl, x, x', evs, y, by simpa using z, w⟩

/-- C40: when every relayed event addressed to this BMC is a true one, the result is the run of source messages
    directly after the link's sequence number. -/
theorem C40_truthful (acc : Bool) (bmc : Bytes) (height seq : Nat) (rps : List (Rp Nat)) (h' : Nat) (ms : List Bytes)
    (src : Nat → Bytes) (hs : ∀ rp ∈ rps, ∀ ev ∈ rp.events, ev.next = bmc → ev.msg = src ev.seq)
    (h : sHandle acc bmc height seq rps = some (h', ms)) :
    ms = (List.range ms.length).map (fun i => src (seq + 1 + i)) := by
  obtain ⟨_, _, _, evs, hsub, rfl, hidx⟩ := C40_sound acc bmc height seq rps h' ms h
  apply List.ext_getElem?
  intro i
  by_cases hi : i < evs.length
  · have hev : evs[i]? = some evs[i] := List.getElem?_eq_getElem hi
    have hx := hidx i _ hev
    have hm : evs[i] ∈ (rps.filter (fun rp => height ≤ rp.height)).flatMap (·.events) := hsub.subset (List.getElem_mem hi)
    obtain ⟨rp, hrp, hin⟩ := List.mem_flatMap.1 hm
    have hmsg := hs rp (List.mem_filter.1 hrp).1 _ hin hx.2
    simp [hi, hmsg, hx.1]
  · simp [hi]

theorem sEvents_complete (bmc : Bytes) : ∀ (es : List (Ev Nat)) (s next : Nat) (msgs : List Bytes),
    (∀ i ev, es[i]? = some ev → ev.seq = s + i ∧ ev.next = bmc) → s ≤ next → s + es.length < 2 ^ 256 →
    sEvents bmc es next msgs =
      some (max next (s + es.length), msgs ++ (es.filter (fun ev => next ≤ ev.seq)).map (·.msg))
  | [], s, next, msgs, _, hs, _ => by simp [sEvents]; omega
  | e :: t, s, next, msgs, hidx, hs, hb => by
    have h0 := hidx 0 e (by simp)
    have ht : ∀ i ev, t[i]? = some ev → ev.seq = s + 1 + i ∧ ev.next = bmc := by
      intro i ev hi
      have := hidx (i + 1) ev (by simpa using hi)
      exact ⟨by omega, this.2⟩
    simp only [List.length_cons] at hb
    simp only [sEvents]
    by_cases h1 : e.seq < next
    · rw [if_pos h1, sEvents_complete bmc t (s + 1) next msgs ht (by omega) (by omega)]
      rw [List.filter_cons_of_neg (by simp; omega)]
      simp only [List.length_cons]
      rw [show s + 1 + t.length = s + (t.length + 1) by omega]
    · have he : e.seq = next := by omega
      rw [if_neg h1, if_neg (by omega), if_neg (by simp [h0.2])]
      have hinc : inc256 next = some (next + 1) := by
        unfold inc256; exact if_pos (by omega)
      rw [hinc]
      simp only []
      rw [sEvents_complete bmc t (s + 1) (next + 1) _ ht (by omega) (by omega)]
      have hall : t.filter (fun ev => decide (next + 1 ≤ ev.seq)) = t.filter (fun ev => decide (next ≤ ev.seq)) := by
        apply List.filter_congr
        intro ev hev
        obtain ⟨i, hi⟩ := List.getElem?_of_mem hev
        have := (ht i ev hi).1
        simp; omega
      rw [List.filter_cons_of_pos (by simp; omega), hall]
      simp only [List.length_cons, Option.some.injEq, Prod.mk.injEq]
      refine ⟨by omega, by simp⟩

/-- Heights never below `h`, in order. -/
def Asc : Nat → List (Rp Nat) → Prop
  | _, [] => True
  | h, rp :: t => h ≤ rp.height ∧ Asc rp.height t

theorem sProofs_complete (bmc : Bytes) : ∀ (rps : List (Rp Nat)) (s height next : Nat) (msgs : List Bytes),
    (∀ i ev, (rps.flatMap (·.events))[i]? = some ev → ev.seq = s + i ∧ ev.next = bmc) → Asc height rps → s ≤ next →
    s + (rps.flatMap (·.events)).length < 2 ^ 256 →
    ∃ h', sProofs bmc rps height next msgs = some (h', max next (s + (rps.flatMap (·.events)).length),
      msgs ++ ((rps.flatMap (·.events)).filter (fun ev => next ≤ ev.seq)).map (·.msg))
  | [], s, height, next, msgs, _, _, hs, _ => by
    refine ⟨height, ?_⟩
    simp [sProofs]; omega
  | rp :: t, s, height, next, msgs, hidx, hasc, hs, hb => by
    rw [List.flatMap_cons] at hidx hb
    simp only [List.length_append] at hb
    have h1 : ∀ i ev, rp.events[i]? = some ev → ev.seq = s + i ∧ ev.next = bmc := by
      intro i ev hi
      have hlt : i < rp.events.length := by
        rcases Nat.lt_or_ge i rp.events.length with h | h
        · exact h
        · rw [List.getElem?_eq_none h] at hi; cases hi
      exact hidx i ev (by rw [List.getElem?_append_left hlt]; exact hi)
    have h2 : ∀ i ev, (t.flatMap (·.events))[i]? = some ev → ev.seq = s + rp.events.length + i ∧ ev.next = bmc := by
      intro i ev hi
      have := hidx (rp.events.length + i) ev (by rw [List.getElem?_append_right (by omega)]; rw [show rp.events.length + i - rp.events.length = i by omega]; exact hi)
      exact ⟨by omega, this.2⟩
    have e1 := sEvents_complete bmc rp.events s next msgs h1 hs (by omega)
    obtain ⟨h', e2⟩ := sProofs_complete bmc t (s + rp.events.length) rp.height (max next (s + rp.events.length))
      (msgs ++ (rp.events.filter (fun ev => next ≤ ev.seq)).map (·.msg)) h2 hasc.2 (by omega) (by omega)
    refine ⟨h', ?_⟩
    simp only [sProofs]
    rw [if_neg (by have := hasc.1; omega), e1]
    simp only []
    rw [e2]
    have hfil : (t.flatMap (·.events)).filter (fun ev => decide (max next (s + rp.events.length) ≤ ev.seq)) =
        (t.flatMap (·.events)).filter (fun ev => decide (next ≤ ev.seq)) := by
      apply List.filter_congr
      intro ev hev
      obtain ⟨i, hi⟩ := List.getElem?_of_mem hev
      have := (h2 i ev hi).1
      simp; omega
    rw [hfil, List.flatMap_cons, List.filter_append, List.map_append, List.append_assoc]
    simp only [List.length_append, Option.some.injEq, Prod.mk.injEq, true_and, and_true]
    omega

/-- C40, completeness: consecutive events for this BMC that begin no later than the link's next number, in proofs of
    non-decreasing height from the recorded height on, are all accepted and exactly the new ones are returned. -/
theorem C40_complete (bmc : Bytes) (s height seq : Nat) (rps : List (Rp Nat))
    (hidx : ∀ i ev, (rps.flatMap (·.events))[i]? = some ev → ev.seq = s + i ∧ ev.next = bmc) (hasc : Asc height rps)
    (hs : s ≤ seq + 1) (hb : s + (rps.flatMap (·.events)).length < 2 ^ 256) (hseq : seq + 1 < 2 ^ 256) :
    ∃ h', sHandle true bmc height seq rps = some (h', ((rps.flatMap (·.events)).filter (fun ev => seq < ev.seq)).map (·.msg)) := by
  obtain ⟨h', e⟩ := sProofs_complete bmc rps s height (seq + 1) [] hidx hasc hs hb
  refine ⟨h', ?_⟩
  have hinc : inc256 seq = some (seq + 1) := by unfold inc256; exact if_pos hseq
  simp only [sHandle, if_true, hinc, e]
  rfl

/-- C40: an accepted relay message leaves no later event behind: in every proof at or above the new height, all events are
    numbered at most one after the last returned message, and below that if they are addressed to this BMC. -/
theorem C40_nothing_dropped (acc : Bool) (bmc : Bytes) (height seq : Nat) (rps : List (Rp Nat)) (h' : Nat) (ms : List Bytes)
    (h : sHandle acc bmc height seq rps = some (h', ms)) (rp : Rp Nat) (hrp : rp ∈ rps) (hh : h' ≤ rp.height) (ev : Ev Nat)
    (hev : ev ∈ rp.events) : ev.seq ≤ seq + ms.length + 1 ∧ (ev.next = bmc → ev.seq ≤ seq + ms.length) := by
  cases acc with
  | false => simp [sHandle] at h
  | true =>
    simp only [sHandle, if_true] at h
    cases hi : inc256 seq with
    | none => rw [hi] at h; cases h
    | some n =>
      rw [hi] at h
      have hn := inc256_some hi
      subst hn
      cases hp : sProofs bmc rps height (seq + 1) [] with
      | none => simp only [hp] at h; cases h
      | some p =>
        obtain ⟨a, b, c⟩ := p
        simp only [hp, Option.some.injEq, Prod.mk.injEq] at h
        obtain ⟨rfl, rfl⟩ := h
        obtain ⟨_, _, evs, _, z, d, _, g⟩ := sProofs_sound bmc height rps height _ _ _ _ _ (Nat.le_refl _) hp
        have := g rp hrp hh ev hev
        have hl : c.length = evs.length := by rw [z]; simp
        refine ⟨by omega, fun k => by have := this.2 k; omega⟩

/-- C40: events for another BMC are not neutral. One with a higher number makes the whole message revert although the events
    for this BMC alone would be accepted. -/
theorem C40_foreign_event_blocks :
    sHandle true [1] 0 0 [⟨5, [⟨[1], 1, [0xaa]⟩]⟩] = some (5, [[0xaa]]) ∧
    sHandle true [1] 0 0 [⟨5, [⟨[2], 9, [0xbb]⟩, ⟨[1], 1, [0xaa]⟩]⟩] = none := by decide +kernel

/-! ### Java -/

theorem jEvents_sound : ∀ (es : List (Ev Int)) (next : Int) (msgs : List Bytes) (next' : Int) (msgs' : List Bytes),
    jEvents es next msgs = some (next', msgs') →
    ∃ evs : List (Ev Int), evs.Sublist es ∧ msgs' = msgs ++ evs.map (·.msg) ∧ next' = next + evs.length ∧
      (∀ (i : Nat) ev, evs[i]? = some ev → ev.seq = next + i)
  | [], next, msgs, next', msgs', h => by
    simp only [jEvents, Option.some.injEq, Prod.mk.injEq] at h
    obtain ⟨rfl, rfl⟩ := h
    exact ⟨[], by simp, by simp, by simp, by simp⟩
  | e :: t, next, msgs, next', msgs', h => by
    simp only [jEvents] at h
    by_cases h1 : e.seq < next
    · rw [if_pos h1] at h
      obtain ⟨evs, a, b, c, d⟩ := jEvents_sound t next msgs next' msgs' h
      exact ⟨evs, a.trans (List.sublist_cons_self _ _), b, c, d⟩
    · rw [if_neg h1] at h
      by_cases h2 : e.seq > next
      · rw [if_pos h2] at h; cases h
      · rw [if_neg h2] at h
        obtain ⟨evs, a, b, c, d⟩ := jEvents_sound t _ _ next' msgs' h
        refine ⟨e :: evs, a.cons_cons e, by rw [b]; simp, by rw [c]; simp; omega, ?_⟩
        refine idx_cons _ e evs (by simp; omega) (fun i ev hi => ?_)
        have := d i ev hi
        simp; omega

theorem jProofs_sound (h0 : Int) : ∀ (rps : List (Rp Int)) (height next : Int) (msgs : List Bytes) (h' next' : Int) (msgs' : List Bytes),
    h0 ≤ height → jProofs rps height next msgs = some (h', next', msgs') →
    height ≤ h' ∧ ∃ evs : List (Ev Int), evs.Sublist ((rps.filter (fun rp => h0 ≤ rp.height)).flatMap (·.events)) ∧
      msgs' = msgs ++ evs.map (·.msg) ∧ next' = next + evs.length ∧ (∀ (i : Nat) ev, evs[i]? = some ev → ev.seq = next + i)
  | [], height, next, msgs, h', next', msgs', _, h => by
    simp only [jProofs, Option.some.injEq, Prod.mk.injEq] at h
    obtain ⟨rfl, rfl, rfl⟩ := h
    exact ⟨by omega, [], by simp, by simp, by simp, by simp⟩
  | rp :: t, height, next, msgs, h', next', msgs', hh, h => by
    simp only [jProofs] at h
    by_cases h1 : rp.height < height
    · rw [if_pos h1] at h
      obtain ⟨a, evs, b, c, d, f⟩ := jProofs_sound h0 t height next msgs h' next' msgs' hh h
      refine ⟨a, evs, b.trans ?_, c, d, f⟩
      by_cases hp : h0 ≤ rp.height
      · rw [List.filter_cons_of_pos (by simpa using hp), List.flatMap_cons]
        exact List.sublist_append_right _ _
      · rw [List.filter_cons_of_neg (by simpa using hp)]
        exact List.Sublist.refl _
    · rw [if_neg h1] at h
      cases he : jEvents rp.events next msgs with
      | none => rw [he] at h; cases h
      | some p =>
        obtain ⟨n1, m1⟩ := p
        rw [he] at h
        obtain ⟨ev1, b1, c1, d1, f1⟩ := jEvents_sound _ _ _ _ _ he
        obtain ⟨a, evs, b, c, d, f⟩ := jProofs_sound h0 t rp.height n1 m1 h' next' msgs' (by omega) h
        refine ⟨by omega, ev1 ++ evs, ?_, by rw [c, c1]; simp, by rw [d, d1]; simp; omega, ?_⟩
        · have hp : h0 ≤ rp.height := by omega
          rw [List.filter_cons_of_pos (by simpa using hp), List.flatMap_cons]
          exact b1.append b
        · refine idx_append (fun i (ev : Ev Int) => ev.seq = next + i) ev1 evs f1 (fun i ev hi => ?_)
          have := f i ev hi
          simp; omega

/-- The copy loop keeps the last message in the first cell and leaves the others null. -/
theorem jCopy_eq (msgs : List Bytes) (m : Bytes) : jCopy (msgs ++ [m]) = some m :: List.replicate msgs.length none := by
  have key : ∀ (l : List Bytes) (ret : List (Option Bytes)) (x : Option Bytes) (n : Nat), ret = x :: List.replicate n none →
      ∃ y, l.foldl (fun ret m => ret.set 0 (some m)) ret = y :: List.replicate n none := by
    intro l
    induction l with
    | nil => intro ret x n h; exact ⟨x, h⟩
    | cons a l ih => intro ret x n h; subst h; exact ih _ (some a) n (by simp)
  unfold jCopy
  rw [List.foldl_append]
  have hr : List.replicate (msgs ++ [m]).length (none : Option Bytes) = none :: List.replicate msgs.length none := by
    simp [List.replicate_succ]
  obtain ⟨y, hy⟩ := key msgs _ none msgs.length hr
  rw [hy]
  simp

/-- C39, restricted: the returned array is right when at most one message is returned. Missing: two or more
    (`C39_array_wrong`). For any number, the array has the right length, the height never decreases, and the
    messages it should hold are consecutive events from the link's next number on. -/
theorem C39_java_partial (acc : Bool) (height seq : Int) (rps : List (Rp Int)) (h' : Int) (ret : List (Option Bytes))
    (h : jHandle acc height seq rps = some (h', ret)) :
    acc = true ∧ height ≤ h' ∧ ∃ evs : List (Ev Int), evs.Sublist ((rps.filter (fun rp => height ≤ rp.height)).flatMap (·.events)) ∧
      (∀ (i : Nat) ev, evs[i]? = some ev → ev.seq = seq + 1 + i) ∧ ret.length = evs.length ∧
      (ret.length ≤ 1 → ret = evs.map (fun ev => some ev.msg)) := by
  cases acc with
  | false => simp [jHandle] at h
  | true =>
    simp only [jHandle, if_true] at h
    cases hp : jProofs rps height (seq + 1) [] with
    | none => simp only [hp] at h; cases h
    | some p =>
      obtain ⟨a, b, c⟩ := p
      simp only [hp, Option.some.injEq, Prod.mk.injEq] at h
      obtain ⟨rfl, rfl⟩ := h
      obtain ⟨x, evs, y, z, _, w⟩ := jProofs_sound height rps height _ _ _ _ _ (Int.le_refl _) hp
      simp at z
      have hlen : (jCopy c).length = c.length := by
        rcases List.eq_nil_or_concat c with rfl | ⟨l, m, rfl⟩
        · rfl
        · rw [List.concat_eq_append, jCopy_eq]; simp
      refine ⟨rfl, x, evs, y, w, by rw [hlen, z]; simp, fun hle => ?_⟩
      rw [hlen, z] at hle
      match evs, hle with
      | [], _ => rw [z]; rfl
      | [e], _ => rw [z]; rfl
      | _ :: _ :: _, hle => simp at hle

/-- C39 is false: whenever two or more messages are due, the returned array holds only the last one, in the first place,
    and nulls. -/
theorem C39_array_wrong (acc : Bool) (height seq : Int) (rps : List (Rp Int)) (h' : Int) (ret : List (Option Bytes))
    (h : jHandle acc height seq rps = some (h', ret)) (h2 : 2 ≤ ret.length) :
    ∃ m, ret = some m :: List.replicate (ret.length - 1) none ∧
      ∃ (k : Nat) (rp : Rp Int) (ev : Ev Int), rp ∈ rps ∧ ev ∈ rp.events ∧ ev.msg = m ∧ ev.seq = seq + k ∧ k = ret.length := by
  cases acc with
  | false => simp [jHandle] at h
  | true =>
    simp only [jHandle, if_true] at h
    cases hp : jProofs rps height (seq + 1) [] with
    | none => simp only [hp] at h; cases h
    | some p =>
      obtain ⟨a, b, c⟩ := p
      simp only [hp, Option.some.injEq, Prod.mk.injEq] at h
      obtain ⟨rfl, rfl⟩ := h
      obtain ⟨x, evs, y, z, _, w⟩ := jProofs_sound height rps height _ _ _ _ _ (Int.le_refl _) hp
      simp at z
      rcases List.eq_nil_or_concat c with rfl | ⟨l, m, rfl⟩
      · simp [jCopy] at h2
      · rw [List.concat_eq_append] at z ⊢
        rw [jCopy_eq]
        refine ⟨m, by simp, l.length + 1, ?_⟩
        have hm : (evs.map (·.msg))[l.length]? = some m := by rw [← z]; simp
        rw [List.getElem?_map, Option.map_eq_some_iff] at hm
        obtain ⟨ev, hev, rfl⟩ := hm
        have hmem := y.subset (List.mem_of_getElem? hev)
        obtain ⟨rp, hrp, hin⟩ := List.mem_flatMap.1 hmem
        refine ⟨rp, ev, (List.mem_filter.1 hrp).1, hin, rfl, ?_, by simp⟩
        have := w _ _ hev
        rw [this]
        simp; omega

/-- Concrete: two events, the array is [second, null]. -/
theorem C39_witness : jHandle true 0 0 [⟨3, [⟨[], 1, [0xaa]⟩, ⟨[], 2, [0xbb]⟩]⟩] = some (3, [some [0xbb], none]) := by
  decide +kernel

/-- Non-vacuity of the Solidity theorems: old events are skipped, new ones returned, over two proofs. -/
example : sHandle true [1] 4 2 [⟨3, [⟨[1], 1, [0xee]⟩]⟩, ⟨4, [⟨[1], 2, [0xaa]⟩, ⟨[1], 3, [0xbb]⟩]⟩, ⟨6, [⟨[1], 4, [0xcc]⟩]⟩] =
    some (6, [[0xbb], [0xcc]]) := by decide +kernel

example : jHandle true 0 0 [⟨3, [⟨[], 1, [0xaa]⟩]⟩] = some (3, [some [0xaa]]) := by decide +kernel

end Verif.BmvBridge
