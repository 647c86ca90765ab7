import Verif.XCallSys
/-!
XCall: a two-way call stays open until it is answered, and its rollback can be run once the answer is a failure.
-/
namespace Verif.XCall
open Verif Verif.BtpAddress

structure Open (C : Cfg) (s : St) : Prop where
  kept : ∀ k c net a d rb, Ev.sent k c net a d rb ∈ s.log → present C.lang rb = true → (∃ q, s.reqs k = some q) ∨ ∃ code, Ev.response k code ∈ s.log
  failed : ∀ sn, Failed s.log sn → (∃ q, s.reqs sn = some q ∧ q.enabled = true) ∨ (∃ d b, Ev.undo sn d b ∈ s.log) ∨ Succeeded s.log sn

theorem init_open (C : Cfg) (b : Nat) : Open C (init b) := ⟨fun _ _ _ _ _ _ h => (nomatch h), fun _ ⟨_, _, h⟩ => (nomatch h)⟩

/-- Nothing is sent or answered. -/
theorem Open.ext {C : Cfg} {s s' : St} (h : Open C s) (x : List Ev) (hl : s'.log = s.log ++ x) (hr : s'.reqs = s.reqs)
    (hx : ∀ k c net a d rb, Ev.sent k c net a d rb ∉ x) (hx' : ∀ sn code, Ev.response sn code ∉ x) : Open C s' := by
  refine ⟨fun k c net a d rb he hp => ?_, fun sn hf => ?_⟩
  · rw [hl, List.mem_append] at he
    rcases he with he | he
    · rw [hr, hl]
      rcases h.kept k c net a d rb he hp with h1 | ⟨code, h1⟩
      · exact .inl h1
      · exact .inr ⟨code, List.mem_append_left _ h1⟩
    · exact absurd he (hx k c net a d rb)
  · obtain ⟨code, h0, he⟩ := hf
    rw [hl, List.mem_append] at he
    rcases he with he | he
    · rw [hr]
      unfold Succeeded
      rw [hl]
      rcases h.failed sn ⟨code, h0, he⟩ with h1 | ⟨d, b, h1⟩ | h1
      · exact .inl h1
      · exact .inr (.inl ⟨d, b, List.mem_append_left _ h1⟩)
      · exact .inr (.inr (List.mem_append_left _ h1))
    · exact absurd he (hx' sn code)

theorem payFee_open {C : Cfg} {s s' : St} (h : Open C s) (hk : payFee s = some s') : Open C s' := by
  obtain ⟨l, e, hl⟩ := payFee_ok hk
  have hx : (∀ k c net a d rb, Ev.sent k c net a d rb ∉ l) ∧ ∀ sn code, Ev.response sn code ∉ l := by
    rcases hl with ⟨_, rfl, _⟩ | ⟨_, _, _, w, _, rfl⟩ <;> simp
  exact h.ext l (by rw [e]) (by rw [e]) hx.1 hx.2

theorem sendTail_open {C : Cfg} {s s' : St} {caller to net acct : Str} {data : Bytes} {rb : Option Bytes} {value : Nat} {nsn : Option Int}
    (h : Open C s) (hi : Inv C s) (hk : sendTail C s caller to net acct data rb value nsn = some s') : Open C s' := by
  obtain ⟨-, -, e⟩ := sendTail_ok hk
  have hreq : ∀ k : Int, k ≠ ((s.sn + 1 : Nat) : Int) → s'.reqs k = s.reqs k := by
    intro k hne
    rw [e]
    show (keep _ _ _ _ _ _).reqs k = _
    unfold keep
    split
    · dsimp only; rw [if_neg hne]
    · rfl
  have hresp : ∀ sn code, Ev.response sn code ∈ s.log → sn ≠ ((s.sn + 1 : Nat) : Int) := by
    intro sn code hm
    obtain ⟨n, rfl, h1⟩ := hi.resp sn code hm
    omega
  have hlog : ∃ x, s'.log = s.log ++ x := ⟨_, by rw [e]⟩
  obtain ⟨x, hx⟩ := hlog
  refine ⟨fun k c net' a d rb' he hp => ?_, fun sn hf => ?_⟩
  · have he0 := he
    rw [e] at he
    simp only [List.mem_append, List.mem_cons, List.not_mem_nil, or_false, Ev.sent.injEq, reduceCtorEq, false_or] at he
    rcases he with he | ⟨rfl, rfl, rfl, rfl, rfl, he⟩
    · rw [hx]
      rcases h.kept k c net' a d rb' he hp with h1 | ⟨code, h1⟩
      · left
        rw [hreq]
        · exact h1
        · have : k ∈ upTo s.sn := by rw [← hi.sents, mem_sentSn]; exact ⟨_, _, _, _, _, he⟩
          have := mem_upTo.1 this
          omega
      · exact .inr ⟨code, List.mem_append_left _ h1⟩
    · left
      rw [e]
      by_cases hpr : present C.lang rb = true
      · refine ⟨⟨c, to, rb, false⟩, ?_⟩
        show (keep _ _ _ _ _ _).reqs _ = _
        unfold keep
        rw [if_pos hpr]
        dsimp only
        rw [if_pos rfl]
      · rw [if_neg hpr] at he
        rw [he] at hp
        exact absurd hp (by cases C.lang <;> decide)
  · obtain ⟨code, h0, he⟩ := hf
    rw [e] at he
    simp only [List.mem_append, List.mem_cons, List.not_mem_nil, or_false, reduceCtorEq] at he
    rw [hreq sn (hresp sn code he)]
    unfold Succeeded
    rw [hx]
    rcases h.failed sn ⟨code, h0, he⟩ with h1 | ⟨d, b, h1⟩ | h1
    · exact .inl h1
    · exact .inr (.inl ⟨d, b, List.mem_append_left _ h1⟩)
    · exact .inr (.inr (List.mem_append_left _ h1))

theorem response_open {C : Cfg} {s s' : St} {sn code : Int} (h : Open C s) (hk : handleResponse C s sn code = some s') : Open C s' := by
  rcases response_ok hk with ⟨_, rfl⟩ | ⟨q, hq, rfl⟩
  · exact h
  refine ⟨fun k c net a d rb he hp => ?_, fun sn' hf => ?_⟩
  · simp only [List.mem_append, List.mem_singleton, reduceCtorEq, or_false] at he
    by_cases hks : (k : Int) = sn
    · exact .inr ⟨code, by rw [hks]; simp⟩
    · dsimp only
      rw [if_neg hks]
      rcases h.kept k c net a d rb he hp with h1 | ⟨c', h1⟩
      · exact .inl h1
      · exact .inr ⟨c', List.mem_append_left _ h1⟩
  · obtain ⟨code', h0, he⟩ := hf
    dsimp only at he ⊢
    unfold Succeeded
    simp only [List.mem_append, List.mem_singleton, Ev.response.injEq] at he
    by_cases hks : sn' = sn
    · subst hks
      rw [if_pos rfl]
      by_cases hc : code = 0
      · subst hc
        exact .inr (.inr (by simp))
      · rw [if_neg hc]
        exact .inl ⟨_, rfl, rfl⟩
    · rw [if_neg hks]
      rcases he with he | he
      · rcases h.failed sn' ⟨code', h0, he⟩ with h1 | ⟨d, b, h1⟩ | h1
        · exact .inl h1
        · exact .inr (.inl ⟨d, b, List.mem_append_left _ h1⟩)
        · exact .inr (.inr (List.mem_append_left _ h1))
      · exact absurd he.1 hks

theorem undoStart_open {C : Cfg} {s s' : St} {sn : Int} (h : Open C s) (hi : Inv C s) (hk : undoStart s sn = some s') : Open C s' := by
  obtain ⟨q, hq, hen, rfl⟩ := undoStart_ok hk
  obtain ⟨c', h0', hf'⟩ := (hi.reqs sn q hq).2.2.2.1 hen
  refine ⟨fun k c net a d rb he hp => ?_, fun sn' hf => ?_⟩
  · simp only [List.mem_append, List.mem_singleton, reduceCtorEq, or_false] at he
    dsimp only
    by_cases hks : (k : Int) = sn
    · exact .inr ⟨c', by rw [hks]; exact List.mem_append_left _ hf'⟩
    · rw [if_neg hks]
      rcases h.kept k c net a d rb he hp with h1 | ⟨c', h1⟩
      · exact .inl h1
      · exact .inr ⟨c', List.mem_append_left _ h1⟩
  · obtain ⟨code', h0, he⟩ := hf
    dsimp only at he ⊢
    unfold Succeeded
    simp only [List.mem_append, List.mem_singleton, reduceCtorEq, or_false] at he
    by_cases hks : sn' = sn
    · subst hks
      exact .inr (.inl ⟨_, _, List.mem_append_right _ (List.mem_singleton.2 rfl)⟩)
    · rw [if_neg hks]
      rcases h.failed sn' ⟨code', h0, he⟩ with h1 | ⟨d, b, h1⟩ | h1
      · exact .inl h1
      · exact .inr (.inl ⟨d, b, List.mem_append_left _ h1⟩)
      · exact .inr (.inr (List.mem_append_left _ h1))

mutual
theorem step_open (C : Cfg) : ∀ (op : Op) (s s' : St), Open C s → Inv C s → step C op s = some s' → Open C s'
  | .send caller isC to data rb value fee nsn, s, s', h, hi, hk => by
    simp only [step] at hk
    obtain ⟨net, acct, f, s1, _, _, _, _, _, _, hp, ht⟩ := send_ok hk
    have h1 : Open C { s with bal := s.bal + value } := ⟨h.kept, h.failed⟩
    have hi1 : Inv C s1 := (payFee_inv (s := { s with bal := s.bal + value }) (hi.congr rfl rfl rfl rfl rfl) hp).1
    exact sendTail_open (payFee_open h1 hp) hi1 ht
  | .exec id inner out nsn, s, s', h, hi, hk => by
    simp only [step] at hk
    split at hk
    · cases hk
    · rename_i r net s1 hs
      have hi1 := execStart_inv hi hs
      obtain ⟨hp, -, e1⟩ := execStart_ok hs
      have h1 : Open C s1 := h.ext [.call id r] (by rw [e1]) (by rw [e1]) (by simp) (by simp)
      have h2 : Open C (if committed out = true then run C inner s1 else s1) := by
        split
        · exact run_open C inner s1 h1 hi1
        · exact h1
      generalize (if committed out = true then run C inner s1 else s1) = s2 at hk h2
      rcases execEnd_ok hk with ⟨_, e⟩ | ⟨n, hr, hn, e⟩
      · exact h2.ext _ (by rw [e]) (by rw [e]) (by simp) (by simp)
      · exact h2.ext _ (by rw [e]) (by rw [e]) (by simp) (by simp)
  | .undo sn inner out, s, s', h, hi, hk => by
    simp only [step] at hk
    split at hk
    · cases hk
    · rename_i s1 hs
      have hi1 := undoStart_inv hi hs
      have h1 := undoStart_open h hi hs
      have h2 : Open C (if committed out = true then run C inner s1 else s1) := by
        split
        · exact run_open C inner s1 h1 hi1
        · exact h1
      generalize (if committed out = true then run C inner s1 else s1) = s2 at hk h2
      cases hk
      exact h2.ext _ rfl rfl (by simp) (by simp)
  | .message caller net svc sn m, s, s', h, hi, hk => by
    simp only [step] at hk
    obtain ⟨_, _, ⟨r, _, _, hq⟩ | ⟨sn, code, _, _, hq⟩⟩ := message_ok hk
    · have e := handleRequest_ok hq
      exact h.ext _ (by rw [e]) (by rw [e]) (by simp) (by simp)
    · exact response_open h hq
  | .error caller net svc sn code, s, s', h, hi, hk => by
    simp only [step] at hk
    exact response_open h (error_ok hk).2.2
  | .setAdmin caller a, s, s', h, hi, hk => by
    simp only [step] at hk
    split at hk
    · cases hk
    · cases hk; exact ⟨h.kept, h.failed⟩
  | .setHandler caller a, s, s', h, hi, hk => by
    simp only [step] at hk
    obtain ⟨_, l, e, hl⟩ := setHandler_ok hk
    have hx : (∀ k c net a d rb, Ev.sent k c net a d rb ∉ l) ∧ ∀ sn code, Ev.response sn code ∉ l := by
      rcases hl with ⟨rfl, _⟩ | ⟨w, _, rfl, _⟩ <;> simp
    exact h.ext l (by rw [e]) (by rw [e]) hx.1 hx.2
  | .setFee caller v, s, s', h, hi, hk => by
    simp only [step] at hk
    split at hk
    · cases hk
    · cases hk; exact ⟨h.kept, h.failed⟩
theorem run_open (C : Cfg) : ∀ (ops : Ops) (s : St), Open C s → Inv C s → Open C (run C ops s)
  | .nil, s, h, _ => h
  | .cons op t, s, h, hi => by
    simp only [run]
    cases hs : step C op s with
    | none => exact run_open C t s h hi
    | some s' => exact run_open C t s' (step_open C op s s' h hi hs) (step_inv C op s s' hi hs)
end

theorem sys_open {N : Str → Cfg} {b : Str → Nat} {S : Sys} (h : Reach N b S) (n : Str) : Open (N n) (S.svc n) := by
  induction h with
  | init => exact init_open _ _
  | @step S S' hr hs _ ih =>
    have hi := (reach_inv hr).node
    cases hs with
    | user m op s' hn hb hk =>
      dsimp only
      by_cases hm : n = m
      · subst hm; rw [upd_self]; exact step_open _ op _ s' ih (hi n).inv hk
      · rw [upd_other _ _ _ _ hm]; exact ih
    | deliver a i net sn m v s' hn h1 hd hk =>
      dsimp only
      by_cases hm : n = net
      · subst hm; rw [upd_self]; exact step_open _ _ _ s' ih (hi n).inv hk
      · rw [upd_other _ _ _ _ hm]; exact ih
    | bounce a i net sn m v code s' h1 hd h2 hk =>
      dsimp only
      by_cases hm : n = a
      · subst hm; rw [upd_self]; exact step_open _ _ _ s' ih (hi n).inv hk
      · rw [upd_other _ _ _ _ hm]; exact ih

end Verif.XCall
