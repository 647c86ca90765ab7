import Verif.XMixMoves
/-!
Calls on a chain of ICON (XMix) as sequences of moves of both contracts (`JMvs` of XCallNetSteps), and what the message center does in them
as a call of JavaBmc.
-/
namespace Verif.XMix
open Verif
open Verif.SolBmc (FM FeeInfo)
open Verif.SolNet (Abs Mv Mvs SameMsg owed msgsOf)
open Verif.MixNet
open Verif.JavaBmc
open Verif.XNet (X Bond Keep JMv JMvs Match Bounce plain_mvs mvs_mono msgsOf_one)

/-! ### One message of a relay call -/

theorem trLog_one (ev : Event) : trLog [ev] = trEv ev := List.append_nil _

/-- BTPMessageCenter.java:568-581: an error goes back, or the message is given up. -/
theorem failed_facts (c : Cfg) (env : Env) (prev : String) (seq : Nat) (s : St) (m : Msg) (e : Ex) :
    (failed c env prev seq s m e).services = s.services ∧ (failed c env prev seq s m e).resp = s.resp ∧ (failed c env prev seq s m e).nsn = s.nsn ∧
      ∃ ev, (failed c env prev seq s m e).log = s.log ++ [ev] ∧
        ((0 < m.sn ∧ ∃ k m', trEv ev = [.message prev k (tr m')] ∧ m'.src = c.net ∧ m'.dst = m.src ∧ m'.svc = m.svc ∧ m'.sn = -m.sn ∧ m'.nsn = -m.nsn) ∨
          ∃ m', ev = .dropped prev seq m' ∧ m'.src = m.src ∧ m'.nsn = m.nsn) := by
  unfold failed
  split
  · rename_i hp
    split
    · rename_i s' hs
      unfold sendError at hs
      rcases sendMsg_out hs with ⟨e, -⟩ | ⟨-, h1, h2, h3, ev, k, h4, h5, h6⟩
      · exact absurd rfl e
      exact ⟨h1, h2, h3, ev, h4, .inl ⟨hp, k, _, h5, rfl, rfl, rfl, rfl, rfl⟩⟩
    · rename_i e' s' hs
      unfold sendError at hs
      rcases sendMsg_out hs with ⟨-, h2⟩ | ⟨h2, -⟩
      · subst h2
        have h3 := collect_calm c s' (swapFee s' m.src m.fee)
        exact ⟨h3.services, h3.resp, h3.nsn, .dropped prev seq { m with fee := swapFee s' m.src m.fee }, by dsimp only; rw [h3.log], .inr ⟨_, rfl, rfl, rfl⟩⟩
      · cases h2
  · dsimp only
    have h3 : Calm s (if m.dst = c.net then twiceFee (collect c s m.fee) m.fee else collect c s m.fee) := by
      split
      · exact (collect_calm _ _ _).trans (twiceFee_calm _ _)
      · exact collect_calm _ _ _
    exact ⟨h3.services, h3.resp, h3.nsn, _, by rw [h3.log], .inr ⟨_, rfl, rfl, rfl⟩⟩

/-- What the message center does with a message not for it. -/
theorem item_pass (c : Cfg) (env : Env) (out : Out) (call : St → St) (caller : Nat) (prev : String) (gen seq : Nat) (s : St) (m0 : Msg) (hd : m0.dst ≠ c.net) :
    (item c env out call caller prev gen seq s m0).services = s.services ∧ ∃ ev, (item c env out call caller prev gen seq s m0).log = s.log ++ [ev] ∧
      trLog [ev] ≠ [] ∧ Mv c.net (absJ s) [tr m0] (trLog [ev]) (absJ (item c env out call caller prev gen seq s m0)) := by
  unfold item
  dsimp only
  have h0 : Calm s { inFee s m0.fee with disp := (inFee s m0.fee).disp ++ [(gen, seq, some m0)] } := by
    have := inFee_calm s m0.fee
    exact ⟨this.1, this.2, this.3, this.4⟩
  generalize ({ inFee s m0.fee with disp := (inFee s m0.fee).disp ++ [(gen, seq, some m0)] } : St) = s0 at h0
  have h1 := h0.trans (accumulate_calm s0 caller m0.fee)
  generalize accumulate s0 caller m0.fee = q at h1
  obtain ⟨s1, f⟩ := q
  dsimp only at h1 ⊢
  rw [← h1.services, ← h1.log, ← h1.abs]
  clear h0 h1
  unfold deliver
  rw [if_neg (show ¬ ({ m0 with fee := f } : Msg).dst = c.net from hd)]
  split
  · rename_i s2 h
    split at h
    · cases h
    · rename_i next hn
      rcases sendMsg_out h with ⟨e, -⟩ | ⟨-, h1, h2, h3, ev, k, h4, h5, h6⟩
      · exact absurd rfl e
      have e2 : absJ s2 = absJ s1 := by unfold absJ; rw [h2, h3]
      refine ⟨h1, ev, h4, by rw [trLog_one, h5]; exact List.cons_ne_nil _ _, ?_⟩
      rw [trLog_one, h5, e2]
      exact .pass (absJ s1) next k (tr m0) _ hd ⟨rfl, rfl, rfl, rfl, rfl, rfl⟩
  · rename_i e s2 h
    have hs : s2 = s1 := by
      split at h
      · simp only [Prod.mk.injEq] at h
        exact h.2.symm
      · rcases sendMsg_out h with ⟨-, h2⟩ | ⟨h2, -⟩
        · exact h2
        · cases h2
    subst hs
    obtain ⟨h1, h2, h3, ev, h4, h5⟩ := failed_facts c env prev seq s2 { m0 with fee := f } e
    have e2 : absJ (failed c env prev seq s2 { m0 with fee := f } e) = absJ s2 := by unfold absJ; rw [h2, h3]
    rw [e2]
    rcases h5 with ⟨hp, k, m', h5, h6, h7, h8, h9, h10⟩ | ⟨m', rfl, h6, h7⟩
    · refine ⟨h1, ev, h4, by rw [trLog_one, h5]; exact List.cons_ne_nil _ _, ?_⟩
      rw [trLog_one, h5]
      exact .back (absJ s2) prev k (tr m0) _ hp h6 h7 h8 h9 h10
    · refine ⟨h1, _, h4, List.cons_ne_nil _ _, ?_⟩
      by_cases hp : 0 < m0.sn
      · exact .fall (absJ s2) prev seq (tr m0) _ 0 rfl hp h6 h7
      · exact .giveUp (absJ s2) prev seq (tr m0) _ 0 (by show m0.sn ≤ 0; omega) h7

/-- A message for the message center is taken. -/
theorem ibefore_facts (nd : INode) (caller gen seq : Nat) (s : St) (m0 : Msg) (hd : m0.dst = nd.c.net) (f : Fit nd s) (w : Wire m0) :
    Fit nd (ibefore nd caller gen seq s m0) ∧ (ibefore nd caller gen seq s m0).log = s.log ∧
      (ibefore nd caller gen seq s m0).services = s.services ∧ Mv nd.c.net (absJ s) [tr m0] [] (absJ (ibefore nd caller gen seq s m0)) := by
  unfold ibefore
  dsimp only
  have h0 : Calm s { inFee s m0.fee with disp := (inFee s m0.fee).disp ++ [(gen, seq, some m0)] } := by
    have := inFee_calm s m0.fee
    exact ⟨this.1, this.2, this.3, this.4⟩
  generalize ({ inFee s m0.fee with disp := (inFee s m0.fee).disp ++ [(gen, seq, some m0)] } : St) = s0 at h0
  have h1 := h0.trans (accumulate_calm s0 caller m0.fee)
  have hf := accumulate_some s0 caller m0.fee
  generalize accumulate s0 caller m0.fee = q at h1 hf
  obtain ⟨s1, g⟩ := q
  dsimp only at h1 hf ⊢
  by_cases hp : 0 < m0.sn
  · rw [if_pos (show m0.sn ≥ 0 by omega)]
    obtain ⟨g', hg⟩ := fee_cases (m := { m0 with fee := g }) w hf hp
    obtain ⟨h3, h4, h5, h6⟩ := storeFee_pos nd.c s1 { m0 with fee := g } g' hg hp
    have o := (store_go nd.c s1 m0 { m0 with fee := g } rfl hf hd hp (h1.own f.own) (fun m hm => by rw [List.mem_singleton.1 hm]; exact w)).1
    have ha : absJ (storeFee nd.c s1 { m0 with fee := g }) = ⟨(absJ s).resp.set (m0.src, m0.svc, m0.sn) ⟨m0.nsn, g'⟩, (absJ s).nsn, (absJ s).ic⟩ := by
      rw [← h1.abs]
      unfold absJ
      rw [h4, h5, set_map]; rfl
    refine ⟨⟨o, f.reg.same (h3.trans h1.services), by rw [h5, h1.nsn]; exact f.nsn⟩, h6.trans h1.log, h3.trans h1.services, ?_⟩
    rw [ha]
    exact .store (absJ s) (tr m0) g' hd hp
  · have h2 : Calm s (if m0.sn ≥ 0 then storeFee nd.c s1 { m0 with fee := g } else collect nd.c s1 g) := by
      split
      · exact h1.trans (storeFee_zero nd.c s1 _ hp)
      · exact h1.trans (collect_calm _ _ _)
    refine ⟨⟨h2.own f.own, f.reg.same h2.services, by rw [h2.nsn]; exact f.nsn⟩, h2.log, h2.services, ?_⟩
    rw [h2.abs]
    exact .receive (absJ s) (tr m0) hd (by show m0.sn ≤ 0; omega)

theorem ireached_eq (nd : INode) (s : St) (m : Msg) : ireached nd s m = true ↔ m.dst = nd.c.net ∧ m.svc ≠ "bmc" ∧ (∃ a, s.services m.svc = some a) ∧
    (0 ≤ m.sn ∨ ∃ code, nd.c.decResp m.body = some code) := by
  unfold ireached
  simp only [Bool.and_eq_true, decide_eq_true_eq, Bool.or_eq_true, Option.isSome_iff_exists, and_assoc]

/-- What the message center does with a message for it: it hands it over, or handles it, or an error goes back or it is given up. -/
theorem item_here (nd : INode) (env : Env) (out : Out) (call : St → St) (caller : Nat) (prev : String) (gen seq : Nat) (s : St) (m0 : Msg)
    (hd : m0.dst = nd.c.net) (fit : Fit nd s) (w : Wire m0) :
    (item nd.c env out call caller prev gen seq s m0 = call (ibefore nd caller gen seq s m0) ∧ ireached nd s m0 = true ∧ out = none) ∨
    (m0.svc = "bmc" ∧ Say (ibefore nd caller gen seq s m0) (item nd.c env out call caller prev gen seq s m0) ∧
      JGo nd.c.net (ibefore nd caller gen seq s m0) [] (item nd.c env out call caller prev gen seq s m0)) ∨
    ((ireached nd s m0 = true → out ≠ none) ∧ (item nd.c env out call caller prev gen seq s m0).services = s.services ∧
      ∃ ev, (item nd.c env out call caller prev gen seq s m0).log = (ibefore nd caller gen seq s m0).log ++ [ev] ∧
        Mv nd.c.net (absJ (ibefore nd caller gen seq s m0)) [] (trLog [ev]) (absJ (item nd.c env out call caller prev gen seq s m0)) ∧
        Bounce nd.c.net (tr m0) (trLog [ev]) ∧
        (0 < m0.sn → owed (absJ (item nd.c env out call caller prev gen seq s m0)) (m0.src, m0.svc, m0.sn) = 0)) := by
  have hfit := (ibefore_facts nd caller gen seq s m0 hd fit w).1
  unfold ibefore at hfit ⊢
  unfold item
  dsimp only at hfit ⊢
  have h0 : Calm s { inFee s m0.fee with disp := (inFee s m0.fee).disp ++ [(gen, seq, some m0)] } := by
    have := inFee_calm s m0.fee
    exact ⟨this.1, this.2, this.3, this.4⟩
  generalize ({ inFee s m0.fee with disp := (inFee s m0.fee).disp ++ [(gen, seq, some m0)] } : St) = s0 at h0 hfit ⊢
  have h1 := h0.trans (accumulate_calm s0 caller m0.fee)
  have hf := accumulate_some s0 caller m0.fee
  generalize accumulate s0 caller m0.fee = q at h1 hf hfit ⊢
  obtain ⟨s1, g⟩ := q
  dsimp only at h1 hf hfit ⊢
  clear h0
  unfold deliver
  rw [if_pos (show ({ m0 with fee := g } : Msg).dst = nd.c.net from hd)]
  have hreach : ireached nd s m0 = ireached nd s1 m0 := by unfold ireached; rw [h1.services]
  rw [hreach, ← h1.services]
  replace fit : Fit nd s1 := ⟨h1.own fit.own, fit.reg.same h1.services, by rw [h1.nsn]; exact fit.nsn⟩
  clear h1 hreach
  cases hh : handleMessage nd.c env out call s1 { m0 with fee := g } with
  | mk r s2 =>
    cases r with
    | none =>
      dsimp only
      unfold handleMessage at hh
      by_cases hn : m0.sn ≥ 0
      · rw [if_pos hn]
        rw [if_pos (show ({ m0 with fee := g } : Msg).sn ≥ 0 from hn)] at hh
        dsimp only at hh
        have hsv : (storeFee nd.c s1 { m0 with fee := g }).services = s1.services := by
          by_cases hp : 0 < m0.sn
          · obtain ⟨g', hg⟩ := fee_cases (m := { m0 with fee := g }) w hf hp
            exact (storeFee_pos nd.c s1 { m0 with fee := g } g' hg hp).1
          · exact (storeFee_zero nd.c s1 { m0 with fee := g } hp).services
        generalize storeFee nd.c s1 { m0 with fee := g } = b at hh hsv ⊢
        split at hh
        · rename_i s3 hr
          simp only [Prod.mk.injEq, true_and] at hh
          subst hh
          split at hr
          · rename_i hb
            exact .inr (.inl ⟨hb, internalHandle_say hr, internalHandle_ok hr⟩)
          · rename_i hb
            split at hr
            · cases hr
            · rename_i a ha
              split at hr
              · simp only [Prod.mk.injEq, true_and] at hr
                exact .inl ⟨hr.symm, (ireached_eq _ _ _).2 ⟨hd, hb, ⟨a, by rw [← hsv]; exact ha⟩, .inl hn⟩, rfl⟩
              · cases hr
        · cases hh
      · rw [if_neg hn]
        rw [if_neg (show ¬ ({ m0 with fee := g } : Msg).sn ≥ 0 from hn)] at hh
        dsimp only at hh
        have hsv := (collect_calm nd.c s1 g).services
        generalize collect nd.c s1 g = b at hh hsv ⊢
        split at hh
        · cases hh
        · rename_i code hc
          split at hh
          · rename_i hb
            have := handleResponse_calm hh
            exact .inr (.inl ⟨hb, calm_say this, this.go _⟩)
          · rename_i hb
            split at hh
            · cases hh
            · rename_i a ha
              split at hh
              · simp only [Prod.mk.injEq, true_and] at hh
                exact .inl ⟨hh.symm, (ireached_eq _ _ _).2 ⟨hd, hb, ⟨a, by rw [← hsv]; exact ha⟩, .inr ⟨code, hc⟩⟩, rfl⟩
              · cases hh
    | some e =>
      dsimp only
      right; right
      refine ⟨?_, ?_⟩
      · intro hr ho
        obtain ⟨-, hb, ⟨a, ha⟩, hc⟩ := (ireached_eq _ _ _).1 hr
        unfold handleMessage at hh
        by_cases hn : m0.sn ≥ 0
        · rw [if_pos (show ({ m0 with fee := g } : Msg).sn ≥ 0 from hn)] at hh
          dsimp only at hh
          have hsv : (storeFee nd.c s1 { m0 with fee := g }).services = s1.services := by
            by_cases hp : 0 < m0.sn
            · obtain ⟨g', hg⟩ := fee_cases (m := { m0 with fee := g }) w hf hp
              exact (storeFee_pos nd.c s1 { m0 with fee := g } g' hg hp).1
            · exact (storeFee_zero nd.c s1 { m0 with fee := g } hp).services
          rw [if_neg hb, hsv, ha, ho] at hh
          cases hh
        · rw [if_neg (show ¬ ({ m0 with fee := g } : Msg).sn ≥ 0 from hn)] at hh
          dsimp only at hh
          obtain ⟨code, hc⟩ := hc.resolve_left hn
          rw [hc] at hh
          dsimp only at hh
          rw [if_neg hb, (collect_calm nd.c s1 g).services, ha, ho] at hh
          cases hh
      have he := handleMessage_err hh w.bmc
      obtain ⟨f1, f2, f3, ev, f4, f5⟩ := failed_facts nd.c env prev seq s2 { m0 with fee := g } e
      generalize failed nd.c env prev seq s2 { m0 with fee := g } e = s' at f1 f2 f3 f4
      by_cases hp : 0 < m0.sn
      · rw [if_pos (show m0.sn ≥ 0 by omega)] at hfit ⊢
        obtain ⟨g', hg⟩ := fee_cases (m := { m0 with fee := g }) w hf hp
        have h2 := he.1 hp g' hg
        have h3 := storeFee_pos nd.c s1 { m0 with fee := g } g' hg hp
        have hw : (storeFee nd.c s1 { m0 with fee := g }).resp.get none (m0.src, m0.svc, m0.sn) = some ⟨m0.nsn, g'⟩ := by
          rw [h3.2.1, FM.get_set, if_pos rfl]
        replace h3 := h3.1
        generalize storeFee nd.c s1 { m0 with fee := g } = b at h2 h3 hw hfit ⊢
        have ha : absJ s' = ⟨(absJ b).resp.set (m0.src, m0.svc, m0.sn) SolBmc.Resp.empty, (absJ b).nsn, (absJ b).ic⟩ :=
          absJ_pop (m0.src, m0.svc, m0.sn) (f2.trans h2.resp) (f3.trans h2.nsn)
        have h5 := owed_some hw
        have h6 := (hfit.own.resp _ _ hw).1
        refine ⟨by rw [f1, h2.services, h3], ev, by rw [f4, h2.log], ?_, ?_, fun _ => ?_⟩
        · rw [ha]
          rcases f5 with ⟨-, k, m', f5, f6, f7, f8, f9, f10⟩ | ⟨m', rfl, f6, f7⟩
          · rw [trLog_one, f5]
            have e1 : ((tr m').dst, (tr m').svc, m0.sn) = (m0.src, m0.svc, m0.sn) := by
              show (m'.dst, m'.svc, m0.sn) = _
              rw [f7, f8]
            have := Mv.answer (net := nd.c.net) (absJ b) prev k (tr m') m0.sn (by rw [e1, h5]; exact h6) f6 (by rw [e1, h5]; exact f10) (.inr f9)
            rw [e1] at this
            exact this
          · exact .forget (absJ b) prev seq (m0.src, m0.svc, m0.sn) _ 0 rfl (by rw [h5]; exact h6) f6 (by rw [h5]; exact f7)
        · rcases f5 with ⟨-, k, m', f5, f6, f7, f8, f9, f10⟩ | ⟨m', rfl, f6, f7⟩
          · rw [trLog_one, f5]
            exact .inl ⟨hp, prev, k, _, rfl, f6, f7, f8, f9, f10⟩
          · exact .inr ⟨_, _, _, _, rfl, f7⟩
        · rw [ha]
          unfold owed
          rw [FM.get_set, if_pos rfl]
          rfl
      · have h2 := he.2 hp
        have hcalm : Calm s1 (if m0.sn ≥ 0 then storeFee nd.c s1 { m0 with fee := g } else collect nd.c s1 g) := by
          split
          · exact storeFee_zero nd.c s1 _ hp
          · exact collect_calm _ _ _
        generalize (if m0.sn ≥ 0 then storeFee nd.c s1 { m0 with fee := g } else collect nd.c s1 g) = b at hcalm hfit ⊢
        rw [hcalm.abs, hcalm.log]
        have hev : ∃ m', ev = .dropped prev seq m' ∧ m'.src = m0.src ∧ m'.nsn = m0.nsn := by
          rcases f5 with ⟨h, -⟩ | h
          · exact absurd h hp
          · exact h
        obtain ⟨m', rfl, f6, f7⟩ := hev
        rcases h2 with h2 | ⟨h2, h3⟩
        · refine ⟨by rw [f1, h2.services], _, by rw [f4, h2.log], ?_, .inr ⟨_, _, _, _, rfl, f7⟩, fun h => absurd h hp⟩
          have ha : absJ s' = absJ s1 := by unfold absJ; rw [f2, f3, h2.resp, h2.nsn]
          rw [ha]
          exact .note _ _ _ _ _
        · refine ⟨by rw [f1, h3.services], _, by rw [f4, h3.log], ?_, .inr ⟨_, _, _, _, rfl, f7⟩, fun h => absurd h hp⟩
          rw [absJ_pop _ (f2.trans h3.resp) (f3.trans h3.nsn)]
          cases hr : s1.resp.get none (m0.src, "bmc", m0.nsn) with
          | none => exact absurd hr h2
          | some r =>
            have h5 := owed_some hr
            have h6 := fit.own.resp _ _ hr
            exact .forget (absJ s1) prev seq (m0.src, "bmc", m0.nsn) (tr m') 0 rfl (by rw [h5]; exact h6.1) f6 (by rw [h5]; exact f7.trans (h6.2 rfl).symm)

/-! ### The message center alone -/

/-- What the service does matters in the state in which it is called. -/
theorem item_congr (nd : INode) (env : Env) (out : Out) (f g : St → St) (caller : Nat) (prev : String) (gen seq : Nat) (s : St) (m0 : Msg)
    (h : f (ibefore nd caller gen seq s m0) = g (ibefore nd caller gen seq s m0)) :
    item nd.c env out f caller prev gen seq s m0 = item nd.c env out g caller prev gen seq s m0 := by
  unfold item
  unfold ibefore at h
  dsimp only at h ⊢
  generalize accumulate { inFee s m0.fee with disp := (inFee s m0.fee).disp ++ [(gen, seq, some m0)] } caller m0.fee = q at h ⊢
  have hh : handleMessage nd.c env out f q.1 { m0 with fee := q.2 } = handleMessage nd.c env out g q.1 { m0 with fee := q.2 } := by
    unfold handleMessage
    by_cases hn : m0.sn ≥ 0
    · rw [if_pos hn] at h
      rw [if_pos (show ({ m0 with fee := q.2 } : Msg).sn ≥ 0 from hn), if_pos (show ({ m0 with fee := q.2 } : Msg).sn ≥ 0 from hn)]
      dsimp only
      rw [h]
    · rw [if_neg hn] at h
      rw [if_neg (show ¬ ({ m0 with fee := q.2 } : Msg).sn ≥ 0 from hn), if_neg (show ¬ ({ m0 with fee := q.2 } : Msg).sn ≥ 0 from hn)]
      dsimp only
      rw [h]
  have hd : deliver nd.c env out f q.1 { m0 with fee := q.2 } = deliver nd.c env out g q.1 { m0 with fee := q.2 } := by
    unfold deliver
    rw [hh]
  rw [hd]

theorem iitem_proj (nd : INode) (env : Env) (out : Out) (acts : IOps) (hf : IFineAll nd acts) (caller : Nat) (prev : String) (gen seq : Nat) (j : IJ) (m0 : Msg)
    (fit : Fit nd j.b) (w : Wire m0) : ∃ out' as, Ops.quiet as = true ∧
      item nd.c env out' (execOps nd.c as) caller prev gen seq j.b m0 = (iitem nd env out acts caller prev gen seq j m0).b := by
  have hnil : ∀ out', item nd.c env out' (execOps nd.c .nil) caller prev gen seq j.b m0 = item nd.c env out' id caller prev gen seq j.b m0 :=
    fun out' => item_congr _ _ _ _ _ _ _ _ _ _ _ (by simp only [execOps, id])
  unfold iitem
  split
  · rename_i hr
    split
    · split
      · exact ⟨none, .nil, rfl, by rw [hnil]⟩
      · exact ⟨some (out.getD 0), .nil, rfl, by rw [hnil]⟩
    · dsimp only
      have f1 := (ibefore_facts nd caller gen seq j.b m0 ((ireached_eq _ _ _).1 hr).1 fit w).1
      obtain ⟨evs, new, as, ht⟩ := irun_coup nd acts ⟨ibefore nd caller gen seq j.b m0, j.x⟩ hf f1
      exact ⟨out, as, ht.quiet, item_congr _ _ _ _ _ _ _ _ _ _ _ ht.acts⟩
  · exact ⟨out, .nil, rfl, by rw [hnil]⟩

/-! ### Both contracts -/

/-- A stretch of a call that takes the messages `i`. -/
def IGo (nd : INode) (j : IJ) (i : List Msg) (j' : IJ) : Prop :=
  Fit nd j.b → (∀ m ∈ i, Wire m) → Fit nd j'.b ∧ ∃ evs, j'.b.log = j.b.log ++ evs ∧
    JMvs nd.side (absJ j.b) j.x (i.map tr) (trLog evs) (absJ j'.b) j'.x ∧ ∀ m ∈ sentBy evs, 0 < m.sn → m.fee.isSome = true

theorem IGo.trans {nd : INode} {a b d : IJ} {i k : List Msg} (h1 : IGo nd a i b) (h2 : IGo nd b k d) : IGo nd a (i ++ k) d := by
  intro f w
  obtain ⟨f1, e, l1, m1, p1⟩ := h1 f (fun m hm => w m (List.mem_append_left _ hm))
  obtain ⟨f2, e', l2, m2, p2⟩ := h2 f1 (fun m hm => w m (List.mem_append_right _ hm))
  refine ⟨f2, e ++ e', by rw [l2, l1, List.append_assoc], by rw [trLog_append, List.map_append]; exact m1.trans m2, fun m hm => ?_⟩
  rw [sentBy_append] at hm
  rcases List.mem_append.1 hm with h | h
  · exact p1 m h
  · exact p2 m h

theorem IGo.calm {nd : INode} {s s' : St} {x : XCall.St} (h : Calm s s') : IGo nd ⟨s, x⟩ [] ⟨s', x⟩ := by
  intro f _
  refine ⟨⟨h.own f.own, f.reg.same h.services, by rw [h.nsn]; exact f.nsn⟩, [], by dsimp only; rw [h.log, List.append_nil], ?_, fun m hm => nomatch hm⟩
  dsimp only
  rw [h.abs]
  exact .nil _ _

/-- From the moves of the message center alone and those of both. -/
theorem IGo.of {nd : INode} {j j' : IJ} {i : List Msg} (h1 : Fit nd j.b → (∀ m ∈ i, Wire m) → JGo nd.c.net j.b i j'.b)
    (h2 : Fit nd j.b → (∀ m ∈ i, Wire m) → Reg nd j'.b ∧ ∃ evs, j'.b.log = j.b.log ++ evs ∧ JMvs nd.side (absJ j.b) j.x (i.map tr) (trLog evs) (absJ j'.b) j'.x) :
    IGo nd j i j' := by
  intro f w
  obtain ⟨o, evs, g1, g2, g3⟩ := h1 f w f.own w
  obtain ⟨hr, evs', g4, g5⟩ := h2 f w
  have : evs' = evs := List.append_cancel_left (g4.symm.trans g1)
  subst this
  exact ⟨⟨o, hr, Int.le_trans f.nsn (mvs_mono g2)⟩, evs', g1, g5, g3⟩

theorem iexec_go (nd : INode) (o : IOp) (j j' : IJ) (hf : IFine nd o) (h : iexec nd o j = some j') : IGo nd j [] j' := by
  intro f _
  obtain ⟨evs, new, acts, h1⟩ := iexec_coup nd o j j' hf h f
  obtain ⟨ops, h2, h3⟩ := iexec_ops nd o j j' hf h
  exact ⟨h1.fit, evs, h1.log, .one (.use _ _ _ new _ _ ops h1.bond h2 h3 (iexec_keeps nd o j j' hf h f)), h1.fee⟩

theorem irun_go (nd : INode) (os : IOps) (j : IJ) (hf : IFineAll nd os) : IGo nd j [] (irun nd os j) := by
  intro f _
  obtain ⟨evs, new, acts, h1⟩ := irun_coup nd os j hf f
  obtain ⟨ops, h2, h3⟩ := irun_ops nd os j hf
  exact ⟨h1.fit, evs, h1.log, .one (.use _ _ _ new _ _ ops h1.bond h2 h3 (irun_keeps nd os j hf f)), h1.fee⟩

/-- A message is not for the call service, or not taken by it. -/
theorem bounce_mvs (nd : XNet.Node) (a b d : Abs) (x : XCall.St) (m0 : SolBmc.Msg) (e : List SolBmc.Event) (h2 : Mv nd.bmc.net a [m0] [] b)
    (h4 : Mv nd.bmc.net b [] e d) (h5 : Bounce nd.bmc.net m0 e) (h6 : 0 < m0.sn → owed d (m0.src, m0.svc, m0.sn) = 0) : JMvs nd a x [m0] e d x := by
  by_cases hx : m0.svc = X
  · exact .one (.reject a x m0 b e d h2 hx h4 h5 h6)
  · have hm : ∀ m ∈ msgsOf e, m.svc ≠ X := by
      intro m hm
      rcases h5 with ⟨-, next, seq, m', rfl, -, -, h7, -⟩ | ⟨prev, seq, m', code, rfl, -⟩
      · rw [msgsOf_one, List.mem_singleton] at hm
        subst hm
        rw [h7]; exact hx
      · exact nomatch hm
    have := JMvs.cons (x := x) (nd := nd) (.plain a x [m0] [] b h2 (fun h => nomatch h) (fun _ m hm => by
        rw [List.mem_singleton] at hm; subst hm; exact hx))
      (.cons (.plain b x [] e d h4 (fun _ => hm) (fun _ m hm => nomatch hm)) (.nil _ _))
    simpa using this

theorem iitem_go (nd : INode) (env : Env) (out : Out) (acts : IOps) (hf : IFineAll nd acts) (caller : Nat) (prev : String) (gen seq : Nat) (j : IJ) (m0 : Msg) :
    IGo nd j [m0] (iitem nd env out acts caller prev gen seq j m0) := by
  refine .of (fun f w => ?_) (fun f w => ?_)
  · obtain ⟨out', as, h1, h2⟩ := iitem_proj nd env out acts hf caller prev gen seq j m0 f (w m0 (List.mem_singleton.2 rfl))
    rw [← h2]
    exact item_go (fun s => quietOps_go as s h1) caller prev gen seq j.b m0
  replace w := w m0 (List.mem_singleton.2 rfl)
  -- the message is not handed over
  have lone : ∀ (out' : Out) (call : St → St), (ireached nd j.b m0 = true → out' ≠ none) → Reg nd (item nd.c env out' call caller prev gen seq j.b m0) ∧
      ∃ evs, (item nd.c env out' call caller prev gen seq j.b m0).log = j.b.log ++ evs ∧
        JMvs nd.side (absJ j.b) j.x [tr m0] (trLog evs) (absJ (item nd.c env out' call caller prev gen seq j.b m0)) j.x := by
    intro out' call ho
    by_cases hd : m0.dst = nd.c.net
    · obtain ⟨f1, b1, b2, b3⟩ := ibefore_facts nd caller gen seq j.b m0 hd f w
      rcases item_here nd env out' call caller prev gen seq j.b m0 hd f w with ⟨-, h1, h2⟩ | ⟨hb, h1, h2⟩ | ⟨-, h1, ev, h2, h3, h4, h5⟩
      · exact absurd h2 (ho h1)
      · obtain ⟨-, evs, h3, h4, -⟩ := h2 f1.own (fun m hm => nomatch hm)
        obtain ⟨evs', h5, h6⟩ := h1.log
        have : evs' = evs := List.append_cancel_left (h5.symm.trans h3)
        subst this
        refine ⟨f1.reg.same h1.services, evs', by rw [h3, b1], ?_⟩
        have g1 : JMvs nd.side (absJ j.b) j.x [tr m0] [] (absJ (ibefore nd caller gen seq j.b m0)) j.x :=
          .one (.plain _ _ _ _ _ b3 (fun h => nomatch h) (fun _ m hm => by
            rw [List.mem_singleton] at hm; subst hm; show m0.svc ≠ X; rw [hb]; decide))
        have g2 := g1.trans (plain_mvs (nd := nd.side) (x := j.x) rfl h4 rfl (svc_tr h6))
        simpa using g2
      · refine ⟨f.reg.same h1, [ev], by rw [h2, b1], ?_⟩
        exact bounce_mvs nd.side _ _ _ j.x (tr m0) _ b3 h3 h4 h5
    · obtain ⟨h1, ev, h2, h3, h4⟩ := item_pass nd.c env out' call caller prev gen seq j.b m0 hd
      exact ⟨f.reg.same h1, [ev], h2, .one (.plain _ _ _ _ _ h4 (fun h => nomatch h) (fun h => absurd h h3))⟩
  unfold iitem
  by_cases hr : ireached nd j.b m0 = true
  · rw [if_pos hr]
    have hd := ((ireached_eq _ _ _).1 hr).1
    have hnb := ((ireached_eq _ _ _).1 hr).2.1
    obtain ⟨f1, b1, b2, b3⟩ := ibefore_facts nd caller gen seq j.b m0 hd f w
    by_cases hx : m0.svc = X
    · rw [if_pos hx]
      cases hs : XCall.step nd.x (ihandle nd m0) j.x with
      | some x' =>
        dsimp only
        rcases item_here nd env none id caller prev gen seq j.b m0 hd f w with ⟨h1, -⟩ | ⟨hb, -⟩ | ⟨h1, -⟩
        · rw [h1]
          exact ⟨f1.reg, [], by rw [id, b1, List.append_nil], .one (.take _ _ (tr m0) _ _ b3 hx hs)⟩
        · exact absurd hb hnb
        · exact absurd rfl (h1 hr)
      | none => exact lone (some (out.getD 0)) id (fun _ => by simp)
    · rw [if_neg hx]
      dsimp only
      by_cases ho : out = none
      · rw [if_pos ho]
        subst ho
        rcases item_here nd env none (fun _ => (irun nd acts ⟨ibefore nd caller gen seq j.b m0, j.x⟩).b) caller prev gen seq j.b m0 hd f w with ⟨h1, -⟩ | ⟨hb, -⟩ | ⟨h1, -⟩
        · rw [h1]
          obtain ⟨f2, evs, g1, g2, -⟩ := irun_go nd acts ⟨ibefore nd caller gen seq j.b m0, j.x⟩ hf f1 (fun m hm => nomatch hm)
          refine ⟨f2.reg, evs, by rw [g1]; dsimp only; rw [b1], ?_⟩
          have g3 : JMvs nd.side (absJ j.b) j.x [tr m0] [] (absJ (ibefore nd caller gen seq j.b m0)) j.x :=
            .one (.plain _ _ _ _ _ b3 (fun h => nomatch h) (fun _ m hm => by
              rw [List.mem_singleton] at hm; subst hm; exact hx))
          have g4 := g3.trans g2
          simpa using g4
        · exact absurd hb hnb
        · exact absurd rfl (h1 hr)
      · rw [if_neg ho]
        exact lone out _ (fun _ => ho)
  · rw [if_neg hr]
    exact lone out id (fun h => absurd h hr)

theorem iitems_go (nd : INode) (caller : Nat) (prev : String) (gen : Nat) : ∀ (items : IItems) (seq : Nat) (j : IJ), IFineItems nd items →
    IGo nd j items.msgs (iitems nd items caller prev gen seq j)
  | .nil, seq, j, _ => by rw [iitems]; exact IGo.calm (s := j.b) (Calm.refl _)
  | .cons m env out acts t, seq, j, hf => by
    rw [iitems]
    rw [IFineItems] at hf
    exact (iitem_go nd env out acts hf.1 caller prev gen seq j m).trans (iitems_go nd caller prev gen t (seq + 1) _ hf.2)

theorem open_calm {c : Cfg} {s s1 : St} {caller : Nat} {prev : String} {msgs : List Msg} {l : Link} (h1 : openRelay c s caller prev msgs = some (l, s1)) :
    Calm s s1 := by
  unfold openRelay at h1
  split at h1
  · cases h1
  · split at h1
    · cases h1
    · split at h1
      · simp only [Option.some.injEq, Prod.mk.injEq] at h1
        rw [← h1.2]
        rename_i l' _ _ _ _ _
        have := putLink_calm c s { l' with rx := l'.rx + msgs.length }
        exact ⟨this.1, this.2, this.3, this.4⟩
      · cases h1

theorem irelay_go (nd : INode) (caller : Nat) (prev : String) (items : IItems) (hf : IFineItems nd items) (j j' : IJ)
    (h : irelay nd caller prev items j = some j') : IGo nd j items.msgs j' := by
  unfold irelay at h
  split at h
  · cases h
  rename_i l s1 h1
  obtain rfl := Option.some.inj h
  exact (IGo.calm (nd := nd) (s := j.b) (x := j.x) (open_calm h1)).trans (iitems_go nd caller prev l.gen items _ _ hf)

theorem iitems_proj (nd : INode) (caller : Nat) (prev : String) (gen : Nat) : ∀ (items : IItems) (seq : Nat) (j : IJ), IFineItems nd items → Fit nd j.b →
    (∀ m ∈ items.msgs, Wire m) → ∃ its : Items, its.flat = true ∧ its.msgs = items.msgs ∧
      execItems nd.c its caller prev gen seq j.b = (iitems nd items caller prev gen seq j).b
  | .nil, seq, j, _, _, _ => ⟨.nil, rfl, rfl, by simp only [execItems, iitems]⟩
  | .cons m env out acts t, seq, j, hf, f, w => by
    rw [IFineItems] at hf
    have wm := w m (List.mem_cons_self ..)
    obtain ⟨out', as, h2, h3⟩ := iitem_proj nd env out acts hf.1 caller prev gen seq j m f wm
    obtain ⟨f1, -⟩ := iitem_go nd env out acts hf.1 caller prev gen seq j m f (fun m' hm => by rw [List.mem_singleton.1 hm]; exact wm)
    obtain ⟨its, h6, h7, h8⟩ := iitems_proj nd caller prev gen t (seq + 1) _ hf.2 f1 (fun m' hm => w m' (List.mem_cons_of_mem _ hm))
    refine ⟨.cons m env out' as its, by simp only [Items.flat, h2, h6, Bool.and_self], by rw [Items.msgs, IItems.msgs, h7], ?_⟩
    rw [execItems, h3, iitems]
    exact h8

theorem irelay_proj (nd : INode) (caller : Nat) (prev : String) (items : IItems) (hf : IFineItems nd items) (j j' : IJ) (f : Fit nd j.b)
    (w : ∀ m ∈ items.msgs, Wire m) (h : irelay nd caller prev items j = some j') : ∃ its : Items, its.flat = true ∧ its.msgs = items.msgs ∧
      exec nd.c (.relay caller prev its) j.b = some j'.b := by
  unfold irelay at h
  split at h
  · cases h
  rename_i l s1 h1
  obtain rfl := Option.some.inj h
  have hc := open_calm h1
  obtain ⟨its, h2, h3, h4⟩ := iitems_proj nd caller prev l.gen items (l.rx + 1) ⟨s1, j.x⟩ hf ⟨hc.own f.own, f.reg.same hc.services, by rw [hc.nsn]; exact f.nsn⟩ w
  refine ⟨its, h2, h3, ?_⟩
  rw [exec, h3, h1]
  exact congrArg some h4

theorem drop_igo (nd : INode) (env : Env) (caller seq : Nat) (m : Msg) (fn : String) (fv : List Nat) (s s' : St) (x : XCall.St)
    (h : exec nd.c (.drop env caller m.src seq m.svc m.sn m.nsn fn fv) s = some s') : IGo nd ⟨s, x⟩ [m] ⟨s', x⟩ := by
  have main : s'.services = s.services ∧ ∃ ev, s'.log = s.log ++ [ev] ∧ trLog [ev] ≠ [] ∧ Mv nd.c.net (absJ s) [tr m] (trLog [ev]) (absJ s') := by
    simp only [exec] at h
    unfold dropMessage at h
    split at h
    · cases h
    split at h
    · cases h
    rename_i prev hr
    split at h
    · cases h
    rename_i l hl
    split at h
    · cases h
    split at h
    · cases h
    split at h
    · cases h
    dsimp only at h
    have h0 : Calm s { putLink nd.c s { l with rx := seq } with
        taken := SolBmc.upd (putLink nd.c s { l with rx := seq }).taken l.gen seq
        disp := (putLink nd.c s { l with rx := seq }).disp ++ [(l.gen, seq, none)] } := by
      have := putLink_calm nd.c s { l with rx := seq }
      exact ⟨this.1, this.2, this.3, this.4⟩
    generalize ({ putLink nd.c s { l with rx := seq } with
        taken := SolBmc.upd (putLink nd.c s { l with rx := seq }).taken l.gen seq
        disp := (putLink nd.c s { l with rx := seq }).disp ++ [(l.gen, seq, none)] } : St) = s1 at h h0
    have h1 := h0.trans ((inFee_calm s1 (dropFee fn fv)).trans (accumulate_calm _ nd.c.addr (dropFee fn fv)))
    generalize accumulate (inFee s1 (dropFee fn fv)) nd.c.addr (dropFee fn fv) = q at h h1
    obtain ⟨s2, f⟩ := q
    dsimp only at h h1
    split at h
    · rename_i hp
      split at h
      · rename_i s3 hs
        simp only [Option.some.injEq] at h
        subst h
        unfold sendError at hs
        rcases sendMsg_out hs with ⟨e, -⟩ | ⟨-, g1, g2, g3, ev, k, g4, g5, g6⟩
        · exact absurd rfl e
        have e2 : absJ s3 = absJ s := by unfold absJ; rw [g2, g3, h1.resp, h1.nsn]
        refine ⟨by rw [g1, h1.services], ev, by rw [g4, h1.log], by rw [trLog_one, g5]; exact List.cons_ne_nil _ _, ?_⟩
        rw [trLog_one, g5, e2]
        exact .back (absJ s) prev k (tr m) _ hp rfl rfl rfl rfl rfl
      · cases h
    · rename_i hp
      simp only [Option.some.injEq] at h
      subst h
      have h2 := h1.trans (lostFee_calm s2 f)
      refine ⟨h2.services, .dropped prev seq ⟨m.src, "", m.svc, m.sn, [], m.nsn, f⟩, by dsimp only; rw [h2.log], List.cons_ne_nil _ _, ?_⟩
      have e2 : absJ { lostFee s2 f with log := (lostFee s2 f).log ++ [.dropped prev seq ⟨m.src, "", m.svc, m.sn, [], m.nsn, f⟩] } = absJ s := h2.abs
      rw [e2]
      exact .giveUp (absJ s) prev seq (tr m) _ 0 (by show m.sn ≤ 0; omega) rfl
  refine .of (fun _ _ => dropMessage_go h) (fun f _ => ?_)
  obtain ⟨h1, ev, h2, h3, h4⟩ := main
  exact ⟨f.reg.same h1, [ev], h2, .one (.plain _ _ _ _ _ h4 (fun h => nomatch h) (fun h => absurd h h3))⟩

end Verif.XMix
