import Verif.XMix
import Verif.XCallNetInv
/-!
What the calls of XMix do on a chain of ICON: the messages the message center sends in the name of the call service are the ones the call
service sent, in order (`Bond` of XCallNetMoves), and what the call service does is a history of XCall.
-/
namespace Verif.XMix
open Verif
open Verif.SolBmc (FM FeeInfo)
open Verif.SolNet (Abs Mv Mvs SameMsg owed msgsOf)
open Verif.MixNet
open Verif.JavaBmc
open Verif.XNet (X leaf Bond Keep JMv JMvs Match Bounce appX appX_by appX_run drop_ext execEnd_ext leaf_silent leaf_proxy payFee_proxy sendTail_proxy
  mvs_zero mvs_mono negSn_small)

/-- The chain as the moves of XCallNetSteps see it: of the message center only its network and the reading of errors matter. -/
def INode.side (nd : INode) : XNet.Node :=
  ⟨⟨nd.c.net, 0, 0, fun _ _ _ => false, fun _ => none, nd.c.decResp, fun _ => [], fun _ => [], fun _ => none⟩, nd.x, nd.addr, nd.enc, nd.dec⟩

theorem handle_side (nd : INode) (m : Msg) : XNet.handle nd.side (tr m) = ihandle nd m := rfl

/-! ### Nothing in the name of the call service -/

structure Say (s s' : St) : Prop where
  services : s'.services = s.services
  log : ∃ evs, s'.log = s.log ++ evs ∧ ∀ m ∈ sentBy evs, m.svc ≠ X

theorem Say.trans {a b d : St} (h1 : Say a b) (h2 : Say b d) : Say a d := by
  obtain ⟨e, l1, p1⟩ := h1.log
  obtain ⟨f, l2, p2⟩ := h2.log
  refine ⟨h2.services.trans h1.services, e ++ f, by rw [l2, l1, List.append_assoc], fun m hm => ?_⟩
  rw [sentBy_append] at hm
  rcases List.mem_append.1 hm with h | h
  · exact p1 m h
  · exact p2 m h

theorem calm_say {s s' : St} (h : Calm s s') : Say s s' := ⟨h.services, [], by rw [h.log, List.append_nil], fun m hm => nomatch hm⟩
theorem pop_say {k : String × String × Int} {s s' : St} (h : Pop k s s') : Say s s' := ⟨h.services, [], by rw [h.log, List.append_nil], fun m hm => nomatch hm⟩
theorem nsn_say (s : St) (k : Int) (v : Nat := s.coins) : Say s { s with nsn := k, coins := v } := ⟨rfl, [], (List.append_nil _).symm, fun _ hm => nomatch hm⟩

theorem sendMsg_say {c : Cfg} {env : Env} {s s' : St} {next : String} {m : Msg} {r : Option Ex} (h : sendMsg c env s next m = (r, s')) (hm : m.svc ≠ X) :
    Say s s' := by
  rcases sendMsg_out h with ⟨-, rfl⟩ | ⟨-, h1, h2, h3, ev, k, h4, h5, h6⟩
  · exact calm_say (Calm.refl _)
  · refine ⟨h1, [ev], h4, fun x hx => ?_⟩
    have e1 : sentBy [ev] = [m] := by show sentEv ev ++ [] = _; rw [h6]; rfl
    rw [e1, List.mem_singleton] at hx
    subst hx
    exact hm

theorem sendReply_say {c : Cfg} {env : Env} {s s' : St} {next to svc : String} {value : Nat} {sn : Int} {body : Bytes} {r : Except Ex Int}
    (h : sendReply c env s next value to svc sn body = (r, s')) (hs : svc ≠ X) : Say s s' := by
  unfold sendReply at h
  split at h
  · simp only [Prod.mk.injEq] at h
    rw [← h.2]; exact calm_say (Calm.refl _)
  rename_i q hq
  dsimp only at h
  have h0 : Pop (to, svc, sn) s { s with resp := s.resp.set (to, svc, sn) none, coins := s.coins + value } := ⟨rfl, rfl, rfl, rfl⟩
  have h1 := pop_say (h0.calm ((addIn_calm _ c.net value).trans (addReward_calm _ c.addr c.net value)))
  split at h
  · rename_i e s3 h3
    simp only [Prod.mk.injEq] at h
    rw [← h.2]
    exact (h1.trans (sendMsg_say h3 hs)).trans (calm_say (lostFee_calm _ _))
  · rename_i s3 h3
    simp only [Prod.mk.injEq] at h
    rw [← h.2]
    exact h1.trans (sendMsg_say h3 hs)

theorem sendRequest_say {c : Cfg} {env : Env} {s s' : St} {next to svc : String} {value : Nat} {sn : Int} {body : Bytes} {r : Except Ex Int}
    (h : sendRequest c env s next value to svc sn body = (r, s')) (hs : svc ≠ X) : Say s s' := by
  unfold sendRequest at h
  dsimp only at h
  split at h
  · simp only [Prod.mk.injEq] at h
    rw [← h.2]; exact nsn_say _ _
  have h1 := (nsn_say s (s.nsn + 1) (s.coins + value)).trans (calm_say ((addIn_calm { s with nsn := s.nsn + 1, coins := s.coins + value } c.net value).trans (addReward_calm _ c.addr c.net
    (value - (feeList { s with nsn := s.nsn + 1 } to (decide (sn > 0))).sum))))
  split at h
  · rename_i e s3 h3
    simp only [Prod.mk.injEq] at h
    rw [← h.2]
    exact (h1.trans (sendMsg_say h3 hs)).trans (calm_say (lostFee_calm _ _))
  · rename_i s3 h3
    simp only [Prod.mk.injEq] at h
    rw [← h.2]
    exact h1.trans (sendMsg_say h3 hs)

theorem sendWithFee_say {c : Cfg} {env : Env} {s s' : St} {to svc : String} {value : Nat} {sn : Int} {body : Bytes} {isR fill : Bool} {r : Except Ex Int}
    (h : sendWithFee c env s value to svc sn body isR fill = (r, s')) (hs : svc ≠ X) : Say s s' := by
  unfold sendWithFee at h
  split at h
  · simp only [Prod.mk.injEq] at h
    rw [← h.2]; exact calm_say (Calm.refl _)
  split at h
  · exact sendReply_say h hs
  · exact sendRequest_say h hs

theorem sendInternal_say {c : Cfg} {env : Env} {s s' : St} {next to : String} {body : Bytes} {r : Option Ex}
    (h : sendInternal c env s next to body = (r, s')) : Say s s' := by
  unfold sendInternal at h
  exact (nsn_say s (s.nsn + 1)).trans (sendMsg_say h (show "bmc" ≠ X by decide))

theorem propagate_say {c : Cfg} {env : Env} {body : Bytes} : ∀ (l : List (String × Link)) {s s' : St}, propagate c env body l s = some s' → Say s s'
  | [], s, s', h => by
    simp only [propagate, Option.some.injEq] at h
    subst h; exact calm_say (Calm.refl s)
  | (_, l) :: t, s, s', h => by
    simp only [propagate] at h
    split at h
    · cases h
    · rename_i s1 h1
      exact (sendInternal_say h1).trans (propagate_say t h)

theorem internalHandle_say {c : Cfg} {env : Env} {s s' : St} {src : String} {nsn : Int} {body : Bytes} {r : Option Ex}
    (h : internalHandle c env s src nsn body = (r, s')) : Say s s' := by
  unfold internalHandle at h
  split at h
  · simp only [Prod.mk.injEq] at h
    rw [← h.2]; exact calm_say (Calm.refl _)
  · split at h
    · simp only [Prod.mk.injEq] at h
      rw [← h.2]; exact calm_say (Calm.refl _)
    rename_i _ amount receiver _ _ a _
    dsimp only at h
    have h1 := calm_say ((addIn_calm s c.net amount).trans (addReward_calm _ a c.net amount))
    split at h
    all_goals
      rename_i _ s2 hs
      simp only [Prod.mk.injEq] at h
      rw [← h.2]
      refine Say.trans (b := s2) (h1.trans (sendWithFee_say (svc := "bmc") hs (by decide))) (calm_say ⟨rfl, rfl, rfl, rfl⟩)
  · exact calm_say (handleResponse_calm h)
  · exact calm_say (addReach_calm h)
  · exact calm_say (removeReach_calm h)
  · exact calm_say (addReach_calm h)

theorem claim_say {c : Cfg} {env : Env} {s s' : St} {sender value : Nat} {net receiver : String}
    (h : claimReward c env id s sender value net receiver = some s') : Say s s' := by
  unfold claimReward at h
  dsimp only at h
  generalize claimer c s sender = who at h
  split at h
  · cases h
  have h0 : Calm s { s with reward := s.reward.set (who, net) 0 } := ⟨rfl, rfl, rfl, rfl⟩
  split at h
  · split at h
    · cases h
    split at h
    · simp only [Option.some.injEq] at h
      subst h
      exact calm_say ⟨rfl, rfl, rfl, rfl⟩
    · cases h
  · split at h
    · cases h
    rename_i k s2 hs
    simp only [Option.some.injEq] at h
    subst h
    have h2 : Calm s2 { s2 with req := s2.req.set k (some ⟨net, who, s.reward.get 0 (who, net)⟩) } := ⟨rfl, rfl, rfl, rfl⟩
    exact ((calm_say h0).trans (sendWithFee_say hs (by decide))).trans (calm_say h2)

theorem addLink_say {c : Cfg} {env : Env} {s s' : St} {link : String} (h : addLink c env s link = some s') : Say s s' := by
  unfold addLink at h
  split at h
  · cases h
  split at h
  · cases h
  split at h
  · cases h
  split at h
  · cases h
  rename_i s1 h1
  simp only at h
  split at h
  · cases h
  rename_i s3 h3
  cases h
  refine (propagate_say _ h1).trans (Say.trans ?_ (sendInternal_say h3))
  exact ⟨rfl, [.start link], rfl, fun m hm => nomatch hm⟩

theorem removeLink_say {c : Cfg} {env : Env} {s s' : St} {link : String} (h : removeLink c env s link = some s') : Say s s' := by
  unfold removeLink at h
  split at h
  · cases h
  split at h
  · cases h
  split at h
  · cases h
  split at h
  · cases h
  simp only at h
  refine Say.trans (calm_say ?_) (propagate_say _ h)
  unfold unbind
  split <;> exact ⟨rfl, rfl, rfl, rfl⟩

theorem setBTPLink_say {s s' : St} {link : String} {id off : Nat} (h : setBTPLink s link id off = some s') : Say s s' := by
  unfold setBTPLink at h
  split at h
  · cases h
  split at h
  · cases h
  simp only [Option.some.injEq] at h
  subst h
  exact ⟨rfl, [.bind id link], rfl, fun m hm => nomatch hm⟩

/-- What is registered as `xcall`. -/
def Reg (nd : INode) (s : St) : Prop := ∀ a, s.services X = some a → a = nd.addr

theorem Reg.same {nd : INode} {s s' : St} (h : Reg nd s) (e : s'.services = s.services) : Reg nd s' := by unfold Reg; rw [e]; exact h

theorem conf_say {nd : INode} {env : Env} {s s' : St} {caller : Nat} {k : Conf} (hk : ∀ a, k = .addService X a → a = nd.addr)
    (h : conf nd.c env s caller k = some s') (hr : Reg nd s) : Reg nd s' ∧ ∃ evs, s'.log = s.log ++ evs ∧ ∀ m ∈ sentBy evs, m.svc ≠ X := by
  have say : ∀ {x : St}, Say s x → Reg nd x ∧ ∃ evs, x.log = s.log ++ evs ∧ ∀ m ∈ sentBy evs, m.svc ≠ X := fun h => ⟨hr.same h.services, h.log⟩
  have hown : ∀ (x : Option JavaOwners.St), x.map (fun o => { s with own := o }) = some s' →
      Reg nd s' ∧ ∃ evs, s'.log = s.log ++ evs ∧ ∀ m ∈ sentBy evs, m.svc ≠ X := by
    intro x hx
    cases x with
    | none => cases hx
    | some o => cases hx; exact say (calm_say ⟨rfl, rfl, rfl, rfl⟩)
  unfold conf at h
  split at h
  · exact hown _ h
  · exact hown _ h
  · exact hown _ h
  · split at h
    · cases h
    · split at h
      · split at h
        · cases h
        · cases h; exact say (calm_say ⟨rfl, rfl, rfl, rfl⟩)
      · split at h
        · cases h
        · cases h; exact say (calm_say ⟨rfl, rfl, rfl, rfl⟩)
      · split at h
        · cases h
        · cases h
          refine ⟨fun b hb => ?_, [], (List.append_nil _).symm, fun m hm => nomatch hm⟩
          rename_i svc a _ _ _ _
          dsimp only at hb
          unfold SolBmc.upd at hb
          split at hb
          · rename_i e
            obtain rfl := Option.some.inj hb
            exact hk _ (by rw [e])
          · exact hr b hb
      · split at h
        · cases h
        · cases h
          refine ⟨fun b hb => ?_, [], (List.append_nil _).symm, fun m hm => nomatch hm⟩
          dsimp only at hb
          unfold SolBmc.upd at hb
          split at hb
          · cases hb
          · exact hr b hb
      · exact say (addLink_say h)
      · exact say (removeLink_say h)
      · split at h
        · cases h
        · cases h; exact say (calm_say ⟨rfl, rfl, rfl, rfl⟩)
      · split at h
        · cases h
        · cases h; exact say (calm_say ⟨rfl, rfl, rfl, rfl⟩)
      · exact say (calm_say (setFees_calm _ h))
      · cases h; exact say (calm_say ⟨rfl, rfl, rfl, rfl⟩)
      · split at h
        · cases h
        · cases h; exact say (calm_say ⟨rfl, rfl, rfl, rfl⟩)
      · rename_i link a _ _ _
        split at h
        · cases h
        · cases hx : eraseRelay (s.relays link) a with
          | none => rw [hx] at h; cases h
          | some l => rw [hx] at h; cases h; exact say (calm_say ⟨rfl, rfl, rfl, rfl⟩)
      · split at h
        · cases h
        · rename_i s1 h1
          exact say ((setBTPLink_say h1).trans (addLink_say h))
      · split at h
        · cases h
        · exact say (setBTPLink_say h)
      · cases h

/-! ### Sending -/

/-- The message the message center sends for a call of `sendMessage`. -/
theorem sendMessage_out {c : Cfg} {env : Env} {s s' : St} {caller value : Nat} {to svc : String} {sn : Int} {body : Bytes}
    (h : sendMessage c env s caller value to svc sn body = some s') : s.services svc = some caller ∧ s'.services = s.services ∧
      ∃ ev next k m, s'.log = s.log ++ [ev] ∧ trEv ev = [.message next k (tr m)] ∧ sentEv ev = [m] ∧ m.src = c.net ∧ m.dst = to ∧ m.svc = svc ∧ m.body = body ∧
        (0 ≤ sn → m.sn = sn ∧ m.nsn = s.nsn + 1) ∧
        (sn < 0 → m.sn = 0 ∧ (∃ r, s.resp.get none (to, svc, -sn) = some r ∧ m.nsn = -r.nsn) ∧ s'.resp = s.resp.set (to, svc, -sn) none) := by
  unfold sendMessage at h
  split at h
  · cases h
  rename_i a ha
  split at h
  · cases h
  rename_i hc
  have hc : caller = a := Classical.byContradiction hc
  subst hc
  split at h
  · cases h
  rename_i k s1 hs
  simp only [Option.some.injEq] at h
  subst h
  refine ⟨ha, ?_⟩
  unfold sendWithFee at hs
  split at hs
  · cases hs
  rename_i next hn
  by_cases hneg : sn < 0
  · rw [if_pos hneg, if_pos (decide_eq_true hneg)] at hs
    unfold sendReply at hs
    split at hs
    · cases hs
    rename_i r hr
    dsimp only at hs
    have h1 : Calm { s with resp := s.resp.set (to, svc, -sn) none, coins := s.coins + value }
        (addReward (addIn { s with resp := s.resp.set (to, svc, -sn) none, coins := s.coins + value } c.net value) c.addr c.net value) :=
      (addIn_calm _ _ _).trans (addReward_calm _ _ _ _)
    split at hs
    · cases hs
    rename_i s3 h3
    simp only [Prod.mk.injEq] at hs
    obtain ⟨-, rfl⟩ := hs
    rcases sendMsg_out h3 with ⟨e, -⟩ | ⟨-, h4, h5, h6, ev, k', h7, h8, h9⟩
    · exact absurd rfl e
    refine ⟨by rw [h4, h1.services], ev, next, k', _, by rw [h7, h1.log], h8, h9, rfl, rfl, rfl, rfl, fun e => absurd hneg (by omega), fun _ => ⟨rfl, ⟨r, hr, rfl⟩, ?_⟩⟩
    rw [h5, h1.resp]
  · rw [if_neg hneg, if_neg (by simpa using hneg)] at hs
    simp only [Bool.false_eq_true, if_false] at hs
    unfold sendRequest at hs
    dsimp only at hs
    split at hs
    · cases hs
    have h1 := (addIn_calm { s with nsn := s.nsn + 1, coins := s.coins + value } c.net value).trans (addReward_calm _ c.addr c.net
      (value - (feeList { s with nsn := s.nsn + 1 } to (decide (sn > 0))).sum))
    split at hs
    · cases hs
    rename_i s3 h3
    simp only [Prod.mk.injEq] at hs
    obtain ⟨-, rfl⟩ := hs
    rcases sendMsg_out h3 with ⟨e, -⟩ | ⟨-, h4, h5, h6, ev, k', h7, h8, h9⟩
    · exact absurd rfl e
    exact ⟨by rw [h4, h1.services], ev, next, k', _, by rw [h7, h1.log], h8, h9, rfl, rfl, rfl, rfl, fun e => ⟨rfl, rfl⟩, fun e => absurd e hneg⟩

/-! ### Calls of both contracts -/

/-- What is needed of the message center. -/
structure Fit (nd : INode) (s : St) : Prop where
  own : Own s
  reg : Reg nd s
  nsn : 0 ≤ s.nsn

def appJ : Ops → Ops → Ops
  | .nil, b => b
  | .cons o t, b => .cons o (appJ t b)

theorem appJ_quiet (b : Ops) (hb : b.quiet = true) : ∀ a : Ops, a.quiet = true → (appJ a b).quiet = true
  | .nil, _ => hb
  | .cons o t, h => by
    simp only [Ops.quiet, Bool.and_eq_true] at h
    simp only [appJ, Ops.quiet, Bool.and_eq_true]
    exact ⟨h.1, appJ_quiet b hb t h.2⟩

theorem appJ_exec (c : Cfg) (b : Ops) : ∀ (a : Ops) (s : St), execOps c (appJ a b) s = execOps c b (execOps c a s)
  | .nil, s => by simp only [appJ, execOps]
  | .cons o t, s => by simp only [appJ, execOps]; exact appJ_exec c b t _

/-- The messages `evs` sent in the name of the call service are the ones it sent; the message center is used by the calls `acts`. -/
structure Tie (nd : INode) (j j' : IJ) (evs : List Event) (new : List (Nat × SolBmc.Msg)) (acts : Ops) : Prop where
  fit : Fit nd j'.b
  log : j'.b.log = j.b.log ++ evs
  fee : ∀ m ∈ sentBy evs, 0 < m.sn → m.fee.isSome = true
  quiet : acts.quiet = true
  acts : execOps nd.c acts j.b = j'.b
  bond : Bond nd.side (absJ j.b) j.x (trLog evs) new (absJ j'.b) j'.x

def Coup (nd : INode) (j j' : IJ) : Prop := Fit nd j.b → ∃ evs new acts, Tie nd j j' evs new acts

theorem Coup.refl (nd : INode) (j : IJ) : Coup nd j j := fun h =>
  ⟨[], [], .nil, h, (List.append_nil _).symm, fun m hm => (nomatch hm), rfl, by simp only [execOps], Bond.refl _ _ _⟩

theorem Coup.trans {nd : INode} {a b d : IJ} (h1 : Coup nd a b) (h2 : Coup nd b d) : Coup nd a d := by
  intro h
  obtain ⟨e, n, o, g⟩ := h1 h
  obtain ⟨e', n', o', g'⟩ := h2 g.fit
  refine ⟨e ++ e', n ++ n', appJ o o', g'.fit, by rw [g'.log, g.log, List.append_assoc], fun m hm => ?_, appJ_quiet _ g'.quiet _ g.quiet,
    by rw [appJ_exec, g.acts, g'.acts], by rw [trLog_append]; exact g.bond.trans g'.bond⟩
  rw [sentBy_append] at hm
  rcases List.mem_append.1 hm with hm | hm
  · exact g.fee m hm
  · exact g'.fee m hm

theorem Coup.silent {nd : INode} {b : St} {x x' : XCall.St} (y : List XCall.Ev) (h : x'.log = x.log ++ y)
    (hy : ∀ net sn xm v, XCall.Ev.out net sn xm v ∉ y) : Coup nd ⟨b, x⟩ ⟨b, x'⟩ := fun f =>
  ⟨[], [], .nil, f, (List.append_nil _).symm, fun m hm => (nomatch hm), rfl, by simp only [execOps], Bond.silent (.nil _) (fun m hm => nomatch hm) y h hy⟩

theorem svc_tr {evs : List Event} (h : ∀ m ∈ sentBy evs, m.svc ≠ X) : ∀ m ∈ msgsOf (trLog evs), m.svc ≠ X := by
  intro m hm
  rw [msgsOf_trLog] at hm
  obtain ⟨m', hm', rfl⟩ := List.mem_map.1 hm
  exact h m' hm'

/-- The call service has no part in it. -/
theorem quiet_coup {nd : INode} {s s' : St} (x : XCall.St) (acts : Ops) (hq : acts.quiet = true) (he : execOps nd.c acts s = s') (hg : JGo nd.c.net s [] s')
    (hs : Reg nd s → Reg nd s' ∧ ∃ evs, s'.log = s.log ++ evs ∧ ∀ m ∈ sentBy evs, m.svc ≠ X) : Coup nd ⟨s, x⟩ ⟨s', x⟩ := by
  intro f
  obtain ⟨ho, evs, h1, h2, h3⟩ := hg f.own (fun m hm => nomatch hm)
  obtain ⟨hr, evs', h4, h5⟩ := hs f.reg
  have : evs' = evs := List.append_cancel_left (h4.symm.trans h1)
  subst this
  exact ⟨evs', [], acts, ⟨ho, hr, Int.le_trans f.nsn (mvs_mono h2)⟩, h1, h3, hq, he, Bond.silent h2 (svc_tr h5) [] (List.append_nil _).symm (fun _ _ _ _ hm => nomatch hm)⟩

theorem execOps_one (c : Cfg) (o : Op) (s s' : St) (h : exec c o s = some s') : execOps c (.cons o .nil) s = s' := by
  simp only [execOps, h]; rfl

/-- The call service sends a message. -/
theorem sendOut_coup (nd : INode) (env : Env) (s s' : St) (x : XCall.St) (e : XCall.Ev) (h : sendOut nd env s e = some s') :
    Coup nd ⟨s, x⟩ ⟨s', { x with log := x.log ++ [e] }⟩ := by
  by_cases he : ∃ net sn xm v, e = .out net sn xm v
  · obtain ⟨net, sn, xm, v, rfl⟩ := he
    intro f
    rw [sendOut] at h
    obtain ⟨ho, evs, h1, h2, h3⟩ := quiet_go (c := nd.c) _ s s' rfl h f.own (fun m hm => nomatch hm)
    have hx := h
    simp only [exec] at hx
    obtain ⟨-, hsv, ev, next, k, m, h4, h5, h6, h7, h8, h9, h10, h11, h12⟩ := sendMessage_out hx
    have : evs = [ev] := List.append_cancel_left (h1.symm.trans h4)
    subst this
    have e1 : trLog [ev] = [.message next k (tr m)] := by show trEv ev ++ [] = _; rw [h5]; rfl
    have h2' := h2
    rw [e1] at h2'
    refine ⟨[ev], [(x.log.length, tr m)], .cons (.send env nd.addr v (String.ofList net) X sn (nd.enc xm)) .nil,
      ⟨ho, f.reg.same hsv, Int.le_trans f.nsn (mvs_mono h2)⟩, h1, h3, rfl, execOps_one _ _ _ _ h, ?_⟩
    rw [e1]
    refine .one h2' ⟨h7, h8, h9, h10, fun e => ⟨(h11 e).1, ?_⟩, fun e => ⟨(h12 e).1, ?_⟩⟩ (fun e => ?_)
    · have := (h11 e).2
      have := f.nsn
      show 0 < m.nsn
      dsimp only at this
      omega
    · obtain ⟨-, ⟨r, hr, hn⟩, -⟩ := h12 e
      have := (f.own.resp _ _ hr).1
      show m.nsn < 0
      omega
    · obtain ⟨-, ⟨r, hr, hn⟩, -⟩ := h12 e
      rw [owed_some hr]
      exact hn
  · have hs : s' = s := by
      cases e with
      | out net sn m v => exact absurd ⟨net, sn, m, v, rfl⟩ he
      | _ => exact (Option.some.inj (show some s = some s' from h)).symm
    subst hs
    exact .silent [e] rfl (fun net sn xm v hm => he ⟨net, sn, xm, v, (List.mem_singleton.1 hm).symm⟩)

theorem sendOuts_coup (nd : INode) (env : Env) : ∀ (y : List XCall.Ev) (s s' : St) (x x' : XCall.St),
    sendOuts nd env y s = some s' → x'.log = x.log ++ y → Coup nd ⟨s, x⟩ ⟨s', x'⟩
  | [], s, s', x, x', h, hx => by
    rw [sendOuts] at h
    obtain rfl := Option.some.inj h
    exact .silent [] hx (fun _ _ _ _ hm => nomatch hm)
  | e :: t, s, s', x, x', h, hx => by
    rw [sendOuts, Option.bind_eq_some_iff] at h
    obtain ⟨s1, h1, h2⟩ := h
    exact (sendOut_coup nd env s s1 x e h1).trans (sendOuts_coup nd env t s1 s' { x with log := x.log ++ [e] } x' h2 (by
      rw [hx]; simp))

theorem claim_exec (nd : INode) (env : Env) (s s' : St) (caller value : Nat) (net receiver : String)
    (h : claimReward nd.c env id s caller value net receiver = some s') : execOps nd.c (.cons (.claim env .nil caller value net receiver) .nil) s = s' := by
  refine execOps_one _ _ _ _ ?_
  simp only [exec]
  have : (fun x => execOps nd.c .nil x) = id := by funext x; simp only [execOps]; rfl
  rw [this]; exact h

theorem claim_coup (nd : INode) (env : Env) (s s' : St) (x : XCall.St) (caller value : Nat) (net receiver : String)
    (h : claimReward nd.c env id s caller value net receiver = some s') : Coup nd ⟨s, x⟩ ⟨s', x⟩ := by
  have h1 := claim_say h
  exact quiet_coup x (.cons (.claim env .nil caller value net receiver) .nil) rfl (claim_exec nd env s s' caller value net receiver h)
    (claim_go (fun s => (Calm.refl s).go _) h) (fun hr => ⟨hr.same h1.services, h1.log⟩)

mutual
theorem iexec_coup (nd : INode) : ∀ (o : IOp) (j j' : IJ), IFine nd o → iexec nd o j = some j' → Coup nd j j'
  | .post env caller value to svc sn body, j, j', hf, h => by
    rw [IFine] at hf
    rw [iexec, Option.map_eq_some_iff] at h
    obtain ⟨s', h, rfl⟩ := h
    refine quiet_coup j.x (.cons (.send env caller value to svc sn body) .nil) rfl (execOps_one _ _ _ _ h) (quiet_go _ _ _ rfl h) (fun hr => ?_)
    simp only [exec] at h
    obtain ⟨h1, h2, ev, next, k, m, h3, h4, h5, -, -, h6, -⟩ := sendMessage_out h
    refine ⟨hr.same h2, [ev], h3, fun m' hm => ?_⟩
    have e1 : sentBy [ev] = [m] := by show sentEv ev ++ [] = _; rw [h5]; rfl
    rw [e1, List.mem_singleton] at hm
    subst hm
    rw [h6]
    rintro rfl
    exact hf (hr _ h1)
  | .claim env inner caller value net receiver, j, j', hf, h => by
    rw [IFine] at hf
    rw [iexec, Option.map_eq_some_iff] at h
    obtain ⟨s', h, rfl⟩ := h
    refine (claim_coup nd env j.b s' j.x caller value net receiver h).trans ?_
    split
    · exact irun_coup nd inner _ hf
    · exact .refl _ _
  | .conf env caller k, j, j', hf, h => by
    rw [IFine] at hf
    rw [iexec, Option.map_eq_some_iff] at h
    obtain ⟨s', h, rfl⟩ := h
    refine quiet_coup j.x (.cons (.conf env caller k) .nil) rfl (execOps_one _ _ _ _ h) (quiet_go _ _ _ rfl h) (fun hr => ?_)
    simp only [exec] at h
    exact conf_say hf h hr
  | .send env caller isC to data rb value fee, j, j', hf, h => by
    rw [iexec] at h
    split at h
    · cases h
    rename_i x' hx
    rw [Option.map_eq_some_iff] at h
    obtain ⟨s', h, rfl⟩ := h
    obtain ⟨y, hy, -⟩ := XCall.step_ext nd.x _ _ _ hx
    exact sendOuts_coup nd env _ j.b s' j.x x' h (drop_ext ⟨y, hy⟩)
  | .exec env id inner out, j, j', hf, h => by
    rw [IFine] at hf
    rw [iexec] at h
    split at h
    · cases h
    rename_i r net x1 hs
    dsimp only at h
    split at h
    · cases h
    rename_i x3 he
    rw [Option.map_eq_some_iff] at h
    obtain ⟨s', h, rfl⟩ := h
    have h1 : Coup nd j ⟨j.b, x1⟩ := .silent (b := j.b) (x := j.x) [.call id r] (by rw [(XCall.execStart_ok hs).2.2]) (fun _ _ _ _ hm => by simp at hm)
    have h2 : Coup nd ⟨j.b, x1⟩ (if XCall.committed out = true then irun nd inner ⟨j.b, x1⟩ else ⟨j.b, x1⟩) := by
      split
      · exact irun_coup nd inner _ hf
      · exact .refl _ _
    exact (h1.trans h2).trans (sendOuts_coup nd env _ _ s' _ x3 h (drop_ext (execEnd_ext he)))
  | .undo sn inner out, j, j', hf, h => by
    rw [IFine] at hf
    rw [iexec] at h
    split at h
    · cases h
    rename_i x1 hs
    dsimp only at h
    obtain rfl := Option.some.inj h
    obtain ⟨c, -, -, hx1⟩ := XCall.undoStart_ok hs
    have h1 : Coup nd j ⟨j.b, x1⟩ := .silent (b := j.b) (x := j.x) [.undo sn c.src c.rollback] (by rw [hx1]) (fun _ _ _ _ hm => by simp at hm)
    have h2 : Coup nd ⟨j.b, x1⟩ (if XCall.committed out = true then irun nd inner ⟨j.b, x1⟩ else ⟨j.b, x1⟩) := by
      split
      · exact irun_coup nd inner _ hf
      · exact .refl _ _
    refine (h1.trans h2).trans (.silent [.undone sn (XCall.respCode nd.x.lang out)] rfl (fun _ _ _ _ hm => by simp at hm))
  | .other op, j, j', hf, h => by
    rw [iexec] at h
    split at h
    · rename_i hl
      rw [Option.map_eq_some_iff] at h
      obtain ⟨x', h, rfl⟩ := h
      obtain ⟨y, hy, h2⟩ := leaf_silent op hl h
      exact .silent (b := j.b) (x := j.x) y hy h2
    · cases h
theorem irun_coup (nd : INode) : ∀ (os : IOps) (j : IJ), IFineAll nd os → Coup nd j (irun nd os j)
  | .nil, j, _ => by rw [irun]; exact .refl nd j
  | .cons o t, j, hf => by
    rw [IFineAll] at hf
    rw [irun]
    cases h : iexec nd o j with
    | none => exact irun_coup nd t j hf.2
    | some j1 => exact (iexec_coup nd o j j1 hf.1 h).trans (irun_coup nd t j1 hf.2)
end

/-! ### The history of the call service -/

mutual
theorem iexec_ops (nd : INode) : ∀ (o : IOp) (j j' : IJ), IFine nd o → iexec nd o j = some j' →
    ∃ ops, XCall.ByAll (· ≠ nd.x.bmc) (fun _ => True) ops ∧ XCall.run nd.x ops j.x = j'.x
  | .post env caller value to svc sn body, j, j', _, h => by
    rw [iexec, Option.map_eq_some_iff] at h
    obtain ⟨s', h, rfl⟩ := h
    exact ⟨.nil, by rw [XCall.ByAll]; trivial, by rw [XCall.run]⟩
  | .claim env inner caller value net receiver, j, j', hf, h => by
    rw [IFine] at hf
    rw [iexec, Option.map_eq_some_iff] at h
    obtain ⟨s', h, rfl⟩ := h
    split
    · exact irun_ops nd inner ⟨s', j.x⟩ hf
    · exact ⟨.nil, by rw [XCall.ByAll]; trivial, by rw [XCall.run]⟩
  | .conf env caller k, j, j', _, h => by
    rw [iexec, Option.map_eq_some_iff] at h
    obtain ⟨s', h, rfl⟩ := h
    exact ⟨.nil, by rw [XCall.ByAll]; trivial, by rw [XCall.run]⟩
  | .send env caller isC to data rb value fee, j, j', _, h => by
    rw [iexec] at h
    split at h
    · cases h
    rename_i x' hx
    rw [Option.map_eq_some_iff] at h
    obtain ⟨s', h, rfl⟩ := h
    refine ⟨.cons (.send caller isC to data rb value fee (some 0)) .nil, by rw [XCall.ByAll, XCall.By, XCall.ByAll]; exact ⟨trivial, trivial⟩, ?_⟩
    rw [XCall.run, hx]
    show XCall.run nd.x .nil x' = x'
    rw [XCall.run]
  | .exec env id inner out, j, j', hf, h => by
    rw [IFine] at hf
    rw [iexec] at h
    split at h
    · cases h
    rename_i r net x1 hs
    dsimp only at h
    split at h
    · cases h
    rename_i x3 he
    rw [Option.map_eq_some_iff] at h
    obtain ⟨s', h, rfl⟩ := h
    obtain ⟨inner', hb, hr⟩ := irun_ops nd inner ⟨j.b, x1⟩ hf
    refine ⟨.cons (.exec id inner' out (some 0)) .nil, by rw [XCall.ByAll, XCall.By, XCall.ByAll]; exact ⟨hb, trivial⟩, ?_⟩
    have : XCall.step nd.x (.exec id inner' out (some 0)) j.x = some x3 := by
      rw [XCall.step, hs]
      dsimp only
      rw [← he]
      congr 1
      split
      · exact hr
      · rfl
    rw [XCall.run, this]
    show XCall.run nd.x .nil x3 = x3
    rw [XCall.run]
  | .undo sn inner out, j, j', hf, h => by
    rw [IFine] at hf
    rw [iexec] at h
    split at h
    · cases h
    rename_i x1 hs
    dsimp only at h
    obtain rfl := Option.some.inj h
    obtain ⟨inner', hb, hr⟩ := irun_ops nd inner ⟨j.b, x1⟩ hf
    refine ⟨.cons (.undo sn inner' out) .nil, by rw [XCall.ByAll, XCall.By, XCall.ByAll]; exact ⟨hb, trivial⟩, ?_⟩
    rw [XCall.run, XCall.step, hs]
    dsimp only
    rw [XCall.run]
    have : (if XCall.committed out = true then XCall.run nd.x inner' x1 else x1) = (if XCall.committed out = true then irun nd inner ⟨j.b, x1⟩ else ⟨j.b, x1⟩).x := by
      split
      · exact hr
      · rfl
    rw [this]
  | .other op, j, j', hf, h => by
    rw [IFine] at hf
    rw [iexec] at h
    split at h
    · rw [Option.map_eq_some_iff] at h
      obtain ⟨x', h, rfl⟩ := h
      refine ⟨.cons op .nil, by rw [XCall.ByAll, XCall.ByAll]; exact ⟨hf, trivial⟩, ?_⟩
      rw [XCall.run, h]
      show XCall.run nd.x .nil x' = x'
      rw [XCall.run]
    · cases h
theorem irun_ops (nd : INode) : ∀ (os : IOps) (j : IJ), IFineAll nd os →
    ∃ ops, XCall.ByAll (· ≠ nd.x.bmc) (fun _ => True) ops ∧ XCall.run nd.x ops j.x = (irun nd os j).x
  | .nil, j, _ => ⟨.nil, by rw [XCall.ByAll]; trivial, by rw [XCall.run, irun]⟩
  | .cons o t, j, hf => by
    rw [IFineAll] at hf
    rw [irun]
    cases h : iexec nd o j with
    | none => exact irun_ops nd t j hf.2
    | some j1 =>
      obtain ⟨o1, h1, h2⟩ := iexec_ops nd o j j1 hf.1 h
      obtain ⟨o2, h3, h4⟩ := irun_ops nd t j1 hf.2
      refine ⟨appX o1 o2, appX_by o2 h3 o1 h1, ?_⟩
      rw [appX_run, h2, h4]; rfl
end

/-! ### Requests received and answers owed -/

def Keeps (nd : INode) (j j' : IJ) : Prop := Fit nd j.b → Keep (absJ j.b) j.x (absJ j'.b) j'.x

theorem Keeps.refl (nd : INode) (j : IJ) : Keeps nd j j := fun _ => ⟨fun _ h => h, fun _ _ _ _ h _ _ _ _ _ => .inl h⟩

theorem Keeps.trans {nd : INode} {a b d : IJ} (hc : Coup nd a b) (h1 : Keeps nd a b) (h2 : Keeps nd b d) : Keeps nd a d := by
  intro f
  obtain ⟨e, n, o, g⟩ := hc f
  have k1 := h1 f
  have k2 := h2 g.fit
  exact ⟨fun k h => k2.zero k (k1.zero k h), fun id r net x h hr hs hl hc hp => (k1.wait id r net x h hr hs hl hc hp).elim
    (fun h => k2.wait id r net x h hr hs hl hc hp) (fun h => .inr (k2.zero _ h))⟩

theorem Coup.zero {nd : INode} {j j' : IJ} (h : Coup nd j j') (f : Fit nd j.b) (k : String × String × Int) (hk : owed (absJ j.b) k = 0) : owed (absJ j'.b) k = 0 := by
  obtain ⟨e, n, o, g⟩ := h f
  exact mvs_zero g.bond.mvs rfl k hk

/-- The call service is left alone. -/
theorem Keeps.alone {nd : INode} {s s' : St} {x : XCall.St} (h : Coup nd ⟨s, x⟩ ⟨s', x⟩) : Keeps nd ⟨s, x⟩ ⟨s', x⟩ := fun f =>
  ⟨fun k hk => h.zero f k hk, fun _ _ _ _ h _ _ _ _ _ => .inl h⟩

theorem sendMessage_zero {c : Cfg} {env : Env} {s s' : St} {caller value : Nat} {to svc : String} {sn : Int} {body : Bytes} (hn : sn < 0)
    (h : sendMessage c env s caller value to svc sn body = some s') : owed (absJ s') (to, svc, -sn) = 0 := by
  obtain ⟨-, -, ev, next, k, m, -, -, -, -, -, -, -, -, h1⟩ := sendMessage_out h
  rw [owedJ, (h1 hn).2.2, FM.get_set, if_pos rfl]
  rfl

mutual
theorem iexec_keeps (nd : INode) : ∀ (o : IOp) (j j' : IJ), IFine nd o → iexec nd o j = some j' → Keeps nd j j'
  | .post env caller value to svc sn body, j, j', hf, h => by
    have hc := iexec_coup nd _ j j' hf h
    rw [iexec, Option.map_eq_some_iff] at h
    obtain ⟨s', h, rfl⟩ := h
    exact Keeps.alone (s := j.b) hc
  | .claim env inner caller value net receiver, j, j', hf, h => by
    rw [IFine] at hf
    rw [iexec, Option.map_eq_some_iff] at h
    obtain ⟨s', h, rfl⟩ := h
    have hc := claim_coup nd env j.b s' j.x caller value net receiver h
    refine Keeps.trans hc (Keeps.alone hc) ?_
    split
    · exact irun_keeps nd inner _ hf
    · exact .refl _ _
  | .conf env caller k, j, j', hf, h => by
    have hc := iexec_coup nd _ j j' hf h
    rw [iexec, Option.map_eq_some_iff] at h
    obtain ⟨s', h, rfl⟩ := h
    exact Keeps.alone (s := j.b) hc
  | .send env caller isC to data rb value fee, j, j', hf, h => by
    have hc := iexec_coup nd _ j j' hf h
    intro f
    rw [iexec] at h
    split at h
    · cases h
    rename_i x' hx
    rw [Option.map_eq_some_iff] at h
    obtain ⟨s', h, rfl⟩ := h
    refine ⟨fun k hk => hc.zero f k hk, fun id r net a h _ _ _ _ _ => .inl ?_⟩
    rw [XCall.step] at hx
    obtain ⟨net, acct, f, s1, -, -, -, -, -, -, h1, h2⟩ := XCall.send_ok hx
    rw [← h]
    have e1 : x'.proxy = s1.proxy := sendTail_proxy h2
    have e2 : s1.proxy = j.x.proxy := payFee_proxy h1
    rw [e1, e2]
  | .exec env id inner out, j, j', hf, h => by
    intro f
    rw [IFine] at hf
    rw [iexec] at h
    split at h
    · cases h
    rename_i r net x1 hs
    dsimp only at h
    split at h
    · cases h
    rename_i x3 he
    rw [Option.map_eq_some_iff] at h
    obtain ⟨s', h, rfl⟩ := h
    obtain ⟨hp, ⟨a, hpar⟩, hx1⟩ := XCall.execStart_ok hs
    have hc2 : Coup nd ⟨j.b, x1⟩ (if XCall.committed out = true then irun nd inner ⟨j.b, x1⟩ else ⟨j.b, x1⟩) := by
      split
      · exact irun_coup nd inner _ hf
      · exact .refl _ _
    have h2 : Keeps nd ⟨j.b, x1⟩ (if XCall.committed out = true then irun nd inner ⟨j.b, x1⟩ else ⟨j.b, x1⟩) := by
      split
      · exact irun_keeps nd inner _ hf
      · exact .refl _ _
    generalize (if XCall.committed out = true then irun nd inner ⟨j.b, x1⟩ else ⟨j.b, x1⟩ : IJ) = j2 at h he h2 hc2
    have hc3 : Coup nd j2 ⟨s', x3⟩ := sendOuts_coup nd env _ _ s' j2.x x3 h (drop_ext (execEnd_ext he))
    have h2 := h2 f
    have f2 : Fit nd j2.b := by obtain ⟨_, _, _, g⟩ := hc2 f; exact g.fit
    have h3 : x3.proxy = j2.x.proxy := by
      rcases XCall.execEnd_ok he with ⟨-, rfl⟩ | ⟨n, -, -, rfl⟩ <;> rfl
    refine ⟨fun k hk => hc3.zero f2 k (h2.zero k hk), fun id' r' net' a' hp' hr' hs' hl' hc' hpar' => ?_⟩
    by_cases hid : id' = id
    · subst hid
      rw [hp] at hp'
      obtain rfl := Option.some.inj hp'
      rw [hpar'] at hpar
      obtain ⟨rfl, rfl⟩ := XCall.parse_compose hc' hpar
      rcases XCall.execEnd_ok he with ⟨hrb, -⟩ | ⟨n, -, hn, hx3⟩
      · rw [hr'] at hrb; cases hrb
      · right
        have hn' := negSn_small hs' hl' hn
        subst hn'
        rw [hx3] at h
        dsimp only at h
        rw [List.drop_left, sendOuts, Option.bind_eq_some_iff] at h
        obtain ⟨s1, hb1, h⟩ := h
        rw [sendOuts, Option.bind_eq_some_iff] at h
        obtain ⟨s4, hb2, h⟩ := h
        rw [sendOuts] at h
        obtain rfl := Option.some.inj h
        rw [sendOut] at hb2
        simp only [exec] at hb2
        have := sendMessage_zero (by omega) hb2
        rwa [Int.neg_neg] at this
    · rcases h2.wait id' r' net' a' (by rw [hx1]; dsimp only; rw [if_neg hid]; exact hp') hr' hs' hl' hc' hpar' with h4 | h4
      · exact .inl (by show x3.proxy id' = _; rw [h3]; exact h4)
      · exact .inr (hc3.zero f2 _ h4)
  | .undo sn inner out, j, j', hf, h => by
    intro f
    rw [IFine] at hf
    rw [iexec] at h
    split at h
    · cases h
    rename_i x1 hs
    dsimp only at h
    obtain rfl := Option.some.inj h
    obtain ⟨c, -, -, hx1⟩ := XCall.undoStart_ok hs
    have h2 : Keeps nd ⟨j.b, x1⟩ (if XCall.committed out = true then irun nd inner ⟨j.b, x1⟩ else ⟨j.b, x1⟩) := by
      split
      · exact irun_keeps nd inner _ hf
      · exact .refl _ _
    have h2 := h2 f
    exact ⟨fun k hk => h2.zero k hk, fun id' r' net' a' hp' hr' hs' hl' hc' hpar' => h2.wait id' r' net' a' (by rw [hx1]; exact hp') hr' hs' hl' hc' hpar'⟩
  | .other op, j, j', hf, h => by
    rw [IFine] at hf
    rw [iexec] at h
    split at h
    · rename_i hl
      rw [Option.map_eq_some_iff] at h
      obtain ⟨x', h, rfl⟩ := h
      refine fun _ => ⟨fun _ h => h, fun id r net a hp _ _ _ _ _ => .inl ?_⟩
      show x'.proxy id = _
      rw [leaf_proxy op hl hf h]; exact hp
    · cases h
theorem irun_keeps (nd : INode) : ∀ (os : IOps) (j : IJ), IFineAll nd os → Keeps nd j (irun nd os j)
  | .nil, j, _ => by rw [irun]; exact .refl nd j
  | .cons o t, j, hf => by
    rw [IFineAll] at hf
    rw [irun]
    cases h : iexec nd o j with
    | none => exact irun_keeps nd t j hf.2
    | some j1 => exact Keeps.trans (iexec_coup nd o j j1 hf.1 h) (iexec_keeps nd o j j1 hf.1 h) (irun_keeps nd t j1 hf.2)
end

end Verif.XMix
