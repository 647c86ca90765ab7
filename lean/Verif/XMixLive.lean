import Verif.XMixMoves
import Verif.XCallNetLive
/-!
A request that waits at a call service of ICON can be executed, whatever the contract called does meanwhile, as long as it is none of the owners of
the message center: the calls of others keep the routes and the answers owed.
-/
namespace Verif.XMix
open Verif
open Verif.SolBmc (FM FeeInfo)
open Verif.SolNet (owed)
open Verif.MixNet
open Verif.JavaBmc
open Verif.XNet (X leaf NoWait leaf_sn leaf_proxy payFee_proxy sendTail_proxy ofList_inj)

mutual
/-- Number of calls. -/
def IOp.size : IOp → Nat
  | .post .. => 1
  | .claim _ inner _ _ _ _ => inner.size + 1
  | .conf .. => 1
  | .send .. => 1
  | .exec _ _ inner _ => inner.size + 1
  | .undo _ inner _ => inner.size + 1
  | .other _ => 1
def IOps.size : IOps → Nat
  | .nil => 0
  | .cons o t => o.size + t.size
end

mutual
/-- No call of the owners' methods of the message center. -/
def IOp.plain : IOp → Prop
  | .post .. => True
  | .claim _ inner _ _ _ _ => inner.plain
  | .conf .. => False
  | .send .. => True
  | .exec _ _ inner _ => inner.plain
  | .undo _ inner _ => inner.plain
  | .other _ => True
def IOps.plain : IOps → Prop
  | .nil => True
  | .cons o t => o.plain ∧ t.plain
end

/-! ### Routes -/

/-- What of the links matters for routes. -/
def sight (ls : List (String × Link)) : List (String × (String × List String)) := ls.map fun p => (p.1, p.2.addr, p.2.reach)

theorem get_map {V W : Type} (f : V → W) (k : String) : ∀ ls : List (String × V), Dict.get (ls.map fun p => (p.1, f p.2)) k = (Dict.get ls k).map f
  | [] => rfl
  | (k', v) :: t => by
    simp only [List.map_cons, Dict.get]
    split
    · rfl
    · exact get_map f k t

theorem get_sight (ls : List (String × Link)) (k : String) : Dict.get (sight ls) k = (Dict.get ls k).map fun l => (l.addr, l.reach) :=
  get_map (fun l : Link => (l.addr, l.reach)) k ls

theorem put_sight (l l' : Link) (h1 : l'.addr = l.addr) (h2 : l'.reach = l.reach) (k : String) : ∀ ls : List (String × Link), Dict.get ls k = some l →
    sight (Dict.put ls k l') = sight ls
  | [], h => nomatch h
  | (k', v) :: t, h => by
    rw [Dict.get] at h
    rw [Dict.put]
    split at h
    · rename_i e
      obtain rfl := Option.some.inj h
      rw [if_pos e]
      show (k, l'.addr, l'.reach) :: sight t = (k', v.addr, v.reach) :: sight t
      rw [h1, h2, e]
    · rename_i e
      rw [if_neg e]
      show (k', v.addr, v.reach) :: sight (Dict.put t k l') = (k', v.addr, v.reach) :: sight t
      rw [put_sight l l' h1 h2 k t h]

theorem fromReach_sight (c : Cfg) (net : String) : ∀ ls ls' : List (String × Link), sight ls' = sight ls → fromReach c net ls' = fromReach c net ls
  | [], [], _ => rfl
  | [], _ :: _, h => nomatch h
  | _ :: _, [], h => nomatch h
  | (k, l) :: t, (k', l') :: t', h => by
    obtain ⟨h1, h2⟩ := List.cons.inj (show (k', l'.addr, l'.reach) :: sight t' = (k, l.addr, l.reach) :: sight t from h)
    obtain ⟨-, h1⟩ := Prod.mk.inj h1
    obtain ⟨h3, h4⟩ := Prod.mk.inj h1
    rw [fromReach, fromReach, h3, h4, fromReach_sight c net t t' h2]

/-- The message center knows the same services, routes and links, and owes the same answers, but perhaps the one of `key`. -/
structure Rest (key : Option (String × String × Int)) (s s' : St) : Prop where
  services : s'.services = s.services
  routes : s'.routes = s.routes
  links : sight s'.links = sight s.links
  resp : ∀ k, some k ≠ key → s'.resp.get none k = s.resp.get none k

theorem Rest.refl (k : Option (String × String × Int)) (s : St) : Rest k s s := ⟨rfl, rfl, rfl, fun _ _ => rfl⟩

theorem Rest.trans {k : Option (String × String × Int)} {a b d : St} (h1 : Rest k a b) (h2 : Rest k b d) : Rest k a d :=
  ⟨h2.services.trans h1.services, h2.routes.trans h1.routes, h2.links.trans h1.links, fun x hx => (h2.resp x hx).trans (h1.resp x hx)⟩

theorem Rest.any {k : Option (String × String × Int)} {a b : St} (h : Rest none a b) : Rest k a b := ⟨h.services, h.routes, h.links, fun x _ => h.resp x (nofun)⟩

theorem Rest.resolve {k : Option (String × String × Int)} {s s' : St} (h : Rest k s s') (c : Cfg) (net : String) : resolve c s' net = resolve c s net := by
  have hg : ∀ n, (Dict.get s'.links n).map (fun l => (l.addr, l.reach)) = (Dict.get s.links n).map (fun l => (l.addr, l.reach)) := fun n => by
    rw [← get_sight, ← get_sight, h.links]
  unfold JavaBmc.resolve
  rw [h.routes, fromReach_sight c net _ _ h.links]
  have h1 := hg net
  cases e1 : Dict.get s.links net with
  | some l =>
    cases e2 : Dict.get s'.links net with
    | none => rw [e1, e2] at h1; exact nomatch h1
    | some l' =>
      rw [e1, e2] at h1
      have := (Prod.mk.inj (Option.some.inj h1)).1
      dsimp only
      rw [this]
  | none =>
    cases e2 : Dict.get s'.links net with
    | some l' => rw [e1, e2] at h1; exact nomatch h1
    | none =>
      dsimp only
      cases e3 : Dict.get s.routes net with
      | none => rfl
      | some next =>
        have h2 := hg next
        dsimp only
        cases e4 : Dict.get s.links next with
        | none =>
          cases e5 : Dict.get s'.links next with
          | none => rfl
          | some l' => rw [e4, e5] at h2; exact nomatch h2
        | some l =>
          cases e5 : Dict.get s'.links next with
          | none => rw [e4, e5] at h2; exact nomatch h2
          | some l' =>
            rw [e4, e5] at h2
            have := (Prod.mk.inj (Option.some.inj h2)).1
            dsimp only
            rw [this]

theorem Rest.link {k : Option (String × String × Int)} {s s' : St} (h : Rest k s s') (c : Cfg) (a : String) :
    (getLinkA c s' a).isSome = (getLinkA c s a).isSome := by
  unfold getLinkA
  cases c.netOf a with
  | none => rfl
  | some net =>
    have h1 : (Dict.get s'.links net).map (fun l => (l.addr, l.reach)) = (Dict.get s.links net).map (fun l => (l.addr, l.reach)) := by
      rw [← get_sight, ← get_sight, h.links]
    dsimp only
    cases e1 : Dict.get s.links net with
    | none =>
      cases e2 : Dict.get s'.links net with
      | none => rfl
      | some l' => rw [e1, e2] at h1; exact nomatch h1
    | some l =>
      cases e2 : Dict.get s'.links net with
      | none => rw [e1, e2] at h1; exact nomatch h1
      | some l' =>
        rw [e1, e2] at h1
        have := (Prod.mk.inj (Option.some.inj h1)).1
        dsimp only
        rw [this]
        split <;> rfl

theorem putLink_rest {c : Cfg} {s : St} {next : String} {l l' : Link} (h : getLinkA c s next = some l) (h1 : l'.addr = l.addr) (h2 : l'.reach = l.reach) :
    Rest none s (putLink c s l') := by
  unfold getLinkA at h
  split at h
  · cases h
  rename_i net hn
  split at h
  · cases h
  rename_i l0 hg
  split at h
  · rename_i ha
    obtain rfl := Option.some.inj h
    unfold putLink
    rw [h1, ha, hn]
    exact ⟨rfl, rfl, put_sight _ _ h1 h2 net _ hg, fun _ _ => rfl⟩
  · cases h

theorem sendMsg_rest {c : Cfg} {env : Env} {s s' : St} {next : String} {m : Msg} (h : sendMsg c env s next m = (none, s')) : Rest none s s' := by
  unfold sendMsg at h
  split at h
  · simp only [Prod.mk.injEq, reduceCtorEq, false_and] at h
  rename_i l hl
  dsimp only at h
  have h1 := putLink_rest (l' := { l with tx := l.tx + 1 }) hl rfl rfl
  split at h
  · simp only [Prod.mk.injEq, true_and] at h
    subst h
    exact ⟨h1.services, h1.routes, h1.links, h1.resp⟩
  · split at h
    · simp only [Prod.mk.injEq, true_and] at h
      subst h
      exact ⟨h1.services, h1.routes, h1.links, h1.resp⟩
    · simp only [Prod.mk.injEq, reduceCtorEq, false_and] at h

theorem addReward_rest (s : St) (a : Nat) (n : String) (v : Nat) : Rest none s (addReward s a n v) := by
  unfold addReward
  split
  · exact ⟨rfl, rfl, rfl, fun _ _ => rfl⟩
  · exact .refl _ _

theorem sendWithFee_rest {c : Cfg} {env : Env} {s s' : St} {to svc : String} {value : Nat} {sn k : Int} {body : Bytes} {isR fill : Bool}
    (h : sendWithFee c env s value to svc sn body isR fill = (.ok k, s')) : Rest (if isR = true then some (to, svc, sn) else none) s s' := by
  unfold sendWithFee at h
  split at h
  · cases h
  split at h
  · rename_i hr
    rw [if_pos hr]
    unfold sendReply at h
    split at h
    · cases h
    rename_i r hq
    dsimp only at h
    split at h
    · cases h
    rename_i s3 h3
    simp only [Prod.mk.injEq] at h
    obtain ⟨-, rfl⟩ := h
    have h1 := addReward_rest (addIn { s with resp := s.resp.set (to, svc, sn) none, coins := s.coins + value } c.net value) c.addr c.net value
    refine Rest.trans ⟨h1.services, h1.routes, h1.links, fun x hx => ?_⟩ (sendMsg_rest h3).any
    refine (h1.resp x (nofun)).trans ?_
    show FM.get none (s.resp.set (to, svc, sn) none) x = _
    rw [FM.get_set, if_neg]
    intro e
    exact hx (by rw [e])
  · rename_i hr
    rw [if_neg hr]
    generalize (if fill = true then s.nsn + 1 else sn) = q at h
    unfold sendRequest at h
    dsimp only at h
    split at h
    · cases h
    split at h
    · cases h
    rename_i s3 h3
    simp only [Prod.mk.injEq] at h
    obtain ⟨-, rfl⟩ := h
    have h1 := addReward_rest (addIn { s with nsn := s.nsn + 1, coins := s.coins + value } c.net value) c.addr c.net
      (value - (feeList { s with nsn := s.nsn + 1 } to (decide (q > 0))).sum)
    exact Rest.trans ⟨h1.services, h1.routes, h1.links, h1.resp⟩ (sendMsg_rest h3)

theorem sendMessage_rest {c : Cfg} {env : Env} {s s' : St} {caller value : Nat} {to svc : String} {sn : Int} {body : Bytes}
    (h : sendMessage c env s caller value to svc sn body = some s') : Rest (if sn < 0 then some (to, svc, -sn) else none) s s' := by
  unfold sendMessage at h
  split at h
  · cases h
  split at h
  · cases h
  split at h
  · cases h
  rename_i k s1 hs
  obtain rfl := Option.some.inj h
  have h1 := sendWithFee_rest hs
  by_cases hn : sn < 0
  · rw [if_pos hn] at h1 ⊢
    rwa [if_pos (decide_eq_true hn)] at h1
  · rw [if_neg hn] at h1 ⊢
    rwa [if_neg (by simpa using hn)] at h1

theorem claim_rest {c : Cfg} {env : Env} {s s' : St} {sender value : Nat} {net receiver : String}
    (h : claimReward c env id s sender value net receiver = some s') : Rest none s s' := by
  unfold claimReward at h
  dsimp only at h
  generalize claimer c s sender = who at h
  split at h
  · cases h
  split at h
  · split at h
    · cases h
    split at h
    · simp only [Option.some.injEq] at h
      subst h
      exact ⟨rfl, rfl, rfl, fun _ _ => rfl⟩
    · cases h
  · split at h
    · cases h
    rename_i k s2 hs
    simp only [Option.some.injEq] at h
    subst h
    have h1 := sendWithFee_rest hs
    exact ⟨h1.services, h1.routes, h1.links, h1.resp⟩

/-! ### Calls of others -/

theorem Rest.owed {s s' : St} {key : Option (String × String × Int)} (h : Rest key s s') (k : String × String × Int) (hk : some k ≠ key) :
    owed (absJ s') k = owed (absJ s) k := by
  rw [owedJ, owedJ, h.resp k hk]

/-- The routes are kept, and an answer owed for a request nobody can execute any more; few calls are added. -/
def IDue (nd : INode) (z : Nat) (j j' : IJ) : Prop := Fit nd j.b → (j'.b.services = j.b.services ∧ j'.b.routes = j.b.routes ∧ sight j'.b.links = sight j.b.links) ∧
  j'.x.sn ≤ j.x.sn + z ∧ (j.x.sn + z < 2 ^ 255 → ∀ y sn, NoWait nd.side j.x y sn →
    NoWait nd.side j'.x y sn ∧ owed (absJ j'.b) (String.ofList y, X, sn) = owed (absJ j.b) (String.ofList y, X, sn))

theorem IDue.refl (nd : INode) (z : Nat) (j : IJ) : IDue nd z j j := fun _ => ⟨⟨rfl, rfl, rfl⟩, by omega, fun _ _ _ h => ⟨h, rfl⟩⟩

theorem IDue.trans {nd : INode} {z w : Nat} {a b d : IJ} (hc : Coup nd a b) (h1 : IDue nd z a b) (h2 : IDue nd w b d) : IDue nd (z + w) a d := by
  intro f
  obtain ⟨_, _, _, g⟩ := hc f
  obtain ⟨⟨a1, a2, a3⟩, h3, h4⟩ := h1 f
  obtain ⟨⟨b1, b2, b3⟩, h5, h6⟩ := h2 g.fit
  refine ⟨⟨b1.trans a1, b2.trans a2, b3.trans a3⟩, by omega, fun hl y sn h => ?_⟩
  obtain ⟨h7, h8⟩ := h4 (by omega) y sn h
  obtain ⟨h9, h10⟩ := h6 (by omega) y sn h7
  exact ⟨h9, h10.trans h8⟩

theorem IDue.weak {nd : INode} {z w : Nat} {a b : IJ} (h : IDue nd z a b) (hz : z ≤ w) : IDue nd w a b := by
  intro f
  obtain ⟨h1, h2, h3⟩ := h f
  exact ⟨h1, by omega, fun hl => h3 (by omega)⟩

/-- What the call service sends. -/
theorem sendOuts_rest (nd : INode) (env : Env) (k : String × String × Int) : ∀ (y : List XCall.Ev) (s s' : St), sendOuts nd env y s = some s' →
    (s'.services = s.services ∧ s'.routes = s.routes ∧ sight s'.links = sight s.links) ∧
    ((∀ net sn m v, XCall.Ev.out net sn m v ∈ y → sn < 0 → (String.ofList net, X, -sn) ≠ k) → owed (absJ s') k = owed (absJ s) k)
  | [], s, s', h => by
    rw [sendOuts] at h
    obtain rfl := Option.some.inj h
    exact ⟨⟨rfl, rfl, rfl⟩, fun _ => rfl⟩
  | e :: t, s, s', h => by
    rw [sendOuts, Option.bind_eq_some_iff] at h
    obtain ⟨s1, h1, h2⟩ := h
    obtain ⟨⟨a1, a2, a3⟩, h3⟩ := sendOuts_rest nd env k t s1 s' h2
    cases e with
    | out net sn m v =>
      rw [sendOut] at h1
      simp only [exec] at h1
      have g := sendMessage_rest h1
      refine ⟨⟨a1.trans g.services, a2.trans g.routes, a3.trans g.links⟩, fun hk => ?_⟩
      rw [h3 (fun net' sn' m' v' hm => hk net' sn' m' v' (List.mem_cons_of_mem _ hm)), g.owed k]
      split
      · rename_i hn
        intro e
        exact hk net sn m v (List.mem_cons_self ..) hn (Option.some.inj e).symm
      · exact nofun
    | _ =>
      obtain rfl := Option.some.inj (show some s = some s1 from h1)
      exact ⟨⟨a1, a2, a3⟩, fun hk => h3 (fun net' sn' m' v' hm => hk net' sn' m' v' (List.mem_cons_of_mem _ hm))⟩

mutual
theorem iexec_due (nd : INode) : ∀ (o : IOp) (j j' : IJ), IFine nd o → o.plain → iexec nd o j = some j' → IDue nd o.size j j'
  | .post env caller value to svc sn body, j, j', hf, _, h => by
    rw [IFine] at hf
    rw [iexec, Option.map_eq_some_iff] at h
    obtain ⟨s', h, rfl⟩ := h
    intro f
    simp only [exec] at h
    have g := sendMessage_rest h
    refine ⟨⟨g.services, g.routes, g.links⟩, by dsimp only; omega, fun _ y sn' hw => ⟨hw, g.owed _ ?_⟩⟩
    split
    · intro e
      obtain ⟨-, e⟩ := Prod.mk.inj (Option.some.inj e)
      obtain ⟨rfl, -⟩ := Prod.mk.inj e
      exact hf (f.reg _ (sendMessage_out h).1)
    · exact nofun
  | .claim env inner caller value net receiver, j, j', hf, hp, h => by
    rw [IFine] at hf
    rw [IOp.plain] at hp
    rw [iexec, Option.map_eq_some_iff] at h
    obtain ⟨s', h, rfl⟩ := h
    have g := claim_rest h
    have h1 : IDue nd 1 j ⟨s', j.x⟩ := fun _ => ⟨⟨g.services, g.routes, g.links⟩, by dsimp only; omega, fun _ y sn' hw => ⟨hw, g.owed _ (nofun)⟩⟩
    rw [IOp.size, Nat.add_comm]
    refine IDue.trans (claim_coup nd env j.b s' j.x caller value net receiver h) h1 ?_
    split
    · exact irun_due nd inner _ hf hp
    · exact .refl _ _ _
  | .conf env caller k, j, j', _, hp, h => absurd hp (by rw [IOp.plain]; exact id)
  | .send env caller isC to data rb value fee, j, j', hf, _, h => by
    rw [iexec] at h
    split at h
    · cases h
    rename_i x' hx
    rw [Option.map_eq_some_iff] at h
    obtain ⟨s', h, rfl⟩ := h
    rw [XCall.step] at hx
    obtain ⟨net, acct, f, s1, -, -, -, -, -, -, h1, h2⟩ := XCall.send_ok hx
    have e1 : x'.proxy = s1.proxy := sendTail_proxy h2
    have e2 : s1.proxy = j.x.proxy := payFee_proxy h1
    obtain ⟨l, hl1, hl2⟩ := XCall.payFee_ok h1
    have esn : s1.sn = j.x.sn := by rw [hl1]
    have elog : s1.log = j.x.log ++ l := by rw [hl1]
    obtain ⟨-, -, hx'⟩ := XCall.sendTail_ok h2
    refine fun _ => ⟨(sendOuts_rest nd env ("", "", 0) _ _ _ h).1, by rw [hx']; dsimp only; rw [IOp.size]; omega, fun hlt y sn hw => ⟨?_, ?_⟩⟩
    · intro id r net a hp
      rw [show x'.proxy = j.x.proxy from e1.trans e2] at hp
      exact hw id r net a hp
    · refine (sendOuts_rest nd env _ _ _ _ h).2 fun net' sn' m v hm hneg => ?_
      rw [IOp.size] at hlt
      rw [hx'] at hm
      dsimp only at hm
      rw [elog, List.append_assoc, List.drop_left] at hm
      rcases List.mem_append.1 hm with hm | hm
      · rcases hl2 with ⟨-, rfl, -⟩ | ⟨-, -, -, w, -, rfl⟩
        · exact nomatch hm
        · simp at hm
      · simp only [List.mem_cons, XCall.Ev.out.injEq, List.not_mem_nil, or_false, reduceCtorEq] at hm
        obtain ⟨-, rfl, -⟩ := hm
        exfalso
        split at hneg
        · unfold XCall.posSn XCall.toInt256 at hneg
          split at hneg
          · omega
          · rw [if_pos (by omega)] at hneg
            omega
        · omega
  | .exec env id inner out, j, j', hf, hpl, h => by
    rw [IFine] at hf
    rw [IOp.plain] at hpl
    rw [iexec] at h
    split at h
    · cases h
    rename_i r net x1 hs
    dsimp only at h
    split at h
    · cases h
    rename_i x3 he
    rw [Option.map_eq_some_iff] at h
    obtain ⟨s', h, rfl⟩ := h
    obtain ⟨hp, ⟨a, hpar⟩, hx1⟩ := XCall.execStart_ok hs
    have h2 : IDue nd inner.size ⟨j.b, x1⟩ (if XCall.committed out = true then irun nd inner ⟨j.b, x1⟩ else ⟨j.b, x1⟩) := by
      split
      · exact irun_due nd inner _ hf hpl
      · exact .refl _ _ _
    generalize (if XCall.committed out = true then irun nd inner ⟨j.b, x1⟩ else ⟨j.b, x1⟩ : IJ) = j2 at h he h2
    intro f
    obtain ⟨⟨a1, a2, a3⟩, h4, h2⟩ := h2 f
    have e1 : x1.sn = j.x.sn := by rw [hx1]
    have h3 : x3.proxy = j2.x.proxy ∧ x3.sn = j2.x.sn := by
      rcases XCall.execEnd_ok he with ⟨-, rfl⟩ | ⟨n, -, -, rfl⟩ <;> exact ⟨rfl, rfl⟩
    dsimp only at h4
    obtain ⟨⟨b1, b2, b3⟩, -⟩ := sendOuts_rest nd env ("", "", 0) _ _ _ h
    rw [IOp.size]
    refine ⟨⟨b1.trans a1, b2.trans a2, b3.trans a3⟩, by dsimp only; omega, fun hlt y sn hw => ?_⟩
    have hw1 : NoWait nd.side x1 y sn := by
      intro id' r' net' a' hp'
      rw [hx1] at hp'
      dsimp only at hp'
      split at hp'
      · exact nomatch hp'
      · exact hw id' r' net' a' hp'
    obtain ⟨h5, h6⟩ := h2 (by dsimp only; omega) y sn hw1
    refine ⟨fun id' r' net' a' hp' => h5 id' r' net' a' (by rw [← h3.1]; exact hp'), ?_⟩
    rw [← h6]
    refine (sendOuts_rest nd env _ _ _ _ h).2 fun net' sn' m v hm hneg => ?_
    rcases XCall.execEnd_ok he with ⟨-, hx3⟩ | ⟨n, hrb, hn, hx3⟩
    · rw [hx3] at hm
      dsimp only at hm
      rw [List.drop_left] at hm
      simp at hm
    · rw [hx3] at hm
      dsimp only at hm
      rw [List.drop_left] at hm
      simp only [List.mem_cons, XCall.Ev.out.injEq, List.not_mem_nil, or_false, reduceCtorEq, false_or] at hm
      obtain ⟨rfl, rfl, -⟩ := hm
      intro hk
      obtain ⟨hk1, hk2⟩ := Prod.mk.inj hk
      have hk3 := (Prod.mk.inj hk2).2
      refine hw id r net' a hp hrb hpar ?_ (ofList_inj hk1)
      show XCall.negSn nd.x.lang r.sn = _
      rw [hn, ← hk3, Int.neg_neg]
  | .undo sn0 inner out, j, j', hf, hpl, h => by
    rw [IFine] at hf
    rw [IOp.plain] at hpl
    rw [iexec] at h
    split at h
    · cases h
    rename_i x1 hs
    dsimp only at h
    obtain rfl := Option.some.inj h
    obtain ⟨c, -, -, hx1⟩ := XCall.undoStart_ok hs
    have h2 : IDue nd inner.size ⟨j.b, x1⟩ (if XCall.committed out = true then irun nd inner ⟨j.b, x1⟩ else ⟨j.b, x1⟩) := by
      split
      · exact irun_due nd inner _ hf hpl
      · exact .refl _ _ _
    intro f
    obtain ⟨h3, h4, h2⟩ := h2 f
    have e1 : x1.sn = j.x.sn := by rw [hx1]
    dsimp only at h4
    rw [IOp.size]
    refine ⟨h3, by dsimp only; omega, fun hlt y sn hw => ?_⟩
    exact h2 (by dsimp only; omega) y sn (fun id r net a hp => hw id r net a (by rw [hx1] at hp; exact hp))
  | .other op, j, j', hf, _, h => by
    rw [IFine] at hf
    rw [iexec] at h
    split at h
    · rename_i hl
      rw [Option.map_eq_some_iff] at h
      obtain ⟨x', h, rfl⟩ := h
      have h1 := leaf_sn op hl hf h
      have h2 := leaf_proxy op hl hf h
      exact fun _ => ⟨⟨rfl, rfl, rfl⟩, by dsimp only; omega, fun _ y sn hw => ⟨fun id r net a hp => hw id r net a (by rw [← h2]; exact hp), rfl⟩⟩
    · cases h
theorem irun_due (nd : INode) : ∀ (os : IOps) (j : IJ), IFineAll nd os → os.plain → IDue nd os.size j (irun nd os j)
  | .nil, j, _, _ => by rw [irun]; exact .refl nd _ j
  | .cons o t, j, hf, hp => by
    rw [IFineAll] at hf
    rw [IOps.plain] at hp
    rw [irun, IOps.size]
    cases h : iexec nd o j with
    | none => exact (irun_due nd t j hf.2 hp.2).weak (by omega)
    | some j1 => exact IDue.trans (iexec_coup nd o j j1 hf.1 h) (iexec_due nd o j j1 hf.1 hp.1 h) (irun_due nd t j1 hf.2 hp.2)
end

end Verif.XMix
