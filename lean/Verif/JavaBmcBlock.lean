import Verif.SolBmcBlock
import Verif.Tight
/-!
C140: no readable message stops a link of the ICON message center; what it sends can be dealt with at the other end.
-/
namespace Verif.JavaBmc
open Verif
open Verif.SolBmc (upd FeeInfo)

variable (c : Cfg)

/-- C140: in every state a relay call fails only for reasons that have nothing to do with the messages: the link does not exist, it has no
verifier, the verifier does not release the messages, or the caller is no relay of the link. Whatever the messages are and whatever the
services and the chain do, a call that passes these checks is carried out. -/
theorem C140_icon_handled (s : St) (caller : Nat) (prev : String) (items : Items) :
    (∃ s', exec c (.relay caller prev items) s = some s') ↔
    ∃ l net v, c.netOf prev = some net ∧ Dict.get s.links net = some l ∧ l.addr = prev ∧ s.verifiers net = some v ∧
      c.verify v prev l.rx items.msgs = true ∧ caller ∈ s.relays prev := by
  simp only [exec, openRelay, getLinkA]
  constructor
  · rintro ⟨s', h⟩
    split at h
    · cases h
    · rename_i l s1 h1
      split at h1
      · cases h1
      · rename_i l0 h0
        split at h0
        · cases h0
        · rename_i net hn
          split at h0
          · cases h0
          · rename_i l1 hl
            split at h0
            · rename_i ha
              cases h0
              rw [hn] at h1
              simp only [Option.getD_some] at h1
              split at h1
              · cases h1
              · rename_i v hv
                split at h1
                · rename_i hc
                  exact ⟨l0, net, v, hn, hl, ha, hv, hc.1, hc.2⟩
                · cases h1
            · cases h0
  · rintro ⟨l, net, v, hn, hl, ha, hv, h1, h2⟩
    simp [hn, hl, ha, hv, h1, h2]

/-! ### what is sent -/

/-- A message that asks for an answer carries a request number. -/
def Numbered (m : Msg) : Prop := 0 < m.sn → 0 < m.nsn

/-- Everything sent so far is numbered. -/
def Sent (s : St) : Prop := 0 ≤ s.nsn ∧ (∀ next k m, Event.message next k m ∈ s.log → Numbered m) ∧
  ∀ id next k m, Event.chain id next k m ∈ s.log → Numbered m

variable {c}

theorem Sent.same {s s' : St} (i : Sent s) (h1 : s'.nsn = s.nsn) (h2 : s'.log = s.log) : Sent s' := by
  unfold Sent; rw [h1, h2]; exact i

theorem Sent.push {s s' : St} (i : Sent s) {e : Event} (h1 : s'.nsn = s.nsn) (h2 : s'.log = s.log ++ [e])
    (he : ∀ m, (∃ n k, e = .message n k m) ∨ (∃ id n k, e = .chain id n k m) → Numbered m) : Sent s' := by
  unfold Sent
  rw [h1, h2]
  refine ⟨i.1, fun n k m h => ?_, fun id n k m h => ?_⟩
  · rcases List.mem_append.1 h with h | h
    · exact i.2.1 _ _ _ h
    · exact he m (Or.inl ⟨n, k, (List.mem_singleton.1 h).symm⟩)
  · rcases List.mem_append.1 h with h | h
    · exact i.2.2 _ _ _ _ h
    · exact he m (Or.inr ⟨id, n, k, (List.mem_singleton.1 h).symm⟩)

theorem putLink_nsn (s : St) (l : Link) : (putLink c s l).nsn = s.nsn := by unfold putLink; split <;> rfl

theorem Sent.put {s : St} (i : Sent s) (l : Link) : Sent (putLink c s l) := i.same (putLink_nsn s l) (putLink_log s l)

theorem Sent.reward {s : St} (i : Sent s) (a : Nat) (n : String) (v : Nat) : Sent (addReward s a n v) := by
  unfold addReward; split
  · exact i.same rfl rfl
  · exact i

theorem Sent.collect {s : St} (i : Sent s) (f : Option FeeInfo) : Sent (collect c s f) := by
  cases f
  · exact i
  · exact i.reward _ _ _

theorem Sent.accumulate {s : St} (i : Sent s) (a : Nat) (f : Option FeeInfo) : Sent (accumulate s a f).1 := by
  cases f with
  | none => exact i
  | some f => simp only [JavaBmc.accumulate]; split
              · exact i
              · exact i.reward _ _ _

theorem Sent.ghostIn {s : St} (i : Sent s) (f : Option FeeInfo) : Sent (inFee s f) := by cases f <;> exact i.same rfl rfl
theorem Sent.ghostLost {s : St} (i : Sent s) (f : Option FeeInfo) : Sent (lostFee s f) := by cases f <;> exact i.same rfl rfl
theorem Sent.ghostTwice {s : St} (i : Sent s) (f : Option FeeInfo) : Sent (twiceFee s f) := by cases f <;> exact i.same rfl rfl

theorem Sent.next {s : St} (i : Sent s) : Sent { s with nsn := s.nsn + 1 } := ⟨by have := i.1; simp only; omega, i.2⟩

theorem Sent.msg {s : St} (i : Sent s) (env : Env) (next : String) {m : Msg} (hm : Numbered m) : Sent (sendMsg c env s next m).2 := by
  unfold sendMsg
  split
  · exact i
  · rename_i l _
    dsimp only
    split
    · refine i.push (putLink_nsn s _) (congrArg (· ++ _) (putLink_log s _)) ?_
      rintro m' (⟨n, k, h⟩ | ⟨id, n, k, h⟩)
      · cases h; exact hm
      · cases h
    · split
      · refine i.push (putLink_nsn s _) (congrArg (· ++ _) (putLink_log s _)) ?_
        rintro m' (⟨n, k, h⟩ | ⟨id, n, k, h⟩)
        · cases h
        · cases h; exact hm
      · exact (i.put _).put _

theorem Sent.reply {s : St} (i : Sent s) (env : Env) (next : String) (value : Nat) (to svc : String) (sn : Int) (body : Bytes) :
    Sent (sendReply c env s next value to svc sn body).2 := by
  unfold sendReply
  split
  · exact i
  · rename_i r _
    dsimp only
    generalize hs : addReward (addIn { s with resp := s.resp.set (to, svc, sn) none, coins := s.coins + value } c.net value) c.addr c.net value = s2
    have i2 : Sent s2 := by
      subst hs
      exact Sent.reward (s := addIn { s with resp := s.resp.set (to, svc, sn) none, coins := s.coins + value } c.net value) (i.same rfl rfl) _ _ _
    have h := i2.msg (c := c) env next (m := ⟨c.net, to, svc, 0, body, -r.nsn, some r.fee⟩) (fun h => by simp at h)
    generalize sendMsg c env s2 next ⟨c.net, to, svc, 0, body, -r.nsn, some r.fee⟩ = p at h
    obtain ⟨e, s3⟩ := p
    cases e
    · exact h
    · exact h.ghostLost _

theorem Sent.request {s : St} (i : Sent s) (env : Env) (next : String) (value : Nat) (to svc : String) (sn : Int) (body : Bytes) :
    Sent (sendRequest c env s next value to svc sn body).2 := by
  unfold sendRequest
  dsimp only
  split
  · exact i.next
  · generalize feeList { s with nsn := s.nsn + 1 } to (decide (sn > 0)) = values
    generalize hs : addReward (addIn { s with nsn := s.nsn + 1, coins := s.coins + value } c.net value) c.addr c.net (value - values.sum) = s2
    have i2 : Sent s2 := by
      subst hs
      exact Sent.reward (s := addIn { s with nsn := s.nsn + 1, coins := s.coins + value } c.net value) (i.next.same rfl rfl) _ _ _
    have h := i2.msg (c := c) env next (m := ⟨c.net, to, svc, sn, body, s.nsn + 1, some ⟨c.net, values⟩⟩)
      (fun h => by have := i.1; simp only; omega)
    generalize sendMsg c env s2 next ⟨c.net, to, svc, sn, body, s.nsn + 1, some ⟨c.net, values⟩⟩ = p at h
    obtain ⟨e, s3⟩ := p
    cases e
    · exact h
    · exact h.ghostLost _

theorem Sent.withFee {s : St} (i : Sent s) (env : Env) (value : Nat) (to svc : String) (sn : Int) (body : Bytes) (r f : Bool) :
    Sent (sendWithFee c env s value to svc sn body r f).2 := by
  unfold sendWithFee
  split
  · exact i
  · split
    · exact i.reply _ _ _ _ _ _ _
    · exact i.request _ _ _ _ _ _ _

theorem Sent.error {s : St} (i : Sent s) (env : Env) (prev : String) (m : Msg) (e : Ex) (hs : 0 < m.sn) :
    Sent (sendError c env s prev m e).2 := i.msg env prev (fun h => by simp only at h; omega)

theorem Sent.internal {s : St} (i : Sent s) (env : Env) (next to : String) (body : Bytes) :
    Sent (sendInternal c env s next to body).2 := i.next.msg env next (fun h => by simp at h)

theorem Sent.propagate (env : Env) (body : Bytes) : ∀ (ls : List (String × Link)) (s s' : St), propagate c env body ls s = some s' →
    Sent s → Sent s'
  | [], s, s', h, i => by simp only [JavaBmc.propagate, Option.some.injEq] at h; subst h; exact i
  | (_, l) :: t, s, s', h, i => by
    simp only [JavaBmc.propagate] at h
    have i1 := i.internal (c := c) env l.addr ((c.netOf l.addr).getD "") body
    generalize sendInternal c env s l.addr ((c.netOf l.addr).getD "") body = p at h i1
    obtain ⟨e, s1⟩ := p
    cases e with
    | some e => simp at h
    | none => exact Sent.propagate env body t s1 s' h i1

theorem Sent.response {s : St} (i : Sent s) (nsn : Int) (r : Nat) : Sent (handleResponse s nsn r).2 := by
  unfold handleResponse
  split
  · exact i
  · rename_i q _
    dsimp only
    split
    · have i1 := Sent.reward (s := { s with req := s.req.set nsn none }) (i.same rfl rfl) q.caller q.dst q.amount
      exact ⟨i1.1, i1.2⟩
    · exact i.same rfl rfl

theorem Sent.addReach {s : St} (i : Sent s) (net : String) (rs : List String) : Sent (addReach c s net rs).2 := by
  unfold JavaBmc.addReach; split
  · exact i
  · exact i.put _

theorem Sent.removeReach {s : St} (i : Sent s) (net r : String) : Sent (removeReach c s net r).2 := by
  unfold JavaBmc.removeReach; split
  · exact i
  · exact i.put _

theorem Sent.own {s : St} (i : Sent s) (env : Env) (src : String) (nsn : Int) (body : Bytes) : Sent (internalHandle c env s src nsn body).2 := by
  unfold internalHandle
  split
  · exact i
  · split
    · exact i
    · rename_i amount _ _ _ a _
      dsimp only
      have i1 : Sent (JavaBmc.addReward (addIn s c.net amount) a c.net amount) :=
        Sent.reward (s := addIn s c.net amount) (i.same rfl rfl) _ _ _
      have i2 := i1.withFee (c := c) env 0 src "bmc" nsn (c.encInner (.response 0)) true false
      generalize sendWithFee c env (JavaBmc.addReward (addIn s c.net amount) a c.net amount) 0 src "bmc" nsn (c.encInner (.response 0)) true
        false = p at i2 ⊢
      obtain ⟨e, s2⟩ := p
      cases e <;> exact i2.same rfl rfl
  · exact i.response _ _
  · exact i.addReach _ _
  · exact i.removeReach _ _
  · exact i.addReach _ _

theorem Sent.store {s : St} (i : Sent s) (m : Msg) : Sent (storeFee c s m) := by
  unfold storeFee
  split
  · exact i
  · split
    · exact (i.collect _).same rfl rfl
    · exact i.collect _

theorem Sent.unstore {s : St} (i : Sent s) (m : Msg) : Sent (unstoreFee s m) := by
  unfold unstoreFee
  split
  · exact i
  · split
    · dsimp only
      split
      · exact i.same rfl rfl
      · refine Sent.ghostTwice (Sent.ghostLost ?_ _) _
        exact i.same rfl rfl
    · exact i

theorem Sent.pick (m : Msg) (p : Option Ex × St) : Sent p.2 →
    Sent (match p with | (none, s2) => (none, s2) | (some e, s2) => (some e, unstoreFee s2 m) : Option Ex × St).2 := by
  obtain ⟨e, s2⟩ := p
  intro h
  cases e
  · exact h
  · exact Sent.unstore (s := s2) h m

theorem Sent.handle {s : St} (i : Sent s) (env : Env) (out : Out) (call : St → St) (hc : ∀ s, Sent s → Sent (call s)) (m : Msg) :
    Sent (handleMessage c env out call s m).2 := by
  unfold handleMessage
  split
  · dsimp only
    have i1 := i.store (c := c) m
    generalize storeFee c s m = s1 at i1
    have key : Sent (if m.svc = "bmc" then internalHandle c env s1 m.src m.nsn m.body
      else match s1.services m.svc with
        | none => (some exNoBSH, s1)
        | some _ => match out with
          | none => (none, call s1)
          | some code => (some ⟨true, code⟩, s1)).2 := by
      split
      · exact i1.own _ _ _ _
      · split
        · exact i1
        · split
          · exact hc _ i1
          · exact i1
    exact Sent.pick m _ key
  · dsimp only
    have i1 := i.collect (c := c) m.fee
    split
    · exact i1
    · split
      · exact i1.response _ _
      · split
        · exact i1
        · split
          · exact hc _ i1
          · exact i1

theorem Sent.deliver {s : St} (i : Sent s) (env : Env) (out : Out) (call : St → St) (hc : ∀ s, Sent s → Sent (call s)) (m : Msg)
    (hm : Numbered m) : Sent (deliver c env out call s m).2 := by
  unfold JavaBmc.deliver
  split
  · exact i.handle env out call hc m
  · split
    · exact i
    · exact i.msg env _ hm

theorem Sent.drop {s : St} (i : Sent s) (p : String) (k : Nat) (m : Msg) : Sent { s with log := s.log ++ [.dropped p k m] } := by
  refine i.push rfl rfl ?_
  rintro m' (⟨n, k, h⟩ | ⟨id, n, k, h⟩) <;> cases h

theorem Sent.failed {s : St} (i : Sent s) (env : Env) (prev : String) (seq : Nat) (m : Msg) (e : Ex) :
    Sent (failed c env prev seq s m e) := by
  unfold JavaBmc.failed
  split
  · rename_i hs
    have i1 := i.error (c := c) env prev m e (by omega)
    generalize sendError c env s prev m e = p at i1
    obtain ⟨x, s1⟩ := p
    cases x
    · exact i1
    · exact (i1.collect _).drop _ _ _
  · dsimp only
    refine Sent.drop ?_ _ _ _
    split
    · exact (i.collect _).ghostTwice _
    · exact i.collect _

theorem Sent.item {s : St} (i : Sent s) (env : Env) (out : Out) (call : St → St) (hc : ∀ s, Sent s → Sent (call s)) (caller : Nat)
    (prev : String) (gen seq : Nat) (m : Msg) (hm : Numbered m) : Sent (item c env out call caller prev gen seq s m) := by
  unfold JavaBmc.item
  dsimp only
  have i0 : Sent { inFee s m.fee with disp := (inFee s m.fee).disp ++ [(gen, seq, some m)] } := (i.ghostIn m.fee).same rfl rfl
  have i1 := i0.accumulate caller m.fee
  generalize JavaBmc.accumulate { inFee s m.fee with disp := (inFee s m.fee).disp ++ [(gen, seq, some m)] } caller m.fee = p at i1
  obtain ⟨s1, f⟩ := p
  dsimp only at i1 ⊢
  have i2 := i1.deliver (c := c) env out call hc { m with fee := f } hm
  generalize JavaBmc.deliver c env out call s1 { m with fee := f } = q at i2
  obtain ⟨e, s2⟩ := q
  cases e
  · exact i2
  · exact i2.failed _ _ _ _ _

theorem Sent.addLink {s s' : St} (i : Sent s) {env : Env} {link : String} (h : addLink c env s link = some s') : Sent s' := by
  unfold JavaBmc.addLink at h
  split at h
  · cases h
  · split at h
    · cases h
    · split at h
      · cases h
      · split at h
        · cases h
        · rename_i net _ _ _ _ s1 h1
          have i1 := Sent.propagate (c := c) env _ _ _ _ h1 i
          dsimp only at h
          generalize hs : ({ s1 with
            links := Dict.put s1.links net ⟨link, 0, 0, [], s1.names.length⟩
            names := s1.names ++ [link]
            log := s1.log ++ [.start link] } : St) = s2 at h
          have i2 : Sent s2 := by
            subst hs
            refine i1.push rfl rfl ?_
            rintro m' (⟨n, k, h⟩ | ⟨id, n, k, h⟩) <;> cases h
          have i3 := i2.internal (c := c) env link net (c.encInner (.initial (s.links.map (fun p => p.2.addr))))
          generalize sendInternal c env s2 link net (c.encInner (.initial (s.links.map (fun p => p.2.addr)))) = p at h i3
          obtain ⟨e, s3⟩ := p
          cases e
          · simp only [Option.some.injEq] at h; subst h; exact i3
          · simp at h

theorem Sent.removeLink {s s' : St} (i : Sent s) {env : Env} {link : String} (h : removeLink c env s link = some s') : Sent s' := by
  unfold JavaBmc.removeLink at h
  split at h
  · cases h
  · split at h
    · cases h
    · split at h
      · cases h
      · split at h
        · cases h
        · refine Sent.propagate (c := c) env _ _ _ _ h ?_
          refine Sent.same (s := s) i ?_ ?_
          · simp only [unbind]; split <;> rfl
          · simp only [unbind]; split <;> rfl

theorem Sent.setBTP {s s' : St} (i : Sent s) {link : String} {id off : Nat} (h : setBTPLink s link id off = some s') : Sent s' := by
  unfold setBTPLink at h
  split at h
  · cases h
  · split at h
    · cases h
    · cases h
      refine i.push rfl rfl ?_
      rintro m' (⟨n, k, h⟩ | ⟨id, n, k, h⟩) <;> cases h

theorem Sent.setFees : ∀ (l : List (String × List Nat)) (s s' : St), setFees c s l = some s' → Sent s → Sent s'
  | [], s, s', h, i => by simp only [JavaBmc.setFees, Option.some.injEq] at h; subst h; exact i
  | (d, v) :: t, s, s', h, i => by
    simp only [JavaBmc.setFees] at h
    split at h
    · exact Sent.setFees t _ s' h (i.same rfl rfl)
    · split at h
      · cases h
      · split at h
        · cases h
        · split at h
          · cases h
          · exact Sent.setFees t _ s' h (i.same rfl rfl)

theorem Sent.conf {s s' : St} (i : Sent s) {env : Env} {caller : Nat} {k : Conf} (h : conf c env s caller k = some s') : Sent s' := by
  unfold JavaBmc.conf at h
  split at h
  · rw [Option.map_eq_some_iff] at h; obtain ⟨_, _, rfl⟩ := h; exact i.same rfl rfl
  · rw [Option.map_eq_some_iff] at h; obtain ⟨_, _, rfl⟩ := h; exact i.same rfl rfl
  · rw [Option.map_eq_some_iff] at h; obtain ⟨_, _, rfl⟩ := h; exact i.same rfl rfl
  · split at h
    · cases h
    · split at h
      case h_5 => exact i.addLink h
      case h_6 => exact i.removeLink h
      case h_9 => exact Sent.setFees _ _ _ h i
      case h_12 =>
        split at h
        · cases h
        · rw [Option.map_eq_some_iff] at h; obtain ⟨_, _, rfl⟩ := h; exact i.same rfl rfl
      case h_13 =>
        split at h
        · cases h
        · rename_i h1; exact (i.setBTP h1).addLink h
      case h_14 =>
        split at h
        · cases h
        · exact i.setBTP h
      all_goals first
        | (split at h
           · cases h
           · cases h; exact i.same rfl rfl)
        | (cases h; exact i.same rfl rfl)
        | cases h

theorem Sent.openRelay {s s' : St} (i : Sent s) {caller : Nat} {prev : String} {msgs : List Msg} {l : Link}
    (h : openRelay c s caller prev msgs = some (l, s')) : Sent s' := by
  unfold JavaBmc.openRelay at h
  split at h
  · cases h
  · split at h
    · cases h
    · split at h
      · cases h; exact (i.put _).same rfl rfl
      · cases h

theorem Sent.claim {s s' : St} (i : Sent s) {env : Env} {call : St → St} (hc : ∀ s, Sent s → Sent (call s)) {sender value : Nat}
    {net receiver : String} (h : claimReward c env call s sender value net receiver = some s') : Sent s' := by
  unfold claimReward at h
  dsimp only at h
  split at h
  · cases h
  · split at h
    · split at h
      · cases h
      · split at h
        · cases h; exact hc _ (i.same rfl rfl)
        · cases h
    · generalize hs : ({ s with reward := s.reward.set (claimer c s sender, net) 0 } : St) = s1 at h
      have i1 : Sent s1 := by subst hs; exact i.same rfl rfl
      have i2 := i1.withFee (c := c) env value net "bmc" 0 (c.encInner (.claim (s.reward.get 0 (claimer c s sender, net)) receiver)) false true
      generalize sendWithFee c env s1 value net "bmc" 0 (c.encInner (.claim (s.reward.get 0 (claimer c s sender, net)) receiver)) false true = p at h i2
      obtain ⟨e, s2⟩ := p
      cases e
      · simp at h
      · simp only [Option.some.injEq] at h; subst h; exact i2.same rfl rfl

theorem Sent.dropMessage {s s' : St} (i : Sent s) {env : Env} {caller : Nat} {src : String} {seq : Nat} {svc : String} {sn nsn : Int}
    {fn : String} {fv : List Nat} (h : dropMessage c env s caller src seq svc sn nsn fn fv = some s') : Sent s' := by
  unfold JavaBmc.dropMessage at h
  split at h
  · cases h
  split at h
  · cases h
  rename_i prev _
  split at h
  · cases h
  rename_i l _
  split at h
  · cases h
  split at h
  · cases h
  split at h
  · cases h
  dsimp only at h
  generalize hs : ({ putLink c s { l with rx := seq } with
    taken := upd (putLink c s { l with rx := seq }).taken l.gen seq
    disp := (putLink c s { l with rx := seq }).disp ++ [(l.gen, seq, none)] } : St) = s1 at h
  have i1 : Sent s1 := by subst hs; exact (i.put _).same rfl rfl
  have i2 := (i1.ghostIn (dropFee fn fv)).accumulate c.addr (dropFee fn fv)
  generalize JavaBmc.accumulate (inFee s1 (dropFee fn fv)) c.addr (dropFee fn fv) = p at h i2
  obtain ⟨s2, f⟩ := p
  dsimp only at h i2
  split at h
  · rename_i hp
    have i3 := i2.error (c := c) env prev ⟨src, "", svc, sn, [], nsn, f⟩ exDrop (by simp only; omega)
    generalize sendError c env s2 prev ⟨src, "", svc, sn, [], nsn, f⟩ exDrop = q at h i3
    obtain ⟨e, s3⟩ := q
    cases e
    · simp only [Option.some.injEq] at h; subst h; exact i3
    · simp at h
  · cases h
    exact (i2.ghostLost _).drop _ _ _

mutual
theorem exec_sent (hv : ∀ v l r ms, c.verify v l r ms = true → ∀ m ∈ ms, Numbered m) (o : Op) (s s' : St) (h : exec c o s = some s')
    (i : Sent s) : Sent s' := by
  cases o with
  | relay caller prev items =>
    simp only [exec] at h
    split at h
    · cases h
    · rename_i l s1 h1
      cases h
      have hm : ∀ m ∈ items.msgs, Numbered m := by
        unfold openRelay at h1
        split at h1
        · cases h1
        · split at h1
          · cases h1
          · split at h1
            · rename_i hc; exact hv _ _ _ _ hc.1
            · cases h1
      exact execItems_sent hv items hm caller prev l.gen (l.rx + 1) s1 (i.openRelay h1)
  | send env caller value to svc sn body =>
    simp only [exec, sendMessage] at h
    split at h
    · cases h
    · split at h
      · cases h
      · have i1 := i.withFee (c := c) env value to svc (if sn < 0 then -sn else sn) body (decide (sn < 0)) false
        generalize sendWithFee c env s value to svc (if sn < 0 then -sn else sn) body (decide (sn < 0)) false = p at h i1
        obtain ⟨e, s1⟩ := p
        cases e
        · simp at h
        · simp only [Option.some.injEq] at h; subst h; exact i1
  | claim env acts caller value net receiver =>
    simp only [exec] at h
    exact i.claim (fun x hx => execOps_sent hv acts x hx) h
  | drop env caller src seq svc sn nsn fn fv =>
    simp only [exec] at h
    exact i.dropMessage h
  | conf env caller k =>
    simp only [exec] at h
    exact i.conf h
theorem execItems_sent (hv : ∀ v l r ms, c.verify v l r ms = true → ∀ m ∈ ms, Numbered m) (items : Items)
    (hm : ∀ m ∈ items.msgs, Numbered m) (caller : Nat) (prev : String) (gen seq : Nat) (s : St) (i : Sent s) :
    Sent (execItems c items caller prev gen seq s) := by
  cases items with
  | nil => simpa only [execItems] using i
  | cons m env out acts t =>
    simp only [execItems]
    exact execItems_sent hv t (fun m h => hm m (by simp [Items.msgs, h])) caller prev gen (seq + 1) _
      (i.item env out _ (fun x hx => execOps_sent hv acts x hx) caller prev gen seq m (hm m (by simp [Items.msgs])))
theorem execOps_sent (hv : ∀ v l r ms, c.verify v l r ms = true → ∀ m ∈ ms, Numbered m) (acts : Ops) (s : St) (i : Sent s) :
    Sent (execOps c acts s) := by
  cases acts with
  | nil => simpa only [execOps] using i
  | cons o t =>
    simp only [execOps]
    refine execOps_sent hv t _ ?_
    cases h : exec c o s with
    | none => exact i
    | some s1 => exact exec_sent hv o s s1 h i
end

variable (c)

/-- C140: over any history, if the messages taken from the verifiers ask for answers only with a number, so do all messages the ICON message
center emits or gives to a BTP network. As the EVM message center sees them, none is unanswerable. -/
theorem C140_icon_sent (creator : Nat) (hv : ∀ v l r ms, c.verify v l r ms = true → ∀ m ∈ ms, Numbered m) (ops : List Op) (m : Msg)
    (h : (∃ next k, Event.message next k m ∈ (run c creator ops).log) ∨ ∃ id next k, Event.chain id next k m ∈ (run c creator ops).log) :
    Numbered m ∧ ∀ c' : SolBmc.Cfg, ¬ SolBmc.Unanswerable c' (EndToEnd.seen m) := by
  have key : ∀ (ops : List Op) (s : St), Sent s → Sent (ops.foldl (fun s o => (exec c o s).getD s) s) := by
    intro ops
    induction ops with
    | nil => intro s i; exact i
    | cons o t ih =>
      intro s i
      apply ih
      show Sent ((exec c o s).getD s)
      cases he : exec c o s with
      | none => exact i
      | some s1 => exact exec_sent hv o s s1 he i
  have i := key ops (initSt creator) ⟨by simp [initSt], fun n k m h => by simp [initSt] at h, fun id n k m h => by simp [initSt] at h⟩
  have hn : Numbered m := by
    rcases h with ⟨n, k, h⟩ | ⟨id, n, k, h⟩
    · exact i.2.1 n k m h
    · exact i.2.2 id n k m h
  refine ⟨hn, fun c' hu => ?_⟩
  have h1 : 0 < m.sn := hu.2.1
  have h2 : m.nsn ≤ 0 := hu.2.2
  have := hn h1
  omega

namespace Demo

/-- The verifiers of the demonstration release numbered messages, and the messages sent in `opsA` include requests passed on and errors. -/
example : (∀ v l r ms, (cfg srcA).verify v l r ms = true → ∀ m ∈ ms, Numbered m) ∧
    (run (cfg srcA) 1 opsA).log.filterMap (fun e => match e with | .message _ _ m => some (m.sn, m.nsn) | _ => none) =
      [(0, 1), (0, 2), (0, 3), (0, -1), (-2, -2), (3, 3)] := by
  refine ⟨fun v l r ms h m hm => ?_, by decide +kernel⟩
  have h : ms = ((srcA l).drop r).take ms.length := by simpa [cfg] using h
  rw [h] at hm
  have h3 := List.mem_of_mem_drop (List.mem_of_mem_take hm)
  unfold srcA at h3
  split at h3
  · rcases List.mem_cons.1 h3 with rfl | h3
    · exact fun _ => by decide
    · rcases List.mem_cons.1 h3 with rfl | h3
      · exact fun _ => by decide
      · rcases List.mem_cons.1 h3 with rfl | h3
        · exact fun _ => by decide
        · cases h3
  · cases h3

/-- A message that the EVM message center cannot answer, and one of the own service that nobody can decode, do not stop the ICON message
center: the relay call is carried out and the link has taken both. -/
def w1 : Msg := ⟨"e", "icon", "nope", 3, [], -3, some ⟨"e", [3, 4]⟩⟩
def w2 : Msg := ⟨"e", "icon", "bmc", 0, [9, 9], 5, none⟩
def srcW : String → List Msg := fun p => if p = "e/A" then [w1, w2] else []

example : (exec (cfg srcW) (.relay 9 "e/A" (.cons w1 env none .nil (.cons w2 env none .nil .nil))) (run (cfg srcW) 1 setup)).map
    (fun s => (Dict.get s.links "e").map Link.rx) = some (some 2) ∧
    (exec (cfg srcW) (.relay 8 "e/A" (.cons w1 env none .nil .nil)) (run (cfg srcW) 1 setup)).isSome = false := by decide +kernel

end Demo

end Verif.JavaBmc
