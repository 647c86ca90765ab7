import Verif.JavaBmcLedger
/-!
Properties of the ICON BMC: C41 (exactly-once delivery), C42 (consecutive numbers), C43 (registered relays), C44 (fees),
C45 (claims), C47 (route resolution), C71 (numbers on BTP networks), C72 (codes of error responses).
-/
namespace Verif.JavaBmc
open Verif
open Verif.SolBmc (FM upd FeeInfo)

variable (c : Cfg)

/-! ### C41 -/

/-- C41 on ICON: after any history of calls, with services that call back in any way (also with relay calls for the link whose
    message they are just handling), every number from 1 to the link's received number was handled exactly once, and what was
    handled under a number is the source chain's message of that number (or was given up by an owner). -/
theorem C41_java_exactly_once (src : String → List Msg) (F : Faithful c src) (creator : Nat) (ops : List Op) (net : String) (l : Link)
    (h : Dict.get (run c creator ops).links net = some l) :
    (((run c creator ops).disp.filter (fun e => e.1 = l.gen)).map (fun e => e.2.1)).Perm (List.range' 1 l.rx) ∧
    ∀ n m, (l.gen, n, some m) ∈ (run c creator ops).disp → (src l.addr)[n - 1]? = some m := by
  have w := wf_run (c := c) creator ops
  have r := (run_tr (c := c) creator ops).recv F.right (wf_init creator) (recv_init _ false creator)
  refine ⟨?_, ?_⟩
  · have := r.count l.gen
    rw [r.rx net l h]
    simpa [Rel, nums] using this
  · intro n m hm
    obtain ⟨t, ht, hs⟩ := r.right l.gen n m (by simpa using hm)
    rw [w.names net l h, Option.some.injEq] at ht
    rw [ht]; exact hs

/-- C41 on ICON for links that were removed as well: what was handled over each link ever added are the numbers 1 to k, each once. -/
theorem C41_java_removed_links (src : String → List Msg) (F : Faithful c src) (creator : Nat) (ops : List Op) (g : Nat) :
    ∃ k, (((run c creator ops).disp.filter (fun e => e.1 = g)).map (fun e => e.2.1)).Perm (List.range' 1 k) := by
  have r := (run_tr (c := c) creator ops).recv F.right (wf_init creator) (recv_init _ false creator)
  exact ⟨_, by simpa [Rel, nums] using r.count g⟩

/-- Different links (also one after the other under the same name) have different generations. -/
theorem C41_java_generations (creator : Nat) (ops : List Op) (n1 n2 : String) (l1 l2 : Link)
    (h1 : Dict.get (run c creator ops).links n1 = some l1) (h2 : Dict.get (run c creator ops).links n2 = some l2)
    (h : l1.gen = l2.gen) : n1 = n2 := (wf_run (c := c) creator ops).gen_inj h1 h2 h

/-- C41 on ICON: they are handled in order if called contracts make no relay call and drop no message. -/
theorem C41_java_in_order_partial (src : String → List Msg) (F : Faithful c src) (creator : Nat) (ops : List Op) (hf : ops.all Op.flat = true)
    (net : String) (l : Link) (h : Dict.get (run c creator ops).links net = some l) :
    ((run c creator ops).disp.filter (fun e => e.1 = l.gen)).map (fun e => e.2.1) = List.range' 1 l.rx := by
  have r := (run_flat (c := c) creator ops hf).recv F.right (wf_init creator) (recv_init _ true creator)
  have := r.count l.gen
  rw [r.rx net l h]
  simpa [Rel, nums] using this

/-! ### C42 -/

/-- C42 on ICON: after any history the messages sent over a link since it was added (events and messages given to its BTP network)
    are numbered 1, 2, ..., `txSeq` in the order of sending. -/
theorem C42_java_consecutive (creator : Nat) (ops : List Op) (link : String) (l : Link)
    (h : getLinkA c (run c creator ops) link = some l) : sentOn link (run c creator ops).log [] = List.range' 1 l.tx :=
  (num_run creator ops).live link l h

/-! ### C71 -/

/-- C71: a BTP network bound to a link with offset `o` was given, since it was bound, the link's messages with the numbers o + 1 to
    `txSeq`, in this order: the k-th of them has number o + k. -/
theorem C71_java_network_numbers_partial (creator : Nat) (ops : List Op) (link : String) (id : Nat)
    (h : (run c creator ops).netIds link = some id) :
    ∃ o, (run c creator ops).offsets id = some o ∧ o ≤ txOf c (run c creator ops) link ∧
      sentTo id (run c creator ops).log [] = List.range' (o + 1) (txOf c (run c creator ops) link - o) :=
  (num_run creator ops).bound link id h

/-- C71: no BTP network is bound to two links. -/
theorem C71_java_network_unique (creator : Nat) (ops : List Op) (l1 l2 : String) (id : Nat)
    (h1 : (run c creator ops).netIds l1 = some id) (h2 : (run c creator ops).netIds l2 = some id) : l1 = l2 :=
  (num_run creator ops).unique l1 l2 id h1 h2

/-! ### C43 -/

/-- C43 on ICON: a relay call that does not throw was made by a registered relay of the link, the link exists, and its verifier
    accepted exactly the messages that are handled. -/
theorem C43_java_delivery (s s' : St) (caller : Nat) (prev : String) (items : Items) (h : exec c (.relay caller prev items) s = some s') :
    caller ∈ s.relays prev ∧ ∃ net l v, c.netOf prev = some net ∧ Dict.get s.links net = some l ∧ l.addr = prev ∧
      s.verifiers net = some v ∧ c.verify v prev l.rx items.msgs = true := by
  simp only [exec] at h
  split at h
  · cases h
  · rename_i l s1 h1
    unfold openRelay at h1
    split at h1
    · cases h1
    · rename_i l' hl
      obtain ⟨net, hn, hg, ha⟩ := getLinkA_some c hl
      split at h1
      · cases h1
      · rename_i v hv
        split at h1
        · rename_i hc
          rw [hn] at hv
          exact ⟨hc.2, net, l', v, hn, hg, ha, hv, hc.1⟩
        · cases h1

theorem sendMsg_relays (env : Env) (s : St) (next : String) (m : Msg) : (sendMsg c env s next m).2.relays = s.relays := by
  have hp : ∀ l, (putLink c s l).relays = s.relays := by intro l; unfold putLink; split <;> rfl
  rcases Tr.sendMsg (c := c) (env := env) (s := s) (next := next) (m := m) with ⟨_, e⟩ | ⟨_, l, hl, ⟨hid, e⟩ | ⟨id, hid, _, e⟩⟩
  · rw [e]
  · rw [e]; exact hp _
  · rw [e]; exact hp _

theorem sendInternal_relays {env : Env} {s s' : St} {next to : String} {body : Bytes} {r} (h : sendInternal c env s next to body = (r, s')) :
    s'.relays = s.relays := by
  have := sendMsg_relays c env { s with nsn := s.nsn + 1 } next ⟨c.net, to, "bmc", 0, body, s.nsn + 1, none⟩
  unfold sendInternal at h
  rw [h] at this
  exact this

theorem propagate_relays {env : Env} {body : Bytes} : ∀ (l : List (String × Link)) {s s' : St}, propagate c env body l s = some s' →
    s'.relays = s.relays
  | [], s, s', h => by simp only [propagate, Option.some.injEq] at h; subst h; rfl
  | (_, l) :: t, s, s', h => by
    simp only [propagate] at h
    split at h
    · cases h
    · rename_i s1 h1
      rw [propagate_relays t h, sendInternal_relays c h1]

theorem addLink_relays {env : Env} {s s' : St} {link : String} (h : addLink c env s link = some s') : s'.relays = s.relays := by
  unfold addLink at h
  split at h
  · cases h
  · split at h
    · cases h
    · split at h
      · cases h
      · split at h
        · cases h
        · rename_i s1 h1
          simp only at h
          split at h
          · cases h
          · rename_i s3 h3
            cases h
            have h4 := propagate_relays c _ h1
            rw [sendInternal_relays c h3, ← h4]

theorem clearRelays_eq : ∀ (fuel : Nat) (l : List Nat) (i : Nat), l.length < fuel + i →
    clearRelays l fuel i = l.take (if i < l.length then (l.length + i) / 2 else l.length)
  | 0, l, i, h => by
    have : ¬ i < l.length := by omega
    simp [clearRelays, this]
  | fuel + 1, l, i, h => by
    unfold clearRelays
    by_cases hi : i < l.length
    · rw [if_pos hi, if_pos hi, clearRelays_eq fuel l.dropLast (i + 1) (by simp; omega)]
      simp only [List.length_dropLast]
      rw [List.dropLast_eq_take, List.take_take]
      congr 1
      split <;> omega
    · simp [hi]

theorem removeLink_relays {env : Env} {s s' : St} {link : String} (h : removeLink c env s link = some s') :
    s'.relays = upd s.relays link ((s.relays link).take ((s.relays link).length / 2)) := by
  unfold removeLink at h
  split at h
  · cases h
  · split at h
    · cases h
    · split at h
      · cases h
      · split at h
        · cases h
        · simp only at h
          rename_i net _ l _ _ _
          rw [propagate_relays c _ h]
          have hu : ∀ x : St, (unbind x link).relays = x.relays := by intro x; unfold unbind; split <;> rfl
          simp only [hu]
          congr 1
          rw [clearRelays_eq _ _ _ (by omega)]
          congr 1
          split <;> omega

theorem setFees_relays : ∀ (l : List (String × List Nat)) {s s' : St}, setFees c s l = some s' → s'.relays = s.relays
  | [], s, s', h => by simp only [setFees, Option.some.injEq] at h; subst h; rfl
  | (d, v) :: t, s, s', h => by
    simp only [setFees] at h
    split at h
    · exact (setFees_relays t h).trans rfl
    · split at h
      · cases h
      · split at h
        · cases h
        · split at h
          · cases h
          · exact (setFees_relays t h).trans rfl

theorem setBTPLink_relays {s s' : St} {link : String} {id off : Nat} (h : setBTPLink s link id off = some s') : s'.relays = s.relays := by
  unfold setBTPLink at h
  split at h
  · cases h
  · split at h
    · cases h
    · cases h; rfl

theorem eraseRelay_mem {l l' : List Nat} {a b : Nat} (h : eraseRelay l a = some l') (hb : b ∈ l') : b ∈ l := by
  unfold eraseRelay at h
  split at h
  · cases h
  · rename_i last hl
    split at h
    · cases h; exact List.dropLast_subset _ hb
    · split at h
      · cases h
      · cases h
        rcases List.mem_or_eq_of_mem_set hb with h1 | h1
        · exact List.dropLast_subset _ h1
        · subst h1; exact List.mem_of_getLast? hl

/-- C43 on ICON: an account becomes a relay of a link only by an owner's `addRelay` for that link. -/
theorem C43_java_added (env : Env) (s s' : St) (caller : Nat) (k : Conf) (link : String) (a : Nat) (h : conf c env s caller k = some s')
    (h1 : a ∈ s'.relays link) (h0 : a ∉ s.relays link) : k = .addRelay link a ∧ JavaOwners.isOwner s.own caller = true := by
  have hown : ∀ (x : Option JavaOwners.St), x.map (fun o => { s with own := o }) = some s' → s'.relays = s.relays := by
    intro x hx
    cases x with
    | none => cases hx
    | some o => cases hx; rfl
  have no : ∀ {p : Prop}, s'.relays = s.relays → p := fun e => absurd (e ▸ h1) h0
  unfold conf at h
  split at h
  · exact no (hown _ h)
  · exact no (hown _ h)
  · exact no (hown _ h)
  · split at h
    · cases h
    · rename_i hc
      have ho : JavaOwners.isOwner s.own caller = true := by simpa using hc
      split at h
      · split at h
        · cases h
        · cases h; exact no rfl
      · split at h
        · cases h
        · cases h; exact no rfl
      · split at h
        · cases h
        · cases h; exact no rfl
      · split at h
        · cases h
        · cases h; exact no rfl
      · exact no (addLink_relays c h)
      · rw [removeLink_relays c h] at h1
        simp only [upd] at h1
        split at h1
        · rename_i e; subst e; exact absurd (List.mem_of_mem_take h1) h0
        · exact absurd h1 h0
      · split at h
        · cases h
        · cases h; exact no rfl
      · split at h
        · cases h
        · cases h; exact no rfl
      · exact no (setFees_relays c _ h)
      · cases h; exact no rfl
      · rename_i link' a' _ _ _
        split at h
        · cases h
        · cases h
          simp only [upd] at h1
          split at h1
          · rename_i e
            subst e
            rcases List.mem_append.1 h1 with h2 | h2
            · exact absurd h2 h0
            · rw [List.mem_singleton] at h2; subst h2; exact ⟨rfl, ho⟩
          · exact absurd h1 h0
      · rename_i link' a' _ _ _
        split at h
        · cases h
        · cases hx : eraseRelay (s.relays link') a' with
          | none => rw [hx] at h; cases h
          | some l =>
            rw [hx] at h
            cases h
            simp only [upd] at h1
            split at h1
            · rename_i e; subst e; exact absurd (eraseRelay_mem hx h1) h0
            · exact absurd h1 h0
      · split at h
        · cases h
        · rename_i s1 h2
          exact no ((addLink_relays c h).trans (setBTPLink_relays h2))
      · split at h
        · cases h
        · exact no (setBTPLink_relays h)
      · cases h

/-- C43 is false on ICON: `removeLink` leaves the first half of the relays registered. -/
theorem C43_java_half_stays (env : Env) (s s' : St) (caller : Nat) (link : String) (h : conf c env s caller (.removeLink link) = some s') :
    s'.relays link = (s.relays link).take ((s.relays link).length / 2) := by
  unfold conf at h
  split at h
  · rename_i e; cases e
  · rename_i e; cases e
  · rename_i e; cases e
  · split at h
    · cases h
    · rw [removeLink_relays c h]
      simp [upd]

/-- C43 on ICON, what holds: a link with at most one relay is removed together with it. -/
theorem C43_java_removed_partial (env : Env) (s s' : St) (caller : Nat) (link : String) (h : conf c env s caller (.removeLink link) = some s')
    (h1 : (s.relays link).length ≤ 1) : s'.relays link = [] := by
  rw [C43_java_half_stays c env s s' caller link h]
  have : (s.relays link).length / 2 = 0 := by omega
  rw [this]; rfl

/-! ### C44 -/

/-- C44 on ICON: for every currency and after any history of calls with arbitrarily nested calls back, the value that came in
    (message values, fees of relayed messages, incoming claims, fees named by owners for dropped messages), plus what the contract
    credits a second time, is the sum of: reward balances, fees stored for responses, claims not yet answered, fees carried by sent
    messages, claims settled elsewhere, rewards paid out, and what is lost. `twice` and `lost` are changed where the code makes
    the error: see the witnesses. -/
theorem C44_java_conserved_partial (creator : Nat) (ops : List Op) (n : String) :
    (run c creator ops).inflow n + (run c creator ops).twice n =
      rewards (run c creator ops) n + stored (run c creator ops) n + pending (run c creator ops) n + carried (run c creator ops) n +
      (run c creator ops).settled n + (run c creator ops).paid n + (run c creator ops).lost n := by
  have := bal_run (c := c) creator ops n
  unfold bal at this
  omega

theorem addReward_ghost (s : St) (a : Nat) (k : String) (v : Nat) :
    (addReward s a k v).twice = s.twice ∧ (addReward s a k v).lost = s.lost := by
  unfold addReward; split <;> exact ⟨rfl, rfl⟩

theorem collect_ghost (s : St) (f : Option FeeInfo) : (collect c s f).twice = s.twice ∧ (collect c s f).lost = s.lost := by
  cases f with
  | none => exact ⟨rfl, rfl⟩
  | some f => exact addReward_ghost _ _ _ _

theorem accumulate_ghost (s : St) (a : Nat) (f : Option FeeInfo) : (accumulate s a f).1.twice = s.twice ∧ (accumulate s a f).1.lost = s.lost := by
  cases f with
  | none => exact ⟨rfl, rfl⟩
  | some f =>
    simp only [accumulate]
    split
    · exact ⟨rfl, rfl⟩
    · exact addReward_ghost _ _ _ _

theorem sendMsg_ghost {env : Env} {s s' : St} {next : String} {m : Msg} {r} (h : sendMsg c env s next m = (r, s')) :
    s'.twice = s.twice ∧ s'.lost = s.lost := by
  have hp : ∀ l, (putLink c s l).twice = s.twice ∧ (putLink c s l).lost = s.lost := by intro l; unfold putLink; split <;> exact ⟨rfl, rfl⟩
  rcases Tr.sendMsg (c := c) (env := env) (s := s) (next := next) (m := m) with ⟨_, e⟩ | ⟨_, l, hl, ⟨hid, e⟩ | ⟨id, hid, _, e⟩⟩
  all_goals rw [h] at e; simp only at e; subst e
  · exact ⟨rfl, rfl⟩
  · exact hp _
  · exact hp _

/-- C44 on ICON, one relayed message that does not reach a service of this network (forwarded, or turned back): nothing of its fee
    is lost or used twice. -/
theorem C44_java_forward (env : Env) (out : Out) (call : St → St) (caller : Nat) (prev : String) (gen seq : Nat) (s : St) (m : Msg) (n : String)
    (hd : m.dst ≠ c.net) :
    (item c env out call caller prev gen seq s m).twice n = s.twice n ∧ (item c env out call caller prev gen seq s m).lost n = s.lost n := by
  suffices h : (item c env out call caller prev gen seq s m).twice = s.twice ∧ (item c env out call caller prev gen seq s m).lost = s.lost by
    rw [h.1, h.2]; exact ⟨rfl, rfl⟩
  have h0 : ∀ x, { inFee s m.fee with disp := x }.twice = s.twice ∧ { inFee s m.fee with disp := x }.lost = s.lost := by
    intro x; cases m.fee <;> exact ⟨rfl, rfl⟩
  unfold item
  simp only
  generalize hs0 : { inFee s m.fee with disp := (inFee s m.fee).disp ++ [(gen, seq, some m)] } = s0
  have h0 := h0 ((inFee s m.fee).disp ++ [(gen, seq, some m)])
  rw [hs0] at h0
  have h1 := accumulate_ghost s0 caller m.fee
  generalize accumulate s0 caller m.fee = p at h1
  obtain ⟨s1, f⟩ := p
  simp only at h1 ⊢
  have h2 : ∀ r s2, deliver c env out call s1 { m with fee := f } = (r, s2) → s2.twice = s1.twice ∧ s2.lost = s1.lost := by
    intro r s2 h
    unfold deliver at h
    rw [if_neg hd] at h
    split at h
    · cases h; exact ⟨rfl, rfl⟩
    · exact sendMsg_ghost c h
  split
  · rename_i s2 h
    have := h2 _ _ h
    exact ⟨this.1.trans (h1.1.trans h0.1), this.2.trans (h1.2.trans h0.2)⟩
  · rename_i e s2 h
    have := h2 _ _ h
    have h3 : (failed c env prev seq s2 { m with fee := f } e).twice = s2.twice ∧ (failed c env prev seq s2 { m with fee := f } e).lost = s2.lost := by
      unfold failed
      split
      · split
        · rename_i h4; exact sendMsg_ghost c h4
        · rename_i h4
          have g1 := sendMsg_ghost c h4
          rename_i s4
          have g2 := collect_ghost c s4 (swapFee s2 m.src f)
          exact ⟨g2.1.trans g1.1, g2.2.trans g1.2⟩
      · simp only; exact collect_ghost c s2 f
    exact ⟨h3.1.trans (this.1.trans (h1.1.trans h0.1)), h3.2.trans (this.2.trans (h1.2.trans h0.2))⟩

/-! ### C45 -/

/-- C45 on ICON: whatever responses arrive, every claim is settled at most once, and a settled claim is no longer open. -/
theorem C45_java_settled_once (creator : Nat) (ops : List Op) :
    ((run c creator ops).settle.map Prod.fst).Nodup ∧ ∀ p ∈ (run c creator ops).settle, (run c creator ops).req.get none p.1 = none :=
  ⟨(req_run creator ops).once, fun p hp => ((req_run creator ops).done p hp).2.2⟩

theorem addReward_get (s : St) (a : Nat) (k : String) (v : Nat) (x : Nat × String) :
    (addReward s a k v).reward.get 0 x = s.reward.get 0 x + (if x = (a, k) then v else 0) := by
  unfold addReward
  by_cases hv : v > 0
  · rw [if_pos hv]
    show FM.get 0 (s.reward.set (a, k) _) x = _
    rw [SolBmc.FM.get_set]
    by_cases hx : x = (a, k)
    · subst hx; rw [if_pos rfl, if_pos rfl, Nat.add_comm]
    · rw [if_neg (fun e => hx e.symm), if_neg hx]; rfl
  · rw [if_neg hv]
    have : v = 0 := by omega
    subst this; simp

/-- C45 on ICON, origin: a response to an open claim closes it and refunds exactly its amount if it reports a failure, nothing if
    it reports success; without an open claim nothing changes. -/
theorem C45_java_refund (s s' : St) (k : Int) (code : Nat) (e : Option Ex) (h : handleResponse s k code = (e, s')) :
    (∀ r, s.req.get none k = some r → e = none ∧ s'.req.get none k = none ∧ (∀ j, j ≠ k → s'.req.get none j = s.req.get none j) ∧
      ∀ x, s'.reward.get 0 x = s.reward.get 0 x + (if code ≠ 0 ∧ x = (r.caller, r.dst) then r.amount else 0)) ∧
    (s.req.get none k = none → e ≠ none ∧ s' = s) := by
  unfold handleResponse at h
  split at h
  · rename_i hr
    cases h
    exact ⟨fun r h2 => (by rw [hr] at h2; cases h2), fun _ => ⟨by simp, rfl⟩⟩
  · rename_i r hr
    refine ⟨fun r' h2 => ?_, fun h2 => by rw [hr] at h2; cases h2⟩
    rw [hr, Option.some.injEq] at h2
    subst h2
    simp only [Prod.mk.injEq] at h
    obtain ⟨rfl, rfl⟩ := h
    have hreq := (Tr.addReward_fields { s with req := s.req.set k none } r.caller r.dst r.amount).1
    refine ⟨rfl, ?_, ?_, ?_⟩
    · by_cases hc : code ≠ 0
      · simp only [if_pos hc]; rw [hreq, SolBmc.FM.get_set, if_pos rfl]
      · simp only [if_neg hc]; rw [SolBmc.FM.get_set, if_pos rfl]
    · intro j hj
      by_cases hc : code ≠ 0
      · simp only [if_pos hc]; rw [hreq, SolBmc.FM.get_set, if_neg (fun e => hj e.symm)]
      · simp only [if_neg hc]; rw [SolBmc.FM.get_set, if_neg (fun e => hj e.symm)]
    · intro x
      by_cases hc : code ≠ 0
      · simp only [if_pos hc]
        rw [addReward_get]
        by_cases hx : x = (r.caller, r.dst)
        · rw [if_pos hx, if_pos ⟨hc, hx⟩]
        · rw [if_neg hx, if_neg (fun e => hx e.2)]
      · simp only [if_neg hc]
        rw [if_neg (fun e => hc e.1)]
        rfl

/-- C45 is false on ICON at the destination: whenever the receiver of a relayed claim is a proper address, the receiver is credited
    in full, whether or not the response can be sent - and if it cannot, the exception makes the caller send an error response, on
    which the origin refunds the claim (C45_java_refund). -/
theorem C45_java_always_credited (env : Env) (s s' : St) (src : String) (nsn : Int) (body : Bytes) (amount : Nat) (receiver : String)
    (a : Nat) (e : Option Ex) (hb : c.decInner body = some (.claim amount receiver)) (hp : c.parseAddr receiver = some a)
    (h : internalHandle c env s src nsn body = (e, s')) :
    s'.reward.get 0 (a, c.net) = s.reward.get 0 (a, c.net) + amount := by
  unfold internalHandle at h
  rw [hb] at h
  simp only [hp] at h
  have hr := addReward_get (addIn s c.net amount) a c.net amount (a, c.net)
  rw [if_pos rfl] at hr
  generalize addReward (addIn s c.net amount) a c.net amount = s1 at h hr
  have hsm : ∀ (x : St) (next : String) (m : Msg), (sendMsg c env x next m).2.reward = x.reward := by
    intro x next m
    have hp : ∀ l, (putLink c x l).reward = x.reward := by intro l; unfold putLink; split <;> rfl
    rcases Tr.sendMsg (c := c) (env := env) (s := x) (next := next) (m := m) with ⟨_, e⟩ | ⟨_, l, hl, ⟨hid, e⟩ | ⟨id, hid, _, e⟩⟩
    · rw [e]
    · rw [e]; exact hp _
    · rw [e]; exact hp _
  have key : ∀ r s2, sendWithFee c env s1 0 src "bmc" nsn (c.encInner (.response 0)) true false = (r, s2) →
      s2.reward.get 0 (a, c.net) = s1.reward.get 0 (a, c.net) := by
    intro r s2 h
    unfold sendWithFee at h
    split at h
    · cases h; rfl
    · simp only [if_true] at h
      unfold sendReply at h
      split at h
      · cases h; rfl
      · simp only at h
        rename_i next hnext _ rr hrr
        have hx := addReward_get (addIn { s1 with resp := s1.resp.set (src, "bmc", nsn) none } c.net 0) c.addr c.net 0 (a, c.net)
        have hy := hsm (addReward (addIn { s1 with resp := s1.resp.set (src, "bmc", nsn) none } c.net 0) c.addr c.net 0) next
          ⟨c.net, src, "bmc", 0, c.encInner (.response 0), -rr.nsn, some rr.fee⟩
        generalize addReward (addIn { s1 with resp := s1.resp.set (src, "bmc", nsn) none } c.net 0) c.addr c.net 0 = s2' at h hx hy
        have hz : s2'.reward.get 0 (a, c.net) = s1.reward.get 0 (a, c.net) := by
          rw [hx]; split <;> rfl
        split at h
        · rename_i h3
          cases h
          rw [h3] at hy
          show FM.get 0 (addLost _ _ _).reward _ = _
          simp only [addLost]
          simp only at hy
          rw [hy, hz]
        · rename_i h3
          cases h
          rw [h3] at hy
          simp only at hy
          rw [hy, hz]
  split at h
  · rename_i h3; cases h; rw [key _ _ h3, hr]; rfl
  · rename_i h3; cases h; rw [key _ _ h3, hr]; rfl

/-! ### C47 -/

/-- C47: the next hop for a network is the direct link if there is one; otherwise the link of the manual route if there is one;
    otherwise the first link that reported a reachable address of that network; otherwise resolution fails. -/
theorem C47_java_resolve_order (creator : Nat) (ops : List Op) (net : String) (s : St) (hs : s = run c creator ops) :
    (∀ l, Dict.get s.links net = some l → resolve c s net = .ok l.addr) ∧
    (Dict.get s.links net = none → ∀ via, Dict.get s.routes net = some via →
      ∃ l, Dict.get s.links via = some l ∧ resolve c s net = .ok l.addr) ∧
    (Dict.get s.links net = none → Dict.get s.routes net = none → ∀ (i : Nat) (k : String) (l : Link), s.links[i]? = some (k, l) →
      (∃ r ∈ l.reach, c.reachNet r = net) → (∀ (j : Nat) (p : String × Link), j < i → s.links[j]? = some p → ∀ r ∈ p.2.reach, c.reachNet r ≠ net) →
      resolve c s net = .ok l.addr) ∧
    (Dict.get s.links net = none → Dict.get s.routes net = none → (∀ p ∈ s.links, ∀ r ∈ p.2.reach, c.reachNet r ≠ net) →
      resolve c s net = .error exUnreachable) := by
  have w : WF c s := hs ▸ wf_run (c := c) creator ops
  have first : ∀ (L : List (String × Link)) (i : Nat) (k : String) (l : Link), L[i]? = some (k, l) → (∃ r ∈ l.reach, c.reachNet r = net) →
      (∀ (j : Nat) (p : String × Link), j < i → L[j]? = some p → ∀ r ∈ p.2.reach, c.reachNet r ≠ net) → fromReach c net L = some l.addr := by
    intro L
    induction L with
    | nil => intro i k l h; simp at h
    | cons p t ih =>
      intro i k l h he hb
      obtain ⟨pk, pl⟩ := p
      unfold fromReach
      cases i with
      | zero =>
        simp only [List.getElem?_cons_zero, Option.some.injEq, Prod.mk.injEq] at h
        obtain ⟨rfl, rfl⟩ := h
        obtain ⟨r, hr, e⟩ := he
        rw [if_pos (by rw [List.any_eq_true]; exact ⟨r, hr, by simpa using e⟩)]
      | succ i =>
        rw [if_neg]
        · refine ih i k l (by simpa using h) he (fun j p hj hp => hb (j + 1) p (by omega) (by simpa using hp))
        · rw [List.any_eq_true]
          rintro ⟨r, hr, e⟩
          exact hb 0 (pk, pl) (by omega) rfl r hr (by simpa using e)
  have none_ : ∀ (L : List (String × Link)), (∀ p ∈ L, ∀ r ∈ p.2.reach, c.reachNet r ≠ net) → fromReach c net L = none := by
    intro L
    induction L with
    | nil => intro _; rfl
    | cons p t ih =>
      intro hb
      obtain ⟨pk, pl⟩ := p
      unfold fromReach
      rw [if_neg, ih (fun p hp => hb p (List.mem_cons_of_mem _ hp))]
      rw [List.any_eq_true]
      rintro ⟨r, hr, e⟩
      exact hb (pk, pl) (List.mem_cons_self ..) r hr (by simpa using e)
  refine ⟨?_, ?_, ?_, ?_⟩
  · intro l hl; unfold resolve; rw [hl]
  · intro hn via hv
    have := w.routes net via hv
    cases hl : Dict.get s.links via with
    | none => rw [hl] at this; cases this
    | some l => exact ⟨l, rfl, by unfold resolve; rw [hn]; simp only [hv, hl]⟩
  · intro hn hr i k l hi he hb
    unfold resolve
    rw [hn]
    simp only [hr, first s.links i k l hi he hb]
  · intro hn hr hb
    unfold resolve
    rw [hn]
    simp only [hr, none_ s.links hb]

/-- C47: a resolved next hop is the address of a link that exists, so sending to it cannot fail for lack of the link. -/
theorem C47_java_resolved_link (creator : Nat) (ops : List Op) (net a : String) (h : resolve c (run c creator ops) net = .ok a) :
    ∃ l, getLinkA c (run c creator ops) a = some l := by
  have w := wf_run (c := c) creator ops
  have got : ∀ k l, Dict.get (run c creator ops).links k = some l → getLinkA c (run c creator ops) l.addr = some l := by
    intro k l hl
    unfold getLinkA
    rw [w.addr k l hl]
    simp only [hl, if_true]
  have reach : ∀ (L : List (String × Link)) b, fromReach c net L = some b → ∃ k l, (k, l) ∈ L ∧ l.addr = b := by
    intro L
    induction L with
    | nil => intro b h; cases h
    | cons p t ih =>
      intro b h
      obtain ⟨pk, pl⟩ := p
      unfold fromReach at h
      split at h
      · cases h; exact ⟨pk, pl, List.mem_cons_self .., rfl⟩
      · obtain ⟨k, l, h1, h2⟩ := ih b h
        exact ⟨k, l, List.mem_cons_of_mem _ h1, h2⟩
  unfold resolve at h
  split at h
  · rename_i l hl; cases h; exact ⟨l, got _ _ hl⟩
  · split at h
    · split at h
      · rename_i l hl; cases h; exact ⟨l, got _ _ hl⟩
      · cases h
    · split at h
      · rename_i b hb
        cases h
        obtain ⟨k, l, h1, h2⟩ := reach _ _ hb
        exact ⟨l, h2 ▸ got k l (Dict.get_of_mem w.linkKeys h1)⟩
      · cases h

/-! ### C72 -/

/-- C72: the code of the error response to a message: 2 for an unreachable network, 3 for a missing service, 1 for any other failure
    of the BMC, 4 for a failure of the service - unless its exception code happens to be 11 or 6. -/
theorem C72_java_codes_partial (e : Ex) : (e = exUnreachable → toResp e = 2) ∧ (e = exNoBSH → toResp e = 3) ∧
    (e.bsh = false → e ≠ exUnreachable → e ≠ exNoBSH → toResp e = 1) ∧
    (e.bsh = true → e.code ≠ 11 → e.code ≠ 6 → toResp e = 4) := by
  obtain ⟨b, n⟩ := e
  refine ⟨?_, ?_, ?_, ?_⟩
  · intro h; rw [h]; rfl
  · intro h; rw [h]; rfl
  · intro hb h1 h2
    simp only at hb
    subst hb
    have h1' : n ≠ 11 := fun e => h1 (by rw [e]; rfl)
    have h2' : n ≠ 6 := fun e => h2 (by rw [e]; rfl)
    simp [toResp, h1', h2']
  · intro hb h1 h2
    simp only at hb h1 h2
    simp [toResp, h1, h2, hb]

/-- C72 is false: a service that reverts with code 11 is reported as "no route", with code 6 as "no service". -/
theorem C72_java_codes_witness : toResp ⟨true, 11⟩ = 2 ∧ toResp ⟨true, 6⟩ = 3 ∧ toResp ⟨true, 5⟩ = 4 := by decide

/-! ### Concrete cases -/
namespace Demo

/-- ICON BMC 0 with links to "e" (address "e/A") and "b" ("b/A"), relay 9, service "s" at 5, owner 1. -/
def cfg (src : String → List Msg) : Cfg where
  net := "icon"
  addr := 0
  netOf := fun a => if a = "e/A" then some "e" else if a = "b/A" then some "b" else none
  reachNet := fun a => if a = "f/A" then "f" else ""
  verify := fun _ prev rx ms => decide (ms = ((src prev).drop rx).take ms.length)
  decInner := fun b => if b = [1] then some (.claim 5 "hx7") else if b = [2] then some (.response 0) else if b = [3] then some (.link "f/A") else none
  decResp := fun _ => some 1
  encInner := fun i => match i with | .claim _ _ => [1] | .response _ => [2] | _ => [3]
  encResp := fun n => [n.toUInt8]
  parseAddr := fun a => if a = "hx7" then some 7 else none
  alnum := fun _ => true

def env : Env := ⟨fun _ _ => true, true⟩

def setup : List Op := [
  .conf env 1 (.addVerifier "e" 30), .conf env 1 (.addVerifier "b" 31), .conf env 1 (.addService "s" 5),
  .conf env 1 (.addLink "e/A"), .conf env 1 (.addLink "b/A"), .conf env 1 (.addRelay "e/A" 9), .conf env 1 (.addRelay "b/A" 9)]

theorem faithful (src : String → List Msg) : Faithful (cfg src) src := by
  intro v prev rx msgs h i m hi
  have h : msgs = ((src prev).drop rx).take msgs.length := by simpa [cfg] using h
  rw [h, List.getElem?_take] at hi
  split at hi
  · rw [List.getElem?_drop] at hi; exact hi
  · cases hi

def m1 : Msg := ⟨"e", "icon", "s", 1, [], 1, some ⟨"e", [3, 4]⟩⟩
def m2 : Msg := ⟨"e", "icon", "s", 2, [], 2, some ⟨"e", [3, 4]⟩⟩
def m3 : Msg := ⟨"e", "b", "s", 3, [], 3, some ⟨"e", [3, 4]⟩⟩
def srcA : String → List Msg := fun p => if p = "e/A" then [m1, m2, m3] else []

/-- Two relay calls; the service answers the first message, the second one fails, the third is forwarded. -/
def opsA : List Op := setup ++ [
  .relay 9 "e/A" (.cons m1 env none (.cons (.send env 5 0 "e" "s" (-1) [7]) .nil) (.cons m2 env (some 3) .nil .nil)),
  .relay 9 "e/A" (.cons m3 env none .nil .nil)]

example : opsA.all Op.flat = true ∧ ((run (cfg srcA) 1 opsA).disp.map (fun e => e.2.1)) = [1, 2, 3] ∧
    ((Dict.get (run (cfg srcA) 1 opsA).links "e").map (fun l => (l.rx, l.tx, l.gen))) = some (3, 4, 0) ∧
    ((Dict.get (run (cfg srcA) 1 opsA).links "b").map (fun l => (l.rx, l.tx, l.gen))) = some (0, 2, 1) ∧
    (run (cfg srcA) 1 opsA).reward.get 0 (9, "e") = 9 := by decide +kernel

/-- C41 is false as stated if services may call back with relay messages: the third message is handled before the second. -/
def opsR : List Op := setup ++ [
  .relay 9 "e/A" (.cons m1 env none (.cons (.relay 9 "e/A" (.cons m3 env none .nil .nil)) .nil) (.cons m2 env none .nil .nil))]

theorem C41_java_reentrance_witness : ((run (cfg srcA) 1 opsR).disp.map (fun e => (e.1, e.2.1))) = [(0, 1), (0, 3), (0, 2)] := by
  decide +kernel

/-- C43 is false: after the link is removed and added again, account 9 still relays, without having been added again. -/
def opsC : List Op := setup ++ [.conf env 1 (.addRelay "e/A" 10), .conf env 1 (.removeLink "e/A"), .conf env 1 (.addLink "e/A")]

theorem C43_java_stale_relay_witness : (run (cfg srcA) 1 opsC).relays "e/A" = [9] ∧
    (exec (cfg srcA) (.relay 9 "e/A" (.cons m1 env none .nil .nil)) (run (cfg srcA) 1 opsC)).isSome = true := by decide +kernel

/-- C44 is false: a one-way message for a missing service: of its fee 1 goes to the relay, the remaining 5 is credited twice. -/
def n1 : Msg := ⟨"e", "icon", "nope", 0, [], 1, some ⟨"e", [1, 5]⟩⟩
def srcN : String → List Msg := fun p => if p = "e/A" then [n1] else []
def opsN : List Op := setup ++ [.relay 9 "e/A" (.cons n1 env none .nil .nil)]

theorem C44_java_collected_twice_witness : (run (cfg srcN) 1 opsN).reward.get 0 (9, "e") = 1 ∧
    (run (cfg srcN) 1 opsN).reward.get 0 (0, "e") = 10 ∧ (run (cfg srcN) 1 opsN).inflow "e" = 6 ∧ (run (cfg srcN) 1 opsN).twice "e" = 5 := by
  decide +kernel

/-- C44 is false: a dropped one-way message: 1 is credited to the BMC, the remaining 5 to nobody. -/
def opsD : List Op := setup ++ [.drop env 1 "e" 1 "s" 0 1 "e" [1, 5]]

theorem C44_java_drop_lost_witness : rewards (run (cfg srcA) 1 opsD) "e" = 1 ∧ stored (run (cfg srcA) 1 opsD) "e" = 0 ∧
    carried (run (cfg srcA) 1 opsD) "e" = 0 ∧ (run (cfg srcA) 1 opsD).lost "e" = 5 := by decide +kernel

/-- C44 is false: value sent with a claim of the own currency is in no balance. -/
def m4 : Msg := ⟨"e", "icon", "s", 0, [], 1, some ⟨"icon", [2]⟩⟩
def srcV : String → List Msg := fun p => if p = "e/A" then [m4] else []
def opsV : List Op := setup ++ [.relay 9 "e/A" (.cons m4 env none .nil .nil), .claim env .nil 9 100 "icon" "hx7"]

theorem C44_java_value_lost_witness : (run (cfg srcV) 1 opsV).paid "icon" = 2 ∧ (run (cfg srcV) 1 opsV).inflow "icon" = 102 ∧
    rewards (run (cfg srcV) 1 opsV) "icon" = 0 ∧ (run (cfg srcV) 1 opsV).lost "icon" = 100 := by decide +kernel

/-- C45 is false: a claim from "f" arrives over "e", and this network knows no route back to "f": the receiver 7 is credited, and an
    error response (sn -4, code "no route") goes back, on which the origin refunds the claimer. -/
def k1 : Msg := ⟨"f", "icon", "bmc", 4, [1], 4, some ⟨"f", [1, 1]⟩⟩
def srcK : String → List Msg := fun p => if p = "e/A" then [k1] else []
def opsK : List Op := setup ++ [.relay 9 "e/A" (.cons k1 env none .nil .nil)]

theorem C45_java_credited_and_refunded_witness : (run (cfg srcK) 1 opsK).reward.get 0 (7, "icon") = 5 ∧
    (run (cfg srcK) 1 opsK).log.getLast? = some (.message "e/A" 3 ⟨"icon", "f", "bmc", -4, [2], -4, some ⟨"f", [1]⟩⟩) := by decide +kernel

/-- C45 is false: an open claim to "e" (network number 4) is settled by a message that comes from "b". -/
def p1 : Msg := ⟨"b", "icon", "bmc", 0, [2], -4, none⟩
def srcP : String → List Msg := fun p => if p = "e/A" then [m4', m1] else if p = "b/A" then [p1] else []
where m4' : Msg := ⟨"e", "icon", "s", 0, [], 1, some ⟨"e", [2]⟩⟩
def opsP1 : List Op := setup ++ [.relay 9 "e/A" (.cons srcP.m4' env none .nil .nil), .claim env .nil 9 0 "e" "hx7"]
def opsP2 : List Op := opsP1 ++ [.relay 9 "b/A" (.cons p1 env none .nil .nil)]

theorem C45_java_spoofed_response_witness : (run (cfg srcP) 1 opsP1).req.get none 4 = some ⟨"e", 9, 2⟩ ∧
    (run (cfg srcP) 1 opsP2).req.get none 4 = none ∧ (run (cfg srcP) 1 opsP2).settle = [(4, 0)] := by decide +kernel

/-- C47: a network that only a link reported (Link message), and the manual route that takes precedence over it. -/
def q1 : Msg := ⟨"e", "icon", "bmc", 0, [3], 1, none⟩
def srcQ : String → List Msg := fun p => if p = "e/A" then [q1] else []
def opsQ : List Op := setup ++ [.relay 9 "e/A" (.cons q1 env none .nil .nil)]

example : (match resolve (cfg srcQ) (run (cfg srcQ) 1 setup) "f" with | .ok _ => false | .error e => e = exUnreachable) = true ∧
    (match resolve (cfg srcQ) (run (cfg srcQ) 1 opsQ) "f" with | .ok a => a = "e/A" | .error _ => false) = true ∧
    (match resolve (cfg srcQ) (run (cfg srcQ) 1 (opsQ ++ [.conf env 1 (.addRoute "f" "b")])) "f" with
      | .ok a => a = "b/A" | .error _ => false) = true := by decide +kernel

/-- C71: network 1 is bound to the link when it is added, network 2 after two messages. -/
def opsB : List Op := [.conf env 1 (.addVerifier "e" 30), .conf env 1 (.addService "s" 5), .conf env 1 (.addBTPLink "e/A" 1),
  .send env 5 0 "e" "s" 1 [], .conf env 1 (.setBTPLinkNetworkId "e/A" 2), .send env 5 0 "e" "s" 2 []]

example : (run (cfg srcA) 1 opsB).netIds "e/A" = some 2 ∧ (run (cfg srcA) 1 opsB).offsets 2 = some 2 ∧
    txOf (cfg srcA) (run (cfg srcA) 1 opsB) "e/A" = 3 ∧ sentTo 2 (run (cfg srcA) 1 opsB).log [] = [3] ∧
    sentTo 1 (run (cfg srcA) 1 opsB).log [] = [1, 2] := by decide +kernel

/-- C71 is false over the whole history: network 1 has carried a message before, is bound again with offset 0, and its second
    message has number 1. -/
def opsB2 : List Op := [.conf env 1 (.addVerifier "e" 30), .conf env 1 (.addBTPLink "e/A" 1), .conf env 1 (.removeLink "e/A"),
  .conf env 1 (.addBTPLink "e/A" 1)]

theorem C71_java_rebound_witness : (run (cfg srcA) 1 opsB2).offsets 1 = some 0 ∧
    (run (cfg srcA) 1 opsB2).log.filterMap (fun e => match e with | .chain 1 _ n _ => some n | _ => none) = [1, 1] := by decide +kernel

end Demo

end Verif.JavaBmc
