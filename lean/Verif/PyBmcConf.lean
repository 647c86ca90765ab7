import Verif.PyBmcProps
/-!
C123, C124, C125: permissions, registrations and relays of the Python message center.
-/
namespace Verif.PyBmc
open Verif Verif.BtpAddress

variable (c : Cfg)

/-! ### C123: permissions -/

theorem mem_mergePerm : ∀ (t l : List Str) (p : Str), p ∈ mergePerm l t ↔ p ∈ l ∨ p ∈ t
  | [], l, p => by simp [mergePerm]
  | a :: t, l, p => by
    rw [mergePerm, mem_mergePerm t]
    by_cases h : l.contains a = true
    · rw [if_pos h]
      have h : a ∈ l := by simpa using h
      constructor
      · rintro (h1 | h1)
        · exact .inl h1
        · exact .inr (List.mem_cons_of_mem _ h1)
      · rintro (h1 | h1)
        · exact .inl h1
        · rcases List.mem_cons.1 h1 with h1 | h1
          · subst h1; exact .inl h
          · exact .inr h1
    · rw [if_neg h]; simp [or_assoc]

theorem removePerm_sub : ∀ (t l : List Str), ∀ p ∈ removePerm l t, p ∈ l
  | [], _, _, h => h
  | a :: t, l, p, h => List.mem_of_mem_erase (removePerm_sub t (l.erase a) p h)

theorem parsePerm_spec {p : Str} {l : List Str} (h : parsePerm p = some l) : l = PyDb.split p ∧ (∀ q ∈ l, q ∈ apis) := by
  simp only [parsePerm] at h
  split at h
  · cases h
  · split at h
    · rename_i h1; cases h
      refine ⟨rfl, ?_⟩
      intro q hq
      rw [List.all_eq_true] at h1
      simpa using h1 q hq
    · cases h

/-- What is granted are names of the list only. -/
def PermsOk (s : St) : Prop := ∀ a l, get s.perms a = some l → ∀ p ∈ l, p ∈ apis

theorem grant_spec {s s' : St} {a : Nat} {p : Str} (h : addPermission s a p = some s') :
    ∃ l, parsePerm p = some l ∧ get s.perms a ≠ some [] ∧
      s' = { s with perms := put s.perms a (match get s.perms a with | none => l | some org => mergePerm org l) } := by
  simp only [addPermission] at h
  split at h
  · cases h
  · rename_i l hl
    split at h
    · rename_i hg; cases h; exact ⟨l, hl, by rw [hg]; simp, by rw [hg]⟩
    · cases h
    · rename_i org hne hg
      cases h
      exact ⟨l, hl, by rw [hg]; intro e; exact hne (Option.some.inj e), by rw [hg]⟩

theorem revoke_spec {s s' : St} {a : Nat} {p : Str} (h : removePermission s a p = some s') :
    ∃ l org, parsePerm p = some l ∧ get s.perms a = some org ∧ org ≠ [] ∧ s' = { s with perms := put s.perms a (removePerm org l) } := by
  simp only [removePermission] at h
  split at h
  · cases h
  · rename_i l hl
    split at h
    · cases h
    · cases h
    · rename_i org hne hg
      cases h
      exact ⟨l, org, hl, hg, hne, rfl⟩

theorem permsOk_step {q : Bool} {s s' : St} (e : Step q s s') (h : PermsOk s) : PermsOk s' := by
  cases e with
  | grant _ a p hg =>
    obtain ⟨l, hl, _, rfl⟩ := grant_spec hg
    intro b m hm r hr
    simp only [get_put] at hm
    by_cases e : a = b
    · rw [if_pos e] at hm
      cases hm
      cases ho : get s.perms a with
      | none => simp only [ho] at hr; exact (parsePerm_spec hl).2 r hr
      | some org =>
        simp only [ho] at hr
        rcases (mem_mergePerm _ _ _).1 hr with hr | hr
        · exact h a org ho r hr
        · exact (parsePerm_spec hl).2 r hr
    · rw [if_neg e] at hm; exact h b m hm r hr
  | revoke _ a p hg =>
    obtain ⟨l, org, _, ho, _, rfl⟩ := revoke_spec hg
    intro b m hm r hr
    simp only [get_put] at hm
    by_cases e : a = b
    · rw [if_pos e] at hm; cases hm; exact h a org ho r (removePerm_sub _ _ r hr)
    · rw [if_neg e] at hm; exact h b m hm r hr
  | _ => exact h

/-- C123: while access control is off everybody may do everything; it is off at the start. -/
theorem C123_open (s : St) (x : Ctx) (api : Str) (h : s.access = false) : allowed s x api = true ∧ initSt.access = false := by
  simp [allowed, h, initSt]

/-- C123: access control is switched by the owner only. -/
theorem C123_owner (s s' : St) (x : Ctx) (on : Bool) : exec c (.setAccess x on) s = some s' ↔ x.sender = c.owner ∧ s' = { s with access := on } := by
  simp only [exec]
  by_cases h : x.sender = c.owner
  · simp [h, eq_comm]
  · simp [h]

/-- C123: with access control on, a name is allowed to a caller that has it, or to a caller without any entry if the signer of the
transaction has it. -/
theorem C123_allowed (s : St) (x : Ctx) (api : Str) (h : s.access = true) : allowed s x api = true ↔
    (∃ l, get s.perms x.sender = some l ∧ api ∈ l) ∨ (get s.perms x.sender = none ∧ ∃ l, get s.perms x.origin = some l ∧ api ∈ l) := by
  unfold allowed
  rw [h]
  cases h1 : get s.perms x.sender with
  | some l => simp
  | none =>
    cases h2 : get s.perms x.origin with
    | none => simp
    | some l => simp

/-- C123: a contract without an entry acts with the rights of the account that signed the transaction. -/
theorem C123_origin (s : St) (a o : Nat) (h : Int) (api : Str) (ha : get s.perms a = none) : allowed s ⟨a, o, h⟩ api = allowed s ⟨o, o, h⟩ api := by
  unfold allowed
  simp only [ha]
  cases get s.perms o <;> rfl

theorem mem_apis : "setLink".toList ∉ apis ∧ "nextRelays".toList ∉ apis := by decide +kernel

/-- C123 (false that granting suffices): with access control on, nobody can call `setLink` or `nextRelays`, in any history, since these
names cannot be granted. -/
theorem C123_nobody (ops : List Op) (h : (run c ops).access = true) (x : Ctx) :
    (∀ link i m d vh, exec c (.setLink x link i m d vh) (run c ops) = none) ∧ (∀ link t, exec c (.nextRelays x link t) (run c ops) = none) := by
  have hP : PermsOk (run c ops) := run_inv (P := PermsOk) (by intro a l h; cases h) (fun _ _ e h => permsOk_step e h) ops
  have no : ∀ api, api ∉ apis → allowed (run c ops) x api = false := by
    intro api hn
    cases ha : allowed (run c ops) x api with
    | false => rfl
    | true =>
      rcases (C123_allowed _ _ _ h).1 ha with ⟨l, h1, h2⟩ | ⟨_, l, h1, h2⟩
      · exact absurd (hP _ _ h1 _ h2) hn
      · exact absurd (hP _ _ h1 _ h2) hn
  constructor
  · intro link i m d vh
    simp only [exec, setLink]
    rw [if_neg (by rw [no _ mem_apis.1]; decide)]
  · intro link t
    simp only [exec, nextRelays]
    rw [if_neg (by rw [no _ mem_apis.2]; decide)]

/-- C123: everything else the list names can be granted: what is granted is allowed (to callers that had an entry or none, but not to
those whose entry was emptied). -/
theorem C123_granted (s s' : St) (a o : Nat) (h : Int) (p : Str) (hg : addPermission s a p = some s') :
    ∀ api ∈ PyDb.split p, allowed s' ⟨a, o, h⟩ api = true := by
  intro api hm
  obtain ⟨l, hl, _, rfl⟩ := grant_spec hg
  rw [← (parsePerm_spec hl).1] at hm
  unfold allowed
  simp only [get_put_same]
  cases ho : get s.perms a with
  | none => simp [hm]
  | some org => simp [(mem_mergePerm l org api).2 (.inr hm)]

/-- C123: an entry that was emptied stays empty for ever. -/
theorem C123_emptied_stays {q : Bool} {s s' : St} (e : Steps q s s') (a : Nat) (h : get s.perms a = some []) : get s'.perms a = some [] := by
  refine e.inv (P := fun s => get s.perms a = some []) ?_ h
  intro s s' e h
  cases e with
  | grant _ b p hg =>
    obtain ⟨l, _, hne, rfl⟩ := grant_spec hg
    simp only [get_put]
    by_cases e : b = a
    · subst e; exact absurd h hne
    · rw [if_neg e]; exact h
  | revoke _ b p hg =>
    obtain ⟨l, org, _, ho, hne, rfl⟩ := revoke_spec hg
    simp only [get_put]
    by_cases e : b = a
    · subst e; rw [h] at ho; exact absurd (Option.some.inj ho).symm hne
    · rw [if_neg e]; exact h
  | _ => exact h

/-- C123 (false: a removed service can be added again): when the last service of a contract is removed and sending was all it was
allowed, no later history can register the contract again or grant it anything. -/
theorem C123_removed_never_back (s s' : St) (x : Ctx) (svc : Str) (a : Nat) (hs : get s.services svc = some a)
    (hl : ∀ e ∈ del s.services svc, e.2 ≠ a) (hp : get s.perms a = some ["sendMessage".toList]) (h : exec c (.removeService x svc) s = some s')
    (ops : List Op) (s'' : St) (hr : s'' = ops.foldl (fun s o => (exec c o s).getD s) s') (y : Ctx) :
    (∀ svc', exec c (.addService y svc' a) s'' = none) ∧ (∀ p, exec c (.addPermission y a p) s'' = none) := by
  have e0 : get s'.perms a = some [] := by
    simp only [exec, removeService] at h
    split at h
    · simp only [hs] at h
      have hany : (del s.services svc).any (fun p => decide (p.2 = a)) = false := by
        rw [List.any_eq_false]; intro e he; simpa using hl e he
      rw [hany] at h
      simp only [Bool.false_eq_true, if_false] at h
      split at h
      · obtain ⟨l, org, hl, ho, _, rfl⟩ := revoke_spec h
        have e1 : l = ["sendMessage".toList] := by
          have : parsePerm "sendMessage".toList = some ["sendMessage".toList] := by decide +kernel
          rw [this] at hl; exact (Option.some.inj hl).symm
        have ho : get s.perms a = some org := ho
        rw [hp] at ho
        cases ho
        simp only [get_put_same, e1]
        decide +kernel
      · cases h
    · cases h
  have st : ∀ (ops : List Op) (s : St), Steps false s (ops.foldl (fun s o => (exec c o s).getD s) s) := by
    intro ops
    induction ops with
    | nil => intro s; exact .refl s
    | cons o t ih =>
      intro s
      rw [List.foldl_cons]
      refine Steps.trans ?_ (ih _)
      cases h : exec c o s with
      | none => exact .refl s
      | some s1 => exact exec_steps o s s1 h
  have e1 : get s''.perms a = some [] := by rw [hr]; exact C123_emptied_stays (st ops s') a e0
  have no : ∀ (t : St) (p : Str), get t.perms a = some [] → addPermission t a p = none := by
    intro t p ht
    unfold addPermission
    rw [ht]
    cases parsePerm p <;> rfl
  constructor
  · intro svc'
    simp only [exec, addService]
    split
    · rw [no { s'' with services := put s''.services svc' a } _ e1, ite_self]
    · rfl
  · intro p
    simp only [exec]
    rw [no _ _ e1, ite_self]

/-- C123 (false that a permission is gone after its removal): one given twice in the same call stays after one removal. -/
theorem C123_twice : ∃ s1 s2 : St, addPermission initSt 3 "addLink,addLink".toList = some s1 ∧ removePermission s1 3 "addLink".toList = some s2 ∧
    get s2.perms 3 = some ["addLink".toList] :=
  ⟨_, _, rfl, rfl, by decide +kernel⟩

theorem removePerm_gone : ∀ (t l : List Str), l.Nodup → ∀ p ∈ removePerm l t, p ∉ t
  | [], l, _, p, _ => by simp
  | a :: t, l, hn, p, h => by
    have h1 := removePerm_gone t (l.erase a) (hn.erase a) p h
    have h2 := removePerm_sub t (l.erase a) p h
    intro hm
    rcases List.mem_cons.1 hm with hm | hm
    · subst hm; exact hn.not_mem_erase h2
    · exact h1 hm

/-- C123 (partial: no name twice): after the removal the names removed are not allowed. -/
theorem C123_revoked_partial (s s' : St) (a o : Nat) (h : Int) (p : Str) (hg : removePermission s a p = some s') (hA : s.access = true)
    (hn : ∀ l, get s.perms a = some l → l.Nodup) : ∀ api ∈ PyDb.split p, allowed s' ⟨a, o, h⟩ api = false := by
  intro api hm
  obtain ⟨l, org, hl, ho, _, rfl⟩ := revoke_spec hg
  rw [← (parsePerm_spec hl).1] at hm
  unfold allowed
  have h1 : api ∉ removePerm org l := fun h2 => removePerm_gone l org (hn org ho) api h2 hm
  simp [hA, get_put_same, h1]

/-- C123 (false that the names `addRelayer`, `removeRelayer`, `addRelay` matter): who calls makes no difference for the first two, and
`addRelay` asks only whether the signer is registered. -/
theorem C123_relayers_unchecked (s : St) (x y : Ctx) :
    (∀ a d, exec c (.addRelayer x a d) s = exec c (.addRelayer y a d) s) ∧ (∀ a, exec c (.removeRelayer x a) s = exec c (.removeRelayer y a) s) ∧
    (∀ link a, x.origin = y.origin → exec c (.addRelay x link a) s = exec c (.addRelay y link a) s) := by
  refine ⟨fun _ _ => by simp only [exec], fun _ => by simp only [exec], ?_⟩
  intro link a e
  simp only [exec, addRelay, e]

/-! ### C124: registrations -/

theorem hasLink_false {net : Str} : ∀ {ls : List (Str × Link)}, hasLink net ls = some false → ∀ e ∈ ls, ∃ n, netOf e.1 = some n ∧ n ≠ net
  | [], _, e, he => by cases he
  | (k, l) :: t, h, e, he => by
    simp only [hasLink] at h
    split at h
    · cases h
    · rename_i n hn
      split at h
      · cases h
      · rename_i hne
        rcases List.mem_cons.1 he with he | he
        · subst he; exact ⟨n, hn, hne⟩
        · exact hasLink_false h e he

/-- Every link has an address as its text and a verifier for its network. -/
structure Reg (s : St) : Prop where
  named : Named s
  vnodup : (s.verifiers.map (·.1)).Nodup
  bmv : ∀ k l, get s.links k = some l → ∃ a, PyAddr.fromString k = some a ∧ a.toStr = k ∧ (get s.verifiers a.net).isSome = true

theorem fromStringValid_some {s : Str} {a : PyAddr.Addr} (h : PyAddr.fromStringValid s = some a) : PyAddr.fromString s = some a := by
  unfold PyAddr.fromStringValid at h
  cases hf : PyAddr.fromString s with
  | none => rw [hf] at h; cases h
  | some b =>
    rw [hf] at h
    simp only [Option.bind_some] at h
    split at h
    · exact h
    · cases h

theorem reg_step {q : Bool} {s s' : St} (e : Step q s s') (h : Reg s) : Reg s' := by
  have hN := named_step e h.named
  obtain ⟨hn, hv, hb⟩ := h
  have keep : ∀ (k : Str) (l l' : Link), get s.links k = some l → ∀ k' l2, get (put s.links k l') k' = some l2 →
      ∃ a, PyAddr.fromString k' = some a ∧ a.toStr = k' ∧ (get s.verifiers a.net).isSome = true := by
    intro k l l' hk k' l2 h2
    rw [get_put] at h2
    by_cases e : k = k'
    · subst e; exact hb k l hk
    · rw [if_neg e] at h2; exact hb k' l2 h2
  cases e with
  | tx k l b hk => exact ⟨hN, hv, keep k l _ hk⟩
  | link k l l' hk => exact ⟨hN, hv, keep k l _ hk⟩
  | rx k l n hk => exact ⟨hN, hv, keep k l _ hk⟩
  | grant _ a p hg => obtain ⟨m, rfl⟩ := grant_eq hg; exact ⟨hN, hv, hb⟩
  | revoke _ a p hg => obtain ⟨m, rfl⟩ := revoke_eq hg; exact ⟨hN, hv, hb⟩
  | addVerifier net a hg =>
    refine ⟨hN, nodup_put _ _ _ hv, ?_⟩
    intro k l hk
    obtain ⟨b, h1, h2, h3⟩ := hb k l hk
    refine ⟨b, h1, h2, ?_⟩
    simp only [get_put]
    split
    · rfl
    · exact h3
  | delVerifier net hl =>
    refine ⟨hN, nodup_del _ _ hv, ?_⟩
    intro k l hk
    obtain ⟨b, h1, h2, h3⟩ := hb k l hk
    obtain ⟨n, h4, h5⟩ := hasLink_false hl _ (get_mem _ _ _ hk)
    refine ⟨b, h1, h2, ?_⟩
    have : n = b.net := by simp only [netOf, h1] at h4; exact (Option.some.inj h4).symm
    rw [get_del _ _ _ hv, if_neg (fun e => h5 (this.trans e.symm))]
    exact h3
  | addLink link a ha hv' hg =>
    refine ⟨hN, hv, ?_⟩
    intro k l hk
    simp only [get_put] at hk
    by_cases e : a.toStr = k
    · subst e; exact ⟨a, PyAddr.C117_text_back link a (fromStringValid_some ha), rfl, hv'⟩
    · rw [if_neg e] at hk; exact hb k l hk
  | delLink k hk =>
    refine ⟨hN, hv, ?_⟩
    intro k' l hk'
    exact hb k' l (get_del_some _ _ _ _ hn.nodup hk').2
  | _ => exact ⟨hN, hv, hb⟩

theorem run_reg (ops : List Op) : Reg (run c ops) :=
  run_inv ⟨named_init, List.nodup_nil, (by intro k l h; cases h)⟩ (fun _ _ e h => reg_step e h) ops

/-- C124: after every history every link is an address whose network has a verifier. -/
theorem C124_link_has_verifier (ops : List Op) (k : Str) (l : Link) (h : get (run c ops).links k = some l) :
    ∃ a, PyAddr.fromString k = some a ∧ a.toStr = k ∧ (get (run c ops).verifiers a.net).isSome = true := (run_reg c ops).bmv k l h

theorem hasLink_some {ls : List (Str × Link)} (net : Str) (h : ∀ e ∈ ls, (netOf e.1).isSome = true) :
    hasLink net ls = some (ls.any fun e => netOf e.1 = some net) := by
  induction ls with
  | nil => rfl
  | cons e t ih =>
    obtain ⟨k, l⟩ := e
    have h1 := h (k, l) List.mem_cons_self
    have ih := ih (fun e he => h e (List.mem_cons_of_mem _ he))
    simp only [hasLink, List.any_cons]
    cases hn : netOf k with
    | none => rw [hn] at h1; cases h1
    | some n =>
      simp only
      by_cases e : n = net
      · subst e; simp
      · rw [if_neg e, ih]; simp [e]

/-- C124: after every history a verifier can be removed exactly if it is there and no link has its network. -/
theorem C124_remove_verifier (ops : List Op) (x : Ctx) (net : Str) : (exec c (.removeVerifier x net) (run c ops)).isSome = true ↔
    allowed (run c ops) x "removeVerifier".toList = true ∧ (get (run c ops).verifiers net).isSome = true ∧
    ∀ k l, get (run c ops).links k = some l → netOf k ≠ some net := by
  have hR := run_reg c ops
  have hk : ∀ e ∈ (run c ops).links, (netOf e.1).isSome = true := by
    intro e he
    have := get_unique _ e.1 e.2 hR.named.nodup he
    obtain ⟨a, h1, _⟩ := hR.bmv _ _ this
    simp [netOf, h1]
  have hl : hasLink net (run c ops).links = some false ↔ ∀ k l, get (run c ops).links k = some l → netOf k ≠ some net := by
    rw [hasLink_some net hk]
    simp only [Option.some.injEq, List.any_eq_false, decide_eq_true_eq]
    exact ⟨fun h k l hg => h (k, l) (get_mem _ _ _ hg), fun h e he => h e.1 e.2 (get_unique _ _ _ hR.named.nodup he)⟩
  rw [← hl]
  simp only [exec]
  split
  · rename_i h; simp only [Option.isSome_some, true_iff]; exact h
  · rename_i h; simp only [Option.isSome_none, Bool.false_eq_true, false_iff]; exact h

/-- C124 (false that relays are removed with their link): every second relay of a removed link is still one when the link is added
again. -/
theorem C124_relays_survive (s s' : St) (x : Ctx) (link : Str) (a : PyAddr.Addr) (ha : PyAddr.fromStringValid link = some a)
    (h : exec c (.removeLink x link) s = some s') : s'.relays a.toStr = odds (s.relays a.toStr) ∧
      ∀ (y : Ctx) (s'' : St), exec c (.addLink y link) s' = some s'' → s''.relays a.toStr = odds (s.relays a.toStr) ∧
        ∃ l, get s''.links a.toStr = some l := by
  have prop : ∀ (evt : Bytes) (vs ts : List Str) (s s' : St), propagate c evt vs ts s = some s' → s'.relays = s.relays ∧
      ∀ k, (get s.links k).isSome = true → (get s'.links k).isSome = true := by
    intro evt vs ts
    induction ts with
    | nil => intro s s' h; simp only [propagate] at h; cases h; exact ⟨rfl, fun _ h => h⟩
    | cons t ts ih =>
      intro s s' h
      simp only [propagate] at h
      split at h
      · cases h
      · rename_i dst _
        cases h1 : send s t (writeMsg c c.me (some dst) (some bEvent) 0 (writeEvent c evt vs)) with
        | none => rw [h1] at h; cases h
        | some s1 =>
          rw [h1] at h
          have ih := ih s1 s' h
          simp only [send] at h1
          split at h1
          · cases h1
          · cases h1
            refine ⟨ih.1, fun k hk => ih.2 k ?_⟩
            simp only [get_put]
            split
            · rfl
            · exact hk
  have e1 : s'.relays a.toStr = odds (s.relays a.toStr) := by
    simp only [exec, removeLink] at h
    split at h
    · simp only [ha] at h
      split at h
      · obtain ⟨s1, h1, e⟩ := Option.map_eq_some_iff.1 h
        subst e
        simp [PyDb.upd, (prop _ _ _ _ _ h1).1]
      · cases h
    · cases h
  refine ⟨e1, ?_⟩
  intro y s'' h2
  simp only [exec, addLink] at h2
  split at h2
  · simp only [ha] at h2
    split at h2
    · have := prop _ _ _ _ _ h2
      refine ⟨by rw [this.1]; exact e1, ?_⟩
      have k := this.2 a.toStr (by simp [get_put_same])
      exact Option.isSome_iff_exists.1 k
    · cases h2
  · cases h2

/-! ### C125: relays -/

theorem ceilDiv_spec (a b : Int) (hb : 0 < b) : a ≤ ceilDiv a b * b ∧ (ceilDiv a b - 1) * b < a := by
  unfold ceilDiv
  rw [Int.fdiv_eq_ediv_of_nonneg _ (Int.le_of_lt hb)]
  have h1 := Int.ediv_mul_le (-a) (Int.ne_of_gt hb)
  have h2 := Int.lt_ediv_add_one_mul_self (-a) hb
  generalize (-a) / b = q at h1 h2
  have e1 : -q * b = -(q * b) := Int.neg_mul q b
  have e2 : (-q - 1) * b = -(q * b) - b := by rw [Int.sub_mul, Int.neg_mul, Int.one_mul]
  have e3 : (q + 1) * b = q * b + b := by rw [Int.add_mul, Int.one_mul]
  rw [e1, e2]
  rw [e3] at h2
  omega

variable {c}

/-- Turning by `n`. -/
theorem rotateBy_turn (rs : List Nat) (l : Link) (n base : Int) (hi : l.idx < rs.length) (ht : rotateTerm c l > 0) :
    ∃ l' a, rotateBy c rs l n base = some (l', a) ∧ l'.idx = (l.idx + n.toNat) % rs.length ∧ rs[l'.idx]? = some a ∧
      l'.rotH = if n > 0 then base + rotateTerm c l else l.rotH := by
  have hlen : ¬ rs.length = 0 := by omega
  have hm : (l.idx + n.toNat) % rs.length < rs.length := Nat.mod_lt _ (by omega)
  unfold rotateBy
  by_cases hn : n > 0
  · simp only [ht, hn, and_self, if_true, hlen, and_false, if_false, true_and]
    by_cases hle : rs.length ≤ l.idx + n.toNat
    · simp only [hle, if_true]
      refine ⟨{ l with rotH := base + rotateTerm c l, idx := (l.idx + n.toNat) % rs.length }, rs[(l.idx + n.toNat) % rs.length], ?_, rfl, ?_, rfl⟩
      · rw [List.getElem?_eq_getElem hm]; rfl
      · exact List.getElem?_eq_getElem hm
    · simp only [hle, if_false]
      have e : (l.idx + n.toNat) % rs.length = l.idx + n.toNat := Nat.mod_eq_of_lt (by omega)
      refine ⟨{ l with rotH := base + rotateTerm c l, idx := l.idx + n.toNat }, rs[l.idx + n.toNat]'(by omega), ?_, e.symm, ?_, rfl⟩
      · rw [List.getElem?_eq_getElem (by omega)]; rfl
      · exact List.getElem?_eq_getElem (show l.idx + n.toNat < rs.length by omega)
  · have h0 : n.toNat = 0 := by omega
    simp only [hn, and_false, false_and, if_false, h0, Nat.add_zero]
    refine ⟨_, rs[l.idx], ?_, (Nat.mod_eq_of_lt hi).symm, ?_, rfl⟩
    · rw [List.getElem?_eq_getElem hi]; rfl
    · exact List.getElem?_eq_getElem hi

variable (c)

/-- The index is in range. -/
def IdxOk (s : St) : Prop := ∀ k l, get s.links k = some l → l.idx < max 1 (s.relays k).length

theorem idxOk_step {q : Bool} {s s' : St} (e : Step q s s') (hN : Named s) (h : IdxOk s) : IdxOk s' := by
  cases e with
  | tx k l b hk =>
    intro k' l' h2
    simp only [get_put] at h2
    by_cases e : k = k'
    · rw [if_pos e] at h2; cases h2; subst e; exact h k l hk
    · rw [if_neg e] at h2; exact h k' l' h2
  | link k l l1 hk h1 h2 h3 h4 =>
    intro k' l' h5
    simp only [get_put] at h5
    by_cases e : k = k'
    · rw [if_pos e] at h5; cases h5; subst e
      have := h k l hk
      rcases h4 with h4 | h4
      · rw [h4]; exact this
      · show l1.idx < max 1 (s.relays k).length
        omega
    · rw [if_neg e] at h5; exact h k' l' h5
  | rx k l n hk =>
    intro k' l' h2
    simp only [get_put] at h2
    by_cases e : k = k'
    · rw [if_pos e] at h2; cases h2; subst e; exact h k l hk
    · rw [if_neg e] at h2; exact h k' l' h2
  | grant _ a p hg => obtain ⟨m, rfl⟩ := grant_eq hg; exact h
  | revoke _ a p hg => obtain ⟨m, rfl⟩ := revoke_eq hg; exact h
  | addLink link a ha hv hk =>
    intro k' l' h2
    simp only [get_put] at h2
    by_cases e : a.toStr = k'
    · rw [if_pos e] at h2; cases h2
      show 0 < max 1 (s.relays k').length
      omega
    · rw [if_neg e] at h2; exact h k' l' h2
  | delLink k hk =>
    intro k' l' h2
    obtain ⟨h3, h4⟩ := get_del_some _ _ _ _ hN.nodup h2
    have := h k' l' h4
    simp only [PyDb.upd]
    rw [if_neg (fun e => h3 e.symm)]; exact this
  | count k a r r1 hr =>
    intro k' l' h2
    have := h k' l' h2
    simp only [PyDb.upd]
    split
    · rename_i e; subst e; rw [put_length _ _ _ (by rw [hr]; rfl)]; exact this
    · exact this
  | addRelay k a hr =>
    intro k' l' h2
    have := h k' l' h2
    simp only [PyDb.upd]
    split
    · rename_i e; subst e
      have e2 := congrArg List.length (keys_put (s.relays k') a (⟨0, 0⟩ : Relay))
      rw [hr] at e2
      simp only [List.length_map, Option.isSome_none, Bool.false_eq_true, if_false, List.length_append, List.length_singleton] at e2
      omega
    · exact this
  | _ => exact h

theorem run_idxOk (ops : List Op) : IdxOk (run c ops) :=
  (run_inv (P := fun s => Named s ∧ IdxOk s) ⟨named_init, (by intro k l h; cases h)⟩
    (fun _ _ e h => ⟨named_step e h.1, idxOk_step e h.1 h.2⟩) ops).2

/-- C125: only a registered relay of the link can make a relay call that succeeds, and if relays take turns only the one whose turn it is. -/
theorem C125_only_relays (s s' : St) (x : Ctx) (prev : Str) (v : Verdict) (items : Items) (h : exec c (.relay x prev v items) s = some s') :
    ∃ a l, PyAddr.fromString prev = some a ∧ get s.links a.toStr = some l ∧ (get (s.relays a.toStr) x.origin).isSome = true ∧
    (rotateTerm c l > 0 → ∃ l1, rotate c ((s.relays a.toStr).map (·.1)) l x.height v.last (decide (0 < items.msgs.length)) = some (l1, some x.origin)) := by
  simp only [exec] at h
  split at h
  · cases h
  · rename_i key gen rx s1 h1
    obtain ⟨a, l, bmv, l1, t, r, ha, hk, hl, hg, hrx, hb, hv, hr, hw, hs1⟩ := openRelay_spec h1
    subst hk
    obtain ⟨w1, w2⟩ := whose_get hw
    refine ⟨a, l, ha, hl, by rw [w1]; rfl, ?_⟩
    intro ht
    rcases w2 with e | e
    · obtain ⟨_, _, _, _, h6⟩ := rotate_link hr
      subst e
      unfold rotate at hr
      rw [if_pos ht] at hr
      split at hr
      · obtain ⟨y, _, e⟩ := Option.map_eq_some_iff.1 hr; cases e
      · obtain ⟨y, _, e⟩ := Option.map_eq_some_iff.1 hr; cases e
    · subst e; exact ⟨l1, hr⟩

/-- C125: after every history, if relays of a link take turns and there is one, at every height it is the turn of one of them. -/
theorem C125_someone (ops : List Op) (k : Str) (l : Link) (hl : get (run c ops).links k = some l) (ht : rotateTerm c l > 0)
    (hr : (run c ops).relays k ≠ []) (cur msgH : Int) (hasMsg : Bool) :
    ∃ l1 a, rotate c (((run c ops).relays k).map (·.1)) l cur msgH hasMsg = some (l1, some a) ∧ (get ((run c ops).relays k) a).isSome = true := by
  have hi := run_idxOk c ops k l hl
  have hlen : 0 < ((run c ops).relays k).length := List.length_pos_iff.2 hr
  have hi : l.idx < (((run c ops).relays k).map (·.1)).length := by rw [List.length_map]; omega
  unfold rotate
  rw [if_pos ht]
  cases hasMsg with
  | true =>
    simp only [if_true]
    obtain ⟨l', a, h1, _, h3, _⟩ := rotateBy_turn (c := c) (((run c ops).relays k).map (·.1)) { l with rxH := cur, rxHS := msgH }
      (counts c l cur msgH).1 (counts c l cur msgH).2 hi ht
    rw [h1]
    exact ⟨l', a, rfl, (get_isSome_iff _ _).2 (List.mem_of_getElem? h3)⟩
  | false =>
    simp only [Bool.false_eq_true, if_false]
    obtain ⟨l', a, h1, _, h3, _⟩ := rotateBy_turn (c := c) (((run c ops).relays k).map (·.1)) l
      (ceilDiv (cur - l.rotH) (rotateTerm c l)) (l.rotH + (ceilDiv (cur - l.rotH) (rotateTerm c l) - 1) * rotateTerm c l) hi ht
    rw [h1]
    exact ⟨l', a, rfl, (get_isSome_iff _ _).2 (List.mem_of_getElem? h3)⟩

/-- C125: without messages the turn passes on once every `rotateTerm` blocks: `n` turns passed since the stored height, and the next
change is at most one term away. -/
theorem C125_turns (rs : List Nat) (l : Link) (cur msgH : Int) (hi : l.idx < rs.length) (ht : rotateTerm c l > 0) :
    ∃ l1 a n, rotate c rs l cur msgH false = some (l1, some a) ∧ rs[l1.idx]? = some a ∧ l1.idx = (l.idx + n) % rs.length ∧
      l1.rotH = l.rotH + n * rotateTerm c l ∧ cur ≤ l1.rotH ∧ (n ≠ 0 → l1.rotH < cur + rotateTerm c l) := by
  unfold rotate
  rw [if_pos ht]
  simp only [Bool.false_eq_true, if_false]
  obtain ⟨l', a, h1, h2, h3, h4⟩ := rotateBy_turn (c := c) rs l
      (ceilDiv (cur - l.rotH) (rotateTerm c l)) (l.rotH + (ceilDiv (cur - l.rotH) (rotateTerm c l) - 1) * rotateTerm c l) hi ht
  rw [h1]
  refine ⟨l', a, _, rfl, h3, h2, ?_⟩
  obtain ⟨k1, k2⟩ := ceilDiv_spec (cur - l.rotH) (rotateTerm c l) ht
  generalize ceilDiv (cur - l.rotH) (rotateTerm c l) = n at h4 k1 k2
  rw [Int.sub_mul, Int.one_mul] at k2 h4
  by_cases hn : n > 0
  · rw [if_pos hn] at h4
    have e : (n.toNat : Int) = n := Int.toNat_of_nonneg (by omega)
    rw [e]
    refine ⟨by omega, by omega, fun _ => by omega⟩
  · rw [if_neg hn] at h4
    have e : n.toNat = 0 := by omega
    rw [e]
    have : n * rotateTerm c l ≤ 0 := Int.mul_nonpos_of_nonpos_of_nonneg (by omega) (by omega)
    refine ⟨by rw [h4]; simp, by omega, fun h => absurd rfl h⟩

/-- C125: every relay gets its turn within as many terms as there are relays. -/
theorem C125_everyone (rs : List Nat) (l : Link) (msgH : Int) (hi : l.idx < rs.length) (ht : rotateTerm c l > 0) (a : Nat) (ha : a ∈ rs) :
    ∃ cur, l.rotH < cur ∧ cur ≤ l.rotH + rs.length * rotateTerm c l ∧ ∃ l1, rotate c rs l cur msgH false = some (l1, some a) := by
  obtain ⟨j, hj, hja⟩ := List.getElem_of_mem ha
  obtain ⟨k, hk0, hk1, hk2⟩ : ∃ k : Nat, 0 < k ∧ k ≤ rs.length ∧ (l.idx + k) % rs.length = j := by
    by_cases h : l.idx < j
    · exact ⟨j - l.idx, by omega, by omega, by rw [show l.idx + (j - l.idx) = j by omega]; exact Nat.mod_eq_of_lt hj⟩
    · refine ⟨rs.length + j - l.idx, by omega, by omega, ?_⟩
      rw [show l.idx + (rs.length + j - l.idx) = j + rs.length by omega, Nat.add_mod_right]; exact Nat.mod_eq_of_lt hj
  generalize hT : rotateTerm c l = T at ht
  have ht' : rotateTerm c l > 0 := by rw [hT]; exact ht
  have hkT : 0 < (k : Int) * T := Int.mul_pos (by omega) ht
  have hle : (k : Int) * T ≤ rs.length * T := Int.mul_le_mul_of_nonneg_right (by omega) (by omega)
  refine ⟨l.rotH + k * T, by omega, by omega, ?_⟩
  obtain ⟨l1, b, n, h1, h2, h3, h4, h5, h6⟩ := C125_turns c rs l (l.rotH + k * T) msgH hi ht'
  rw [hT] at h4 h6
  have e1 : (k : Int) ≤ n := by
    apply Int.not_lt.1; intro hlt
    have : (n : Int) * T < k * T := Int.mul_lt_mul_of_pos_right hlt ht
    omega
  have e2 : (n : Int) < k + 1 := by
    apply Int.not_le.1; intro hge
    have : ((k : Int) + 1) * T ≤ n * T := Int.mul_le_mul_of_nonneg_right hge (by omega)
    rw [Int.add_mul, Int.one_mul] at this
    have := h6 (by omega)
    omega
  have e : n = k := by omega
  rw [e, hk2] at h3
  rw [h3, List.getElem?_eq_getElem hj, hja] at h2
  cases h2
  exact ⟨l1, h1⟩

/-- C125 (false): a relay cannot be removed by anybody. -/
theorem C125_remove_fails (s : St) (x : Ctx) (link : Str) (a : Nat) : exec c (.removeRelay x link a) s = none := by simp only [exec]

/-- C125 (false that relays are chosen): whoever is not a relayer yet can make itself a relay of any link by two calls, whatever
permissions there are, if the link has no fixed terms. -/
theorem C125_anyone (s : St) (o : Nat) (h1 h2 : Int) (link d : Str) (t : PyAddr.Addr) (l : Link) (ht : PyAddr.fromStringValid link = some t)
    (hl : get s.links t.toStr = some l) (hterm : l.nextTerm ≤ 0) (hk : keyOk t.toStr = true) (hr : get s.relayers o = none)
    (ho : get (s.owned o) t.toStr = none) (hn : get (s.relays t.toStr) o = none) :
    ∃ s1 s2, exec c (.addRelayer ⟨o, o, h1⟩ o d) s = some s1 ∧ exec c (.addRelay ⟨o, o, h2⟩ link o) s1 = some s2 ∧
      get (s2.relays t.toStr) o = some ⟨0, 0⟩ ∧ s2.links = s.links := by
  refine ⟨{ s with relayers := put s.relayers o d }, { s with
      relayers := put s.relayers o d
      owned := PyDb.upd s.owned o (put (s.owned o) t.toStr o)
      relays := PyDb.upd s.relays t.toStr (put (s.relays t.toStr) o ⟨0, 0⟩) }, ?_, ?_, ?_, rfl⟩
  · simp only [exec, hr, Option.isSome_none, Bool.false_eq_true, if_false]
  · have : ¬ l.nextTerm > 0 := by omega
    simp only [exec, addRelay, get_put_same, Option.isSome_some, if_true, ht, ho, Option.isSome_none, hk, hl, hn, Bool.false_eq_true,
      Bool.true_eq_false, or_self, if_false, this]
  · simp only [PyDb.upd, if_true, get_put_same]

/-- C125: the relay is credited with the messages and with the blocks the verifier went on. -/
theorem C125_credited (x : Ctx) (s s1 : St) (prev : Str) (v : Verdict) (msgs : List Bytes) (key : Str) (gen rx : Nat)
    (h : openRelay c x s prev v msgs = some (key, gen, rx, s1)) :
    ∃ r, get (s.relays key) x.origin = some r ∧ get (s1.relays key) x.origin = some ⟨r.blocks + v.height - v.before, r.msgs + msgs.length⟩ := by
  obtain ⟨a, l, bmv, l1, t, r, ha, hk, hl, hg, hrx, hb, hv, hr, hw, hs1⟩ := openRelay_spec h
  refine ⟨r, (whose_get hw).1, ?_⟩
  subst hs1
  simp only [PyDb.upd, if_true, get_put_same]

/-! ### Examples -/
open Ex

/-- Turns of three relays with a term of 10 blocks. -/
def exLink : Link := { newLink 0 with dstI := 1000, rotH := 100, idx := 1 }
example : rotateTerm cfg exLink = 10 := by decide +kernel
example : (rotate cfg [1, 2, 3] exLink 105 0 false).map (fun y => (y.1.idx, y.1.rotH, y.2)) = some (2, 110, some 3) := by decide +kernel
example : (rotate cfg [1, 2, 3] exLink 111 0 false).map (fun y => (y.1.idx, y.1.rotH, y.2)) = some (0, 120, some 1) := by decide +kernel
example : (rotate cfg [1, 2, 3] exLink 99 0 false).map (fun y => (y.1.idx, y.1.rotH, y.2)) = some (1, 100, some 2) := by decide +kernel

/-- C124 (false: fails if the network is already registered): two links to one network. -/
theorem C124_two_links : ((run cfg (setup ++ [.addLink (x 9 3) "btp://b/z".toList])).links.map (·.1)) = [kb, "btp://b/z".toList] := by decide +kernel

/-- C124 (false): a route can lead over a link that does not exist. -/
theorem C124_route_without_link : ∃ s, exec cfg (.addRoute (x 9 3) "c".toList "btp://c/z".toList) (run cfg setup) = some s ∧
    get s.routes "c".toList = some "btp://c/z".toList ∧ get s.links "btp://c/z".toList = none ∧ resolve s "c".toList = .other :=
  ⟨_, rfl, by decide +kernel⟩

/-- A service is removed; its contract cannot be registered again. -/
example : (get (run cfg (setup ++ [.removeService (x 9 3) "srv".toList])).perms 5) = some [] ∧
    (get (run cfg (setup ++ [.removeService (x 9 3) "srv".toList, .addService (x 9 3) "srv".toList 5])).services "srv".toList) = none := by decide +kernel
/-- Two relays; the link is removed and added again; the second is still a relay. -/
example : ((run cfg (setup ++ [.addRelayer (x 2 2) 2 [], .addRelay (x 2 2) kb 2, .removeLink (x 9 3) kb, .addLink (x 9 3) kb])).relays kb).map (·.1) = [2] := by
  decide +kernel
example : (exec cfg (.removeVerifier (x 9 3) "b".toList) (run cfg setup)).isSome = false ∧
    (exec cfg (.removeVerifier (x 9 3) "b".toList) (run cfg (setup ++ [.removeLink (x 9 3) kb]))).isSome = true := by decide +kernel
/-- With access control on, after the grant. -/
example : (exec cfg (.addRoute (x 3 3) "c".toList kb) (run cfg (setup ++ [.addPermission (x 9 3) 3 "addRoute".toList, .setAccess (x 0 3) true]))).isSome = true ∧
    (exec cfg (.addRoute (x 4 3) "c".toList kb) (run cfg (setup ++ [.addPermission (x 9 3) 3 "addRoute".toList, .setAccess (x 0 3) true]))).isSome = false := by
  decide +kernel

end Verif.PyBmc
