import Verif.JavaBmc
import Verif.SolBmcLemmas
/-!
Helper lemmas for the ICON BMC: dictionaries, and the relation `Tr` of the elementary changes every call is made of.
-/
namespace Verif.JavaBmc
open Verif
open Verif.SolBmc (FM upd FeeInfo)

namespace Dict
variable {V : Type}

theorem get_put (l : List (String × V)) (k k' : String) (v : V) : get (put l k v) k' = if k = k' then some v else get l k' := by
  induction l with
  | nil => simp [put, get]
  | cons p t ih =>
    obtain ⟨a, b⟩ := p
    simp only [put]
    by_cases h : a = k
    · rw [if_pos h]
      subst h
      simp only [get]
      split <;> rfl
    · rw [if_neg h]
      simp only [get, ih]
      by_cases h2 : a = k'
      · subst h2
        rw [if_pos rfl, if_neg (fun e => h e.symm), if_pos rfl]
      · simp [h2]

theorem put_back (l : List (String × V)) (k : String) (v v' : V) (h : get l k = some v) : put (put l k v') k v = l := by
  induction l with
  | nil => simp [get] at h
  | cons p t ih =>
    obtain ⟨a, b⟩ := p
    simp only [get] at h
    simp only [put]
    by_cases e : a = k
    · subst e
      rw [if_pos rfl] at h
      cases h
      rw [if_pos rfl]
      simp [put]
    · rw [if_neg e] at h ⊢
      simp only [put, if_neg e, ih h]

theorem get_mem {l : List (String × V)} {k : String} {v : V} (h : get l k = some v) : (k, v) ∈ l := by
  induction l with
  | nil => simp [get] at h
  | cons p t ih =>
    obtain ⟨a, b⟩ := p
    simp only [get] at h
    split at h
    · cases h; rename_i e; subst e; exact List.mem_cons_self
    · exact List.mem_cons_of_mem _ (ih h)

theorem get_none {l : List (String × V)} {k : String} : get l k = none ↔ k ∉ l.map (·.1) := by
  induction l with
  | nil => simp [get]
  | cons p t ih =>
    obtain ⟨a, b⟩ := p
    simp only [get, List.map_cons, List.mem_cons, not_or]
    split
    · rename_i e
      exact ⟨fun h => by simp at h, fun h => absurd e.symm h.1⟩
    · rename_i e
      rw [ih]
      exact ⟨fun h => ⟨fun x => e x.symm, h⟩, fun h => h.2⟩

theorem get_of_mem {l : List (String × V)} (hn : (l.map (·.1)).Nodup) {k : String} {v : V} (h : (k, v) ∈ l) : get l k = some v := by
  induction l with
  | nil => simp at h
  | cons p t ih =>
    obtain ⟨a, b⟩ := p
    simp only [List.map_cons, List.nodup_cons] at hn
    rcases List.mem_cons.mp h with e | h2
    · cases e; simp [get]
    · have : a ≠ k := by
        intro e
        subst e
        exact hn.1 (List.mem_map.mpr ⟨_, h2, rfl⟩)
      simp only [get, if_neg this]
      exact ih hn.2 h2

theorem keys_put (l : List (String × V)) (k : String) (v : V) :
    (put l k v).map (·.1) = if k ∈ l.map (·.1) then l.map (·.1) else l.map (·.1) ++ [k] := by
  induction l with
  | nil => simp [put]
  | cons p t ih =>
    obtain ⟨a, b⟩ := p
    simp only [put]
    by_cases h : a = k
    · simp [h]
    · rw [if_neg h, List.map_cons, ih]
      have h2 : (k = a) = False := by simp; exact fun e => h e.symm
      simp only [List.map_cons, List.mem_cons, h2, false_or]
      split <;> simp

theorem nodup_put {l : List (String × V)} (k : String) (v : V) (hn : (l.map (·.1)).Nodup) : ((put l k v).map (·.1)).Nodup := by
  rw [keys_put]
  split
  · exact hn
  · rename_i h
    rw [List.nodup_append]
    refine ⟨hn, by simp, ?_⟩
    intro a ha b hb e
    simp only [List.mem_cons, List.not_mem_nil, or_false] at hb
    subst hb; subst e
    exact h ha

theorem mem_put {l : List (String × V)} {k : String} {v : V} {x : String × V} (h : x ∈ put l k v) : x = (k, v) ∨ x ∈ l := by
  induction l with
  | nil => simp only [put, List.mem_cons, List.not_mem_nil, or_false] at h; exact .inl h
  | cons p t ih =>
    obtain ⟨a, b⟩ := p
    simp only [put] at h
    split at h
    · rcases List.mem_cons.mp h with e | h2
      · exact .inl e
      · exact .inr (List.mem_cons_of_mem _ h2)
    · rcases List.mem_cons.mp h with e | h2
      · exact .inr (e ▸ List.mem_cons_self)
      · rcases ih h2 with e | h3
        · exact .inl e
        · exact .inr (List.mem_cons_of_mem _ h3)

theorem last_perm {α : Type} {t : List α} {x : α} (h : t.getLast? = some x) : (x :: t.dropLast).Perm t := by
  obtain ⟨ys, rfl⟩ := List.getLast?_eq_some_iff.mp h
  rw [List.dropLast_concat]
  exact (List.perm_append_comm (l₁ := [x]) (l₂ := ys))

theorem del_perm (l : List (String × V)) (k : String) (v : V) (h : get l k = some v) : ((k, v) :: del l k).Perm l := by
  induction l with
  | nil => simp [get] at h
  | cons p t ih =>
    obtain ⟨a, b⟩ := p
    simp only [get] at h
    simp only [del]
    by_cases e : a = k
    · subst e
      rw [if_pos rfl] at h ⊢
      cases h
      apply List.Perm.cons
      cases ht : t.getLast? with
      | none => rw [List.getLast?_eq_none_iff] at ht; subst ht; exact List.Perm.refl _
      | some x => exact last_perm ht
    · rw [if_neg e] at h ⊢
      exact (List.Perm.swap _ _ _).trans ((ih h).cons _)

theorem nodup_del {l : List (String × V)} {k : String} {v : V} (hn : (l.map (·.1)).Nodup) (h : get l k = some v) :
    ((del l k).map (·.1)).Nodup ∧ k ∉ (del l k).map (·.1) := by
  have := ((del_perm l k v h).map (·.1)).nodup_iff.mpr hn
  simp only [List.map_cons, List.nodup_cons] at this
  exact ⟨this.2, this.1⟩

theorem get_del {l : List (String × V)} {k : String} {v : V} (hn : (l.map (·.1)).Nodup) (h : get l k = some v) (k' : String) :
    get (del l k) k' = if k = k' then none else get l k' := by
  have hp := del_perm l k v h
  have hd := nodup_del hn h
  split
  · rename_i e; subst e; exact get_none.mpr hd.2
  · rename_i e
    cases hg : get l k' with
    | none =>
      rw [get_none] at hg ⊢
      intro hm
      apply hg
      have := (hp.map (·.1)).mem_iff (a := k')
      exact this.mp (List.mem_cons_of_mem _ hm)
    | some w =>
      apply get_of_mem hd.1
      have := hp.mem_iff.mpr (get_mem hg)
      rcases List.mem_cons.mp this with e2 | h2
      · simp only [Prod.mk.injEq] at e2; exact absurd e2.1.symm e
      · exact h2

theorem mem_del {l : List (String × V)} {k : String} {v : V} {x : String × V} (h : get l k = some v) (hx : x ∈ del l k) : x ∈ l :=
  (del_perm l k v h).mem_iff.mp (List.mem_cons_of_mem _ hx)
end Dict

variable (c : Cfg)

theorem getLinkA_some {s : St} {a : String} {l : Link} (h : getLinkA c s a = some l) :
    ∃ net, c.netOf a = some net ∧ Dict.get s.links net = some l ∧ l.addr = a := by
  unfold getLinkA at h
  split at h
  · cases h
  · rename_i net hn
    split at h
    · cases h
    · rename_i l' hl
      split at h
      · cases h; exact ⟨net, hn, hl, by assumption⟩
      · cases h

/-- Numbered entries of the messages of one relay call. -/
def entries (gen : Nat) : Nat → List (Option Msg) → List (Nat × Nat × Option Msg)
  | _, [] => []
  | n, m :: t => (gen, n, m) :: entries gen (n + 1) t

/-- The elementary changes. `P` holds the entries that were taken but not handled yet, by all relay calls in progress; `strict`
    allows no relay call inside another. -/
inductive Tr (strict : Bool) : List (Nat × Nat × Option Msg) → St → List (Nat × Nat × Option Msg) → St → Prop where
  | refl (P s) : Tr strict P s P s
  | trans {P s P1 s1 P2 s2} : Tr strict P s P1 s1 → Tr strict P1 s1 P2 s2 → Tr strict P s P2 s2
  | money (P s resp reward inflow settled paid lost twice coins credited doubled) : Tr strict P s P { s with
      resp := resp, reward := reward, inflow := inflow, settled := settled, paid := paid, lost := lost, twice := twice,
      coins := coins, credited := credited, doubled := doubled }
  | bump (P s) : Tr strict P s P { s with nsn := s.nsn + 1 }
  | sent (P s next l m) : getLinkA c s next = some l → s.netIds next = none →
      Tr strict P s P { putLink c s { l with tx := l.tx + 1 } with log := s.log ++ [.message next (l.tx + 1) m] }
  | chain (P s id next l m) : getLinkA c s next = some l → s.netIds next = some id →
      Tr strict P s P { putLink c s { l with tx := l.tx + 1 } with log := s.log ++ [.chain id next (l.tx + 1) m] }
  | dropped (P s prev seq m) : Tr strict P s P { s with log := s.log ++ [.dropped prev seq m] }
  | reach (P s net l r) : Dict.get s.links net = some l → Tr strict P s P (putLink c s { l with reach := r })
  | settle (P s nsn r result) : s.req.get none nsn = some r →
      Tr strict P s P { s with req := s.req.set nsn none, settle := s.settle ++ [(nsn, result)] }
  | request (P s s1 r) : Tr strict P s P s1 → s1.req = s.req → s1.nsn = s.nsn + 1 → s1.settle = s.settle →
      Tr strict P s P { s1 with req := s1.req.set s1.nsn (some r) }
  | cfg (P s own verifiers services fees feeHandler relays) : Tr strict P s P { s with
      own := own, verifiers := verifiers, services := services, fees := fees, feeHandler := feeHandler, relays := relays }
  | addRoute (P s dst net l) : Dict.get s.links net = some l → Tr strict P s P { s with routes := Dict.put s.routes dst net }
  | delRoute (P s dst net) : Dict.get s.routes dst = some net → Tr strict P s P { s with routes := Dict.del s.routes dst }
  | addLink (P s net link) : c.netOf link = some net → Dict.get s.links net = none →
      Tr strict P s P { s with links := Dict.put s.links net ⟨link, 0, 0, [], s.names.length⟩
                               names := s.names ++ [link], log := s.log ++ [.start link] }
  | delLink (P s net l) : Dict.get s.links net = some l → s.routes.any (fun p => p.2 = net) = false → s.netIds l.addr = none →
      Tr strict P s P { s with links := Dict.del s.links net }
  | delBtp (P s net l id) : Dict.get s.links net = some l → s.routes.any (fun p => p.2 = net) = false → s.netIds l.addr = some id →
      Tr strict P s P { s with links := Dict.del s.links net, netIds := upd s.netIds l.addr none, offsets := upd s.offsets id none }
  | bind (P s link net id) : c.netOf link = some net → 1 ≤ id → s.offsets id = none →
      (∀ l, Dict.get s.links net = some l → l.addr = link) →
      Tr strict P s P { s with netIds := upd s.netIds link (some id)
                               offsets := upd s.offsets id (some (((Dict.get s.links net).map (·.tx)).getD 0))
                               log := s.log ++ [.bind id link] }
  | take (P s net l) (ms : List (Option Msg)) : (strict = true → P = []) → Dict.get s.links net = some l →
      (∀ (i : Nat) (m : Msg), ms[i]? = some (some m) → ∃ (v : Nat) (msgs : List Msg), c.verify v l.addr l.rx msgs = true ∧ msgs[i]? = some m) →
      Tr strict P s (entries l.gen (l.rx + 1) ms ++ P)
        { putLink c s { l with rx := l.rx + ms.length } with taken := upd s.taken l.gen (l.rx + ms.length) }
  | disp (P s g n m) : Tr strict ((g, n, m) :: P) s P { s with disp := s.disp ++ [(g, n, m)] }

namespace Tr
variable {c} {b : Bool} {P : List (Nat × Nat × Option Msg)}

theorem addIn (s : St) (n : String) (v : Nat) : Tr c b P s P (addIn s n v) := .money P s _ _ _ _ _ _ _ _ _ _
theorem addLost (s : St) (n : String) (v : Nat) : Tr c b P s P (addLost s n v) := .money P s _ _ _ _ _ _ _ _ _ _
theorem addTwice (s : St) (n : String) (v : Nat) : Tr c b P s P (addTwice s n v) := .money P s _ _ _ _ _ _ _ _ _ _
theorem inFee (s : St) (f : Option FeeInfo) : Tr c b P s P (inFee s f) := by
  cases f with
  | none => exact .refl P s
  | some f => exact addIn s _ _
theorem lostFee (s : St) (f : Option FeeInfo) : Tr c b P s P (lostFee s f) := by
  cases f with
  | none => exact .refl P s
  | some f => exact addLost s _ _
theorem twiceFee (s : St) (f : Option FeeInfo) : Tr c b P s P (twiceFee s f) := by
  cases f with
  | none => exact .refl P s
  | some f => exact addTwice s _ _
theorem addReward (s : St) (a : Nat) (n : String) (v : Nat) : Tr c b P s P (addReward s a n v) := by
  unfold JavaBmc.addReward
  split
  · exact .money P s _ _ _ _ _ _ _ _ _ _
  · exact .refl P s
theorem collect (s : St) (f : Option FeeInfo) : Tr c b P s P (collect c s f) := by
  cases f with
  | none => exact .refl P s
  | some f => exact addReward s _ _ _
theorem accumulate (s : St) (a : Nat) (f : Option FeeInfo) : Tr c b P s P (accumulate s a f).1 := by
  cases f with
  | none => exact .refl P s
  | some f =>
    simp only [JavaBmc.accumulate]
    split
    · exact .refl P s
    · exact addReward s _ _ _

theorem putLink_back {s : St} {next : String} {l : Link} (h : getLinkA c s next = some l) (l' : Link) (ha : l'.addr = l.addr) :
    putLink c (putLink c s l') l = s := by
  obtain ⟨net, hn, hl, hla⟩ := getLinkA_some c h
  unfold putLink
  rw [ha, hla, hn]
  simp only [Dict.put_back _ _ _ _ hl]

/-- A message is numbered and goes out, or nothing changes. -/
theorem sendMsg {env : Env} {s : St} {next : String} {m : Msg} :
    (JavaBmc.sendMsg c env s next m).1 ≠ none ∧ (JavaBmc.sendMsg c env s next m).2 = s ∨
    (JavaBmc.sendMsg c env s next m).1 = none ∧ ∃ l, getLinkA c s next = some l ∧
      ((s.netIds next = none ∧ (JavaBmc.sendMsg c env s next m).2 =
        { putLink c s { l with tx := l.tx + 1 } with log := s.log ++ [.message next (l.tx + 1) m] }) ∨
      ∃ id, s.netIds next = some id ∧ env.chainOk id m = true ∧ (JavaBmc.sendMsg c env s next m).2 =
        { putLink c s { l with tx := l.tx + 1 } with log := s.log ++ [.chain id next (l.tx + 1) m] }) := by
  unfold JavaBmc.sendMsg
  have hlog : ∀ l, (putLink c s l).log = s.log := by intro l; unfold putLink; split <;> rfl
  split
  · exact .inl ⟨by simp, rfl⟩
  · rename_i l h
    split
    · rename_i hid
      refine .inr ⟨rfl, l, h, .inl ⟨hid, ?_⟩⟩
      simp only [hlog]
    · rename_i id hid
      split
      · rename_i hok
        refine .inr ⟨rfl, l, h, .inr ⟨id, hid, hok, ?_⟩⟩
        simp only [hlog]
      · exact .inl ⟨by simp, putLink_back h _ rfl⟩

theorem sendMsg_tr (env : Env) (s : St) (next : String) (m : Msg) : Tr c b P s P (JavaBmc.sendMsg c env s next m).2 := by
  rcases sendMsg (c := c) (env := env) (s := s) (next := next) (m := m) with ⟨_, e⟩ | ⟨_, l, hl, ⟨hid, e⟩ | ⟨id, hid, _, e⟩⟩
  · rw [e]; exact .refl P s
  · rw [e]; exact .sent P s next l m hl hid
  · rw [e]; exact .chain P s id next l m hl hid

/-- Result and state of `sendMsg` in one equation. -/
theorem sendMsg_tr' {env : Env} {s s' : St} {next : String} {m : Msg} {r} (h : JavaBmc.sendMsg c env s next m = (r, s')) :
    Tr c b P s P s' := by
  have := sendMsg_tr (c := c) (b := b) (P := P) env s next m
  rw [h] at this
  exact this

theorem sendMsg_fields {env : Env} {s s' : St} {next : String} {m : Msg} {r} (h : JavaBmc.sendMsg c env s next m = (r, s')) :
    s'.req = s.req ∧ s'.nsn = s.nsn ∧ s'.settle = s.settle := by
  have hp : ∀ l, (putLink c s l).req = s.req ∧ (putLink c s l).nsn = s.nsn ∧ (putLink c s l).settle = s.settle := by
    intro l; unfold putLink; split <;> exact ⟨rfl, rfl, rfl⟩
  rcases sendMsg (c := c) (env := env) (s := s) (next := next) (m := m) with ⟨_, e⟩ | ⟨_, l, hl, ⟨hid, e⟩ | ⟨id, hid, _, e⟩⟩
  all_goals rw [h] at e; simp only at e; subst e
  · exact ⟨rfl, rfl, rfl⟩
  · exact hp _
  · exact hp _

theorem addReward_fields (s : St) (a : Nat) (n : String) (v : Nat) :
    (JavaBmc.addReward s a n v).req = s.req ∧ (JavaBmc.addReward s a n v).nsn = s.nsn ∧ (JavaBmc.addReward s a n v).settle = s.settle := by
  unfold JavaBmc.addReward; split <;> exact ⟨rfl, rfl, rfl⟩

theorem sendReply {env : Env} {s s' : St} {next : String} {value : Nat} {to svc : String} {sn : Int} {body : Bytes} {r}
    (h : JavaBmc.sendReply c env s next value to svc sn body = (r, s')) : Tr c b P s P s' := by
  unfold JavaBmc.sendReply at h
  split at h
  · cases h; exact .refl P s
  · rename_i rr hr
    have t1 : Tr c b P s P (JavaBmc.addReward (JavaBmc.addIn { s with resp := s.resp.set (to, svc, sn) none, coins := s.coins + value } c.net value) c.addr c.net value) :=
      (Tr.money P s _ _ _ _ _ _ _ _ _ _).trans ((addIn _ _ _).trans (addReward _ _ _ _))
    simp only at h
    split at h
    · rename_i h3; cases h; exact (t1.trans (sendMsg_tr' h3)).trans (lostFee _ _)
    · rename_i h3; cases h; exact t1.trans (sendMsg_tr' h3)

theorem sendRequest {env : Env} {s s' : St} {next : String} {value : Nat} {to svc : String} {sn : Int} {body : Bytes} {r}
    (h : JavaBmc.sendRequest c env s next value to svc sn body = (r, s')) : Tr c b P s P s' := by
  unfold JavaBmc.sendRequest at h
  simp only at h
  split at h
  · cases h; exact .bump P s
  · have t1 : ∀ x, Tr c b P s P (JavaBmc.addReward (JavaBmc.addIn { s with nsn := s.nsn + 1, coins := s.coins + value } c.net value) c.addr c.net x) :=
      fun x => ((Tr.bump P s).trans (.money P _ _ _ _ _ _ _ _ _ _ _)).trans ((addIn _ _ _).trans (addReward _ _ _ _))
    split at h
    · rename_i h3; cases h; exact ((t1 _).trans (sendMsg_tr' h3)).trans (lostFee _ _)
    · rename_i h3; cases h; exact (t1 _).trans (sendMsg_tr' h3)

theorem sendWithFee {env : Env} {s s' : St} {value : Nat} {to svc : String} {sn : Int} {body : Bytes} {isR fill : Bool} {r}
    (h : JavaBmc.sendWithFee c env s value to svc sn body isR fill = (r, s')) : Tr c b P s P s' := by
  unfold JavaBmc.sendWithFee at h
  split at h
  · cases h; exact .refl P s
  · cases isR with
    | true => exact sendReply h
    | false => exact sendRequest h

/-- A request message gets the next network number; requests are not touched. -/
theorem sendRequest_fields {env : Env} {s s' : St} {next : String} {value : Nat} {to svc : String} {sn : Int} {body : Bytes} {n : Int}
    (h : JavaBmc.sendRequest c env s next value to svc sn body = (.ok n, s')) :
    n = s.nsn + 1 ∧ s'.req = s.req ∧ s'.nsn = s.nsn + 1 ∧ s'.settle = s.settle := by
  unfold JavaBmc.sendRequest at h
  simp only at h
  split at h
  · cases h
  · split at h
    · cases h
    · rename_i h3
      cases h
      obtain ⟨a1, a2, a3⟩ := sendMsg_fields h3
      obtain ⟨b1, b2, b3⟩ := addReward_fields (JavaBmc.addIn { s with nsn := s.nsn + 1, coins := s.coins + value } c.net value) c.addr c.net
        (value - (feeList { s with nsn := s.nsn + 1 } to (decide (sn > 0))).sum)
      exact ⟨rfl, a1.trans b1, a2.trans b2, a3.trans b3⟩

theorem sendWithFee_fields {env : Env} {s s' : St} {value : Nat} {to svc : String} {sn : Int} {body : Bytes} {fill : Bool} {n : Int}
    (h : JavaBmc.sendWithFee c env s value to svc sn body false fill = (.ok n, s')) :
    n = s.nsn + 1 ∧ s'.req = s.req ∧ s'.nsn = s.nsn + 1 ∧ s'.settle = s.settle := by
  unfold JavaBmc.sendWithFee at h
  split at h
  · cases h
  · exact sendRequest_fields h

theorem sendMessage {env : Env} {s s' : St} {caller value : Nat} {to svc : String} {sn : Int} {body : Bytes}
    (h : JavaBmc.sendMessage c env s caller value to svc sn body = some s') : Tr c b P s P s' := by
  unfold JavaBmc.sendMessage at h
  split at h
  · cases h
  · split at h
    · cases h
    · split at h
      · cases h
      · rename_i h3; cases h; exact sendWithFee h3

theorem sendError {env : Env} {s s' : St} {prev : String} {m : Msg} {e : Ex} {r} (h : JavaBmc.sendError c env s prev m e = (r, s')) :
    Tr c b P s P s' := sendMsg_tr' h

theorem sendInternal {env : Env} {s s' : St} {next to : String} {body : Bytes} {r} (h : JavaBmc.sendInternal c env s next to body = (r, s')) :
    Tr c b P s P s' := (Tr.bump P s).trans (sendMsg_tr' h)

theorem propagate {env : Env} {body : Bytes} : ∀ (l : List (String × Link)) {s s' : St}, JavaBmc.propagate c env body l s = some s' →
    Tr c b P s P s'
  | [], s, s', h => by simp only [JavaBmc.propagate, Option.some.injEq] at h; subst h; exact .refl P s
  | (k, l) :: t, s, s', h => by
    simp only [JavaBmc.propagate] at h
    split at h
    · cases h
    · rename_i s1 h1
      exact (sendInternal h1).trans (propagate t h)

theorem handleResponse {s s' : St} {nsn : Int} {result : Nat} {r} (h : JavaBmc.handleResponse s nsn result = (r, s')) :
    Tr c b P s P s' := by
  unfold JavaBmc.handleResponse at h
  split at h
  · cases h; exact .refl P s
  · rename_i rr hr
    simp only [Prod.mk.injEq] at h
    obtain ⟨_, rfl⟩ := h
    have t := Tr.settle (c := c) (strict := b) P s nsn rr result hr
    refine t.trans ?_
    split
    · unfold JavaBmc.addReward
      split
      · exact .money P _ _ _ _ _ _ _ _ _ _ _
      · exact .refl P _
    · exact .money P _ _ _ _ _ _ _ _ _ _ _

theorem addReach {s s' : St} {net : String} {rs : List String} {r} (h : JavaBmc.addReach c s net rs = (r, s')) : Tr c b P s P s' := by
  unfold JavaBmc.addReach at h
  split at h
  · cases h; exact .refl P s
  · rename_i l hl; cases h; exact .reach P s net l _ hl

theorem removeReach {s s' : St} {net a : String} {r} (h : JavaBmc.removeReach c s net a = (r, s')) : Tr c b P s P s' := by
  unfold JavaBmc.removeReach at h
  split at h
  · cases h; exact .refl P s
  · rename_i l hl; cases h; exact .reach P s net l _ hl

theorem internalHandle {env : Env} {s s' : St} {src : String} {nsn : Int} {body : Bytes} {r}
    (h : JavaBmc.internalHandle c env s src nsn body = (r, s')) : Tr c b P s P s' := by
  unfold JavaBmc.internalHandle at h
  split at h
  · cases h; exact .refl P s
  · split at h
    · cases h; exact .refl P s
    · simp only at h
      split at h
      · rename_i h3; cases h; exact (((addIn _ _ _).trans (addReward _ _ _ _)).trans (sendWithFee h3)).trans (.money P _ _ _ _ _ _ _ _ _ _ _)
      · rename_i h3; cases h; exact (((addIn _ _ _).trans (addReward _ _ _ _)).trans (sendWithFee h3)).trans (.money P _ _ _ _ _ _ _ _ _ _ _)
  · exact handleResponse h
  · exact addReach h
  · exact removeReach h
  · exact addReach h

theorem storeFee (s : St) (m : Msg) : Tr c b P s P (storeFee c s m) := by
  unfold JavaBmc.storeFee
  split
  · exact .refl P s
  · split
    · exact (collect _ _).trans (.money P _ _ _ _ _ _ _ _ _ _ _)
    · exact collect _ _

theorem unstoreFee (s : St) (m : Msg) : Tr c b P s P (unstoreFee s m) := by
  unfold JavaBmc.unstoreFee
  split
  · exact .refl P s
  · split
    · simp only
      split
      · exact .money P _ _ _ _ _ _ _ _ _ _ _
      · exact ((Tr.money P s _ _ _ _ _ _ _ _ _ _).trans (lostFee _ _)).trans (twiceFee _ _)
    · exact .refl P s

theorem handleMessage {env : Env} {out : Out} {call : St → St} {s s' : St} {m : Msg} {r} (hc : ∀ x, Tr c b P x P (call x))
    (h : JavaBmc.handleMessage c env out call s m = (r, s')) : Tr c b P s P s' := by
  unfold JavaBmc.handleMessage at h
  split at h
  · refine (storeFee s m).trans ?_
    generalize JavaBmc.storeFee c s m = s1 at h
    have key : ∀ (q : Option Ex × St), Tr c b P s1 P q.2 → (match q with
        | (none, s2) => (none, s2)
        | (some e, s2) => (some e, JavaBmc.unstoreFee s2 m)) = (r, s') → Tr c b P s1 P s' := by
      intro q hq hh
      obtain ⟨q1, q2⟩ := q
      cases q1 with
      | none => simp only [Prod.mk.injEq] at hh; rw [← hh.2]; exact hq
      | some e => simp only [Prod.mk.injEq] at hh; rw [← hh.2]; exact Tr.trans hq (unstoreFee _ _)
    refine key _ ?_ h
    split
    · exact internalHandle (r := (JavaBmc.internalHandle c env s1 m.src m.nsn m.body).1) rfl
    · split
      · exact .refl P _
      · split
        · exact hc _
        · exact .refl P _
  · refine (collect s m.fee).trans ?_
    generalize JavaBmc.collect c s m.fee = s1 at h
    simp only at h
    split at h
    · cases h; exact .refl P _
    · split at h
      · exact handleResponse h
      · split at h
        · cases h; exact .refl P _
        · split at h
          · cases h; exact hc _
          · cases h; exact .refl P _

theorem deliver {env : Env} {out : Out} {call : St → St} {s s' : St} {m : Msg} {r} (hc : ∀ x, Tr c b P x P (call x))
    (h : JavaBmc.deliver c env out call s m = (r, s')) : Tr c b P s P s' := by
  unfold JavaBmc.deliver at h
  split at h
  · exact handleMessage hc h
  · split at h
    · cases h; exact .refl P _
    · exact sendMsg_tr' h

theorem failed (env : Env) (prev : String) (seq : Nat) (s : St) (m : Msg) (e : Ex) : Tr c b P s P (failed c env prev seq s m e) := by
  unfold JavaBmc.failed
  split
  · split
    · rename_i h; exact sendError h
    · rename_i h; exact ((sendError h).trans (collect _ _)).trans (.dropped P _ _ _ _)
  · simp only
    refine Tr.trans ?_ (.dropped P _ _ _ _)
    split
    · exact (collect _ _).trans (twiceFee _ _)
    · exact collect _ _

theorem item (env : Env) (out : Out) (call : St → St) (caller : Nat) (prev : String) (gen seq : Nat) (s : St) (m : Msg)
    (hc : ∀ x, Tr c b P x P (call x)) : Tr c b ((gen, seq, some m) :: P) s P (item c env out call caller prev gen seq s m) := by
  unfold JavaBmc.item
  simp only
  refine Tr.trans (inFee s m.fee) ?_
  refine Tr.trans (.disp P _ gen seq (some m)) ?_
  refine Tr.trans (accumulate _ caller m.fee) ?_
  split
  · rename_i h; exact deliver hc h
  · rename_i h; exact Tr.trans (deliver hc h) (failed _ _ _ _ _ _)

theorem openRelay {s s1 : St} {caller : Nat} {prev : String} {msgs : List Msg} {l : Link}
    (h : JavaBmc.openRelay c s caller prev msgs = some (l, s1)) (hs : b = true → P = []) :
    Tr c b P s (entries l.gen (l.rx + 1) (msgs.map some) ++ P) s1 := by
  unfold JavaBmc.openRelay at h
  split at h
  · cases h
  · rename_i l' hl
    split at h
    · cases h
    · rename_i v hv
      split at h
      · rename_i hok
        simp only [Option.some.injEq, Prod.mk.injEq] at h
        obtain ⟨rfl, rfl⟩ := h
        obtain ⟨net, hn, hg, ha⟩ := getLinkA_some c hl
        have ht : ∀ x, (putLink c s x).taken = s.taken := by intro x; unfold putLink; split <;> rfl
        have := Tr.take (c := c) (strict := b) P s net l' (msgs.map some) hs hg
          (fun i m hi => ⟨v, msgs, by rw [ha]; exact hok.1, by
            rw [List.getElem?_map] at hi
            cases hq : msgs[i]? with
            | none => rw [hq] at hi; cases hi
            | some y => rw [hq] at hi; simpa using hi⟩)
        simp only [List.length_map] at this
        simp only [ht]
        exact this
      · cases h

theorem claimReward {env : Env} {call : St → St} {s s' : St} {sender value : Nat} {net receiver : String} (hc : ∀ x, Tr c b P x P (call x))
    (h : JavaBmc.claimReward c env call s sender value net receiver = some s') : Tr c b P s P s' := by
  unfold JavaBmc.claimReward at h
  simp only at h
  split at h
  · cases h
  · split at h
    · split at h
      · cases h
      · split at h
        · cases h
          refine Tr.trans ?_ (hc _)
          exact .money P s _ _ _ _ _ _ _ _ _ _
        · cases h
    · split at h
      · cases h
      · rename_i nsn s2 h2
        cases h
        obtain ⟨h3, h4, h5, h6⟩ := sendWithFee_fields h2
        have := Tr.request (c := c) (strict := b) P s s2 ⟨net, claimer c s sender,
          s.reward.get 0 (claimer c s sender, net)⟩
          ((Tr.money P s _ _ _ _ _ _ _ _ _ _).trans (sendWithFee h2)) h4 h5 h6
        have e : nsn = s2.nsn := by rw [h3, h5]
        rw [e]
        exact this

theorem putLink_fields (s : St) (l : Link) : (putLink c s l).taken = s.taken ∧ (putLink c s l).disp = s.disp := by
  unfold putLink; split <;> exact ⟨rfl, rfl⟩

theorem dropMessage {env : Env} {s s' : St} {caller : Nat} {src : String} {seq : Nat} {svc : String} {sn nsn : Int} {fn : String} {fv : List Nat}
    (h : JavaBmc.dropMessage c env s caller src seq svc sn nsn fn fv = some s') (hs : b = true → P = []) : Tr c b P s P s' := by
  unfold JavaBmc.dropMessage at h
  split at h
  · cases h
  · split at h
    · cases h
    · rename_i prev hp
      split at h
      · cases h
      · rename_i l hl
        split at h
        · cases h
        · rename_i hseq
          split at h
          · cases h
          · split at h
            · cases h
            · have hq : seq = l.rx + 1 := by omega
              subst hq
              have t0 := Tr.take (c := c) (strict := b) P s _ l [none] hs hl (fun i m hi => by
                cases i with
                | zero => simp at hi
                | succ j => simp at hi)
              have t1 := t0.trans (Tr.disp P _ l.gen (l.rx + 1) none)
              simp only [List.length_cons, List.length_nil, Nat.zero_add] at t1
              simp only [(putLink_fields (c := c) _ _).1] at h
              refine Tr.trans t1 ?_
              refine Tr.trans (inFee _ (dropFee fn fv)) ?_
              refine Tr.trans (accumulate _ c.addr (dropFee fn fv)) ?_
              split at h
              · split at h
                · rename_i h3; cases h; exact sendError h3
                · cases h
              · cases h
                exact (lostFee _ _).trans (.dropped P _ _ _ _)

/-- Sending changes nothing of a link but its number. -/
theorem sendMsg_get {env : Env} {s s' : St} {next : String} {m : Msg} {r} (h : JavaBmc.sendMsg c env s next m = (r, s')) :
    s'.names = s.names ∧ ∀ k, (Dict.get s'.links k).isSome = (Dict.get s.links k).isSome := by
  have hp : ∀ l, getLinkA c s next = some l → (putLink c s { l with tx := l.tx + 1 }).names = s.names ∧
      ∀ k, (Dict.get (putLink c s { l with tx := l.tx + 1 }).links k).isSome = (Dict.get s.links k).isSome := by
    intro l hl
    obtain ⟨net, hn, hg, ha⟩ := getLinkA_some c hl
    unfold putLink
    simp only [ha, hn]
    refine ⟨trivial, fun k => ?_⟩
    rw [Dict.get_put]
    split
    · rename_i e; rw [← e, hg]; rfl
    · rfl
  rcases sendMsg (c := c) (env := env) (s := s) (next := next) (m := m) with ⟨_, e⟩ | ⟨_, l, hl, ⟨hid, e⟩ | ⟨id, hid, _, e⟩⟩
  all_goals rw [h] at e; simp only at e; subst e
  · exact ⟨rfl, fun _ => rfl⟩
  · exact hp l hl
  · exact hp l hl

theorem propagate_get {env : Env} {body : Bytes} : ∀ (l : List (String × Link)) {s s' : St}, JavaBmc.propagate c env body l s = some s' →
    ∀ k, (Dict.get s'.links k).isSome = (Dict.get s.links k).isSome
  | [], s, s', h => by simp only [JavaBmc.propagate, Option.some.injEq] at h; subst h; exact fun _ => rfl
  | (_, l) :: t, s, s', h => by
    simp only [JavaBmc.propagate] at h
    split at h
    · cases h
    · rename_i s1 h1
      intro k
      rw [propagate_get t h k]
      exact (sendMsg_get h1).2 k

theorem addLink' {env : Env} {s s' : St} {link : String} (h : JavaBmc.addLink c env s link = some s') : Tr c b P s P s' := by
  unfold JavaBmc.addLink at h
  split at h
  · cases h
  · rename_i net hn
    split at h
    · cases h
    · split at h
      · cases h
      · rename_i hnone
        split at h
        · cases h
        · rename_i s1 h1
          simp only at h
          split at h
          · cases h
          · rename_i s3 h3
            cases h
            refine (propagate _ h1).trans (Tr.trans ?_ (sendInternal h3))
            apply Tr.addLink P s1 net link hn
            have := propagate_get _ h1 net
            cases hg : Dict.get s1.links net with
            | none => rfl
            | some x => rw [hg] at this; exact absurd this.symm (by simpa using hnone)

theorem removeLink {env : Env} {s s' : St} {link : String} (h : JavaBmc.removeLink c env s link = some s') : Tr c b P s P s' := by
  unfold JavaBmc.removeLink at h
  split at h
  · cases h
  · rename_i net hn
    split at h
    · cases h
    · rename_i l hl
      split at h
      · cases h
      · rename_i ha
        split at h
        · cases h
        · rename_i hr
          simp only at h
          refine Tr.trans ?_ (propagate _ h)
          have hr' : (s.routes.any fun p => decide (p.2 = net)) = false := by
            cases hx : (s.routes.any fun p => decide (p.2 = net)) with
            | false => rfl
            | true => exact absurd hx hr
          have ha' : l.addr = link := by simpa using ha
          refine Tr.trans ?_ (.cfg P _ _ _ _ _ _ _)
          unfold unbind
          split
          · rename_i hid
            exact .delLink P s net l hl hr' (by rw [ha']; exact hid)
          · rename_i id hid
            have := Tr.delBtp (c := c) (strict := b) P s net l id hl hr' (by rw [ha']; exact hid)
            rw [ha'] at this
            exact this

theorem setBTPLink {s s' : St} {link net : String} {id off : Nat} (hn : c.netOf link = some net)
    (h : JavaBmc.setBTPLink s link id off = some s') (h1 : ∀ l, Dict.get s.links net = some l → l.addr = link)
    (ho : off = ((Dict.get s.links net).map (·.tx)).getD 0) : Tr c b P s P s' := by
  unfold JavaBmc.setBTPLink at h
  split at h
  · cases h
  · split at h
    · cases h
    · cases h
      rename_i h2 h3
      subst ho
      exact .bind P s link net id hn (by omega) (by simpa using h3) h1

theorem setFees : ∀ (l : List (String × List Nat)) {s s' : St}, JavaBmc.setFees c s l = some s' → Tr c b P s P s'
  | [], s, s', h => by simp only [JavaBmc.setFees, Option.some.injEq] at h; subst h; exact .refl P s
  | (d, v) :: t, s, s', h => by
    simp only [JavaBmc.setFees] at h
    split at h
    · exact (Tr.cfg P s _ _ _ _ _ _).trans (setFees t h)
    · split at h
      · cases h
      · split at h
        · cases h
        · split at h
          · cases h
          · exact (Tr.cfg P s _ _ _ _ _ _).trans (setFees t h)

theorem conf {env : Env} {s s' : St} {caller : Nat} {k : Conf} (h : JavaBmc.conf c env s caller k = some s') : Tr c b P s P s' := by
  have hown : ∀ (x : Option JavaOwners.St), x.map (fun o => { s with own := o }) = some s' → Tr c b P s P s' := by
    intro x hx
    cases x with
    | none => cases hx
    | some o => cases hx; exact .cfg P s _ _ _ _ _ _
  unfold JavaBmc.conf at h
  split at h
  · exact hown _ h
  · exact hown _ h
  · exact hown _ h
  · split at h
    · cases h
    · split at h
      · split at h
        · cases h
        · cases h; exact .cfg P s _ _ _ _ _ _
      · split at h
        · cases h
        · cases h; exact .cfg P s _ _ _ _ _ _
      · split at h
        · cases h
        · cases h; exact .cfg P s _ _ _ _ _ _
      · split at h
        · cases h
        · cases h; exact .cfg P s _ _ _ _ _ _
      · exact addLink' h
      · exact removeLink h
      · rename_i dst link _ _ _
        split at h
        · cases h
        · rename_i hn
          cases h
          cases hl : Dict.get s.links link with
          | none => exact absurd (.inr (.inr hl)) hn
          | some l => exact .addRoute P s dst link l hl
      · rename_i dst _ _ _
        split at h
        · cases h
        · rename_i hn
          cases h
          cases hr : Dict.get s.routes dst with
          | none => exact absurd hr hn
          | some n => exact (Tr.delRoute P s dst n hr).trans (.cfg P _ _ _ _ _ _ _)
      · exact setFees _ h
      · cases h; exact .cfg P s _ _ _ _ _ _
      · split at h
        · cases h
        · cases h; exact .cfg P s _ _ _ _ _ _
      · rename_i link a _ _ _
        split at h
        · cases h
        · cases hx : eraseRelay (s.relays link) a with
          | none => rw [hx] at h; cases h
          | some l => rw [hx] at h; cases h; exact .cfg P s _ _ _ _ _ _
      · rename_i link id _ _ _
        split at h
        · cases h
        · rename_i s1 h1
          have h2 := h
          unfold JavaBmc.addLink at h2
          split at h2
          · cases h2
          · rename_i net hn
            split at h2
            · cases h2
            · split at h2
              · cases h2
              · rename_i hnone
                have hl : s1.links = s.links := by
                  unfold JavaBmc.setBTPLink at h1
                  split at h1
                  · cases h1
                  · split at h1
                    · cases h1
                    · cases h1; rfl
                have hn0 : Dict.get s.links net = none := by
                  rw [hl] at hnone
                  simpa using hnone
                refine Tr.trans (setBTPLink hn h1 ?_ ?_) (addLink' h)
                · intro l hg; rw [hn0] at hg; cases hg
                · rw [hn0]; rfl
      · rename_i link id _ _ _
        split at h
        · cases h
        · rename_i l hl
          obtain ⟨net, hn, hg, ha⟩ := getLinkA_some c hl
          refine setBTPLink hn h ?_ ?_
          · intro l' hg'; rw [hg] at hg'; cases hg'; exact ha
          · rw [hg]; rfl
      · cases h
end Tr

/-! ### Histories -/

mutual
/-- No relay call and no dropped message inside another call. -/
def Op.flat : Op → Bool
  | .claim _ acts _ _ _ _ => acts.quiet
  | .relay _ _ items => items.flat
  | _ => true
def Items.flat : Items → Bool
  | .nil => true
  | .cons _ _ _ acts t => acts.quiet && t.flat
/-- No relay call and no dropped message at all. -/
def Op.quiet : Op → Bool
  | .relay _ _ _ => false
  | .drop _ _ _ _ _ _ _ _ _ => false
  | .claim _ acts _ _ _ _ => acts.quiet
  | _ => true
def Ops.quiet : Ops → Bool
  | .nil => true
  | .cons o t => o.quiet && t.quiet
end

variable {c}

mutual
theorem exec_tr (o : Op) (s s' : St) (P) (h : exec c o s = some s') : Tr c false P s P s' := by
  cases o with
  | relay caller prev items =>
    simp only [exec] at h
    split at h
    · cases h
    · rename_i l s1 h1
      cases h
      exact Tr.trans (Tr.openRelay h1 (by simp)) (execItems_tr items caller prev l.gen (l.rx + 1) s1 P)
  | send env caller value to svc sn body => simp only [exec] at h; exact Tr.sendMessage h
  | claim env acts caller value net receiver =>
    simp only [exec] at h
    exact Tr.claimReward (fun x => execOps_tr acts x P) h
  | drop env caller src seq svc sn nsn fn fv => simp only [exec] at h; exact Tr.dropMessage h (by simp)
  | conf env caller k => simp only [exec] at h; exact Tr.conf h
theorem execItems_tr (items : Items) (caller : Nat) (prev : String) (gen seq : Nat) (s : St) (P) :
    Tr c false (entries gen seq (items.msgs.map some) ++ P) s P (execItems c items caller prev gen seq s) := by
  cases items with
  | nil => simp only [execItems, Items.msgs, List.map_nil, entries, List.nil_append]; exact .refl P s
  | cons m env out acts t =>
    simp only [execItems, Items.msgs, List.map_cons, entries, List.cons_append]
    exact Tr.trans (Tr.item env out _ caller prev gen seq s m (fun x => execOps_tr acts x _))
      (execItems_tr t caller prev gen (seq + 1) _ P)
theorem execOps_tr (acts : Ops) (s : St) (P) : Tr c false P s P (execOps c acts s) := by
  cases acts with
  | nil => simp only [execOps]; exact .refl P s
  | cons o t =>
    simp only [execOps]
    refine Tr.trans ?_ (execOps_tr t _ P)
    cases h : exec c o s with
    | none => exact .refl P s
    | some s1 => exact exec_tr o s s1 P h
end

mutual
theorem exec_quiet (o : Op) (s s' : St) (P) (hq : o.quiet = true) (h : exec c o s = some s') : Tr c true P s P s' := by
  cases o with
  | relay caller prev items => simp [Op.quiet] at hq
  | send env caller value to svc sn body => simp only [exec] at h; exact Tr.sendMessage h
  | claim env acts caller value net receiver =>
    simp only [exec] at h
    simp only [Op.quiet] at hq
    exact Tr.claimReward (fun x => execOps_quiet acts x P hq) h
  | drop env caller src seq svc sn nsn fn fv => simp [Op.quiet] at hq
  | conf env caller k => simp only [exec] at h; exact Tr.conf h
theorem execOps_quiet (acts : Ops) (s : St) (P) (hq : acts.quiet = true) : Tr c true P s P (execOps c acts s) := by
  cases acts with
  | nil => simp only [execOps]; exact .refl P s
  | cons o t =>
    simp only [execOps]
    simp only [Ops.quiet, Bool.and_eq_true] at hq
    refine Tr.trans ?_ (execOps_quiet t _ P hq.2)
    cases h : exec c o s with
    | none => exact .refl P s
    | some s1 => exact exec_quiet o s s1 P hq.1 h
end

theorem execItems_flat : ∀ (items : Items) (caller : Nat) (prev : String) (gen seq : Nat) (s : St) (P), items.flat = true →
    Tr c true (entries gen seq (items.msgs.map some) ++ P) s P (execItems c items caller prev gen seq s)
  | .nil, caller, prev, gen, seq, s, P, _ => by
    simp only [execItems, Items.msgs, List.map_nil, entries, List.nil_append]; exact .refl P s
  | .cons m env out acts t, caller, prev, gen, seq, s, P, hq => by
    simp only [Items.flat, Bool.and_eq_true] at hq
    simp only [execItems, Items.msgs, List.map_cons, entries, List.cons_append]
    exact Tr.trans (Tr.item env out _ caller prev gen seq s m (fun x => execOps_quiet acts x _ hq.1))
      (execItems_flat t caller prev gen (seq + 1) _ P hq.2)

theorem exec_flat (o : Op) (s s' : St) (hq : o.flat = true) (h : exec c o s = some s') : Tr c true [] s [] s' := by
  cases o with
  | relay caller prev items =>
    simp only [exec] at h
    simp only [Op.flat] at hq
    split at h
    · cases h
    · rename_i l s1 h1
      cases h
      exact Tr.trans (Tr.openRelay h1 (by simp)) (execItems_flat items caller prev l.gen (l.rx + 1) s1 [] hq)
  | send env caller value to svc sn body => simp only [exec] at h; exact Tr.sendMessage h
  | claim env acts caller value net receiver =>
    simp only [exec] at h
    simp only [Op.flat] at hq
    exact Tr.claimReward (fun x => execOps_quiet acts x _ hq) h
  | drop env caller src seq svc sn nsn fn fv => simp only [exec] at h; exact Tr.dropMessage h (by simp)
  | conf env caller k => simp only [exec] at h; exact Tr.conf h

theorem foldl_tr (ops : List Op) : ∀ s, Tr c false [] s [] (ops.foldl (fun s o => (exec c o s).getD s) s) := by
  induction ops with
  | nil => exact fun s => .refl [] s
  | cons o t ih =>
    intro s
    simp only [List.foldl_cons]
    refine Tr.trans ?_ (ih _)
    cases h : exec c o s with
    | none => exact .refl [] s
    | some s1 => exact exec_tr o s s1 [] h

theorem foldl_flat (ops : List Op) (hq : ops.all Op.flat = true) : ∀ s, Tr c true [] s [] (ops.foldl (fun s o => (exec c o s).getD s) s) := by
  induction ops with
  | nil => exact fun s => .refl [] s
  | cons o t ih =>
    intro s
    simp only [List.all_cons, Bool.and_eq_true] at hq
    simp only [List.foldl_cons]
    refine Tr.trans ?_ (ih hq.2 _)
    cases h : exec c o s with
    | none => exact .refl [] s
    | some s1 => exact exec_flat o s s1 hq.1 h

/-- Every history is made of elementary changes. -/
theorem run_tr (creator : Nat) (ops : List Op) : Tr c false [] (initSt creator) [] (run c creator ops) := foldl_tr ops _

theorem run_flat (creator : Nat) (ops : List Op) (hq : ops.all Op.flat = true) : Tr c true [] (initSt creator) [] (run c creator ops) :=
  foldl_flat ops hq _

end Verif.JavaBmc
