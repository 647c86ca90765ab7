import Verif.PyBmc
import Verif.PyAddrProps
/-!
Lemmas about `Verif.PyBmc`: dictionaries, and every call as a sequence of single changes.
-/
namespace Verif.PyBmc
open Verif Verif.BtpAddress

/-! ### Dictionaries -/
section
variable {K V : Type} [DecidableEq K]

theorem get_put (l : List (K × V)) (k k' : K) (v : V) : get (put l k v) k' = if k = k' then some v else get l k' := by
  induction l with
  | nil => simp only [put, get]
  | cons e t ih =>
    obtain ⟨a, b⟩ := e
    simp only [put]
    by_cases h : a = k
    · subst h; rw [if_pos rfl]; simp only [get]; by_cases h2 : a = k' <;> simp [h2]
    · rw [if_neg h]; simp only [get, ih]
      by_cases h2 : a = k'
      · subst h2; rw [if_pos rfl, if_pos rfl, if_neg (fun e => h e.symm)]
      · rw [if_neg h2, if_neg h2]

theorem get_put_same (l : List (K × V)) (k : K) (v : V) : get (put l k v) k = some v := by rw [get_put, if_pos rfl]
theorem get_put_other (l : List (K × V)) {k k' : K} (v : V) (h : k ≠ k') : get (put l k v) k' = get l k' := by rw [get_put, if_neg h]

theorem get_mem (l : List (K × V)) (k : K) (v : V) (h : get l k = some v) : (k, v) ∈ l := by
  induction l with
  | nil => cases h
  | cons e t ih =>
    obtain ⟨a, b⟩ := e
    simp only [get] at h
    by_cases h2 : a = k
    · rw [if_pos h2] at h; cases h; subst h2; exact List.mem_cons_self
    · rw [if_neg h2] at h; exact List.mem_cons_of_mem _ (ih h)

theorem get_none_iff (l : List (K × V)) (k : K) : get l k = none ↔ k ∉ l.map (·.1) := by
  induction l with
  | nil => simp [get]
  | cons e t ih =>
    obtain ⟨a, b⟩ := e
    simp only [get, List.map_cons, List.mem_cons, not_or]
    by_cases h2 : a = k
    · simp [h2]
    · rw [if_neg h2, ih]; exact ⟨fun h => ⟨fun e => h2 e.symm, h⟩, fun h => h.2⟩

theorem get_isSome_iff (l : List (K × V)) (k : K) : (get l k).isSome = true ↔ k ∈ l.map (·.1) := by
  have := get_none_iff l k
  cases h : get l k with
  | none => simp only [Option.isSome_none, Bool.false_eq_true, false_iff]; exact this.1 h
  | some v =>
    simp only [Option.isSome_some, true_iff]
    apply Decidable.byContradiction
    intro hn; rw [this.2 hn] at h; cases h

theorem keys_put (l : List (K × V)) (k : K) (v : V) :
    (put l k v).map (·.1) = if (get l k).isSome then l.map (·.1) else l.map (·.1) ++ [k] := by
  induction l with
  | nil => simp [put, get]
  | cons e t ih =>
    obtain ⟨a, b⟩ := e
    by_cases h2 : a = k
    · simp [put, get, h2]
    · have e1 : put ((a, b) :: t) k v = (a, b) :: put t k v := if_neg h2
      have e2 : get ((a, b) :: t) k = get t k := if_neg h2
      rw [e1, e2, List.map_cons, ih]; split <;> rfl

theorem nodup_put (l : List (K × V)) (k : K) (v : V) (h : (l.map (·.1)).Nodup) : ((put l k v).map (·.1)).Nodup := by
  rw [keys_put]
  by_cases h2 : (get l k).isSome = true
  · rw [if_pos h2]; exact h
  · rw [if_neg h2]
    rw [get_isSome_iff] at h2
    rw [List.nodup_append]
    refine ⟨h, by simp, ?_⟩
    intro a ha b hb e
    rw [List.mem_singleton] at hb
    subst hb; subst e; exact h2 ha

theorem keys_del (l : List (K × V)) (k : K) : (del l k).map (·.1) = (l.map (·.1)).erase k := by
  induction l with
  | nil => rfl
  | cons e t ih =>
    obtain ⟨a, b⟩ := e
    simp only [del, List.map_cons]
    by_cases h2 : a = k
    · subst h2; simp
    · rw [if_neg h2, List.map_cons, ih, List.erase_cons_tail (by simpa using h2)]

theorem nodup_del (l : List (K × V)) (k : K) (h : (l.map (·.1)).Nodup) : ((del l k).map (·.1)).Nodup := by
  rw [keys_del]; exact h.erase k

theorem get_del (l : List (K × V)) (k k' : K) (h : (l.map (·.1)).Nodup) : get (del l k) k' = if k = k' then none else get l k' := by
  induction l with
  | nil => simp [del, get]
  | cons e t ih =>
    obtain ⟨a, b⟩ := e
    rw [List.map_cons, List.nodup_cons] at h
    simp only [del, get]
    by_cases h2 : a = k
    · subst h2
      rw [if_pos rfl]
      by_cases h3 : a = k'
      · subst h3; rw [if_pos rfl]; exact (get_none_iff t a).2 h.1
      · rw [if_neg h3, if_neg h3]
    · rw [if_neg h2]; simp only [get, ih h.2]
      by_cases h3 : a = k'
      · subst h3; rw [if_pos rfl, if_pos rfl, if_neg (fun e => h2 e.symm)]
      · rw [if_neg h3, if_neg h3]

theorem get_del_some (l : List (K × V)) (k k' : K) (v : V) (h : (l.map (·.1)).Nodup) (hg : get (del l k) k' = some v) :
    k ≠ k' ∧ get l k' = some v := by
  rw [get_del l k k' h] at hg
  by_cases h2 : k = k'
  · rw [if_pos h2] at hg; cases hg
  · rw [if_neg h2] at hg; exact ⟨h2, hg⟩

theorem get_unique (l : List (K × V)) (k : K) (v : V) (h : (l.map (·.1)).Nodup) (hm : (k, v) ∈ l) : get l k = some v := by
  induction l with
  | nil => cases hm
  | cons e t ih =>
    obtain ⟨a, b⟩ := e
    rw [List.map_cons, List.nodup_cons] at h
    simp only [get]
    rcases List.mem_cons.1 hm with hm | hm
    · cases hm; rw [if_pos rfl]
    · rw [if_neg ?_]
      · exact ih h.2 hm
      · intro e; subst e; exact h.1 (List.mem_map.2 ⟨(a, v), hm, rfl⟩)

theorem put_length (l : List (K × V)) (k : K) (v : V) (h : (get l k).isSome = true) : (put l k v).length = l.length := by
  have := congrArg List.length (keys_put l k v)
  rw [if_pos h] at this; simpa using this

end

theorem odds_length {A : Type} : ∀ l : List A, (odds l).length = l.length / 2
  | [] => by simp [odds]
  | [_] => by simp [odds]
  | _ :: b :: l => by
    simp only [odds, List.length_cons, odds_length l]; omega

theorem odds_sub {A : Type} : ∀ l : List A, (odds l).Sublist l
  | [] => .slnil
  | [_] => List.nil_sublist _
  | a :: b :: l => by
    simp only [odds]
    exact (List.Sublist.cons_cons b (odds_sub l)).cons a

theorem odds_map {A B : Type} (f : A → B) : ∀ l : List A, (odds l).map f = odds (l.map f)
  | [] => rfl
  | [_] => rfl
  | _ :: b :: l => by simp only [odds, List.map_cons, odds_map f l]

/-! ### Single changes -/

/-- The single changes a call consists of. `q`: no message is taken and no receiving number changes. -/
inductive Step (q : Bool) : St → St → Prop where
  | tx (s : St) (k : Str) (l : Link) (b : Bytes) (h : get s.links k = some l) :
    Step q s { s with links := put s.links k { l with tx := l.tx + 1 }, log := s.log ++ [.message l.gen k (l.tx + 1) b] }
  | link (s : St) (k : Str) (l l' : Link) (h : get s.links k = some l) (hrx : l'.rx = l.rx) (htx : l'.tx = l.tx) (hg : l'.gen = l.gen)
    (hi : l'.idx = l.idx ∨ l'.idx < (s.relays k).length) : Step q s { s with links := put s.links k l' }
  | rx (s : St) (k : Str) (l : Link) (n : Nat) (h : get s.links k = some l) (hq : q = false) :
    Step q s { s with links := put s.links k { l with rx := l.rx + n } }
  | err (s : St) (svc : Option Bytes) (sn code : Int) : Step q s { s with log := s.log ++ [.onError svc sn code] }
  | disp (s : St) (g n : Nat) (b : Bytes) (hq : q = false) : Step q s { s with disp := s.disp ++ [(g, n, b)] }
  | access (s : St) (b : Bool) : Step q s { s with access := b }
  | grant (s s' : St) (a : Nat) (p : Str) (h : addPermission s a p = some s') : Step q s s'
  | revoke (s s' : St) (a : Nat) (p : Str) (h : removePermission s a p = some s') : Step q s s'
  | addService (s : St) (svc : Str) (a : Nat) (h : get s.services svc = none) : Step q s { s with services := put s.services svc a }
  | delService (s : St) (svc : Str) : Step q s { s with services := del s.services svc }
  | addVerifier (s : St) (net : Str) (a : Nat) (h : get s.verifiers net = none) : Step q s { s with verifiers := put s.verifiers net a }
  | delVerifier (s : St) (net : Str) (h : hasLink net s.links = some false) : Step q s { s with verifiers := del s.verifiers net }
  | addLink (s : St) (link : Str) (a : PyAddr.Addr) (ha : PyAddr.fromStringValid link = some a)
    (hv : (get s.verifiers a.net).isSome = true) (h : get s.links a.toStr = none) :
    Step q s { s with links := put s.links a.toStr (newLink s.names.length), names := s.names ++ [a.toStr] }
  | delLink (s : St) (k : Str) (h : (get s.links k).isSome = true) :
    Step q s { s with links := del s.links k, relays := PyDb.upd s.relays k (odds (s.relays k)) }
  | addRoute (s : St) (dst link : Str) (a : PyAddr.Addr) (ha : PyAddr.fromStringValid link = some a) (h : get s.routes dst = none) :
    Step q s { s with routes := put s.routes dst a.toStr }
  | delRoute (s : St) (dst : Str) : Step q s { s with routes := del s.routes dst }
  | relayers (s : St) (r : List (Nat × Str)) (o : Nat → List (Str × Nat)) : Step q s { s with relayers := r, owned := o }
  | count (s : St) (k : Str) (a : Nat) (r r1 : Relay) (h : get (s.relays k) a = some r) :
    Step q s { s with relays := PyDb.upd s.relays k (put (s.relays k) a r1) }
  | addRelay (s : St) (k : Str) (a : Nat) (h : get (s.relays k) a = none) :
    Step q s { s with relays := PyDb.upd s.relays k (put (s.relays k) a ⟨0, 0⟩) }

inductive Steps (q : Bool) : St → St → Prop where
  | refl (s : St) : Steps q s s
  | tail {s s1 s2 : St} (h : Steps q s s1) (e : Step q s1 s2) : Steps q s s2

namespace Steps
variable {q : Bool} {s s1 s2 : St}

theorem one (e : Step q s s1) : Steps q s s1 := .tail (.refl s) e

theorem trans (h : Steps q s s1) (h2 : Steps q s1 s2) : Steps q s s2 := by
  induction h2 with
  | refl => exact h
  | tail _ e ih => exact .tail ih e

/-- An invariant of the single changes is one of the calls. -/
theorem inv {P : St → Prop} (hP : ∀ s s', Step q s s' → P s → P s') (h : Steps q s s1) (h0 : P s) : P s1 := by
  induction h with
  | refl => exact h0
  | tail _ e ih => exact hP _ _ e ih

end Steps

/-! ### Calls as single changes -/

theorem send_steps {q : Bool} {s s' : St} {to : Str} {b : Bytes} (h : send s to b = some s') : Steps q s s' := by
  simp only [send] at h
  split at h
  · cases h
  · rename_i l hl; cases h; exact .one (.tx s to l b hl)

variable {c : Cfg}

theorem sendError_steps {q : Bool} {s s' : St} {prev : Str} {m : Msg} {code : Int} {t : Bytes} (h : sendError c s prev m code t = some s') :
    Steps q s s' := by
  simp only [sendError] at h
  split at h
  · cases h
  · rename_i sn _
    by_cases h0 : sn = 0
    · rw [if_pos h0] at h; cases h; exact .refl s
    · rw [if_neg h0] at h; exact send_steps h

theorem propagate_steps {q : Bool} {evt : Bytes} {values : List Str} : ∀ {ts : List Str} {s s' : St},
    propagate c evt values ts s = some s' → Steps q s s'
  | [], s, s', h => by simp only [propagate] at h; cases h; exact .refl s
  | t :: ts, s, s', h => by
    simp only [propagate] at h
    split at h
    · cases h
    · rename_i dst _
      cases h1 : send s t (writeMsg c c.me (some dst) (some bEvent) 0 (writeEvent c evt values)) with
      | none => rw [h1] at h; cases h
      | some s1 => rw [h1] at h; exact (send_steps h1).trans (propagate_steps h)

theorem sendMessage_steps {q : Bool} {s s' : St} {net : Str} {svc : Bytes} {sn : Int} {p : Bytes} (h : sendMessage c s net svc sn p = some s') :
    Steps q s s' := by
  simp only [sendMessage] at h
  split at h
  · cases h
  · split at h
    · rename_i k _
      cases h1 : PyAddr.fromString k with
      | none => rw [h1] at h; cases h
      | some a => rw [h1] at h; exact send_steps h
    · cases h

theorem onLink_steps {q : Bool} {s s' : St} {vs : List (Option Bytes)} (h : onLink c s vs = some s') : Steps q s s' := by
  simp only [onLink] at h
  split at h
  · split at h
    · cases h; exact .refl s
    · split at h
      · cases h
      · split at h
        · cases h; exact .refl s
        · rename_i l hl
          split at h
          · cases h
          · split at h
            · cases h; exact .refl s
            · cases h; exact .one (.link s _ l _ hl rfl rfl rfl (.inl rfl))
  · cases h

theorem onUnlink_steps {q : Bool} {s s' : St} {vs : List (Option Bytes)} (h : onUnlink c s vs = some s') : Steps q s s' := by
  simp only [onUnlink] at h
  split at h
  · split at h
    · cases h; exact .refl s
    · split at h
      · cases h
      · split at h
        · cases h; exact .refl s
        · rename_i l hl
          split at h
          · cases h; exact .refl s
          · cases h; exact .one (.link s _ l _ hl rfl rfl rfl (.inl rfl))
  · cases h

/-- The service is called once, or only single changes are made. -/
theorem handleMsg_cases {q : Bool} {out : Out} {call : St → St} {s s' : St} {prev : Str} {m : Msg}
    (h : handleMsg c out call s prev m = some s') : Steps q s s' ∨ s' = call s := by
  simp only [handleMsg] at h
  split at h
  · simp only [handleEvent] at h
    split at h
    · cases h
    · split at h
      · exact .inl (onLink_steps h)
      · split at h
        · exact .inl (onUnlink_steps h)
        · cases h
  · split at h
    · simp only [handleSack] at h
      split at h
      · cases h
      · split at h
        · cases h
        · rename_i l hl; cases h; exact .inl (.one (.link s _ l _ hl rfl rfl rfl (.inl rfl)))
    · simp only [handleService] at h
      split at h
      · cases h
      · split at h
        · split at h
          · exact .inl (sendError_steps h)
          · split at h
            · cases h
            · split at h
              · cases h; exact .inr rfl
              · exact .inl (sendError_steps h)
              · cases h
        · split at h
          · split at h
            · cases h; exact .inl (.one (.err s _ _ _))
            · split at h
              · cases h; exact .inr rfl
              · cases h; exact .inl (.one (.err s _ _ _))
              · cases h; exact .inl (.one (.err s _ _ _))
          · cases h

theorem forward_steps {q : Bool} {s s' : St} {prev : Str} {m : Msg} {b : Bytes} (h : forward c s prev m b = some s') : Steps q s s' := by
  simp only [forward] at h
  split at h
  · cases h
  · split at h
    · exact send_steps h
    · exact sendError_steps h
    · cases h

/-- What one message does after it is noted in `disp`. -/
theorem item_cases {q : Bool} {out : Out} {call : St → St} {prev : Str} {gen seq : Nat} {s s' : St} {b : Bytes}
    (h : item c out call prev gen seq s b = some s') : Steps q { s with disp := s.disp ++ [(gen, seq, b)] } s' ∨
      s' = call { s with disp := s.disp ++ [(gen, seq, b)] } := by
  simp only [item] at h
  split at h
  · cases h; exact .inl (.refl _)
  · split at h
    · exact handleMsg_cases h
    · exact .inl (forward_steps h)

theorem item_steps {q : Bool} {out : Out} {call : St → St} {prev : Str} {gen seq : Nat} {s s' : St} {b : Bytes} (hc : ∀ y, Steps q y (call y))
    (h : item c out call prev gen seq s b = some s') : Steps q { s with disp := s.disp ++ [(gen, seq, b)] } s' := by
  rcases item_cases (q := q) h with h | h
  · exact h
  · subst h; exact hc _

theorem upd_upd {A B : Type} [DecidableEq A] (f : A → B) (a : A) (x y : B) : PyDb.upd (PyDb.upd f a x) a y = PyDb.upd f a y := by
  funext z; simp only [PyDb.upd]; split <;> rfl

theorem upd_self {A B : Type} [DecidableEq A] (f : A → B) (a : A) : PyDb.upd f a (f a) = f := by
  funext z; simp only [PyDb.upd]; split
  · rename_i e; rw [e]
  · rfl

/-- Relays are only added. -/
theorem addAll_steps {q : Bool} (k : Str) : ∀ (l : List Nat) (s : St), Steps q s { s with relays := PyDb.upd s.relays k (addAll (s.relays k) l) }
  | [], s => by
    simp only [addAll, upd_self]; exact .refl s
  | a :: t, s => by
    simp only [addAll]
    split
    · exact addAll_steps k t s
    · rename_i h
      have h : get (s.relays k) a = none := by simpa using h
      have e := Steps.trans (.one (.addRelay s k a h))
        (addAll_steps (q := q) k t { s with relays := PyDb.upd s.relays k (put (s.relays k) a ⟨0, 0⟩) })
      simp only [upd_upd] at e
      simpa [PyDb.upd] using e

/-- A rotation keeps the numbers; the index stays or is in range. -/
theorem rotateBy_link {rs : List Nat} {l l' : Link} {n base : Int} {a : Nat} (h : rotateBy c rs l n base = some (l', a)) :
    l'.rx = l.rx ∧ l'.tx = l.tx ∧ l'.gen = l.gen ∧ l'.reach = l.reach ∧ rs[l'.idx]? = some a := by
  unfold rotateBy at h
  generalize hl1 : (if rotateTerm c l > 0 ∧ n > 0 then ({ l with rotH := base + rotateTerm c l, idx := l.idx + n.toNat } : Link) else l) = l1 at h
  have k1 : l1.rx = l.rx ∧ l1.tx = l.tx ∧ l1.gen = l.gen ∧ l1.reach = l.reach := by
    rw [← hl1]; split <;> exact ⟨rfl, rfl, rfl, rfl⟩
  dsimp only at h
  by_cases h0 : (rotateTerm c l > 0 ∧ n > 0 ∧ rs.length ≤ l1.idx) ∧ rs.length = 0
  · rw [if_pos h0] at h; cases h
  · rw [if_neg h0] at h
    generalize hl2 : (if rotateTerm c l > 0 ∧ n > 0 ∧ rs.length ≤ l1.idx then ({ l1 with idx := l1.idx % rs.length } : Link) else l1) = l2 at h
    have k2 : l2.rx = l1.rx ∧ l2.tx = l1.tx ∧ l2.gen = l1.gen ∧ l2.reach = l1.reach := by
      rw [← hl2]; split <;> exact ⟨rfl, rfl, rfl, rfl⟩
    obtain ⟨x, hx, e⟩ := Option.map_eq_some_iff.1 h
    cases e
    exact ⟨k2.1.trans k1.1, k2.2.1.trans k1.2.1, k2.2.2.1.trans k1.2.2.1, k2.2.2.2.trans k1.2.2.2, hx⟩

theorem rotate_link {rs : List Nat} {l l' : Link} {cur mh : Int} {hm : Bool} {t : Option Nat} (h : rotate c rs l cur mh hm = some (l', t)) :
    l'.rx = l.rx ∧ l'.tx = l.tx ∧ l'.gen = l.gen ∧ l'.reach = l.reach ∧ (t = none ∧ l' = l ∨ ∃ a, t = some a ∧ rs[l'.idx]? = some a) := by
  simp only [rotate] at h
  split at h
  · split at h
    · obtain ⟨x, hx, e⟩ := Option.map_eq_some_iff.1 h
      cases e
      obtain ⟨h1, h2, h3, h4, h5⟩ := rotateBy_link hx
      exact ⟨h1, h2, h3, h4, .inr ⟨_, rfl, h5⟩⟩
    · obtain ⟨x, hx, e⟩ := Option.map_eq_some_iff.1 h
      cases e
      obtain ⟨h1, h2, h3, h4, h5⟩ := rotateBy_link hx
      exact ⟨h1, h2, h3, h4, .inr ⟨_, rfl, h5⟩⟩
  · cases h; exact ⟨rfl, rfl, rfl, rfl, .inl ⟨rfl, rfl⟩⟩

theorem whose_get {rs : List (Nat × Relay)} {t : Option Nat} {o : Nat} {r : Relay} (h : whose rs t o = some r) :
    get rs o = some r ∧ (t = none ∨ t = some o) := by
  simp only [whose] at h
  split at h
  · exact ⟨h, .inl rfl⟩
  · split at h
    · rename_i e; subst e; exact ⟨h, .inr rfl⟩
    · cases h

/-- What the first part of a relay call checks and does. -/
theorem openRelay_spec {x : Ctx} {s s1 : St} {prev : Str} {v : Verdict} {msgs : List Bytes} {key : Str} {gen rx : Nat}
    (h : openRelay c x s prev v msgs = some (key, gen, rx, s1)) :
    ∃ a l bmv l1 t r, PyAddr.fromString prev = some a ∧ key = a.toStr ∧ get s.links key = some l ∧ gen = l.gen ∧ rx = l.rx ∧
    get s.verifiers a.net = some bmv ∧ c.verify bmv key l.rx v msgs = true ∧
    rotate c ((s.relays key).map (·.1)) l x.height v.last (decide (0 < msgs.length)) = some (l1, t) ∧
    whose (s.relays key) t x.origin = some r ∧
    s1 = { s with links := put s.links key l1, relays := PyDb.upd s.relays key (put (s.relays key) x.origin
      ⟨r.blocks + v.height - v.before, r.msgs + msgs.length⟩) } := by
  simp only [openRelay] at h
  split at h
  · cases h
  · rename_i a ha
    split at h
    · cases h
    · rename_i l hl
      split at h
      · cases h
      · rename_i bmv hb
        split at h
        · rename_i hv
          split at h
          · cases h
          · rename_i l1 t hr
            split at h
            · cases h
            · rename_i r hw
              cases h
              exact ⟨a, l, bmv, l1, t, r, ha, rfl, hl, rfl, rfl, hb, hv, hr, hw, rfl⟩
        · cases h

theorem openRelay_steps {q : Bool} {x : Ctx} {s s1 : St} {prev : Str} {v : Verdict} {msgs : List Bytes} {key : Str} {gen rx : Nat}
    (h : openRelay c x s prev v msgs = some (key, gen, rx, s1)) : Steps q s s1 := by
  obtain ⟨a, l, bmv, l1, t, r, ha, hk, hl, hg, hrx, hb, hv, hr, hw, rfl⟩ := openRelay_spec h
  obtain ⟨h1, h2, h3, _, h4⟩ := rotate_link hr
  have e1 : Step q s { s with links := put s.links key l1 } := by
    refine .link s key l l1 hl h1 h2 h3 ?_
    rcases h4 with ⟨_, e⟩ | ⟨a, _, e⟩
    · left; rw [e]
    · right; have := (List.getElem?_eq_some_iff.1 e).1; simpa using this
  exact .tail (.one e1) (.count { s with links := put s.links key l1 } key x.origin r _ (whose_get hw).1)

theorem closeRelay_spec {s s' : St} {key : Str} {gen n : Nat} (h : closeRelay s key gen n = some s') :
    ∃ l, get s.links key = some l ∧ l.gen = gen ∧ s' = { s with links := put s.links key { l with rx := l.rx + n } } := by
  simp only [closeRelay] at h
  split at h
  · cases h
  · rename_i l hl
    split at h
    · rename_i hg; cases h; exact ⟨l, hl, hg, rfl⟩
    · cases h

def Op.isRelay : Op → Bool
  | .relay _ _ _ _ => true
  | _ => false

/-- Calls other than a relay call take no message. -/
theorem exec_conf {q : Bool} {o : Op} {s s' : St} (ho : o.isRelay = false) (h : exec c o s = some s') : Steps q s s' := by
  cases o with
  | setAccess x on =>
    simp only [exec] at h; split at h
    · cases h; exact .one (.access s on)
    · cases h
  | addPermission x a p =>
    simp only [exec] at h; split at h
    · exact .one (.grant s s' a p h)
    · cases h
  | removePermission x a p =>
    simp only [exec] at h; split at h
    · exact .one (.revoke s s' a p h)
    · cases h
  | addService x svc a =>
    simp only [exec, addService] at h; split at h
    · rename_i hh
      split at h
      · exact .tail (.one (.addService s svc a hh.2.2.1)) (.grant _ s' a _ h)
      · cases h
    · cases h
  | removeService x svc =>
    simp only [exec, removeService] at h; split at h
    · split at h
      · cases h
      · split at h
        · cases h; exact .one (.delService s svc)
        · split at h
          · exact .tail (.one (.delService s svc)) (.revoke _ s' _ _ h)
          · cases h
    · cases h
  | addVerifier x net a =>
    simp only [exec] at h; split at h
    · rename_i hh; cases h; exact .one (.addVerifier s net a hh.2.2.1)
    · cases h
  | removeVerifier x net =>
    simp only [exec] at h; split at h
    · rename_i hh; cases h; exact .one (.delVerifier s net hh.2.2)
    · cases h
  | addLink x link =>
    simp only [exec, addLink] at h; split at h
    · split at h
      · cases h
      · rename_i a ha
        split at h
        · rename_i hh
          exact Steps.trans (.one (.addLink s link a ha hh.1 hh.2.1)) (propagate_steps h)
        · cases h
    · cases h
  | removeLink x link =>
    simp only [exec, removeLink] at h; split at h
    · split at h
      · cases h
      · rename_i a ha
        split at h
        · obtain ⟨s1, h1, e⟩ := Option.map_eq_some_iff.1 h
          subst e
          have st := propagate_steps (q := q) h1
          refine .tail st (.delLink s1 a.toStr ?_)
          rename_i hh
          have keep : ∀ {ts : List Str} {s s' : St}, propagate c bUnlink [c.me.toStr, a.toStr] ts s = some s' → (get s.links a.toStr).isSome = true →
              (get s'.links a.toStr).isSome = true := by
            intro ts
            induction ts with
            | nil => intro s s' h hs; simp only [propagate] at h; cases h; exact hs
            | cons t ts ih =>
              intro s s' h hs
              simp only [propagate] at h
              split at h
              · cases h
              · rename_i dst _
                cases h1 : send s t (writeMsg c c.me (some dst) (some bEvent) 0 (writeEvent c bUnlink [c.me.toStr, a.toStr])) with
                | none => rw [h1] at h; cases h
                | some s2 =>
                  rw [h1] at h
                  refine ih h ?_
                  simp only [send] at h1
                  split at h1
                  · cases h1
                  · cases h1
                    simp only [get_put]
                    split
                    · rfl
                    · exact hs
          exact keep h1 hh
        · cases h
    · cases h
  | setLink x link i m d vh =>
    simp only [exec, setLink] at h; split at h
    · split at h
      · cases h
      · split at h
        · cases h
        · rename_i l hl
          split at h
          · cases h
          · split at h
            · split at h
              · cases h; exact .one (.link s _ l _ hl rfl rfl rfl (.inl rfl))
              · cases h
            · cases h; exact .one (.link s _ l _ hl rfl rfl rfl (.inl rfl))
    · cases h
  | addRoute x dst link =>
    simp only [exec, addRoute] at h; split at h
    · rename_i hh
      split at h
      · cases h
      · rename_i a ha
        split at h
        · cases h; exact .one (.addRoute s dst link a ha hh.2)
        · cases h
    · cases h
  | removeRoute x dst =>
    simp only [exec] at h; split at h
    · cases h; exact .one (.delRoute s dst)
    · cases h
  | addRelayer x a desc =>
    simp only [exec] at h; split at h
    · cases h
    · cases h; exact .one (.relayers s _ s.owned)
  | removeRelayer x a =>
    simp only [exec] at h; split at h
    · cases h; exact .one (.relayers s _ _)
    · cases h
  | addRelay x link a =>
    simp only [exec, addRelay] at h; split at h
    · split at h
      · cases h
      · rename_i t ht
        split at h
        · cases h
        · split at h
          · cases h
          · rename_i l hl
            split at h
            · cases h
            · rename_i hn
              have hn : get (s.relays t.toStr) a = none := by simpa using hn
              split at h
              · split at h
                · cases h
                · cases h
                  exact .tail (.one (.relayers s s.relayers (PyDb.upd s.owned x.origin (put (s.owned x.origin) t.toStr a))))
                    (.link { s with owned := _ } _ l { l with add := l.add ++ [a] } hl rfl rfl rfl (.inl rfl))
              · cases h
                exact .tail (.one (.relayers s s.relayers (PyDb.upd s.owned x.origin (put (s.owned x.origin) t.toStr a))))
                  (.addRelay { s with owned := _ } _ _ hn)
    · cases h
  | removeRelay x link a => simp only [exec] at h; cases h
  | nextRelays x link term =>
    simp only [exec, nextRelays] at h; split at h
    · split at h
      · cases h
      · rename_i t ht
        split at h
        · cases h
        · rename_i l hl
          split at h
          · cases h
            exact Steps.trans (.one (.link s _ l { l with nextTerm := term, add := [], nextH := l.nextH + term } hl rfl rfl rfl (.inl rfl)))
              (addAll_steps t.toStr l.add.reverse _)
          · cases h; exact .one (.link s _ l _ hl rfl rfl rfl (.inl rfl))
    · cases h
  | send x net svc sn p =>
    simp only [exec] at h; split at h
    · exact sendMessage_steps h
    · cases h
  | relay x prev v items => simp [Op.isRelay] at ho

mutual
theorem exec_steps (o : Op) (s s' : St) (h : exec c o s = some s') : Steps false s s' := by
  cases o with
  | relay x prev v items =>
    simp only [exec] at h
    split at h
    · cases h
    · rename_i key gen rx s1 h1
      split at h
      · cases h
      · rename_i s2 h2
        obtain ⟨l, hl, _, e⟩ := closeRelay_spec h
        subst e
        exact .tail ((openRelay_steps h1).trans (execItems_steps items key gen (rx + 1) s1 s2 h2)) (.rx s2 key l _ hl rfl)
  | _ => exact exec_conf rfl h
theorem execItems_steps (items : Items) (key : Str) (gen seq : Nat) (s s' : St) (h : execItems c items key gen seq s = some s') :
    Steps false s s' := by
  cases items with
  | nil => simp only [execItems] at h; cases h; exact .refl s
  | cons b out acts t =>
    simp only [execItems] at h
    split at h
    · cases h
    · rename_i s1 h1
      exact Steps.trans (.one (.disp s gen seq b rfl)) ((item_steps (fun y => execOps_steps acts y) h1).trans (execItems_steps t key gen (seq + 1) s1 s' h))
theorem execOps_steps (acts : Ops) (s : St) : Steps false s (execOps c acts s) := by
  cases acts with
  | nil => simp only [execOps]; exact .refl s
  | cons o t =>
    simp only [execOps]
    refine Steps.trans ?_ (execOps_steps t _)
    cases h : exec c o s with
    | none => exact .refl s
    | some s1 => exact exec_steps o s s1 h
end

theorem run_steps (ops : List Op) : Steps false initSt (run c ops) := by
  have : ∀ s, Steps false s (ops.foldl (fun s o => (exec c o s).getD s) s) := by
    induction ops with
    | nil => intro s; exact .refl s
    | cons o t ih =>
      intro s
      rw [List.foldl_cons]
      refine Steps.trans ?_ (ih _)
      cases h : exec c o s with
      | none => exact .refl s
      | some s1 => exact exec_steps o s s1 h
  exact this initSt

/-- What every single change keeps holds after every history. -/
theorem run_inv {P : St → Prop} (h0 : P initSt) (hP : ∀ s s', Step false s s' → P s → P s') (ops : List Op) : P (run c ops) :=
  (run_steps ops).inv hP h0

end Verif.PyBmc
