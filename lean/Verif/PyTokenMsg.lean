import Verif.PyTokenProps
import Verif.PyBmcBlock
/-!
C130, C131: the registry and the messages of the Python token service.
-/
namespace Verif.PyToken
open Verif Verif.BtpAddress
open Verif.PyBmc (R)
open Verif.PyDb (upd)

variable {c : Cfg}

/-! ### C130: the registry -/

theorem unlist_dead (name : Str) : ∀ (suf pre : List Str) (d : Str) (found : Bool) (count : Nat), (found = true ∨ d = name) →
    count = pre.length + suf.length + 1 →
    ((List.range' pre.length (suf.length + 1)).foldl (unlistStep name count) (pre ++ d :: suf, found)).1 = pre ++ suf
  | [], pre, d, found, count, h, hc => by
    have hf : (found || decide ((pre ++ [d])[pre.length]? = some name)) = true := by
      rcases h with h | h
      · simp [h]
      · simp [h]
    simp only [List.length_nil, Nat.zero_add, List.range'_one, List.foldl_cons, List.foldl_nil, unlistStep, hf, if_true]
    rw [if_neg (by simp only [List.length_nil] at hc; omega)]
    simp
  | y :: suf, pre, d, found, count, h, hc => by
    have hf : (found || decide ((pre ++ d :: y :: suf)[pre.length]? = some name)) = true := by
      rcases h with h | h
      · simp [h]
      · simp [h]
    rw [show (y :: suf).length + 1 = (suf.length + 1) + 1 from rfl, List.range'_succ, List.foldl_cons]
    have hs : unlistStep name count (pre ++ d :: y :: suf, found) pre.length = ((pre ++ [y]) ++ y :: suf, true) := by
      simp only [unlistStep, hf, if_true]
      rw [if_pos (by simp only [List.length_cons] at hc; omega)]
      congr 1
      have : (pre ++ d :: y :: suf).getD (pre.length + 1) [] = y := by
        simp [List.getD]
      rw [this]
      simp
    rw [hs, show pre.length + 1 = (pre ++ [y]).length by simp]
    rw [unlist_dead name suf (pre ++ [y]) y true count (.inl rfl) (by simp only [List.length_append, List.length_cons, List.length_nil] at hc ⊢; omega)]
    simp

theorem unlist_live (name : Str) : ∀ (suf pre : List Str) (count : Nat), count = pre.length + suf.length →
    ((List.range' pre.length suf.length).foldl (unlistStep name count) (pre ++ suf, false)).1 = pre ++ suf.erase name
  | [], pre, count, _ => by simp
  | d :: suf, pre, count, hc => by
    by_cases hd : d = name
    · rw [show (d :: suf).length = suf.length + 1 from rfl, unlist_dead name suf pre d false count (.inr hd) (by simp only [List.length_cons] at hc; omega), hd]
      simp
    · rw [show (d :: suf).length = suf.length + 1 from rfl, List.range'_succ, List.foldl_cons]
      have hs : unlistStep name count (pre ++ d :: suf, false) pre.length = ((pre ++ [d]) ++ suf, false) := by
        have : (false || decide ((pre ++ d :: suf)[pre.length]? = some name)) = false := by simp [hd]
        simp only [unlistStep, this]
        simp
      rw [hs, show pre.length + 1 = (pre ++ [d]).length by simp]
      rw [unlist_live name suf (pre ++ [d]) count (by simp only [List.length_append, List.length_cons, List.length_nil] at hc ⊢; omega)]
      rw [List.erase_cons_tail (by simp [hd])]
      simp

/-- The loop of `unregister` takes out the first such name and keeps the order. -/
theorem C130_unlist (name : Str) (l : List Str) : unlist name l = l.erase name := by
  have := unlist_live name l [] l.length (by simp)
  simp only [List.length_nil, List.nil_append] at this
  unfold unlist
  rw [List.range_eq_range']; exact this

theorem updateBalance_eq {s s1 : St} {u : Nat} {t : Str} {a b : Int} (h : updateBalance c s u t a b = some s1) : ∃ m, s1 = { s with bal := m } := by
  unfold updateBalance at h
  split at h
  · cases h
  · cases h; exact ⟨_, rfl⟩

/-- What a change does to the registry. -/
theorem step_registry {s s' : St} (h : Step c s s') : (s'.addrs = s.addrs ∧ s'.names = s.names) ∨
    (∃ n a, s.addrs n = none ∧ s'.addrs = upd s.addrs n (some a) ∧ s'.names = s.names ++ [n]) ∨ (∃ n, s.addrs n ≠ none ∧ s'.addrs = s.addrs ∧ s'.names = s.names.erase n) := by
  cases h with
  | register n a h => exact .inr (.inl ⟨n, a, h, rfl, rfl⟩)
  | unregister n h => exact .inr (.inr ⟨n, h, rfl, C130_unlist n s.names⟩)
  | sent => exact .inl ⟨rfl, rfl⟩
  | deposit u t v s1 h hv => obtain ⟨m, rfl⟩ := updateBalance_eq h; exact .inl ⟨rfl, rfl⟩
  | reclaim u t v s1 x y h hv hb hx => obtain ⟨m, rfl⟩ := updateBalance_eq h; exact .inl ⟨rfl, rfl⟩
  | receive src sn u t v s1 h => obtain ⟨m, rfl⟩ := updateBalance_eq h; exact .inl ⟨rfl, rfl⟩
  | start u t v net con s1 x y h hv hb hx => obtain ⟨m, rfl⟩ := updateBalance_eq h; exact .inl ⟨rfl, rfl⟩
  | settle src sn u t v s1 hp h => obtain ⟨m, rfl⟩ := updateBalance_eq h; exact .inl ⟨rfl, rfl⟩
  | refund src sn u t v s1 hp h => obtain ⟨m, rfl⟩ := updateBalance_eq h; exact .inl ⟨rfl, rfl⟩
  | rollback sn u t v s1 hp h => obtain ⟨m, rfl⟩ := updateBalance_eq h; exact .inl ⟨rfl, rfl⟩

/-- C130: the listed names are different, and each has a contract. -/
theorem C130_names (ops : List Op) : (run c ops).names.Nodup ∧ ∀ n ∈ (run c ops).names, (run c ops).addrs n ≠ none := by
  refine run_inv (P := fun s => s.names.Nodup ∧ ∀ n ∈ s.names, s.addrs n ≠ none) ⟨List.nodup_nil, fun n h => by cases h⟩ ?_ ops
  rintro s s' hs ⟨h1, h2⟩
  rcases step_registry hs with ⟨e1, e2⟩ | ⟨n, a, hn, e1, e2⟩ | ⟨n, hn, e1, e2⟩
  · rw [e1, e2]; exact ⟨h1, h2⟩
  · rw [e1, e2]
    constructor
    · rw [List.nodup_append]
      refine ⟨h1, by simp, ?_⟩
      intro x hx y hy hxy
      rw [List.mem_singleton] at hy
      rw [hxy, hy] at hx; exact h2 n hx hn
    · intro x hx
      by_cases hxn : x = n
      · rw [hxn, PyDb.upd_same]; exact Option.some_ne_none _
      · rw [PyDb.upd_other _ _ hxn]
        rcases List.mem_append.1 hx with hx | hx
        · exact h2 x hx
        · exact absurd (List.mem_singleton.1 hx) hxn
  · rw [e1, e2]
    exact ⟨h1.erase n, fun x hx => h2 x (List.mem_of_mem_erase hx)⟩

/-- C130: the contract of a name never changes. -/
theorem C130_contract_fixed (ops more : List Op) (n : Str) (a : Nat) (h : (run c ops).addrs n = some a) : (run c (ops ++ more)).addrs n = some a := by
  have key : Steps c (run c ops) (run c (ops ++ more)) := by
    unfold run
    rw [List.foldl_append]
    generalize ops.foldl (after c) initSt = s
    induction more generalizing s with
    | nil => exact .refl s
    | cons o t ih => exact (after_steps s o).trans (ih _)
  refine key.inv (P := fun s => s.addrs n = some a) ?_ h
  intro s s' hs h
  rcases step_registry hs with ⟨e1, _⟩ | ⟨n', a', hn, e1, _⟩ | ⟨n', _, e1, _⟩
  · rw [e1]; exact h
  · rw [e1, PyDb.upd_other _ _ (by intro e; rw [e, hn] at h; cases h)]; exact h
  · rw [e1]; exact h

/-- C130 (false that a name can be registered again): once registered it cannot, also after it was unregistered. -/
theorem C130_never_again (ops more : List Op) (n : Str) (x a a' : Nat) (h : (run c ops).addrs n = some a) :
    exec c (.register x n a') (run c (ops ++ more)) = .btp 41 ∨ exec c (.register x n a') (run c (ops ++ more)) = .btp 42 := by
  simp only [exec, register, C130_contract_fixed ops more n a h, Option.isSome_some, if_true]
  by_cases hx : x ≠ c.owner
  · rw [if_pos hx]; exact .inl rfl
  · rw [if_neg hx]; exact .inr rfl

/-- The state with other names listed. -/
def relist (l : List Str) (s : St) : St := { s with names := l }
def mapR (f : St → St) : R St → R St
  | .ok s => .ok (f s)
  | .btp e => .btp e
  | .other => .other

theorem update_relist (s : St) (l : List Str) (u : Nat) (t : Str) (a b : Int) :
    updateBalance c (relist l s) u t a b = (updateBalance c s u t a b).map (relist l) := by
  unfold updateBalance
  show (match getBalance c s u t with | none => none | some (x, y) => _) = _
  cases getBalance c s u t with
  | none => rfl
  | some z => rfl

theorem or_mapR {α : Type} (l : List Str) (x : Option α) (k k' : α → R St) (h : ∀ a, k' a = mapR (relist l) (k a)) :
    orOther x k' = mapR (relist l) (orOther x k) := by
  cases x with
  | none => rfl
  | some a => exact h a

theorem or_update (s : St) (l : List Str) (u : Nat) (t : Str) (a b : Int) (k : St → R St) (hk : ∀ s1, k (relist l s1) = mapR (relist l) (k s1)) :
    orOther (updateBalance c (relist l s) u t a b) k = mapR (relist l) (orOther (updateBalance c s u t a b) k) := by
  rw [update_relist]
  cases updateBalance c s u t a b with
  | none => rfl
  | some s1 => exact hk s1

theorem if_mapR (p : Prop) [Decidable p] (l : List Str) (a b a' b' : R St) (h1 : a' = mapR (relist l) a) (h2 : b' = mapR (relist l) b) :
    (if p then a' else b') = mapR (relist l) (if p then a else b) := by
  by_cases h : p
  · rw [if_pos h, if_pos h, h1]
  · rw [if_neg h, if_neg h, h2]

/-- C130 (false that an unregistered token is out of use): apart from deposits every call does the same whatever names are listed, so
unregistering stops deposits only. -/
theorem C130_unregister_stops_deposits_only (s : St) (l : List Str) :
    (∀ x t to v r, transfer c r (relist l s) x t to v = mapR (relist l) (transfer c r s x t to v)) ∧
    (∀ x t v, reclaim c (relist l s) x t v = mapR (relist l) (reclaim c s x t v)) ∧
    (∀ r src sn j, onRequest c r (relist l s) src sn j = mapR (relist l) (onRequest c r s src sn j)) := by
  refine ⟨?_, ?_, ?_⟩
  · intro x t to v r
    unfold transfer
    refine if_mapR _ l _ _ _ _ rfl (if_mapR _ l _ _ _ _ rfl ?_)
    cases PyAddr.fromStringValid to with
    | none => rfl
    | some a =>
      refine or_mapR l _ _ _ ?_
      rintro ⟨y, z⟩
      refine if_mapR _ l _ _ _ _ rfl ?_
      refine or_update s l _ _ _ _ _ ?_
      intro s1
      cases r <;> rfl
  · intro x t v
    unfold reclaim
    refine if_mapR _ l _ _ _ _ rfl (if_mapR _ l _ _ _ _ rfl ?_)
    refine or_mapR l _ _ _ ?_
    rintro ⟨y, z⟩
    refine if_mapR _ l _ _ _ _ rfl ?_
    exact or_update s l _ _ _ _ _ (fun _ => rfl)
  · intro r src sn j
    unfold onRequest
    refine or_mapR l _ _ _ ?_
    rintro ⟨u, v, t⟩
    refine if_mapR _ l _ _ _ _ ?_ ?_
    · refine or_update s l _ _ _ _ _ ?_
      intro s1; cases r <;> rfl
    · cases r <;> rfl

/-- C130: a deposit counts for a listed token of the calling contract. -/
theorem C130_deposit (s s' : St) (x f : Nat) (v : Int) (h : exec c (.tokenFallback x f v) s = .ok s') :
    0 ≤ v ∧ ∃ t ∈ s.names, t ≠ [] ∧ s.addrs t = some x ∧ s'.log = s.log ++ [.deposit f t v] := by
  simp only [exec, tokenFallback] at h
  split at h
  · cases h
  · rename_i hv
    split at h
    · cases h
    · rename_i t ht
      split at h
      · cases h
      · rename_i hne
        obtain ⟨s1, h1, h⟩ := orOther_ok h
        obtain ⟨m, rfl⟩ := updateBalance_eq h1
        cases h
        exact ⟨by omega, t, List.mem_of_find?_eq_some ht, hne, by simpa using List.find?_some ht, rfl⟩

/-- C130: contracts without a listed name cannot deposit. -/
theorem C130_stranger (s : St) (x f : Nat) (v : Int) (hv : 0 ≤ v) (h : ∀ t ∈ s.names, s.addrs t ≠ some x) :
    exec c (.tokenFallback x f v) s = .btp 43 := by
  simp only [exec, tokenFallback]
  rw [if_neg (by omega)]
  have : s.names.find? (fun n => s.addrs n = some x) = none := by
    rw [List.find?_eq_none]; intro t ht; simpa using h t ht
  rw [this]

/-! ### C131: messages -/

/-- C131: what makes the service raise an exception that is not of the protocol, in every state. -/
theorem C131_raises (s : St) (src : Str) (sn : Int) (b : Bytes) (r : Sent)
    (h : c.parse b = none ∨ ∃ j, c.parse b = some j ∧ (field j "type".toList = none ∨ (field j "type".toList = some (.str sReq) ∧ readRequest c j = none))) :
    exec c (.message c.bmc src sn b r) s = .other := by
  simp only [exec, onMessage]
  rw [if_neg (by simp)]
  rcases h with h | ⟨j, h1, h2 | ⟨h2, h3⟩⟩
  · rw [h]; rfl
  · rw [h1]; simp only [orOther, h2]
  · rw [h1]; simp only [orOther, h2, if_true, onRequest, h3]

/-- C131: a request that can be read: a registered token is credited and the answer is 0; otherwise the answer is −1 and nothing else happens. -/
theorem C131_request (s : St) (src : Str) (sn : Int) (b : Bytes) (j : Json) (u : Nat) (v : Int) (t : Str) (L : Law c)
    (h1 : c.parse b = some j) (h2 : field j "type".toList = some (.str sReq)) (h3 : readRequest c j = some (u, v, t)) (x y : Int)
    (hb : getBalance c s u t = some (x, y)) :
    (s.addrs t = none → exec c (.message c.bmc src sn b .ok) s = .ok { s with log := s.log ++ [.send src sn (some (-1))] }) ∧
    (s.addrs t ≠ none → ∃ s', exec c (.message c.bmc src sn b .ok) s = .ok s' ∧ getBalance c s' u t = some (x + v, y) ∧
      s'.log = s.log ++ [.receive src sn u t v, .send src sn (some 0)] ∧ s'.pending = s.pending ∧
      ∀ u' t', ¬ (u' = u ∧ t' = t) → getBalance c s' u' t' = getBalance c s u' t') := by
  have e : exec c (.message c.bmc src sn b .ok) s = onRequest c .ok s src sn j := by
    simp only [exec, onMessage]
    rw [if_neg (by simp), h1]
    simp only [orOther, h2, if_true]
  rw [e]
  constructor
  · intro hn
    simp only [onRequest, h3, orOther, hn, Option.isSome_none, Bool.false_eq_true, if_false, sendMsg]
  · intro hn
    obtain ⟨s1, hs1⟩ := updateBalance_ok hb v 0
    have hsome : (s.addrs t).isSome = true := by
      cases hh : s.addrs t with
      | none => exact absurd hh hn
      | some _ => rfl
    obtain ⟨g, b1, b2, _⟩ := getBalance_update L hs1 hb
    refine ⟨{ s1 with log := (s1.log ++ [.receive src sn u t v]) ++ [.send src sn (some 0)] }, ?_, ?_, ?_, b2, ?_⟩
    · simp only [onRequest, h3, orOther, hsome, if_true, hs1, sendMsg]
    · have := g u t
      rw [if_pos (by exact ⟨rfl, rfl⟩), Int.add_zero] at this
      exact this
    · show (s1.log ++ [_]) ++ [_] = _
      rw [b1, List.append_assoc]; rfl
    · intro u' t' hne
      have := g u' t'
      rw [if_neg hne] at this; exact this

/-- C131 (false that answers end an exchange): a message of another type is answered with one that is again of another type; two such services
answer each other for ever. -/
theorem C131_unknown (s : St) (src : Str) (sn : Int) (b : Bytes) (j ty : Json) (h1 : c.parse b = some j) (h2 : field j "type".toList = some ty)
    (h3 : ∀ s, ty = .str s → s ≠ sReq ∧ s ≠ sRes) :
    exec c (.message c.bmc src sn b .ok) s = .ok { s with log := s.log ++ [.send src sn none] } := by
  simp only [exec, onMessage]
  rw [if_neg (by simp), h1]
  simp only [orOther, h2]
  cases ty with
  | str y =>
    have := h3 y rfl
    simp only [this.1, this.2, if_false, sendMsg]
  | _ => rfl

/-- The type of the answer to a message of unknown type (token_bsh.py:64, 319-322). -/
def unknownJ : Json := .obj [("type".toList, .str "res_unknown_type".toList)]

/-- C131: the answer to the answer is the same answer. -/
theorem C131_bounce (s : St) (src : Str) (sn : Int) (b : Bytes) (h : c.parse b = some unknownJ) :
    exec c (.message c.bmc src sn b .ok) s = .ok { s with log := s.log ++ [.send src sn none] } := by
  refine C131_unknown s src sn b unknownJ (.str "res_unknown_type".toList) h rfl ?_
  intro y hy
  injection hy with hy
  rw [← hy]
  exact ⟨by decide, by decide⟩

/-- C131: nobody but the message center gives messages or errors. -/
theorem C131_only_center (s : St) (x : Nat) (src : Str) (sn : Int) (b : Bytes) (r : Sent) (hx : x ≠ c.bmc) :
    exec c (.message x src sn b r) s = .btp 41 ∧ exec c (.error x sn) s = .btp 41 := by
  constructor
  · simp only [exec, onMessage]; rw [if_pos hx]
  · simp only [exec, onError]; rw [if_pos hx]

/-! ### With the message center -/

/-- What the message center sees of the result. -/
def outOf : R St → PyBmc.Out
  | .ok _ => .done
  | .btp e => .btp e []
  | .other => .other

/-- C131 (false that no message blocks a link): while the service is registered, a relay call with a message for it that the service cannot
read fails, in all states of both contracts; so the message and all later ones of that link are not taken. -/
theorem C131_blocks (b : PyBmc.Cfg) (ts : St) (m : PyBmc.Msg) (svc raw p : Bytes) (sn : Int) (src : Str) (r : Sent) (hm : PyBmc.readMsg b raw = some m)
    (hd : m.dst.map (·.toStr) = some b.me.toStr) (hs : m.svc = some svc) (hse : svc ≠ PyBmc.bEvent) (hss : svc ≠ PyBmc.bSack) (hn : m.sn = some sn)
    (h0 : 0 ≤ sn) (_hpay : m.payload = some p)
    (hbad : c.parse p = none ∨ ∃ j, c.parse p = some j ∧ (field j "type".toList = none ∨ (field j "type".toList = some (.str sReq) ∧ readRequest c j = none)))
    (s : PyBmc.St) (a : Nat) (hreg : PyBmc.get s.services (b.text svc) = some a) (call : PyBmc.St → PyBmc.St) (prev : Str) (gen seq : Nat) :
    PyBmc.item b (outOf (exec c (.message c.bmc src sn p r) ts)) call prev gen seq s raw = none := by
  rw [C131_raises ts src sn p r hbad]
  simp only [PyBmc.item, hm]
  rw [if_pos hd]
  unfold PyBmc.handleMsg
  rw [if_neg (by rw [hs]; intro e; exact hse (Option.some.inj e)), if_neg (by rw [hs]; intro e; exact hss (Option.some.inj e))]
  unfold PyBmc.handleService
  simp only [hs, hn, if_pos h0, hreg, outOf]
  cases m.src <;> rfl

/-! ### Examples -/
open Ex

example : unlist ['b'] [['a'], ['b'], ['c'], ['d']] = [['a'], ['c'], ['d']] := by decide +kernel
/-- After it was unregistered a token can be transferred, received and reclaimed, but not deposited or registered. -/
example : show2 (run cfg (setup ++ [.unregister 0 ['T'], .tokenFallback 7 1 9, .register 0 ['T'] 8, .transfer 1 ['T'] to 30 .ok, .reclaim 1 ['T'] 20 .nil true])) 1 =
    some (50, 30) := by decide +kernel
example : (run cfg (setup ++ [.unregister 0 ['T'], .register 0 ['T'] 8])).addrs ['T'] = some 7 := by decide +kernel
/-- C130 (false that a deposit counts for one token): two names for one contract: the first one listed is credited. -/
theorem C130_same_contract : ((run cfg [.register 0 ['A'] 7, .register 0 ['T'] 7, .tokenFallback 7 1 5, .unregister 0 ['A'], .tokenFallback 7 1 6]).log) =
    [.deposit 1 ['A'] 5, .deposit 1 ['T'] 6] := by decide +kernel
/-- C131 (false that a request is taken once): the service does not note the numbers of requests; given twice it credits twice. -/
theorem C131_replay : show2 (run cfg (setup ++ [.message 9 ['b'] 4 [1] .ok, .message 9 ['b'] 4 [1] .ok])) 2 = some (10, 0) := by decide +kernel
example : (run cfg (setup ++ [.message 9 ['b'] 4 [5] .ok])).log.getLast? = some (.send ['b'] 4 none) := by decide +kernel
example : cfg.parse [6] = some (reqJ "five".toList (.str ['T'])) ∧ (readRequest cfg (reqJ "five".toList (.str ['T']))).isSome = false := ⟨rfl, by decide +kernel⟩

end Verif.PyToken
