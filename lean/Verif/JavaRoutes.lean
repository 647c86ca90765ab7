import Verif.JavaBmcInv
/-!
What an ICON message center (JavaBmc) tells the others about its links, and what it learns about theirs.

* An announcement is a message for the service `bmc` with sn ≥ 0 whose body is Link, Unlink or Init (BTPMessageCenter.java:639-675).
* `told` is what the receiver of a link's messages makes of them if it follows `addReachable` and `removeReachable`; `learnt` is the same for the
  messages this message center handled.
-/
namespace Verif.JavaBmc
open Verif
open Verif.SolBmc (FM upd FeeInfo)

variable (c : Cfg)

/-! ### Announcements -/

/-- BTPMessageCenter.java:677-686 `addReachable` on the list. -/
def addAll (r rs : List String) : List String := rs.foldl (fun acc x => if x ∈ acc then acc else acc ++ [x]) r

/-- Whether a message is a Link, Unlink or Init (BTPMessageCenter.java:585-593, 639-675). -/
def isAnn (m : Msg) : Bool :=
  decide (m.svc = "bmc") && decide (0 ≤ m.sn) &&
    match c.decInner m.body with
    | some (.link _) => true
    | some (.unlink _) => true
    | some (.initial _) => true
    | _ => false

/-- BTPMessageCenter.java:661-674, 677-692: what an announcement does to the addresses reachable over the link it came from. -/
def ann (r : List String) (m : Msg) : List String :=
  if isAnn c m = true then
    match c.decInner m.body with
    | some (.link x) => addAll r [x]
    | some (.unlink x) => r.erase x
    | some (.initial l) => addAll r l
    | _ => r
  else r

/-- The messages emitted for a link since it was last added, in order. -/
def since (a : String) : List Event → List Msg → List Msg
  | [], acc => acc
  | .message next _ m :: t, acc => since a t (if next = a then acc ++ [m] else acc)
  | .chain _ next _ m :: t, acc => since a t (if next = a then acc ++ [m] else acc)
  | .start link :: t, acc => since a t (if link = a then [] else acc)
  | _ :: t, acc => since a t acc

/-- The addresses the other side of a link knows after the messages emitted for it. -/
def told (s : St) (a : String) : List String := (since a s.log []).foldl (ann c) []

/-- The messages handled over one link (of the ones added), in order; `none` is one given up by the owner. -/
def handled (g : Nat) (d : List (Nat × Nat × Option Msg)) : List (Option Msg) := (d.filter (fun e => e.1 = g)).map (fun e => e.2.2)

/-- The addresses learnt over one link. -/
def learnt (g : Nat) (d : List (Nat × Nat × Option Msg)) : List String := ((handled g d).filterMap id).foldl (ann c) []

/-- A message over a link: if it is an announcement, it is from the chain of the link and for this one. -/
def Honest (prev : String) (m : Msg) : Prop := isAnn c m = true → c.netOf prev = some m.src ∧ m.dst = c.net

mutual
/-- Calls of contracts that were called: messages and claims, but nothing by the owners, and no relay calls. -/
def Op.mild : Op → Bool
  | .send _ _ _ _ _ _ _ => true
  | .claim _ acts _ _ _ _ => acts.mild
  | _ => false
def Ops.mild : Ops → Bool
  | .nil => true
  | .cons o t => o.mild && t.mild
end

def Items.mild : Items → Bool
  | .nil => true
  | .cons _ _ _ acts t => acts.mild && t.mild

/-- Transactions in which called contracts are mild. -/
def Op.tame : Op → Bool
  | .claim _ acts _ _ _ _ => acts.mild
  | .relay _ _ items => items.mild
  | _ => true

/-! ### Lists -/

theorem since_append (a : String) (l2 : List Event) : ∀ (l1 : List Event) (acc : List Msg), since a (l1 ++ l2) acc = since a l2 (since a l1 acc)
  | [], acc => rfl
  | e :: t, acc => by
    cases e <;> simp only [List.cons_append, since] <;> exact since_append a l2 t _

theorem handled_append (g : Nat) (a b : List (Nat × Nat × Option Msg)) : handled g (a ++ b) = handled g a ++ handled g b := by
  unfold handled; rw [List.filter_append, List.map_append]

theorem handled_one (g g' n : Nat) (m : Option Msg) : handled g [(g', n, m)] = if g' = g then [m] else [] := by
  unfold handled
  by_cases h : g' = g
  · simp [h]
  · simp [h]

theorem mem_addAll (x : String) : ∀ (rs r : List String), x ∈ addAll r rs ↔ x ∈ r ∨ x ∈ rs
  | [], r => by simp [addAll]
  | y :: t, r => by
    have ih := mem_addAll x t (if y ∈ r then r else r ++ [y])
    have : addAll r (y :: t) = addAll (if y ∈ r then r else r ++ [y]) t := rfl
    rw [this, ih]
    by_cases h : y ∈ r
    · rw [if_pos h]
      simp only [List.mem_cons]
      constructor
      · rintro (h1 | h1)
        · exact .inl h1
        · exact .inr (.inr h1)
      · rintro (h1 | h1 | h1)
        · exact .inl h1
        · subst h1; exact .inl h
        · exact .inr h1
    · rw [if_neg h]
      simp only [List.mem_append, List.mem_cons, List.not_mem_nil, or_false, or_assoc]

theorem nodup_addAll : ∀ (rs r : List String), r.Nodup → (addAll r rs).Nodup
  | [], _, h => h
  | y :: t, r, h => by
    have : addAll r (y :: t) = addAll (if y ∈ r then r else r ++ [y]) t := rfl
    rw [this]
    apply nodup_addAll t
    split
    · exact h
    · rename_i hy
      rw [List.nodup_append]
      refine ⟨h, by simp, ?_⟩
      intro a ha b hb e
      simp only [List.mem_cons, List.not_mem_nil, or_false] at hb
      subst hb; subst e
      exact hy ha

variable {c}

theorem ann_none {m : Msg} (h : isAnn c m = false) (r : List String) : ann c r m = r := by
  unfold ann; rw [if_neg (by rw [h]; decide)]

theorem foldl_ann_none : ∀ (ms : List Msg) (r : List String), (∀ m ∈ ms, isAnn c m = false) → ms.foldl (ann c) r = r
  | [], _, _ => rfl
  | m :: t, r, h => by
    rw [List.foldl_cons, ann_none (h m List.mem_cons_self)]
    exact foldl_ann_none t r (fun x hx => h x (List.mem_cons_of_mem _ hx))

theorem nodup_ann {r : List String} (h : r.Nodup) (m : Msg) : (ann c r m).Nodup := by
  unfold ann
  split
  · split
    · exact nodup_addAll _ _ h
    · exact h.erase _
    · exact nodup_addAll _ _ h
    · exact h
  · exact h

theorem nodup_anns : ∀ (ms : List Msg) (r : List String), r.Nodup → (ms.foldl (ann c) r).Nodup
  | [], _, h => h
  | m :: t, r, h => by rw [List.foldl_cons]; exact nodup_anns t _ (nodup_ann h m)

theorem learnt_append (g : Nat) (a b : List (Nat × Nat × Option Msg)) :
    learnt c g (a ++ b) = ((handled g b).filterMap id).foldl (ann c) (learnt c g a) := by
  unfold learnt; rw [handled_append, List.filterMap_append, List.foldl_append]

theorem isAnn_of {m : Msg} (h1 : m.svc ≠ "bmc" ∨ m.sn < 0) : isAnn c m = false := by
  unfold isAnn
  rcases h1 with h | h
  · simp [h]
  · have : ¬ (0 ≤ m.sn) := by omega
    simp [this]

/-! ### Quiet changes -/

/-- What matters of a link here. -/
def core (p : String × Link) : String × String × List String × Nat := (p.1, p.2.addr, p.2.reach, p.2.gen)

/-- No link is added, removed or learns anything, and no announcement is emitted. -/
structure Q (c : Cfg) (s s' : St) : Prop where
  links : s'.links.map core = s.links.map core
  names : s'.names = s.names
  disp : s'.disp = s.disp
  svc : s.services "bmc" = none → s'.services "bmc" = none
  log : ∀ a, ∃ ms, since a s'.log [] = since a s.log [] ++ ms ∧ (∀ m ∈ ms, isAnn c m = false) ∧ (ms ≠ [] → a ∈ s.links.map (fun p => p.2.addr))

namespace Q

theorem addrs {L L' : List (String × Link)} (h : L'.map core = L.map core) : L'.map (fun p => p.2.addr) = L.map (fun p => p.2.addr) := by
  have : ∀ l : List (String × Link), l.map (fun p => p.2.addr) = (l.map core).map (fun x => x.2.1) := fun l => by rw [List.map_map]; rfl
  rw [this, this, h]

theorem same {s s' : St} (h1 : s'.links = s.links) (h2 : s'.names = s.names) (h3 : s'.disp = s.disp) (h4 : s'.services = s.services)
    (h5 : s'.log = s.log) : Q c s s' :=
  ⟨by rw [h1], h2, h3, by rw [h4]; exact id, fun a => ⟨[], by rw [h5, List.append_nil], nofun, fun h => absurd rfl h⟩⟩

theorem refl (s : St) : Q c s s := same rfl rfl rfl rfl rfl

theorem trans {s s1 s2 : St} (h : Q c s s1) (k : Q c s1 s2) : Q c s s2 := by
  refine ⟨k.links.trans h.links, k.names.trans h.names, k.disp.trans h.disp, fun x => k.svc (h.svc x), fun a => ?_⟩
  obtain ⟨ms, e1, n1, l1⟩ := h.log a
  obtain ⟨ks, e2, n2, l2⟩ := k.log a
  refine ⟨ms ++ ks, by rw [e2, e1, List.append_assoc], fun m hm => ?_, fun hne => ?_⟩
  · rcases List.mem_append.1 hm with h | h
    · exact n1 m h
    · exact n2 m h
  · by_cases hm : ms = []
    · have hk : ks ≠ [] := by intro e; rw [hm, e] at hne; exact hne rfl
      rw [← addrs h.links]; exact l2 hk
    · exact l1 hm

theorem addIn (s : St) (n : String) (v : Nat) : Q c s (addIn s n v) := same rfl rfl rfl rfl rfl
theorem addLost (s : St) (n : String) (v : Nat) : Q c s (addLost s n v) := same rfl rfl rfl rfl rfl
theorem addTwice (s : St) (n : String) (v : Nat) : Q c s (addTwice s n v) := same rfl rfl rfl rfl rfl
theorem inFee (s : St) (f : Option FeeInfo) : Q c s (inFee s f) := by cases f <;> exact same rfl rfl rfl rfl rfl
theorem lostFee (s : St) (f : Option FeeInfo) : Q c s (lostFee s f) := by cases f <;> exact same rfl rfl rfl rfl rfl
theorem twiceFee (s : St) (f : Option FeeInfo) : Q c s (twiceFee s f) := by cases f <;> exact same rfl rfl rfl rfl rfl
theorem addReward (s : St) (a : Nat) (n : String) (v : Nat) : Q c s (addReward s a n v) := by
  unfold JavaBmc.addReward; split <;> exact same rfl rfl rfl rfl rfl
theorem collect (s : St) (f : Option FeeInfo) : Q c s (collect c s f) := by
  cases f with
  | none => exact refl s
  | some f => exact addReward s _ _ _
theorem accumulate (s : St) (a : Nat) (f : Option FeeInfo) : Q c s (accumulate s a f).1 := by
  cases f with
  | none => exact refl s
  | some f =>
    simp only [JavaBmc.accumulate]
    split
    · exact refl s
    · exact addReward s _ _ _

theorem core_put : ∀ (L : List (String × Link)) (k : String) (l l' : Link), Dict.get L k = some l → l'.addr = l.addr → l'.reach = l.reach → l'.gen = l.gen →
    (Dict.put L k l').map core = L.map core
  | [], k, l, l', h, _, _, _ => by simp [Dict.get] at h
  | (a, b) :: t, k, l, l', h, h1, h2, h3 => by
    simp only [Dict.get] at h
    simp only [Dict.put]
    by_cases e : a = k
    · rw [if_pos e] at h ⊢
      cases h
      simp only [List.map_cons, core, h1, h2, h3, e]
    · rw [if_neg e] at h ⊢
      rw [List.map_cons, List.map_cons, core_put t k l l' h h1 h2 h3]

theorem putLink {s : St} {net : String} {l l' : Link} (hn : c.netOf l'.addr = some net) (hl : Dict.get s.links net = some l) (h1 : l'.addr = l.addr)
    (h2 : l'.reach = l.reach) (h3 : l'.gen = l.gen) : Q c s (putLink c s l') := by
  rw [putLink_eq s l' net hn]
  exact ⟨core_put _ _ _ _ hl h1 h2 h3, rfl, rfl, id, fun a => ⟨[], by rw [List.append_nil], nofun, fun h => absurd rfl h⟩⟩

theorem push {s : St} (e : Event) (a0 : String) (m : Msg) (ha : a0 ∈ s.links.map (fun p => p.2.addr)) (hm : isAnn c m = false)
    (he : ∀ a acc, since a [e] acc = if a0 = a then acc ++ [m] else acc) : Q c s { s with log := s.log ++ [e] } := by
  refine ⟨rfl, rfl, rfl, id, fun a => ?_⟩
  show ∃ ms, since a (s.log ++ [e]) [] = _ ∧ _
  rw [since_append, he]
  by_cases h : a0 = a
  · exact ⟨[m], by rw [if_pos h], fun x hx => by rw [List.mem_singleton.1 hx]; exact hm, fun _ => h ▸ ha⟩
  · exact ⟨[], by rw [if_neg h, List.append_nil], nofun, fun h => absurd rfl h⟩

theorem dropped (s : St) (prev : String) (seq : Nat) (m : Msg) : Q c s { s with log := s.log ++ [.dropped prev seq m] } :=
  ⟨rfl, rfl, rfl, id, fun a => ⟨[], by show since a (s.log ++ _) [] = _; rw [since_append, List.append_nil]; rfl, nofun, fun h => absurd rfl h⟩⟩

theorem has_addr {s : St} {a : String} {l : Link} (h : getLinkA c s a = some l) : a ∈ s.links.map (fun p => p.2.addr) := by
  obtain ⟨net, _, hg, ha⟩ := getLinkA_some c h
  exact List.mem_map.2 ⟨_, Dict.get_mem hg, ha⟩

theorem sendMsg (env : Env) (s : St) (next : String) (m : Msg) (hm : isAnn c m = false) : Q c s (JavaBmc.sendMsg c env s next m).2 := by
  have hput : ∀ l, getLinkA c s next = some l → Q c s (JavaBmc.putLink c s { l with tx := l.tx + 1 }) := by
    intro l hl
    obtain ⟨net, hn, hg, ha⟩ := getLinkA_some c hl
    exact putLink (by show c.netOf l.addr = _; rw [ha]; exact hn) hg rfl rfl rfl
  have hadr : ∀ l, getLinkA c s next = some l → next ∈ (JavaBmc.putLink c s { l with tx := l.tx + 1 }).links.map (fun p => p.2.addr) := by
    intro l hl
    rw [addrs (hput l hl).links]
    exact has_addr hl
  have hlog : ∀ l, (JavaBmc.putLink c s l).log = s.log := fun l => (putLink_rest s l).1
  rcases Tr.sendMsg (c := c) (env := env) (s := s) (next := next) (m := m) with ⟨_, e⟩ | ⟨_, l, hl, ⟨_, e⟩ | ⟨id, _, _, e⟩⟩
  · rw [e]; exact refl s
  · rw [e, ← hlog { l with tx := l.tx + 1 }]
    exact (hput l hl).trans (push _ next m (hadr l hl) hm (fun a acc => rfl))
  · rw [e, ← hlog { l with tx := l.tx + 1 }]
    exact (hput l hl).trans (push _ next m (hadr l hl) hm (fun a acc => rfl))

theorem sendMsg' {env : Env} {s s' : St} {next : String} {m : Msg} {r} (h : JavaBmc.sendMsg c env s next m = (r, s')) (hm : isAnn c m = false) : Q c s s' := by
  have := sendMsg (c := c) env s next m hm
  rw [h] at this
  exact this

/-- What services and claims may put into a message. -/
def Fit (c : Cfg) (svc : String) (body : Bytes) : Prop := svc ≠ "bmc" ∨ ∀ src dst sn nsn fee, isAnn c ⟨src, dst, svc, sn, body, nsn, fee⟩ = false

theorem Fit.no {svc : String} {body : Bytes} (h : Fit c svc body) (src dst : String) (sn nsn : Int) (fee : Option FeeInfo) :
    isAnn c ⟨src, dst, svc, sn, body, nsn, fee⟩ = false := by
  rcases h with h | h
  · exact isAnn_of (.inl h)
  · exact h _ _ _ _ _

theorem sendReply {env : Env} {s s' : St} {next : String} {value : Nat} {to svc : String} {sn : Int} {body : Bytes} {r}
    (h : JavaBmc.sendReply c env s next value to svc sn body = (r, s')) (hf : Fit c svc body) : Q c s s' := by
  unfold JavaBmc.sendReply at h
  split at h
  · cases h; exact refl s
  · rename_i rr hr
    have t1 : Q c s (JavaBmc.addReward (JavaBmc.addIn { s with resp := s.resp.set (to, svc, sn) none, coins := s.coins + value } c.net value) c.addr c.net value) :=
      Q.trans (s1 := { s with resp := s.resp.set (to, svc, sn) none, coins := s.coins + value }) (same rfl rfl rfl rfl rfl)
        ((addIn _ _ _).trans (addReward _ _ _ _))
    simp only at h
    split at h
    · rename_i e s3 hs
      cases h
      exact t1.trans ((sendMsg' hs (hf.no _ _ _ _ _)).trans (lostFee _ _))
    · rename_i s3 hs
      cases h
      exact t1.trans (sendMsg' hs (hf.no _ _ _ _ _))

theorem sendRequest {env : Env} {s s' : St} {next : String} {value : Nat} {to svc : String} {sn : Int} {body : Bytes} {r}
    (h : JavaBmc.sendRequest c env s next value to svc sn body = (r, s')) (hf : Fit c svc body) : Q c s s' := by
  unfold JavaBmc.sendRequest at h
  simp only at h
  split at h
  · cases h; exact same rfl rfl rfl rfl rfl
  · rename_i hv
    split at h
    · rename_i e s3 hs
      cases h
      refine Q.trans ?_ ((sendMsg' hs (hf.no _ _ _ _ _)).trans (lostFee _ _))
      exact Q.trans (s1 := { s with nsn := s.nsn + 1, coins := s.coins + value }) (same rfl rfl rfl rfl rfl) ((addIn _ _ _).trans (addReward _ _ _ _))
    · rename_i s3 hs
      cases h
      refine Q.trans ?_ (sendMsg' hs (hf.no _ _ _ _ _))
      exact Q.trans (s1 := { s with nsn := s.nsn + 1, coins := s.coins + value }) (same rfl rfl rfl rfl rfl) ((addIn _ _ _).trans (addReward _ _ _ _))

theorem sendWithFee {env : Env} {s s' : St} {value : Nat} {to svc : String} {sn : Int} {body : Bytes} {b1 b2 : Bool} {r}
    (h : JavaBmc.sendWithFee c env s value to svc sn body b1 b2 = (r, s')) (hf : Fit c svc body) : Q c s s' := by
  unfold JavaBmc.sendWithFee at h
  split at h
  · cases h; exact refl s
  · split at h
    · exact sendReply h hf
    · exact sendRequest h hf

theorem sendMessage {env : Env} {s s' : St} {caller value : Nat} {to svc : String} {sn : Int} {body : Bytes}
    (h : JavaBmc.sendMessage c env s caller value to svc sn body = some s') (hsv : s.services "bmc" = none) : Q c s s' := by
  unfold JavaBmc.sendMessage at h
  split at h
  · cases h
  · rename_i a ha
    have hne : svc ≠ "bmc" := by intro e; rw [e, hsv] at ha; cases ha
    split at h
    · cases h
    · split at h
      · cases h
      · rename_i r s1 hs
        cases h
        exact sendWithFee hs (.inl hne)

theorem sendError (env : Env) (s : St) (prev : String) (m : Msg) (e : Ex) (hm : m.sn > 0) : Q c s (JavaBmc.sendError c env s prev m e).2 := by
  unfold JavaBmc.sendError
  exact sendMsg _ _ _ _ (isAnn_of (.inr (by show -m.sn < 0; omega)))

theorem handleResponse (s : St) (nsn : Int) (result : Nat) : Q c s (JavaBmc.handleResponse s nsn result).2 := by
  unfold JavaBmc.handleResponse
  split
  · exact refl s
  · rename_i r hr
    simp only
    refine Q.trans (s1 := if result ≠ 0 then JavaBmc.addReward { s with req := s.req.set nsn none } r.caller r.dst r.amount
      else { s with req := s.req.set nsn none, settled := upd s.settled r.dst (s.settled r.dst + r.amount) }) ?_ (same rfl rfl rfl rfl rfl)
    split
    · exact Q.trans (s1 := { s with req := s.req.set nsn none }) (same rfl rfl rfl rfl rfl) (addReward _ _ _ _)
    · exact same rfl rfl rfl rfl rfl

theorem storeFee (s : St) (m : Msg) : Q c s (storeFee c s m) := by
  unfold JavaBmc.storeFee
  split
  · exact refl s
  · split
    · exact (collect s _).trans (same rfl rfl rfl rfl rfl)
    · exact collect s _

theorem unstoreFee (s : St) (m : Msg) : Q c s (unstoreFee s m) := by
  unfold JavaBmc.unstoreFee
  split
  · exact refl s
  · split
    · simp only
      split
      · exact same rfl rfl rfl rfl rfl
      · refine Q.trans (s1 := { s with resp := s.resp.set (m.src, m.svc, m.sn) none }) (same rfl rfl rfl rfl rfl) ?_
        exact (lostFee _ _).trans (twiceFee _ _)
    · exact refl s

end Q

/-- Bodies are read as they were written. -/
def Reads (c : Cfg) : Prop := ∀ i, c.decInner (c.encInner i) = some i

theorem Reads.fit_claim (h : Reads c) (n : Nat) (r : String) : Q.Fit c "bmc" (c.encInner (.claim n r)) := by
  refine .inr fun src dst sn nsn fee => ?_
  unfold isAnn
  rw [h]
  exact Bool.and_false _

theorem Reads.fit_response (h : Reads c) (n : Nat) : Q.Fit c "bmc" (c.encInner (.response n)) := by
  refine .inr fun src dst sn nsn fee => ?_
  unfold isAnn
  rw [h]
  exact Bool.and_false _

namespace Q

/-- Handling in the name of `bmc` what is not an announcement. -/
theorem internalHandle (hr : Reads c) {env : Env} {s s' : St} {src : String} {nsn : Int} {m : Msg} {r}
    (h : JavaBmc.internalHandle c env s src nsn m.body = (r, s')) (hsv : m.svc = "bmc") (hsn : 0 ≤ m.sn) (hm : isAnn c m = false) : Q c s s' := by
  have hm' := hm
  unfold isAnn at hm'
  rw [decide_eq_true hsv, decide_eq_true hsn, Bool.true_and, Bool.true_and] at hm'
  unfold JavaBmc.internalHandle at h
  split at h
  · cases h; exact refl s
  · split at h
    · cases h; exact refl s
    · rename_i amount receiver _ a ha
      simp only at h
      split at h
      · rename_i e s2 hs
        cases h
        exact ((addIn _ _ _).trans (addReward _ _ _ _)).trans ((sendWithFee hs (hr.fit_response 0)).trans (same rfl rfl rfl rfl rfl))
      · rename_i x s2 hs
        cases h
        exact ((addIn _ _ _).trans (addReward _ _ _ _)).trans ((sendWithFee hs (hr.fit_response 0)).trans (same rfl rfl rfl rfl rfl))
  · rename_i code hd
    have := handleResponse (c := c) s (-nsn) code
    rw [h] at this
    exact this
  all_goals (rename_i hd; rw [hd] at hm'; cases hm')

theorem handleMessage (hr : Reads c) {env : Env} {out : Out} {call : St → St} {s s' : St} {m : Msg} {r}
    (hc : ∀ x, x.services "bmc" = none → Q c x (call x)) (hsv : s.services "bmc" = none)
    (h : JavaBmc.handleMessage c env out call s m = (r, s')) (hm : isAnn c m = false) : Q c s s' := by
  unfold JavaBmc.handleMessage at h
  split at h
  · rename_i hsn
    simp only at h
    have hst := storeFee (c := c) s m
    have hsv1 := hst.svc hsv
    generalize JavaBmc.storeFee c s m = s1 at h hst hsv1
    have key : ∀ r1 s2, (if m.svc = "bmc" then JavaBmc.internalHandle c env s1 m.src m.nsn m.body
        else match s1.services m.svc with
          | none => (some exNoBSH, s1)
          | some _ => match out with
            | none => (none, call s1)
            | some code => (some ⟨true, code⟩, s1)) = (r1, s2) → Q c s1 s2 := by
      intro r1 s2 e
      split at e
      · rename_i hb
        exact internalHandle hr e hb hsn hm
      · split at e
        · cases e; exact refl _
        · split at e
          · cases e; exact hc _ hsv1
          · cases e; exact refl _
    split at h
    · rename_i s2 e
      cases h
      exact hst.trans (key _ _ e)
    · rename_i ex s2 e
      cases h
      exact hst.trans ((key _ _ e).trans (unstoreFee _ _))
  · simp only at h
    have hst := collect (c := c) s m.fee
    have hsv1 := hst.svc hsv
    generalize JavaBmc.collect c s m.fee = s1 at h hst hsv1
    split at h
    · cases h; exact hst
    · rename_i code _
      split at h
      · have := handleResponse (c := c) s1 (-m.nsn) code
        rw [h] at this
        exact hst.trans this
      · split at h
        · cases h; exact hst
        · split at h
          · cases h; exact hst.trans (hc _ hsv1)
          · cases h; exact hst

theorem deliver (hr : Reads c) {env : Env} {out : Out} {call : St → St} {s s' : St} {m : Msg} {r}
    (hc : ∀ x, x.services "bmc" = none → Q c x (call x)) (hsv : s.services "bmc" = none)
    (h : JavaBmc.deliver c env out call s m = (r, s')) (hm : isAnn c m = false) : Q c s s' := by
  unfold JavaBmc.deliver at h
  split at h
  · exact handleMessage hr hc hsv h hm
  · split at h
    · cases h; exact refl s
    · exact sendMsg' h hm

theorem failed (env : Env) (prev : String) (seq : Nat) (s : St) (m : Msg) (e : Ex) : Q c s (JavaBmc.failed c env prev seq s m e) := by
  unfold JavaBmc.failed
  split
  · rename_i hsn
    have := sendError (c := c) env s prev m e hsn
    split
    · rename_i s' hs; rw [hs] at this; exact this
    · rename_i s' hs
      rw [hs] at this
      exact this.trans ((collect _ _).trans (dropped _ _ _ _))
  · simp only
    refine (collect s m.fee).trans ?_
    split
    · exact (twiceFee _ _).trans (dropped _ _ _ _)
    · exact dropped _ _ _ _

theorem isAnn_fee (m : Msg) (f : Option FeeInfo) : isAnn c { m with fee := f } = isAnn c m := rfl

/-- A message that is no announcement. -/
theorem item (hr : Reads c) (env : Env) (out : Out) (call : St → St) (caller : Nat) (prev : String) (gen seq : Nat) (s : St) (m : Msg)
    (hc : ∀ x, x.services "bmc" = none → Q c x (call x)) (hsv : s.services "bmc" = none) (hm : isAnn c m = false) :
    Q c { s with disp := s.disp ++ [(gen, seq, some m)] } (JavaBmc.item c env out call caller prev gen seq s m) := by
  have h1 : Q c { s with disp := s.disp ++ [(gen, seq, some m)] } { (JavaBmc.inFee s m.fee) with disp := (JavaBmc.inFee s m.fee).disp ++ [(gen, seq, some m)] } := by
    cases m.fee <;> exact same rfl rfl rfl rfl rfl
  unfold JavaBmc.item
  simp only
  generalize { (JavaBmc.inFee s m.fee) with disp := (JavaBmc.inFee s m.fee).disp ++ [(gen, seq, some m)] } = s0 at h1
  have h2 := h1.trans (accumulate s0 caller m.fee)
  have hsv2 := h2.svc hsv
  generalize JavaBmc.accumulate s0 caller m.fee = q at h2 hsv2
  cases e : JavaBmc.deliver c env out call q.1 { m with fee := q.2 } with
  | mk r s2 =>
    have h3 := deliver hr hc hsv2 e hm
    cases r with
    | none => exact h2.trans h3
    | some ex => exact (h2.trans h3).trans (failed _ _ _ _ _ _)

end Q

mutual
theorem exec_mild (hr : Reads c) (o : Op) (s s' : St) (hq : o.mild = true) (hsv : s.services "bmc" = none) (h : exec c o s = some s') : Q c s s' := by
  cases o with
  | relay caller prev items => simp [Op.mild] at hq
  | send env caller value to svc sn body => simp only [exec] at h; exact Q.sendMessage h hsv
  | claim env acts caller value net receiver =>
    simp only [exec] at h
    simp only [Op.mild] at hq
    unfold claimReward at h
    simp only at h
    split at h
    · cases h
    · split at h
      · split at h
        · cases h
        · split at h
          · cases h
            refine Q.trans ?_ (execOps_mild hr acts _ hq hsv)
            exact Q.same rfl rfl rfl rfl rfl
          · cases h
      · split at h
        · cases h
        · rename_i nsn s2 hs
          cases h
          have h0 := Q.sendWithFee hs (hr.fit_claim _ _)
          refine Q.trans ?_ (Q.trans h0 ?_)
          · exact Q.same rfl rfl rfl rfl rfl
          · exact Q.same rfl rfl rfl rfl rfl
  | drop env caller src seq svc sn nsn fn fv => simp [Op.mild] at hq
  | conf env caller k => simp [Op.mild] at hq
theorem execOps_mild (hr : Reads c) (acts : Ops) (s : St) (hq : acts.mild = true) (hsv : s.services "bmc" = none) : Q c s (execOps c acts s) := by
  cases acts with
  | nil => simp only [execOps]; exact Q.refl s
  | cons o t =>
    simp only [execOps]
    simp only [Ops.mild, Bool.and_eq_true] at hq
    cases h : exec c o s with
    | none => exact execOps_mild hr t s hq.2 hsv
    | some s1 =>
      have h1 := exec_mild hr o s s1 hq.1 hsv h
      exact h1.trans (execOps_mild hr t s1 hq.2 (h1.svc hsv))
end

end Verif.JavaBmc
