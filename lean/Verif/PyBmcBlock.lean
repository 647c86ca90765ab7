import Verif.PyBmcConf
import Verif.PyRlpProps
/-!
C126, C127: messages that block a link, routes and errors of the Python message center.
-/
namespace Verif.PyBmc
open Verif Verif.BtpAddress
open Verif.PyRlp (Val Obj T expect expects)

/-! ### Messages written and read -/

/-- The receiving side reads the bytes of a text as this text. -/
def Readable (c1 c2 : Cfg) (s : Str) : Prop := c2.valid (c1.utf8 s) = true ∧ c2.text (c1.utf8 s) = s

/-- A message written by one center is read by another as it was written. -/
theorem read_write (c1 c2 : Cfg) (src dst : PyAddr.Addr) (svc : Bytes) (sn : Int) (p : Bytes) (hs : Readable c1 c2 src.toStr)
    (hd : Readable c1 c2 dst.toStr) (hs2 : PyAddr.fromString src.toStr = some src) (hd2 : PyAddr.fromString dst.toStr = some dst)
    (hv : c2.valid svc = true) (hl : (writeMsg c1 src (some dst) (some svc) sn p).length < 65536) :
    readMsg c2 (writeMsg c1 src (some dst) (some svc) sn p) = some ⟨some src, some dst, some svc, some sn, some p⟩ := by
  have h := PyRlp.C115_roundtrip_partial c2.valid (.struct [.str, .str, .str, .int, .bytes])
    (.list [.str (c1.utf8 src.toStr), .str (c1.utf8 dst.toStr), .str svc, .int sn, .bytes p])
    (.list [.str (c1.utf8 src.toStr), .str (c1.utf8 dst.toStr), .str svc, .int sn, .bytes p])
    (by simp [expect, expects, hs.1, hd.1, hv]) hl
  unfold readMsg
  simp only [writeMsg, Option.map_some, Option.getD_some, strObj] at h ⊢
  rw [h]
  simp [addrOf, hs.2, hd.2, hs2, hd2, strOf, intOf, bytesOf]

/-! ### C126: messages that block a link -/

/-- Messages at which the dispatch fails whatever the state is. -/
def Poison (c : Cfg) (b : Bytes) : Prop := ∀ out call prev gen seq s, item c out call prev gen seq s b = none

variable (c : Cfg)

/-- C126: these messages fail in every state: events that cannot be read or are unknown, unreadable acknowledgements, a null number,
errors with unreadable content, a null destination. -/
theorem C126_poison (b : Bytes) (m : Msg) (hr : readMsg c b = some m)
    (h : m.dst = none ∨ (m.dst.map (·.toStr) = some c.me.toStr ∧
      ((m.svc = some bEvent ∧ (∀ e vs, readEvent c m.payload = some (e, vs) → e ≠ some bLink ∧ e ≠ some bUnlink)) ∨
       (m.svc = some bSack ∧ readSack c m.payload = none) ∨
       (m.svc ≠ some bEvent ∧ m.svc ≠ some bSack ∧ m.sn = none) ∨
       (m.svc ≠ some bEvent ∧ m.svc ≠ some bSack ∧ (∃ n, m.sn = some n ∧ n < 0) ∧ errorOk c m.payload = false)))) : Poison c b := by
  intro out call prev gen seq s
  simp only [item, hr]
  rcases h with h | ⟨hd, h⟩
  · rw [h]; simp [forward, h]
  · rw [if_pos hd]
    unfold handleMsg
    rcases h with ⟨h1, h2⟩ | ⟨h1, h2⟩ | ⟨h1, h2, h3⟩ | ⟨h1, h2, ⟨n, h3, h4⟩, h5⟩
    · rw [if_pos h1]
      unfold handleEvent
      cases he : readEvent c m.payload with
      | none => rfl
      | some y =>
        obtain ⟨e, vs⟩ := y
        have := h2 e vs he
        simp [this.1, this.2]
    · rw [if_neg (by rw [h1]; decide), if_pos h1]
      simp [handleSack, h2]
    · rw [if_neg h1, if_neg h2]
      simp [handleService, h3]
    · rw [if_neg h1, if_neg h2]
      have : ¬ 0 ≤ n := by omega
      simp [handleService, h3, this, h5]

theorem execItems_poison {b : Bytes} (hp : Poison c b) : ∀ (items : Items) (key : Str) (gen seq : Nat) (s : St), b ∈ items.msgs →
    execItems c items key gen seq s = none
  | .nil, _, _, _, _, h => by cases h
  | .cons b' out acts t, key, gen, seq, s, h => by
    simp only [execItems]
    rcases List.mem_cons.1 h with h | h
    · subst h; rw [hp]
    · cases item c out (fun y => execOps c acts y) key gen seq s b' with
      | none => rfl
      | some s1 => exact execItems_poison hp t key gen (seq + 1) s1 h

/-- C126: a relay call with such a message among its messages fails, in every state, whoever makes it and whatever the services do. -/
theorem C126_call_fails (b : Bytes) (hp : Poison c b) (s : St) (x : Ctx) (prev : Str) (v : Verdict) (items : Items) (h : b ∈ items.msgs) :
    exec c (.relay x prev v items) s = none := by
  simp only [exec]
  split
  · rfl
  · rw [execItems_poison c hp _ _ _ _ _ h]

/-- What is noted is not `b`. -/
def Without (b : Bytes) (s : St) : Prop := ∀ e ∈ s.disp, e.2.2 ≠ b

theorem without_quiet {b : Bytes} {s s' : St} (e : Steps true s s') (h : Without b s) : Without b s' := by
  refine e.inv (P := Without b) ?_ h
  intro s s' e h
  cases e with
  | disp g n b' hq => cases hq
  | grant _ a p hg => obtain ⟨m, rfl⟩ := grant_eq hg; exact h
  | revoke _ a p hg => obtain ⟨m, rfl⟩ := revoke_eq hg; exact h
  | _ => exact h

variable {c}

mutual
theorem exec_without {b : Bytes} (hp : Poison c b) (o : Op) (s s' : St) (h : exec c o s = some s') (hw : Without b s) : Without b s' := by
  cases o with
  | relay x prev v items =>
    simp only [exec] at h
    split at h
    · cases h
    · rename_i key gen rx s1 h1
      split at h
      · cases h
      · rename_i s2 h2
        obtain ⟨l2, hl2, hg2, e⟩ := closeRelay_spec h
        subst e
        exact execItems_without hp items key gen (rx + 1) s1 s2 h2 (without_quiet (openRelay_steps h1) hw)
  | _ => exact without_quiet (exec_conf rfl h) hw
theorem execItems_without {b : Bytes} (hp : Poison c b) (items : Items) (key : Str) (gen seq : Nat) (s s' : St)
    (h : execItems c items key gen seq s = some s') (hw : Without b s) : Without b s' := by
  cases items with
  | nil => simp only [execItems] at h; cases h; exact hw
  | cons b' out acts t =>
    simp only [execItems] at h
    split at h
    · cases h
    · rename_i s1 h1
      have hne : b' ≠ b := by
        intro e; subst e; rw [hp] at h1; cases h1
      have w1 : Without b { s with disp := s.disp ++ [(gen, seq, b')] } := by
        intro e he
        rcases List.mem_append.1 he with he | he
        · exact hw e he
        · rw [List.mem_singleton] at he; subst he; exact hne
      refine execItems_without hp t key gen (seq + 1) s1 s' h ?_
      rcases item_cases (q := true) h1 with h1 | h1
      · exact without_quiet h1 w1
      · subst h1; exact execOps_without hp acts _ w1
theorem execOps_without {b : Bytes} (hp : Poison c b) (acts : Ops) (s : St) (hw : Without b s) : Without b (execOps c acts s) := by
  cases acts with
  | nil => simp only [execOps]; exact hw
  | cons o t =>
    simp only [execOps]
    refine execOps_without hp t _ ?_
    cases h : exec c o s with
    | none => exact hw
    | some s1 => exact exec_without hp o s s1 h hw
end

variable (c)

/-- C126 (partial: no relay call for a link inside one for the same link, as C122): if the message with number `n` on a link is such a
message, no history takes it or any later one over that link. -/
theorem C126_never_passed_partial (src : Str → Nat → Bytes) (hf : Faithful c src) (k : Str) (n : Nat) (hn : 0 < n) (hp : Poison c (src k n))
    (ops : List Op) (h : ∀ o ∈ ops, o.fresh [] = true) (l : Link) (hl : get (run c ops).links k = some l) : l.rx < n := by
  have key : ∀ (ops : List Op) (s : St), Without (src k n) s → Without (src k n) (ops.foldl (fun s o => (exec c o s).getD s) s) := by
    intro ops
    induction ops with
    | nil => intro s hs; exact hs
    | cons o t ih =>
      intro s hs
      rw [List.foldl_cons]
      cases he : exec c o s with
      | none => exact ih s hs
      | some s1 => exact ih s1 (exec_without hp o s s1 he hs)
  have hw : Without (src k n) (run c ops) := key ops initSt (by intro e h; cases h)
  apply Nat.lt_of_not_le
  intro hle
  have h1 := C122_exactly_once_partial c src hf ops h k l hl
  have hm : src k n ∈ (List.range' 1 l.rx).map (src k) := List.mem_map.2 ⟨n, List.mem_range'_1.2 ⟨by omega, by omega⟩, rfl⟩
  rw [← h1] at hm
  obtain ⟨e, he, hb⟩ := List.mem_map.1 hm
  exact hw e (List.mem_filter.1 he).1 hb

/-- C126: the other side can be made to send one by whoever may call `sendMessage` there (everybody while access control is off): a
message for the service "_event" with content that is no event. The center at the other end of the link cannot handle it. -/
theorem C126_anyone_can (c2 : Cfg) (s : St) (x : Ctx) (net : Str) (sn : Int) (p : Bytes) (l : Link) (ha : allowed s x "sendMessage".toList = true)
    (hsn : 0 ≤ sn) (hr : resolve s net = .ok c2.me.toStr) (hl : get s.links c2.me.toStr = some l) (h1 : Readable c c2 c.me.toStr)
    (h2 : Readable c c2 c2.me.toStr) (h3 : PyAddr.fromString c.me.toStr = some c.me) (h4 : PyAddr.fromString c2.me.toStr = some c2.me)
    (hv : c2.valid bEvent = true) (hlen : (writeMsg c c.me (some c2.me) (some bEvent) sn p).length < 65536)
    (hp : readEvent c2 (some p) = none) :
    ∃ s' b, exec c (.send x net bEvent sn p) s = some s' ∧ s'.log = s.log ++ [.message l.gen c2.me.toStr (l.tx + 1) b] ∧ Poison c2 b := by
  refine ⟨{ s with
      links := put s.links c2.me.toStr { l with tx := l.tx + 1 }
      log := s.log ++ [.message l.gen c2.me.toStr (l.tx + 1) (writeMsg c c.me (some c2.me) (some bEvent) sn p)] },
    writeMsg c c.me (some c2.me) (some bEvent) sn p, ?_, ?_, ?_⟩
  · simp only [exec, ha, if_true, sendMessage, hr, h4, Option.bind_some, send, hl]
    rw [if_neg (by omega)]
  · rfl
  · exact C126_poison c2 _ _ (read_write c c2 c.me c2.me bEvent sn p h1 h2 h3 h4 hv hlen) (.inr ⟨rfl, .inl ⟨rfl, by
      intro e vs he; simp only at he; rw [hp] at he; cases he⟩⟩)

theorem send_ok (s : St) (k : Str) (b : Bytes) (h : (get s.links k).isSome = true) : (send s k b).isSome = true := by
  unfold send
  cases hl : get s.links k with
  | none => rw [hl] at h; cases h
  | some l => rfl

theorem sendError_ok (s : St) (prev : Str) (m : Msg) (code : Int) (t : Bytes) (h : (get s.links prev).isSome = true) (hn : m.sn.isSome = true) :
    (sendError c s prev m code t).isSome = true := by
  unfold sendError
  cases hs : m.sn with
  | none => rw [hs] at hn; cases hn
  | some n =>
    simp only
    split
    · rfl
    · exact send_ok s prev _ h

theorem linkLoop_mem {net k : Str} : ∀ {ls : List (Str × Link)}, linkLoop net ls = .ok (some k) → (get ls k).isSome = true ∧ netOf k = some net
  | [], h => by cases h
  | (k', l) :: t, h => by
    simp only [linkLoop] at h
    split at h
    · cases h
    · rename_i n hn
      split at h
      · rename_i e; cases h; subst e; simp [get, hn]
      · obtain ⟨h1, h2⟩ := linkLoop_mem h
        refine ⟨?_, h2⟩
        simp only [get]; split
        · rfl
        · exact h1

theorem reachLoop_mem {net k : Str} : ∀ {ls : List (Str × Link)}, reachLoop net ls = .ok (some k) → (get ls k).isSome = true
  | [], h => by cases h
  | (k', l) :: t, h => by
    simp only [reachLoop] at h
    split at h
    · cases h; simp [get]
    · have := reachLoop_mem h
      simp only [get]; split
      · rfl
      · exact this
    · cases h
    · cases h

/-- C127: what a route leads to is an existing link. -/
theorem C127_resolves_to_link (s : St) (net k : Str) (h : resolve s net = .ok k) : (get s.links k).isSome = true := by
  unfold resolve at h
  split at h
  · cases h
  · cases h
  · split at h
    · rename_i hh; cases h; exact hh
    · cases h
  · split at h
    · cases h
    · cases h
    · rename_i hh; cases h; exact (linkLoop_mem hh).1
    · split at h
      · cases h
      · cases h
      · rename_i hh; cases h; exact reachLoop_mem hh
      · cases h

/-- C126 (partial): every other message is handled, if the link it came over is there: unreadable messages are passed over; for a
service, if the service returns or fails with an error of the protocol; for another network, if the routes, link texts and reachable
texts met by the search are addresses and the link is there. -/
theorem C126_handled_partial (out : Out) (call : St → St) (prev : Str) (gen seq : Nat) (s : St) (b : Bytes)
    (hprev : (get s.links prev).isSome = true)
    (h : readMsg c b = none ∨ ∃ m n, readMsg c b = some m ∧ m.sn = some n ∧
      ((m.dst.map (·.toStr) = some c.me.toStr ∧ m.svc ≠ some bEvent ∧ m.svc ≠ some bSack ∧
        ((0 ≤ n ∧ m.src.isSome = true ∧ out ≠ .other) ∨ (n < 0 ∧ errorOk c m.payload = true))) ∨
       (∃ d, m.dst = some d ∧ d.toStr ≠ c.me.toStr ∧ resolve s d.net ≠ .other))) :
    (item c out call prev gen seq s b).isSome = true := by
  rcases h with h | ⟨m, n, hr, hn, h⟩
  · simp [item, h]
  · simp only [item, hr]
    rcases h with ⟨hd, h1, h2, h⟩ | ⟨d, hd, hne, hres⟩
    · rw [if_pos hd]
      unfold handleMsg
      rw [if_neg h1, if_neg h2]
      unfold handleService
      simp only [hn]
      rcases h with ⟨h3, h4, h5⟩ | ⟨h3, h4⟩
      · rw [if_pos h3]
        split
        · exact sendError_ok c _ _ _ _ _ hprev (by rw [hn]; rfl)
        · cases hs : m.src with
          | none => rw [hs] at h4; cases h4
          | some sr =>
            cases out with
            | done => rfl
            | btp code t => exact sendError_ok c _ _ _ _ _ hprev (by rw [hn]; rfl)
            | other => exact absurd rfl h5
      · rw [if_neg (by omega), if_pos h4]
        split
        · rfl
        · cases out <;> rfl
    · rw [if_neg (by rw [hd]; intro e; exact hne (Option.some.inj e))]
      unfold forward
      rw [hd]
      have hres' : resolve { s with disp := s.disp ++ [(gen, seq, b)] } d.net = resolve s d.net := rfl
      simp only [hres']
      cases hq : resolve s d.net with
      | ok k => exact send_ok _ _ _ (C127_resolves_to_link s _ _ hq)
      | btp e => exact sendError_ok c _ _ _ _ _ hprev (by rw [hn]; rfl)
      | other => exact absurd hq hres

/-! ### C127: routes and errors -/

/-- C127: a message for another network is passed on unchanged, under the next number of the link the route leads to. -/
theorem C127_forwarded (out : Out) (call : St → St) (prev : Str) (gen seq : Nat) (s : St) (b : Bytes) (m : Msg) (d : PyAddr.Addr) (k : Str) (l : Link)
    (hr : readMsg c b = some m) (hd : m.dst = some d) (hne : d.toStr ≠ c.me.toStr) (hk : resolve s d.net = .ok k) (hl : get s.links k = some l) :
    item c out call prev gen seq s b = some { s with
      links := put s.links k { l with tx := l.tx + 1 }
      log := s.log ++ [.message l.gen k (l.tx + 1) b]
      disp := s.disp ++ [(gen, seq, b)] } := by
  simp only [item, hr]
  rw [if_neg (by rw [hd]; intro e; exact hne (Option.some.inj e))]
  unfold forward
  rw [hd]
  have hk' : resolve { s with disp := s.disp ++ [(gen, seq, b)] } d.net = .ok k := hk
  simp only [hk', send, hl]

/-- C127: a message that cannot be read is passed over, and counted. -/
theorem C127_unreadable (out : Out) (call : St → St) (prev : Str) (gen seq : Nat) (s : St) (b : Bytes) (h : readMsg c b = none) :
    item c out call prev gen seq s b = some { s with disp := s.disp ++ [(gen, seq, b)] } := by simp only [item, h]

/-- What an error answer does to the state. -/
def answered (s : St) (prev : Str) (l : Link) (m : Msg) (sn code : Int) (t : Bytes) : St :=
  { s with
    links := put s.links prev { l with tx := l.tx + 1 }
    log := s.log ++ [.message l.gen prev (l.tx + 1) (writeMsg c c.me m.src m.svc (-sn) (writeError code t))] }

theorem sendError_eq (s : St) (prev : Str) (l : Link) (m : Msg) (sn code : Int) (t : Bytes) (hl : get s.links prev = some l) (hs : m.sn = some sn) :
    sendError c s prev m code t = some (if sn = 0 then s else answered c s prev l m sn code t) := by
  unfold sendError answered
  simp only [hs]
  by_cases h : sn = 0
  · rw [if_pos h, if_pos h]
  · rw [if_neg h, if_neg h]
    simp only [send, hl]
    rw [show sn * -1 = -sn by omega]

/-- C127: a request for a service that is not there, one at which the service fails with an error of the protocol, and a message for an
unreachable network are answered over the link they came from: with the code and the negated number, addressed to the sender; a
message with number 0 is not answered. -/
theorem C127_answers (out : Out) (call : St → St) (prev : Str) (gen seq : Nat) (s : St) (b : Bytes) (m : Msg) (sn : Int) (l : Link)
    (hr : readMsg c b = some m) (hs : m.sn = some sn) (hl : get s.links prev = some l) :
    (m.dst.map (·.toStr) = some c.me.toStr → ∀ svc, m.svc = some svc → svc ≠ bEvent → svc ≠ bSack → 0 ≤ sn →
      (get s.services (c.text svc) = none → item c out call prev gen seq s b = some (
        let s1 := { s with disp := s.disp ++ [(gen, seq, b)] }
        if sn = 0 then s1 else answered c s1 prev l m sn 16 (c.utf8 "not exists service".toList))) ∧
      (∀ code t, out = .btp code t → (get s.services (c.text svc)).isSome = true → m.src.isSome = true → item c out call prev gen seq s b = some (
        let s1 := { s with disp := s.disp ++ [(gen, seq, b)] }
        if sn = 0 then s1 else answered c s1 prev l m sn code t))) ∧
    (∀ d, m.dst = some d → d.toStr ≠ c.me.toStr → ∀ code, resolve s d.net = .btp code → item c out call prev gen seq s b = some (
        let s1 := { s with disp := s.disp ++ [(gen, seq, b)] }
        if sn = 0 then s1 else answered c s1 prev l m sn code (c.utf8 ("unreachable ".toList ++ d.net)))) := by
  have hse := fun code t => sendError_eq c { s with disp := s.disp ++ [(gen, seq, b)] } prev l m sn code t hl hs
  constructor
  · intro hd svc hsvc h1 h2 h0
    have e1 : m.svc ≠ some bEvent := by rw [hsvc]; intro e; exact h1 (Option.some.inj e)
    have e2 : m.svc ≠ some bSack := by rw [hsvc]; intro e; exact h2 (Option.some.inj e)
    constructor
    · intro hn
      simp only [item, hr]
      rw [if_pos hd]
      unfold handleMsg
      rw [if_neg e1, if_neg e2]
      unfold handleService
      simp only [hsvc, hs, hn]
      rw [if_pos h0, hse]
    · intro code t ho hn hsrc
      simp only [item, hr]
      rw [if_pos hd]
      unfold handleMsg
      rw [if_neg e1, if_neg e2]
      unfold handleService
      simp only [hsvc, hs]
      rw [if_pos h0]
      obtain ⟨a, ha⟩ := Option.isSome_iff_exists.1 hn
      obtain ⟨sr, hsr⟩ := Option.isSome_iff_exists.1 hsrc
      simp only [ha, hsr, ho]
      exact hse code t
  · intro d hd hne code hres
    simp only [item, hr]
    rw [if_neg (by rw [hd]; intro e; exact hne (Option.some.inj e))]
    unfold forward
    rw [hd]
    have hres' : resolve { s with disp := s.disp ++ [(gen, seq, b)] } d.net = .btp code := hres
    simp only [hres']
    exact hse code _

/-- C127: the only error of a search for a route is 19. -/
theorem C127_unreachable_code (s : St) (net : Str) (code : Int) (h : resolve s net = .btp code) : code = 19 := by
  have r1 : ∀ (ls : List (Str × Str)) (e : Int), routeLoop net ls ≠ .btp e := by
    intro ls
    induction ls with
    | nil => intro e h; cases h
    | cons y t ih =>
      intro e h
      simp only [routeLoop] at h
      split at h
      · cases h
      · split at h
        · cases h
        · exact ih e h
  have r2 : ∀ (ls : List (Str × Link)) (e : Int), linkLoop net ls ≠ .btp e := by
    intro ls
    induction ls with
    | nil => intro e h; cases h
    | cons y t ih =>
      intro e h
      simp only [linkLoop] at h
      split at h
      · cases h
      · split at h
        · cases h
        · exact ih e h
  have r3 : ∀ (ls : List Str) (e : Int), reachAny net ls ≠ .btp e := by
    intro ls
    induction ls with
    | nil => intro e h; cases h
    | cons y t ih =>
      intro e h
      simp only [reachAny] at h
      split at h
      · cases h
      · split at h
        · cases h
        · exact ih e h
  have r4 : ∀ (ls : List (Str × Link)) (e : Int), reachLoop net ls ≠ .btp e := by
    intro ls
    induction ls with
    | nil => intro e h; cases h
    | cons y t ih =>
      intro e h
      simp only [reachLoop] at h
      split at h
      · cases h
      · exact ih e h
      · rename_i hh; exact r3 _ _ hh
      · cases h
  unfold resolve at h
  split at h
  · rename_i e hh
    simp only [routeOf] at hh
    split at hh
    · cases hh
    · exact absurd hh (r1 _ _)
  · cases h
  · split at h
    · cases h
    · cases h
  · split at h
    · rename_i hh; exact absurd hh (r2 _ _)
    · cases h
    · cases h
    · split at h
      · rename_i hh; exact absurd hh (r4 _ _)
      · cases h
      · cases h
      · cases h; rfl

/-- C127 (false that a message reaches the network it is sent to): what `sendMessage` writes as the destination is the center at the
other end of the link, also if the network is further away: the center there takes the message as its own. -/
theorem C127_sent_to_next (s s' : St) (x : Ctx) (net : Str) (svc : Bytes) (sn : Int) (p : Bytes) (h : exec c (.send x net svc sn p) s = some s') :
    ∃ k l dst, resolve s net = .ok k ∧ get s.links k = some l ∧ PyAddr.fromString k = some dst ∧ 0 ≤ sn ∧
      s'.log = s.log ++ [.message l.gen k (l.tx + 1) (writeMsg c c.me (some dst) (some svc) sn p)] := by
  simp only [exec] at h
  split at h
  · simp only [sendMessage] at h
    split at h
    · cases h
    · rename_i hsn
      split at h
      · rename_i k hk
        cases hf : PyAddr.fromString k with
        | none => rw [hf] at h; cases h
        | some dst =>
          rw [hf] at h
          simp only [Option.bind_some, send] at h
          split at h
          · cases h
          · rename_i l hl
            cases h
            exact ⟨k, l, dst, hk, hl, hf, by omega, rfl⟩
      · cases h
  · cases h

/-- C127: without routes, a network with a link of its own is reached over the first such link. -/
theorem C127_direct (ops : List Op) (net : Str) (hr : (run c ops).routes = []) (k0 : Str) (l0 : Link) (h0 : get (run c ops).links k0 = some l0)
    (hk0 : netOf k0 = some net) : ∃ k, resolve (run c ops) net = .ok k ∧ netOf k = some net := by
  have hR := run_reg c ops
  have hk : ∀ e ∈ (run c ops).links, (netOf e.1).isSome = true := by
    intro e he
    obtain ⟨a, h1, _⟩ := hR.bmv _ _ (get_unique _ e.1 e.2 hR.named.nodup he)
    simp [netOf, h1]
  have loop : ∀ ls : List (Str × Link), (∀ e ∈ ls, (netOf e.1).isSome = true) → (∃ e ∈ ls, netOf e.1 = some net) →
      ∃ k, linkLoop net ls = .ok (some k) ∧ netOf k = some net := by
    intro ls
    induction ls with
    | nil => rintro _ ⟨e, he, _⟩; cases he
    | cons y t ih =>
      rintro h1 ⟨e, he, h2⟩
      obtain ⟨k, l⟩ := y
      simp only [linkLoop]
      have h3 := h1 (k, l) List.mem_cons_self
      cases hn : netOf k with
      | none => rw [hn] at h3; cases h3
      | some n =>
        simp only
        by_cases e1 : n = net
        · rw [if_pos e1]; exact ⟨k, rfl, by rw [hn, e1]⟩
        · rw [if_neg e1]
          refine ih (fun e he => h1 e (List.mem_cons_of_mem _ he)) ⟨e, ?_, h2⟩
          rcases List.mem_cons.1 he with he | he
          · subst he; rw [hn] at h2; exact absurd (Option.some.inj h2) e1
          · exact he
  obtain ⟨k, h1, h2⟩ := loop _ hk ⟨(k0, l0), get_mem _ _ _ h0, hk0⟩
  refine ⟨k, ?_, h2⟩
  unfold resolve routeOf
  rw [hr]
  simp only [get, routeLoop, h1]

/-- C127 (false that events concern the link they come over): an event is handled in the same way whatever link it came over and whoever
sent it. -/
theorem C127_event_from_anywhere (out out' : Out) (call call' : St → St) (s : St) (prev prev' : Str) (m m' : Msg) (h : m.svc = some bEvent)
    (h' : m'.svc = some bEvent) (hp : m.payload = m'.payload) : handleMsg c out call s prev m = handleMsg c out' call' s prev' m' := by
  unfold handleMsg
  rw [if_pos h, if_pos h', hp]

/-- C127 (false): an error that cannot be passed on comes back as a request (its number is positive again). -/
theorem C127_error_becomes_request (out : Out) (call : St → St) (prev : Str) (gen seq : Nat) (s : St) (b : Bytes) (m : Msg) (sn : Int) (l : Link)
    (hr : readMsg c b = some m) (hs : m.sn = some sn) (hneg : sn < 0) (hl : get s.links prev = some l) (d : PyAddr.Addr) (hd : m.dst = some d)
    (hne : d.toStr ≠ c.me.toStr) (hres : resolve s d.net = .btp 19) :
    ∃ s' n t, item c out call prev gen seq s b = some s' ∧ 0 < n ∧
      s'.log = s.log ++ [.message l.gen prev (l.tx + 1) (writeMsg c c.me m.src m.svc n (writeError 19 t))] := by
  have h := (C127_answers c out call prev gen seq s b m sn l hr hs hl).2 d hd hne 19 hres
  simp only [if_neg (show ¬ sn = 0 by omega)] at h
  exact ⟨_, -sn, _, h, by omega, rfl⟩

/-- C127 (false): while a link names a reachable text that is no address, the search over reachable networks fails (in a way that makes
the relay call fail) for every network not found before. -/
theorem C127_bad_reachable (s : St) (net k : Str) (l : Link) (t : List (Str × Link)) (bad : Str) (u : List Str) (hr : s.routes = [])
    (hl : s.links = (k, l) :: t) (hb : l.reach = bad :: u) (hbad : netOf bad = none) (hno : linkLoop net s.links = .ok none) :
    resolve s net = .other := by
  unfold resolve routeOf
  rw [hr]
  simp only [get, routeLoop, hno]
  rw [hl]
  simp only [reachLoop, hb, reachAny, hbad]

/-! ### Examples -/
open Ex

/-- An event with the content 0x09. -/
def exBad : Bytes := writeMsg base peer (some me) (some bEvent) 1 [9]

example : Poison cfg exBad :=
  C126_poison cfg exBad ⟨some peer, some me, some bEvent, some 1, some [9]⟩
    (read_write base cfg peer me bEvent 1 [9] ⟨rfl, by decide +kernel⟩ ⟨rfl, by decide +kernel⟩ (by decide +kernel) (by decide +kernel) rfl (by decide +kernel))
    (.inr ⟨by decide +kernel, .inl ⟨rfl, by
      have h : ((PyRlp.decode (fun _ => true) (.struct [.str, .each .str]) [9]).isSome) = false := by decide +kernel
      intro e vs he
      have h2 : PyRlp.decode (fun _ => true) (.struct [.str, .each .str]) [9] = none := Option.not_isSome_iff_eq_none.1 (by rw [h]; decide)
      have h3 : readEvent cfg (some [9]) = none := by
        have : readEvent cfg (some [9]) = match PyRlp.decode (fun _ => true) (.struct [.str, .each .str]) [9] with
          | some (.list [e, .list vs]) => some (strOf e, vs.map strOf)
          | _ => none := rfl
        rw [this, h2]
      rw [h3] at he; cases he⟩⟩)

/-- A chain whose second message is such a message. -/
def cfgBad : Cfg := { base with verify := fun _ _ rx _ msgs => msgs = (List.range' (rx + 1) msgs.length).map fun n => if n = 2 then exBad else src n }
/-- It stays at 1. -/
example : (get (run cfgBad (setup ++ [.relay (x 1 3) kb v (.cons (src 1) .done .nil .nil), .relay (x 1 4) kb v (.cons exBad .done .nil .nil),
    .relay (x 1 4) kb v (.cons exBad .done .nil (.cons (src 3) .done .nil .nil)), .relay (x 1 5) kb v (.cons (src 3) .done .nil .nil)])).links kb).map (·.rx) =
    some 1 := by decide +kernel
/-- Without it all are taken. -/
example : (get (run cfg (setup ++ [.relay (x 1 3) kb v (.cons (src 1) .done .nil .nil),
    .relay (x 1 4) kb v (.cons (src 2) .done .nil (.cons (src 3) .done .nil .nil))])).links kb).map (·.rx) = some 3 := by decide +kernel

/-- A second link, to the network c. -/
def setup2 : List Op := setup ++ [.addVerifier (x 9 1) "c".toList 8, .addLink (x 9 1) "btp://c/z".toList]
/-- Any message is returned by this verifier. -/
def cfgAny : Cfg := { base with verify := fun _ _ _ _ _ => true }
/-- The event "`a` is linked to `t`", sent over the link kb. -/
def linkEvent (a t : Str) : Op := .relay (x 1 3) kb v (.cons (writeMsg base peer (some me) (some bEvent) 0 (writeEvent base bLink [a, t])) .done .nil .nil)

/-- C127 (false that events concern the link they come over): an event of the network b names a network reachable over c, and messages for it
are then sent over the link to c. -/
theorem C127_foreign_event : resolve (run cfgAny setup2) "d".toList = .btp 19 ∧
    resolve (run cfgAny (setup2 ++ [linkEvent "btp://c/z".toList "btp://d/q".toList])) "d".toList = .ok "btp://c/z".toList := by decide +kernel

/-- C127 (false): after an event with a text that is no address, a message for an unreachable network makes the relay call fail, so that it
is never passed over. -/
theorem C127_bad_event : resolve (run cfgAny (setup2 ++ [linkEvent kb "q".toList])) "d".toList = .other := by decide +kernel

/-- C127 (false that a message reaches the network it is sent to): with d reachable over b the message sent to d is addressed to the center
of b. -/
theorem C127_misdelivered :
    ((run cfgAny (setup2 ++ [linkEvent kb "btp://d/q".toList, .send (x 5 4) "d".toList (asc "srv".toList) 3 [1]])).log.getLast?) =
      some (.message 0 kb 3 (writeMsg base me (some peer) (some (asc "srv".toList)) 3 [1])) := by decide +kernel

/-- A request for a service that is not there is answered with the code 16 and the number −4. -/
example : ((run cfgAny (setup2 ++ [.relay (x 1 3) kb v (.cons (writeMsg base peer (some me) (some [0x71]) 4 [1]) .done .nil .nil)])).log.getLast?) =
    some (.message 0 kb 3 (writeMsg base me (some peer) (some [0x71]) (-4) (writeError 16 (asc "not exists service".toList)))) := by decide +kernel

end Verif.PyBmc
