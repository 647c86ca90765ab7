import Verif.PyTokenNet
import Verif.PyEnd
/-!
C169: the Python token services of two chains on top of the Python message centers and verifiers of these chains: message centers, token services and
links move together. What C132 assumes of the messages between the services (each message sent is delivered at most once, nothing else is delivered) is
proved of the message centers, whatever is relayed.
-/
namespace Verif.PyTokenEnd
open Verif Verif.BtpAddress
open Verif.PyToken (Pkt Ev jsonOf pktOf emitted opOf bounce Half Law)
open Verif.PyBmc (Ctx Verdict Out get)
open Verif.PyEnd (sentBytes)

/-! ### One chain -/

/-- One chain: its message center and token service, the contract of the service, text of the link to the other chain and its network, and how the
service writes JSON (token_bsh.py:19-20 `_to_bytes`). -/
structure Side where
  c : PyBmc.Cfg
  tk : PyToken.Cfg
  contract : Nat
  link : Str
  net : Str
  ser : PyToken.Json → Bytes

/-- The state of a chain. -/
structure Chain where
  bmc : PyBmc.St
  tok : PyToken.St

/-- What an event of the service gives to the message center: network and message (token_bsh.py:231-237, 258-260, 278-280). -/
def msgOf : Ev → Option (Str × Pkt)
  | .start sn u t v net con => some (net, .req sn u con t v)
  | .send net sn (some code) => some (net, .res sn code)
  | .send net sn none => some (net, .unk sn)
  | _ => none

def num : Pkt → Int
  | .req sn _ _ _ _ => sn
  | .res sn _ => sn
  | .unk sn => sn
  | .err sn => sn

/-- The conditions under which the theorems hold, of every state on the way: messages for the other network are sent over its link, which stays the one
added under number `g`; the service is registered under its name `svc`; no message is longer than 65535 bytes (C115). -/
structure Wired (svc : Bytes) (S : Side) (g : Nat) (b : PyBmc.St) : Prop where
  route : PyBmc.resolve b S.net = .ok S.link
  link : ∃ l, get b.links S.link = some l ∧ l.gen = g
  reg : get b.services (S.c.text svc) = some S.contract
  short : ∀ g' k n x, PyBmc.Event.message g' k n x ∈ b.log → x.length < 65536

/-- The calls of `sendMessage` (bmc.py:631-647) by the service for what it logged. `ho`: no message for another network is sent over the link; see
`C169_own_network` for the chain's own network. -/
inductive Sends (svc : Bytes) (S : Side) (g : Nat) (x : Ctx) : PyBmc.St → List Ev → PyBmc.St → Prop where
  | nil (b : PyBmc.St) : Sends svc S g x b [] b
  | skip {b b' : PyBmc.St} (e : Ev) (t : List Ev) (h : msgOf e = none) (r : Sends svc S g x b t b') : Sends svc S g x b (e :: t) b'
  | send {b b1 b' : PyBmc.St} (e : Ev) (t : List Ev) (net : Str) (p : Pkt) (h : msgOf e = some (net, p))
      (ho : PyBmc.resolve b net = .ok S.link → net = S.net) (hs : PyBmc.exec S.c (.send x net svc (num p) (S.ser (jsonOf S.tk p))) b = some b1) (w : Wired svc S g b1)
      (r : Sends svc S g x b1 t b') : Sends svc S g x b (e :: t) b'

/-- Nothing is sent over the link in the name of the service. -/
def Quiet (svc : Bytes) (S : Side) (g : Nat) (b b' : PyBmc.St) : Prop :=
  ∃ new, b'.log = b.log ++ new ∧ ∀ m ∈ sentBytes g new, ∀ y, PyBmc.readMsg S.c m = some y → y.svc ≠ some svc

/-- Calls that are no relay calls: of the message center, which send nothing in the name of the service; and of the service. -/
inductive Act (svc : Bytes) (S : Side) (g : Nat) : Chain → Chain → Prop where
  | conf (o : PyBmc.Op) {b b' : PyBmc.St} (t : PyToken.St) (hr : o.isRelay = false) (hq : Quiet svc S g b b')
      (h : PyBmc.exec S.c o b = some b') (w : Wired svc S g b') : Act svc S g ⟨b, t⟩ ⟨b', t⟩
  | tok (o : PyToken.Op) (x : Ctx) {b b' : PyBmc.St} {t t' : PyToken.St} (hx : x.sender = S.contract) (hl : o.isLocal S.tk = true)
      (h : PyToken.exec S.tk o t = .ok t') (hs : Sends svc S g x b (t'.log.drop t.log.length) b') : Act svc S g ⟨b, t⟩ ⟨b', t'⟩

inductive Acts (svc : Bytes) (S : Side) (g : Nat) : Chain → Chain → Prop where
  | refl (s : Chain) : Acts svc S g s s
  | cons {s s1 s2 : Chain} (h : Act svc S g s s1) (r : Acts svc S g s1 s2) : Acts svc S g s s2

/-- The state when a message is handled: it is noted. -/
def noted (b : PyBmc.St) (gen seq : Nat) (m : Bytes) : PyBmc.St := { b with disp := b.disp ++ [(gen, seq, m)] }

/-- One message of a relay call (bmc.py:611-625): for others, it is handled without a call of another contract or with one which makes calls in turn; for
the service, which is called with it (bmc.py:543-558). Only the other chain uses the name of the service. -/
inductive Take (svc : Bytes) (S : Side) (g : Nat) (key : Str) (gen seq : Nat) : Chain → Bytes → Chain → Prop where
  | plain (out : Out) {b b' : PyBmc.St} (t : PyToken.St) (m : Bytes) (hn : ∀ y, PyBmc.readMsg S.c m = some y → y.svc ≠ some svc)
      (h : PyBmc.item S.c out (fun y => y) key gen seq b m = some b') (hq : Quiet svc S g b b') (w : Wired svc S g b') : Take svc S g key gen seq ⟨b, t⟩ m ⟨b', t⟩
  | call {b b' : PyBmc.St} {t t' : PyToken.St} (m : Bytes) (hn : ∀ y, PyBmc.readMsg S.c m = some y → y.svc ≠ some svc)
      (h : PyBmc.item S.c .done (fun _ => b') key gen seq b m = some b') (a : Acts svc S g ⟨noted b gen seq m, t⟩ ⟨b', t'⟩) :
      Take svc S g key gen seq ⟨b, t⟩ m ⟨b', t'⟩
  | own {b b' : PyBmc.St} {t t' : PyToken.St} (m : Bytes) (y : PyBmc.Msg) (a : PyAddr.Addr) (sn : Int) (p : Bytes) (r : PyToken.Sent) (x' : Ctx)
      (hk : key = S.link) (hy : PyBmc.readMsg S.c m = some y) (hsv : y.svc = some svc) (ha : y.src = some a) (hsn : y.sn = some sn) (h0 : 0 ≤ sn)
      (hp : y.payload = some p) (ht : PyToken.exec S.tk (.message S.tk.bmc a.net sn p r) t = .ok t') (hx : x'.sender = S.contract)
      (hs : Sends svc S g x' (noted b gen seq m) (t'.log.drop t.log.length) b')
      (h : PyBmc.item S.c .done (fun _ => b') key gen seq b m = some b') : Take svc S g key gen seq ⟨b, t⟩ m ⟨b', t'⟩
  | refused {b b' : PyBmc.St} (t : PyToken.St) (m : Bytes) (y : PyBmc.Msg) (a : PyAddr.Addr) (sn : Int) (p : Bytes) (r : PyToken.Sent) (e : Int)
      (text : Bytes) (hk : key = S.link) (hy : PyBmc.readMsg S.c m = some y) (hsv : y.svc = some svc) (ha : y.src = some a) (hsn : y.sn = some sn)
      (h0 : 0 ≤ sn) (hp : y.payload = some p) (ht : PyToken.exec S.tk (.message S.tk.bmc a.net sn p r) t = .btp e)
      (h : PyBmc.item S.c (.btp e text) (fun y => y) key gen seq b m = some b') (w : Wired svc S g b') : Take svc S g key gen seq ⟨b, t⟩ m ⟨b', t⟩
  | error {b b' : PyBmc.St} {t t' : PyToken.St} (m : Bytes) (y : PyBmc.Msg) (sn : Int) (x' : Ctx) (hk : key = S.link) (hy : PyBmc.readMsg S.c m = some y)
      (hsv : y.svc = some svc) (hsn : y.sn = some sn) (h0 : sn < 0) (ht : PyToken.exec S.tk (.error S.tk.bmc (sn * -1)) t = .ok t')
      (hx : x'.sender = S.contract) (hs : Sends svc S g x' (noted b gen seq m) (t'.log.drop t.log.length) b')
      (h : PyBmc.item S.c .done (fun _ => b') key gen seq b m = some b') : Take svc S g key gen seq ⟨b, t⟩ m ⟨b', t'⟩
  | failed {b b' : PyBmc.St} (t : PyToken.St) (m : Bytes) (y : PyBmc.Msg) (sn : Int) (out : Out) (hk : key = S.link) (hy : PyBmc.readMsg S.c m = some y)
      (hsv : y.svc = some svc) (hsn : y.sn = some sn) (h0 : sn < 0)
      (ht : (∃ e text, PyToken.exec S.tk (.error S.tk.bmc (sn * -1)) t = .btp e ∧ out = .btp e text) ∨
        (PyToken.exec S.tk (.error S.tk.bmc (sn * -1)) t = .other ∧ out = .other))
      (h : PyBmc.item S.c out (fun y => y) key gen seq b m = some b') (w : Wired svc S g b') : Take svc S g key gen seq ⟨b, t⟩ m ⟨b', t⟩

/-- The loop over the messages of a relay call. -/
inductive Takes (svc : Bytes) (S : Side) (g : Nat) (key : Str) (gen : Nat) : Nat → Chain → List Bytes → Chain → Prop where
  | nil (seq : Nat) (s : Chain) : Takes svc S g key gen seq s [] s
  | cons {seq : Nat} {s s1 s2 : Chain} (m : Bytes) (ms : List Bytes) (h : Take svc S g key gen seq s m s1) (r : Takes svc S g key gen (seq + 1) s1 ms s2) :
      Takes svc S g key gen seq s (m :: ms) s2

/-- A transaction. `ok` says what the verifier of the link accepts: number of messages taken so far, messages. -/
inductive Tx (svc : Bytes) (S : Side) (g : Nat) (ok : Nat → List Bytes → Prop) : Chain → Chain → Prop where
  | act {s s' : Chain} (h : Act svc S g s s') : Tx svc S g ok s s'
  | relay (x : Ctx) (prev : Str) (v : Verdict) (msgs : List Bytes) {b b1 b2 b' : PyBmc.St} {t t' : PyToken.St} (key : Str) (gen rx : Nat)
      (h1 : PyBmc.openRelay S.c x b prev v msgs = some (key, gen, rx, b1)) (w1 : Wired svc S g b1) (hv : key = S.link → ok rx msgs)
      (h2 : Takes svc S g key gen (rx + 1) ⟨b1, t⟩ msgs ⟨b2, t'⟩) (h3 : PyBmc.closeRelay b2 key gen msgs.length = some b') (w : Wired svc S g b') :
      Tx svc S g ok ⟨b, t⟩ ⟨b', t'⟩

/-! ### Both chains -/

structure Both where
  a : Chain
  b : Chain

/-- The start: message centers after any history of their own, links made on both sides, nothing sent yet in the name of the service; the services new. -/
structure Start (svc : Bytes) (A B : Side) (gA gB : Nat) (x : Both) : Prop where
  runA : ∃ ops, x.a.bmc = PyBmc.run A.c ops
  runB : ∃ ops, x.b.bmc = PyBmc.run B.c ops
  wA : Wired svc A gA x.a.bmc
  wB : Wired svc B gB x.b.bmc
  newA : ∀ m ∈ sentBytes gA x.a.bmc.log, ∀ y, PyBmc.readMsg A.c m = some y → y.svc ≠ some svc
  newB : ∀ m ∈ sentBytes gB x.b.bmc.log, ∀ y, PyBmc.readMsg B.c m = some y → y.svc ≠ some svc
  rxA : ∀ l, get x.a.bmc.links A.link = some l → l.rx ≤ (sentBytes gB x.b.bmc.log).length
  rxB : ∀ l, get x.b.bmc.links B.link = some l → l.rx ≤ (sentBytes gA x.a.bmc.log).length
  tokA : x.a.tok = PyToken.initSt
  tokB : x.b.tok = PyToken.initSt

/-- `okA st n msgs`: the verifier on the chain A accepts these messages after `n` of the other chain in state `st`. -/
inductive Joint (svc : Bytes) (A B : Side) (gA gB : Nat) (okA okB : PyBmc.St → Nat → List Bytes → Prop) : Both → Prop where
  | start (x : Both) (h : Start svc A B gA gB x) : Joint svc A B gA gB okA okB x
  | atA {x : Both} (a' : Chain) (h : Joint svc A B gA gB okA okB x) (t : Tx svc A gA (okA x.b.bmc) x.a a') : Joint svc A B gA gB okA okB ⟨a', x.b⟩
  | atB {x : Both} (b' : Chain) (h : Joint svc A B gA gB okA okB x) (t : Tx svc B gB (okB x.a.bmc) x.b b') : Joint svc A B gA gB okA okB ⟨x.a, b'⟩

/-- What the verifier accepts are the following messages of the other chain. -/
def Sound (g : Nat) (ok : PyBmc.St → Nat → List Bytes → Prop) : Prop :=
  ∀ st rx msgs, PyBmc.Sent st → ok st rx msgs →
    ∀ (i : Nat) (b : Bytes), msgs[i]? = some b → (sentBytes g st.log)[rx + i]? = some b

/-- What is assumed of the two sides: each link has the text of the other message center, whose address and the service's name are read as they are
written; JSON written by one service is read by the other. -/
structure Pair (svc : Bytes) (S P : Side) : Prop where
  name : svc ≠ PyBmc.bEvent ∧ svc ≠ PyBmc.bSack
  valid : P.c.valid svc = true
  read : ∀ m, PyBmc.readMsg P.c m = PyBmc.readMsg S.c m
  link : S.link = P.c.me.toStr
  net : S.net = P.c.me.net
  me : PyAddr.fromString S.c.me.toStr = some S.c.me
  you : PyAddr.fromString P.c.me.toStr = some P.c.me
  rdMe : PyBmc.Readable S.c P.c S.c.me.toStr
  rdYou : PyBmc.Readable S.c P.c P.c.me.toStr
  json : ∀ p, P.tk.parse (S.ser (jsonOf S.tk p)) = some (jsonOf S.tk p)

/-! ### Messages and packets -/

/-- Two lists related place by place. -/
inductive F2 {α β : Type} (R : α → β → Prop) : List α → List β → Prop where
  | nil : F2 R [] []
  | cons {a : α} {b : β} {l : List α} {m : List β} (h : R a b) (t : F2 R l m) : F2 R (a :: l) (b :: m)

theorem F2.append {α β : Type} {R : α → β → Prop} {l l' : List α} {m m' : List β} (h : F2 R l m) (h' : F2 R l' m') : F2 R (l ++ l') (m ++ m') := by
  induction h with
  | nil => exact h'
  | cons h _ ih => exact .cons h ih

theorem F2.split {α β : Type} {R : α → β → Prop} : ∀ {l l' : List α} {m : List β}, F2 R (l ++ l') m → ∃ m1 m2, m = m1 ++ m2 ∧ F2 R l m1 ∧ F2 R l' m2
  | [], _, m, h => ⟨[], m, rfl, .nil, h⟩
  | a :: l, l', _, .cons h t => by
    obtain ⟨m1, m2, e, h1, h2⟩ := F2.split t
    exact ⟨_ :: m1, m2, by rw [e]; rfl, .cons h h1, h2⟩

theorem F2.nil_right {α β : Type} {R : α → β → Prop} {m : List β} (h : F2 R [] m) : m = [] := by cases h; rfl

/-- The messages in the name of the service. -/
def ours (svc : Bytes) (c : PyBmc.Cfg) (l : List Bytes) : List Bytes :=
  l.filter fun m => match PyBmc.readMsg c m with
    | some y => decide (y.svc = some svc)
    | none => false

theorem ours_append (svc : Bytes) (c : PyBmc.Cfg) (l m : List Bytes) : ours svc c (l ++ m) = ours svc c l ++ ours svc c m := by simp [ours]

theorem ours_none {svc : Bytes} {c : PyBmc.Cfg} {l : List Bytes} (h : ∀ m ∈ l, ∀ y, PyBmc.readMsg c m = some y → y.svc ≠ some svc) : ours svc c l = [] := by
  unfold ours
  rw [List.filter_eq_nil_iff]
  intro m hm
  cases hr : PyBmc.readMsg c m with
  | none => simp
  | some y => simpa using h m hm y hr

theorem ours_one {svc : Bytes} {c : PyBmc.Cfg} {m : Bytes} {y : PyBmc.Msg} (h : PyBmc.readMsg c m = some y) (hs : y.svc = some svc) : ours svc c [m] = [m] := by
  simp [ours, h, hs]

theorem ours_read {svc : Bytes} {c c' : PyBmc.Cfg} (h : ∀ m, PyBmc.readMsg c m = PyBmc.readMsg c' m) (l : List Bytes) : ours svc c l = ours svc c' l := by
  unfold ours; simp only [h]

/-- The message is the packet, sent by S for P. -/
def Enc (svc : Bytes) (S P : Side) (b : Bytes) (p : Pkt) : Prop :=
  ∃ n pl, PyBmc.readMsg S.c b = some ⟨some S.c.me, some P.c.me, some svc, some n, some pl⟩ ∧ 0 < num p ∧
    ((p = .err (num p) ∧ n = -num p) ∨ ((∀ sn, p ≠ .err sn) ∧ n = num p ∧ P.tk.parse pl = some (jsonOf S.tk p)))

theorem pktOf_eq (to : Str) (e : Ev) : pktOf to e = match msgOf e with
    | some (net, p) => if net = to then some p else none
    | none => none := by
  cases e with
  | send net sn code => cases code <;> rfl
  | _ => rfl

theorem msgOf_not_err {e : Ev} {net : Str} {p : Pkt} (h : msgOf e = some (net, p)) (sn : Int) : p ≠ .err sn := by
  cases e with
  | send net sn code => cases code <;> (cases h; intro e; cases e)
  | start => cases h; intro e; cases e
  | _ => cases h

/-! ### The services -/

/-- Steps of one service as in C132. -/
inductive HStar (c c' : PyToken.Cfg) (you : Str) : PyToken.St → List Pkt → List Pkt → PyToken.St → List Pkt → List Pkt → Prop where
  | refl (s : PyToken.St) (out inn : List Pkt) : HStar c c' you s out inn s out inn
  | head {s s1 s2 : PyToken.St} {o o1 o2 i i1 i2 : List Pkt} (h : Half c c' you s o i s1 o1 i1) (r : HStar c c' you s1 o1 i1 s2 o2 i2) :
      HStar c c' you s o i s2 o2 i2

theorem HStar.trans {c c' : PyToken.Cfg} {you : Str} {s s1 s2 : PyToken.St} {o o1 o2 i i1 i2 : List Pkt} (h : HStar c c' you s o i s1 o1 i1)
    (r : HStar c c' you s1 o1 i1 s2 o2 i2) : HStar c c' you s o i s2 o2 i2 := by
  induction h with
  | refl => exact r
  | head h _ ih => exact .head h (ih r)

theorem HStar.atA {ca cb : PyToken.Cfg} {na nb : Str} {a a' b : PyToken.St} {ab ba ab' ba' : List Pkt} (h : HStar ca cb nb a ab ba a' ab' ba')
    (R : PyToken.Reach ca cb na nb ⟨a, b, ab, ba⟩) : PyToken.Reach ca cb na nb ⟨a', b, ab', ba'⟩ := by
  induction h with
  | refl => exact R
  | head h _ ih => exact ih (.move R (.atA ⟨_, _, _, _⟩ _ _ _ h))

theorem HStar.atB {ca cb : PyToken.Cfg} {na nb : Str} {a b b' : PyToken.St} {ab ba ab' ba' : List Pkt} (h : HStar cb ca na b ba ab b' ba' ab')
    (R : PyToken.Reach ca cb na nb ⟨a, b, ab, ba⟩) : PyToken.Reach ca cb na nb ⟨a, b', ab', ba'⟩ := (h.atA R.swap).swap

theorem update_log {c : PyToken.Cfg} {s s1 : PyToken.St} {u : Nat} {t : Str} {x y : Int} (h : PyToken.updateBalance c s u t x y = some s1) : s1.log = s.log := by
  unfold PyToken.updateBalance at h
  split at h
  · cases h
  · cases h; rfl

theorem sendMsg_adds {P : Ev → Prop} {r : PyToken.Sent} {s s' : PyToken.St} {net : Str} {sn : Int} {m : Option Int}
    (h : PyToken.sendMsg r s net sn m = .ok s') (hp : P (.send net sn m)) : PyToken.Adds P s s' := by
  unfold PyToken.sendMsg at h
  split at h
  · cases h; exact ⟨_, rfl, fun e he => by rw [List.mem_singleton.1 he]; exact hp⟩
  · cases h
  · cases h

theorem adds_one {P : Ev → Prop} {s s' : PyToken.St} {e : Ev} (h : s'.log = s.log ++ [e]) (hp : P e) : PyToken.Adds P s s' :=
  ⟨_, h, fun x hx => by rw [List.mem_singleton.1 hx]; exact hp⟩

theorem orOther_ok {α β : Type} {x : Option α} {f : α → PyBmc.R β} {y : β} (h : PyToken.orOther x f = .ok y) : ∃ a, x = some a ∧ f a = .ok y := by
  unfold PyToken.orOther at h
  split at h
  · cases h
  · exact ⟨_, rfl, h⟩

/-- The service answers a message under its number. -/
theorem message_adds {c : PyToken.Cfg} {z : Nat} {src : Str} {sn : Int} {b : Bytes} {r : PyToken.Sent} {s s' : PyToken.St}
    (h : PyToken.exec c (.message z src sn b r) s = .ok s') : PyToken.Adds (fun e => ∀ net q, msgOf e = some (net, q) → num q = sn) s s' := by
  have hsend : ∀ m net q, msgOf (.send src sn m) = some (net, q) → num q = sn := by
    intro m net q hm
    cases m <;> (cases hm; rfl)
  simp only [PyToken.exec, PyToken.onMessage] at h
  split at h
  · cases h
  obtain ⟨j, _, h⟩ := orOther_ok h
  split at h
  · cases h
  · split at h
    · unfold PyToken.onRequest at h
      obtain ⟨⟨u, v, t⟩, _, h⟩ := orOther_ok h
      dsimp only at h
      split at h
      · obtain ⟨s1, h1, h⟩ := orOther_ok h
        have h2 := sendMsg_adds (P := fun e => ∀ net q, msgOf e = some (net, q) → num q = sn) h (hsend _)
        refine PyToken.Adds.trans (adds_one (e := .receive src sn u t v) ?_ (by intro net q hq; cases hq)) h2
        simp only [update_log h1]
      · exact sendMsg_adds h (hsend _)
    · split at h
      · unfold PyToken.onResponse at h
        split at h
        · cases h
        · obtain ⟨⟨u, t, v⟩, _, h⟩ := orOther_ok h
          dsimp only at h
          obtain ⟨code, _, h⟩ := orOther_ok h
          split at h
          · obtain ⟨s1, h1, h⟩ := orOther_ok h
            cases h
            exact adds_one (e := .settle src sn u t v) (by simp only [update_log h1]) (by intro net q hq; cases hq)
          · obtain ⟨s1, h1, h⟩ := orOther_ok h
            split at h
            · cases h
              exact adds_one (e := .refund src sn u t v) (by simp only [update_log h1]) (by intro net q hq; cases hq)
            · cases h
      · exact sendMsg_adds h (hsend _)
  · exact sendMsg_adds h (hsend _)

theorem error_adds {c : PyToken.Cfg} {z : Nat} {sn : Int} {s s' : PyToken.St} (h : PyToken.exec c (.error z sn) s = .ok s') :
    PyToken.Adds (fun e => msgOf e = none) s s' := by
  simp only [PyToken.exec, PyToken.onError] at h
  split at h
  · cases h
  · split at h
    · cases h
    · obtain ⟨⟨u, t, v⟩, _, h⟩ := orOther_ok h
      dsimp only at h
      obtain ⟨s1, h1, h⟩ := orOther_ok h
      cases h
      exact adds_one (e := .rollback sn u t v) (by simp only [update_log h1]) rfl

theorem local_pos {c : PyToken.Cfg} (L : Law c) {o : PyToken.Op} {s s' : PyToken.St} (I : PyToken.Inv c s) (hl : o.isLocal c = true)
    (h : PyToken.exec c o s = .ok s') : ∀ e ∈ s'.log.drop s.log.length, ∀ net q, msgOf e = some (net, q) → 0 < num q := by
  obtain ⟨new, hn, hp⟩ := PyToken.exec_local o s s' hl h
  have I' := PyToken.exec_inv L I h
  intro e he net q hm
  rw [hn, List.drop_left] at he
  have hloc := hp e he
  cases e with
  | start sn u t v net' con =>
    cases hm
    have := PyToken.start_number I' (a := (sn, u, t, v)) (List.mem_filterMap.2 ⟨.start sn u t v net con, by rw [hn]; exact List.mem_append_right _ he, rfl⟩)
    show 0 < sn
    have := this.1
    dsimp only at this
    omega
  | deposit => cases hm
  | reclaim => cases hm
  | _ => cases hloc

/-! ### One chain, moving -/

theorem sentBytes_append (g : Nat) (l m : List PyBmc.Event) : sentBytes g (l ++ m) = sentBytes g l ++ sentBytes g m := by simp [sentBytes]

/-- What calls put into the log, and that they take nothing. -/
structure Sent2 (svc : Bytes) (S P : Side) (g : Nat) (b b' : PyBmc.St) (e : List Pkt) : Prop where
  log : ∃ new, b'.log = b.log ++ new ∧ F2 (Enc svc S P) (ours svc S.c (sentBytes g new)) e
  steps : ∀ q, PyBmc.Steps q b b'
  wired : Wired svc S g b'

theorem sends_sent {svc : Bytes} {S P : Side} (PR : Pair svc S P) {g : Nat} {x : Ctx} {b b' : PyBmc.St} {evs : List Ev}
    (h : Sends svc S g x b evs b') (w : Wired svc S g b) (n : PyBmc.Named b) (hp : ∀ e ∈ evs, ∀ net q, msgOf e = some (net, q) → 0 < num q) :
    Sent2 svc S P g b b' (evs.filterMap (pktOf S.net)) := by
  induction h with
  | nil b => exact ⟨⟨[], by simp, .nil⟩, fun q => .refl _, w⟩
  | skip e t h r ih =>
    rw [List.filterMap_cons_none (by rw [pktOf_eq, h])]
    exact ih w n fun e he => hp e (List.mem_cons_of_mem _ he)
  | @send b b1 b' e t net p h ho hs w1 r ih =>
    have st : ∀ q, PyBmc.Steps q b b1 := fun q => PyBmc.exec_conf rfl hs
    have n1 : PyBmc.Named b1 := (st false).inv (fun _ _ e h => PyBmc.named_step e h) n
    obtain ⟨⟨new, hn, hf⟩, hst, hw⟩ := ih w1 n1 fun e he => hp e (List.mem_cons_of_mem _ he)
    obtain ⟨k, l, dst, hr, hl, hd, h0, hlog⟩ := PyBmc.C127_sent_to_next S.c b b1 x net svc (num p) _ hs
    refine ⟨⟨_ :: new, by rw [hn, hlog, List.append_assoc]; rfl, ?_⟩, fun q => (st q).trans (hst q), hw⟩
    rw [show ∀ (y : PyBmc.Event), y :: new = [y] ++ new from fun _ => rfl, sentBytes_append, ours_append]
    obtain ⟨l', hl', hg⟩ := w.link
    by_cases hnet : net = S.net
    · subst hnet
      have hk : k = S.link := by rw [w.route] at hr; cases hr; rfl
      subst hk
      rw [hl'] at hl; cases hl
      rw [PR.link, PR.you] at hd; cases hd
      have hsh := w1.short l.gen S.link (l.tx + 1) _ (by rw [hlog]; exact List.mem_append_right _ List.mem_cons_self)
      have hrd := PyBmc.read_write S.c P.c S.c.me P.c.me svc (num p) (S.ser (jsonOf S.tk p)) PR.rdMe PR.rdYou PR.me PR.you PR.valid hsh
      rw [PR.read] at hrd
      rw [List.filterMap_cons_some (b := p) (by rw [pktOf_eq, h]; simp)]
      have h1 : sentBytes g [PyBmc.Event.message l.gen S.link (l.tx + 1) (PyBmc.writeMsg S.c S.c.me (some P.c.me) (some svc) (num p) (S.ser (jsonOf S.tk p)))] =
          [PyBmc.writeMsg S.c S.c.me (some P.c.me) (some svc) (num p) (S.ser (jsonOf S.tk p))] := by simp [sentBytes, hg]
      rw [h1, ours_one hrd rfl]
      exact .cons ⟨_, _, hrd, hp e List.mem_cons_self _ _ h, .inr ⟨msgOf_not_err h, rfl, PR.json p⟩⟩ hf
    · have hk : k ≠ S.link := by intro e; subst e; exact hnet (ho hr)
      have hgen : l.gen ≠ g := by
        intro e
        exact hk (n.unique hl hl' (by rw [e, hg]))
      rw [List.filterMap_cons_none (by rw [pktOf_eq, h]; simp [hnet])]
      have h1 : ∀ z, sentBytes g [PyBmc.Event.message l.gen k (l.tx + 1) z] = [] := by intro z; simp [sentBytes, hgen]
      rw [h1]
      exact hf

/-- What a chain did: it took the packets `i` and sent others. -/
structure Went (svc : Bytes) (S P : Side) (g : Nat) (s s' : Chain) (i : List Pkt) : Prop where
  out : ∃ new e, s'.bmc.log = s.bmc.log ++ new ∧ F2 (Enc svc S P) (ours svc S.c (sentBytes g new)) e ∧
    ∀ o r, HStar S.tk P.tk S.net s.tok o (i ++ r) s'.tok (o ++ e) r
  steps : PyBmc.Steps false s.bmc s'.bmc
  wired : Wired svc S g s'.bmc
  inv : PyToken.Inv S.tk s'.tok

theorem Went.trans {svc : Bytes} {S P : Side} {g : Nat} {s s1 s2 : Chain} {i i' : List Pkt} (h : Went svc S P g s s1 i) (h' : Went svc S P g s1 s2 i') :
    Went svc S P g s s2 (i ++ i') := by
  obtain ⟨new, e, hn, hf, hh⟩ := h.out
  obtain ⟨new', e', hn', hf', hh'⟩ := h'.out
  refine ⟨⟨new ++ new', e ++ e', by rw [hn', hn, List.append_assoc], ?_, fun o r => ?_⟩, h.steps.trans h'.steps, h'.wired, h'.inv⟩
  · rw [sentBytes_append, ours_append]; exact hf.append hf'
  · have h1 := hh o (i' ++ r)
    have h2 := hh' (o ++ e) r
    rw [← List.append_assoc] at h1
    rw [List.append_assoc] at h2
    exact h1.trans h2

/-- How many messages the link took stays the same. -/
def Rx (k : Str) (g r : Nat) (b : PyBmc.St) : Prop :=
  PyBmc.Named b ∧ g < b.names.length ∧ ∀ l, get b.links k = some l → l.gen = g → l.rx = r

theorem rx_step {k : Str} {g r : Nat} {b b' : PyBmc.St} (h : PyBmc.Step true b b') (R : Rx k g r b) : Rx k g r b' := by
  have hN := PyBmc.named_step h R.1
  obtain ⟨h0, h1, h2⟩ := R
  have put : ∀ (names : List Str) (k' : Str) (l' : PyBmc.Link), g < names.length → (k' = k → l'.gen = g → l'.rx = r) →
      g < names.length ∧ ∀ l, get (PyBmc.put b.links k' l') k = some l → l.gen = g → l.rx = r := by
    intro names k' l' hn hl'
    refine ⟨hn, fun l hl hg => ?_⟩
    rw [PyBmc.get_put] at hl
    split at hl
    · rename_i e; cases hl; exact hl' e hg
    · exact h2 l hl hg
  refine ⟨hN, ?_⟩
  cases h with
  | tx k' l b hk => exact put _ k' _ h1 fun e hg => by subst e; exact h2 l hk hg
  | link k' l l' hk hrx htx hgen hi => exact put _ k' _ h1 fun e hg => by subst e; rw [hrx]; exact h2 l hk (by rw [← hgen]; exact hg)
  | rx k' l n hk hq => cases hq
  | disp g' n b hq => cases hq
  | grant _ a p h => obtain ⟨m, rfl⟩ := PyBmc.grant_eq h; exact ⟨h1, h2⟩
  | revoke _ a p h => obtain ⟨m, rfl⟩ := PyBmc.revoke_eq h; exact ⟨h1, h2⟩
  | addLink link a ha hv hk =>
    refine put _ _ _ (by simp; omega) fun e hg => ?_
    have : b.names.length = g := hg
    omega
  | delLink k' hk =>
    refine ⟨h1, fun l hl hg => ?_⟩
    exact h2 l (PyBmc.get_del_some b.links k' k l h0.nodup hl).2 hg
  | _ => exact ⟨h1, h2⟩

theorem rx_steps {k : Str} {g r : Nat} {b b' : PyBmc.St} (h : PyBmc.Steps true b b') (R : Rx k g r b) : Rx k g r b' := h.inv (fun _ _ e h => rx_step e h) R

theorem rx_noted {k : Str} {g r : Nat} {b : PyBmc.St} {gen seq : Nat} {m : Bytes} (R : Rx k g r b) : Rx k g r (noted b gen seq m) :=
  ⟨PyBmc.named_step (q := false) (.disp b gen seq m rfl) R.1, R.2⟩

theorem noted_steps (b : PyBmc.St) (gen seq : Nat) (m : Bytes) : PyBmc.Steps false b (noted b gen seq m) := .one (.disp b gen seq m rfl)

theorem Wired.noted {svc : Bytes} {S : Side} {g : Nat} {b : PyBmc.St} (w : Wired svc S g b) (gen seq : Nat) (m : Bytes) : Wired svc S g (noted b gen seq m) :=
  ⟨w.route, w.link, w.reg, w.short⟩

theorem steps_named {q : Bool} {b b' : PyBmc.St} (h : PyBmc.Steps q b b') (n : PyBmc.Named b) : PyBmc.Named b' := h.inv (fun _ _ e h => PyBmc.named_step e h) n

section
variable {svc : Bytes} {S P : Side} (PR : Pair svc S P) (L : Law S.tk) {g : Nat}
include PR L

theorem act_went {s s' : Chain} (h : Act svc S g s s') (w : Wired svc S g s.bmc) (n : PyBmc.Named s.bmc) (I : PyToken.Inv S.tk s.tok) :
    Went svc S P g s s' [] ∧ ∀ r, Rx S.link g r s.bmc → Rx S.link g r s'.bmc := by
  cases h with
  | conf o t hr hq h w' =>
    obtain ⟨new, hn, hq⟩ := hq
    refine ⟨⟨⟨new, [], hn, ?_, fun o r => ?_⟩, PyBmc.exec_conf hr h, w', I⟩, fun r R => rx_steps (PyBmc.exec_conf hr h) R⟩
    · rw [ours_none hq]; exact .nil
    · rw [List.append_nil]; exact .refl _ _ _
  | @tok o x b b' t t' hx hl h hs =>
    obtain ⟨⟨new, hn, hf⟩, hst, hw⟩ := sends_sent PR hs w n (local_pos L I hl h)
    refine ⟨⟨⟨new, _, hn, hf, fun o' r => ?_⟩, hst _, hw, PyToken.exec_inv L I h⟩, fun r R => rx_steps (hst _) R⟩
    exact .head (.loc o hl h) (.refl _ _ _)

theorem acts_went {s s' : Chain} (h : Acts svc S g s s') (w : Wired svc S g s.bmc) (n : PyBmc.Named s.bmc) (I : PyToken.Inv S.tk s.tok) :
    Went svc S P g s s' [] ∧ ∀ r, Rx S.link g r s.bmc → Rx S.link g r s'.bmc := by
  induction h with
  | refl s => exact ⟨⟨⟨[], [], by simp, .nil, fun o r => by rw [List.append_nil]; exact .refl _ _ _⟩, .refl _, w, I⟩, fun r R => R⟩
  | cons h r ih =>
    obtain ⟨h1, h2⟩ := act_went PR L h w n I
    obtain ⟨h3, h4⟩ := ih h1.wired (steps_named h1.steps n) h1.inv
    exact ⟨h1.trans h3, fun r R => h4 r (h2 r R)⟩

omit L in
theorem enc_err {b : Bytes} {p : Pkt} {y : PyBmc.Msg} {sn : Int} (h : Enc svc P S b p) (hy : PyBmc.readMsg S.c b = some y) (hsn : y.sn = some sn) (h0 : sn < 0) :
    p = .err (sn * -1) := by
  obtain ⟨n, pl, hr, hp, h⟩ := h
  rw [← PR.read, hr] at hy; cases hy
  cases hsn
  rcases h with ⟨h1, h2⟩ | ⟨_, h2, _⟩
  · rw [h1]; congr 1; omega
  · omega

omit L in
theorem enc_msg {b : Bytes} {p : Pkt} {y : PyBmc.Msg} {sn : Int} (h : Enc svc P S b p) (hy : PyBmc.readMsg S.c b = some y) (hsn : y.sn = some sn) (h0 : 0 ≤ sn) :
    ∃ pl, y = ⟨some P.c.me, some S.c.me, some svc, some sn, some pl⟩ ∧ 0 < sn ∧ num p = sn ∧ S.tk.parse pl = some (jsonOf P.tk p) ∧
      (∀ src r, opOf S.tk src pl r p = .message S.tk.bmc src sn pl r) ∧ bounce p = [.err sn] := by
  obtain ⟨n, pl, hr, hp, h⟩ := h
  rw [← PR.read, hr] at hy; cases hy
  cases hsn
  rcases h with ⟨_, h2⟩ | ⟨h1, h2, h3⟩
  · omega
  · refine ⟨pl, rfl, by omega, h2.symm, h3, ?_⟩
    subst h2
    cases p with
    | err k => exact absurd rfl (h1 k)
    | _ => exact ⟨fun _ _ => rfl, rfl⟩

theorem take_went {key : Str} {gen seq : Nat} {s s' : Chain} {m : Bytes} (h : Take svc S g key gen seq s m s') (w : Wired svc S g s.bmc)
    (n : PyBmc.Named s.bmc) (I : PyToken.Inv S.tk s.tok) {i : List Pkt} (hi : F2 (Enc svc P S) (ours svc S.c [m]) i) :
    Went svc S P g s s' i ∧ ∀ r, Rx S.link g r s.bmc → Rx S.link g r s'.bmc := by
  cases h with
  | @plain out b b' t m hn h hq w' =>
    rw [ours_none (by intro m' hm; rw [List.mem_singleton.1 hm]; exact hn)] at hi
    cases hi.nil_right
    obtain ⟨new, hl, hq⟩ := hq
    have st : ∀ q, PyBmc.Steps q (noted b gen seq m) b' := fun q => PyBmc.item_steps (fun y => .refl y) h
    refine ⟨⟨⟨new, [], hl, ?_, fun o r => ?_⟩, (noted_steps ..).trans (st _), w', I⟩, fun r R => rx_steps (st _) (rx_noted R)⟩
    · rw [ours_none hq]; exact .nil
    · rw [List.append_nil]; exact .refl _ _ _
  | @call b b' t t' m hn h a =>
    rw [ours_none (by intro m' hm; rw [List.mem_singleton.1 hm]; exact hn)] at hi
    cases hi.nil_right
    obtain ⟨⟨h1, h2, h3, h4⟩, h5⟩ := acts_went PR L a (w.noted _ _ _) (steps_named (noted_steps ..) n) I
    exact ⟨⟨h1, (noted_steps ..).trans h2, h3, h4⟩, fun r R => h5 r (rx_noted R)⟩
  | @own b b' t t' m y a sn p r x' hk hy hsv ha hsn h0 hp ht hx hs h =>
    rw [ours_one hy hsv] at hi
    obtain ⟨q, rfl, he⟩ : ∃ q, i = [q] ∧ Enc svc P S m q := by cases hi with | cons h t => cases t; exact ⟨_, rfl, h⟩
    obtain ⟨pl, rfl, h1, h2, h3, h4, h5⟩ := enc_msg PR he hy hsn h0
    cases ha; cases hp
    have hpos : ∀ e ∈ t'.log.drop t.log.length, ∀ net q, msgOf e = some (net, q) → 0 < num q := by
      obtain ⟨new, hn, hq⟩ := message_adds ht
      rw [hn, List.drop_left]
      intro e he net q hm
      have := hq e he net q hm
      omega
    obtain ⟨⟨new, hn, hf⟩, hst, hw⟩ := sends_sent PR hs (w.noted _ _ _) (steps_named (noted_steps ..) n) hpos
    refine ⟨⟨⟨new, _, hn, hf, fun o r' => ?_⟩, (noted_steps ..).trans (hst _), hw, PyToken.exec_inv L I ht⟩, fun r R => rx_steps (hst _) (rx_noted R)⟩
    exact .head (.deliver [] r' q p r (.inr h3) (by rw [h4, PR.net]; exact ht)) (.refl _ _ _)
  | @refused b b' t m y a sn p r e text hk hy hsv ha hsn h0 hp ht h w' =>
    rw [ours_one hy hsv] at hi
    obtain ⟨q, rfl, he⟩ : ∃ q, i = [q] ∧ Enc svc P S m q := by cases hi with | cons h t => cases t; exact ⟨_, rfl, h⟩
    obtain ⟨pl, rfl, h1, h2, h3, h4, h5⟩ := enc_msg PR he hy hsn h0
    cases ha; cases hp
    have st : ∀ q, PyBmc.Steps q (noted b gen seq m) b' := fun q => PyBmc.item_steps (fun y => .refl y) h
    obtain ⟨l, hl, hg⟩ := w.link
    subst hk
    have h' := ((PyBmc.C127_answers S.c (.btp e text) (fun y => y) S.link gen seq b m _ sn l hy rfl hl).1 rfl svc rfl PR.name.1 PR.name.2 h0).2 e text rfl
      (by rw [w.reg]; rfl) rfl
    rw [h', if_neg (by omega)] at h
    cases h
    have hsh := w'.short l.gen S.link (l.tx + 1) _ (by dsimp only [PyBmc.answered]; exact List.mem_append_right _ List.mem_cons_self)
    have hrd := PyBmc.read_write S.c P.c S.c.me P.c.me svc (-sn) (PyBmc.writeError e text) PR.rdMe PR.rdYou PR.me PR.you PR.valid hsh
    rw [PR.read] at hrd
    refine ⟨⟨⟨_, [.err sn], rfl, ?_, fun o r' => ?_⟩, (noted_steps ..).trans (st _), w', I⟩, fun r R => rx_steps (st _) (rx_noted R)⟩
    · have h6 : ∀ z, sentBytes g [PyBmc.Event.message l.gen S.link (l.tx + 1) z] = [z] := by intro z; simp [sentBytes, hg]
      rw [h6, ours_one hrd rfl]
      exact .cons ⟨_, _, hrd, h1, .inl ⟨rfl, rfl⟩⟩ .nil
    · have := Half.refuse (c := S.tk) (c' := P.tk) (you := S.net) (s := t) (out := o) [] r' q p r e (.inr h3) (by rw [h4, PR.net]; exact ht)
      rw [h5] at this
      exact .head this (.refl _ _ _)
  | @error b b' t t' m y sn x' hk hy hsv hsn h0 ht hx hs h =>
    rw [ours_one hy hsv] at hi
    obtain ⟨q, rfl, he⟩ : ∃ q, i = [q] ∧ Enc svc P S m q := by cases hi with | cons h t => cases t; exact ⟨_, rfl, h⟩
    have hq := enc_err PR he hy hsn h0
    subst hq
    have hpos : ∀ e ∈ t'.log.drop t.log.length, ∀ net q, msgOf e = some (net, q) → 0 < num q := by
      obtain ⟨new, hn, hq⟩ := error_adds ht
      rw [hn, List.drop_left]
      intro e he net q hm
      rw [hq e he] at hm; cases hm
    obtain ⟨⟨new, hn, hf⟩, hst, hw⟩ := sends_sent PR hs (w.noted _ _ _) (steps_named (noted_steps ..) n) hpos
    refine ⟨⟨⟨new, _, hn, hf, fun o r' => ?_⟩, (noted_steps ..).trans (hst _), hw, PyToken.exec_inv L I ht⟩, fun r R => rx_steps (hst _) (rx_noted R)⟩
    exact .head (.deliver [] r' (.err (sn * -1)) [] .ok (.inl ⟨_, rfl⟩) ht) (.refl _ _ _)
  | @failed b b' t m y sn out hk hy hsv hsn h0 ht h w' =>
    rw [ours_one hy hsv] at hi
    obtain ⟨q, rfl, he⟩ : ∃ q, i = [q] ∧ Enc svc P S m q := by cases hi with | cons h t => cases t; exact ⟨_, rfl, h⟩
    have hq := enc_err PR he hy hsn h0
    subst hq
    have st : ∀ q, PyBmc.Steps q (noted b gen seq m) b' := fun q => PyBmc.item_steps (fun y => .refl y) h
    have hlog : ∃ code, b'.log = b.log ++ [.onError (some svc) (sn * -1) code] := by
      obtain ⟨k, pl, hr, _⟩ := he
      rw [← PR.read, hr] at hy; cases hy
      cases hsn
      simp only [PyBmc.item, ← PR.read, hr] at h
      rw [if_pos (show Option.map (fun x : PyAddr.Addr => x.toStr) (some S.c.me) = some S.c.me.toStr from rfl)] at h
      unfold PyBmc.handleMsg at h
      rw [if_neg (by intro e; exact PR.name.1 (Option.some.inj e)), if_neg (by intro e; exact PR.name.2 (Option.some.inj e))] at h
      unfold PyBmc.handleService at h
      simp only [w.reg] at h
      rw [if_neg (by omega)] at h
      split at h
      · rcases ht with ⟨e, text, _, rfl⟩ | ⟨_, rfl⟩
        · cases h; exact ⟨_, rfl⟩
        · cases h; exact ⟨_, rfl⟩
      · cases h
    obtain ⟨code, hlog⟩ := hlog
    refine ⟨⟨⟨_, [], hlog, .nil, fun o r' => ?_⟩, (noted_steps ..).trans (st _), w', I⟩, fun r R => rx_steps (st _) (rx_noted R)⟩
    rcases ht with ⟨e, text, ht, _⟩ | ⟨ht, _⟩
    · exact .head (.refuse [] r' (.err (sn * -1)) [] .ok e (.inl ⟨_, rfl⟩) ht) (.refl _ _ _)
    · rw [List.append_nil]; exact .head (.drop [] r' (sn * -1) ht) (.refl _ _ _)

theorem takes_went {key : Str} {gen seq : Nat} {s s' : Chain} {ms : List Bytes} (h : Takes svc S g key gen seq s ms s') :
    ∀ (_ : Wired svc S g s.bmc) (_ : PyBmc.Named s.bmc) (_ : PyToken.Inv S.tk s.tok) {i : List Pkt} (_ : F2 (Enc svc P S) (ours svc S.c ms) i),
      Went svc S P g s s' i ∧ ∀ r, Rx S.link g r s.bmc → Rx S.link g r s'.bmc := by
  induction h with
  | nil seq s =>
    intro w n I i hi
    cases hi.nil_right
    exact ⟨⟨⟨[], [], by simp, .nil, fun o r => by rw [List.append_nil]; exact .refl _ _ _⟩, .refl _, w, I⟩, fun r R => R⟩
  | cons m ms h r ih =>
    intro w n I i hi
    rw [show m :: ms = [m] ++ ms from rfl, ours_append] at hi
    obtain ⟨i1, i2, rfl, h1, h2⟩ := hi.split
    obtain ⟨h3, h4⟩ := take_went PR L h w n I h1
    obtain ⟨h5, h6⟩ := ih h3.wired (steps_named h3.steps n) h3.inv h2
    exact ⟨h3.trans h5, fun r R => h6 r (h4 r R)⟩

omit PR L in
theorem takes_other {key : Str} {gen seq : Nat} {s s' : Chain} {ms : List Bytes} (h : Takes svc S g key gen seq s ms s') (hk : key ≠ S.link) :
    ours svc S.c ms = [] := by
  induction h with
  | nil => rfl
  | cons m ms h r ih =>
    rw [show m :: ms = [m] ++ ms from rfl, ours_append, ih, List.append_nil]
    cases h with
    | plain out t m hn => exact ours_none (by intro m' hm; rw [List.mem_singleton.1 hm]; exact hn)
    | call m hn => exact ours_none (by intro m' hm; rw [List.mem_singleton.1 hm]; exact hn)
    | own m y a sn p r x' h => exact absurd h hk
    | refused t m y a sn p r e text h => exact absurd h hk
    | error m y sn x' h => exact absurd h hk
    | failed t m y sn out h => exact absurd h hk

/-- A transaction takes the first packets on the way. -/
theorem tx_went {ok : Nat → List Bytes → Prop} {s s' : Chain} (h : Tx svc S g ok s s') (w : Wired svc S g s.bmc) (n : PyBmc.Named s.bmc)
    (I : PyToken.Inv S.tk s.tok) {r : Nat} (R : Rx S.link g r s.bmc) {K : List Bytes} (hr : r ≤ K.length)
    (hok : ∀ msgs, ok r msgs → ∀ (i : Nat) (b : Bytes), msgs[i]? = some b → K[r + i]? = some b) {q : List Pkt}
    (hq : F2 (Enc svc P S) (ours svc P.c (K.drop r)) q) :
    ∃ r' i q', q = i ++ q' ∧ r' ≤ K.length ∧ F2 (Enc svc P S) (ours svc P.c (K.drop r')) q' ∧ Went svc S P g s s' i ∧ Rx S.link g r' s'.bmc := by
  cases h with
  | act h =>
    obtain ⟨h1, h2⟩ := act_went PR L h w n I
    exact ⟨r, [], q, rfl, hr, hq, h1, h2 r R⟩
  | @relay x prev v msgs b b1 b2 b' t t' key gen rx h1 w1 hv h2 h3 w' =>
    obtain ⟨a, l, bmv, l1, tt, rr, ha, hka, hl, hgen, hrx, hb, hver, hrot, hwh, hb1⟩ := PyBmc.openRelay_spec h1
    have hlog : b1.log = b.log := by rw [hb1]
    have st1 : ∀ q, PyBmc.Steps q b b1 := fun q => PyBmc.openRelay_steps h1
    have n1 := steps_named (st1 false) n
    obtain ⟨l2, hl2, hg2, hb'⟩ := PyBmc.closeRelay_spec h3
    have st3 : PyBmc.Steps false b2 b' := by rw [hb']; exact .one (.rx b2 key l2 msgs.length hl2 rfl)
    have fin : ∀ {i : List Pkt}, F2 (Enc svc P S) (ours svc S.c msgs) i →
        Went svc S P g ⟨b, t⟩ ⟨b', t'⟩ i ∧ Rx S.link g r b2 ∧ PyBmc.Named b' := by
      intro i hi
      obtain ⟨⟨⟨new, e, e1, e2, e3⟩, e4, e5, e6⟩, e7⟩ := takes_went PR L h2 w1 n1 I hi
      refine ⟨⟨⟨new, e, ?_, e2, e3⟩, ((st1 _).trans e4).trans st3, w', e6⟩, e7 r (rx_steps (st1 _) R), steps_named (e4.trans st3) n1⟩
      rw [hb', ← hlog]; exact e1
    by_cases hk : key = S.link
    · have hrr : rx = r := by
        obtain ⟨l', hl', hg'⟩ := w.link
        subst hk
        rw [show (⟨b, t⟩ : Chain).bmc = b from rfl, hl] at hl'
        cases hl'
        rw [hrx]; exact R.2.2 l hl hg'
      have hacc := hok msgs (hrr ▸ hv hk)
      have hlen : r + msgs.length ≤ K.length := by
        cases hm : msgs.length with
        | zero => omega
        | succ k =>
          have := (List.getElem?_eq_some_iff.1 (hacc k msgs[k] (List.getElem?_eq_getElem (by omega)))).1
          omega
      have hmsgs : K.drop r = msgs ++ K.drop (r + msgs.length) := by
        have e : (K.drop r).take msgs.length = msgs := by
          apply List.ext_getElem?
          intro j
          rw [List.getElem?_take, List.getElem?_drop]
          cases hj : msgs[j]? with
          | none => rw [List.getElem?_eq_none_iff] at hj; rw [if_neg (by omega)]
          | some z => rw [if_pos (List.getElem?_eq_some_iff.1 hj).1, hacc j z hj]
        have := List.take_append_drop msgs.length (K.drop r)
        rw [e, List.drop_drop] at this
        exact this.symm
      rw [hmsgs, ours_append] at hq
      obtain ⟨i, q', rfl, hi, hq'⟩ := hq.split
      rw [ours_read PR.read] at hi
      obtain ⟨f1, f2, f3⟩ := fin hi
      refine ⟨r + msgs.length, i, q', rfl, hlen, hq', f1, f3, ?_, ?_⟩
      · rw [hb']; exact f2.2.1
      · intro l' hl' hg'
        rw [hb'] at hl'
        simp only [← hk, PyBmc.get_put_same] at hl'
        cases hl'
        have := f2.2.2 l2 (hk ▸ hl2) hg'
        show l2.rx + msgs.length = r + msgs.length
        omega
    · have hi : F2 (Enc svc P S) (ours svc S.c msgs) [] := by rw [takes_other h2 hk]; exact .nil
      obtain ⟨f1, f2, f3⟩ := fin hi
      refine ⟨r, [], q, rfl, hr, hq, f1, f3, ?_, ?_⟩
      · rw [hb']; exact f2.2.1
      · intro l' hl' hg'
        rw [hb'] at hl'
        simp only [PyBmc.get_put_other _ _ hk] at hl'
        exact f2.2.2 l' hl' hg'

end

/-! ### Both chains, moving -/

section
variable {svc : Bytes} {A B : Side} {gA gB : Nat} {okA okB : PyBmc.St → Nat → List Bytes → Prop}

/-- The services move as C132 says, and what is on the way between them are the messages sent over the links and not taken yet, in this order. -/
structure Inv2 (svc : Bytes) (A B : Side) (gA gB : Nat) (x : Both) (ab ba : List Pkt) (rA rB : Nat) : Prop where
  reach : PyToken.Reach A.tk B.tk B.net A.net ⟨x.a.tok, x.b.tok, ab, ba⟩
  rxA : Rx A.link gA rA x.a.bmc
  rxB : Rx B.link gB rB x.b.bmc
  leA : rA ≤ (sentBytes gB x.b.bmc.log).length
  leB : rB ≤ (sentBytes gA x.a.bmc.log).length
  ab : F2 (Enc svc A B) (ours svc A.c ((sentBytes gA x.a.bmc.log).drop rB)) ab
  ba : F2 (Enc svc B A) (ours svc B.c ((sentBytes gB x.b.bmc.log).drop rA)) ba
  wA : Wired svc A gA x.a.bmc
  wB : Wired svc B gB x.b.bmc
  sA : PyBmc.Sent x.a.bmc
  sB : PyBmc.Sent x.b.bmc
  iA : PyToken.Inv A.tk x.a.tok
  iB : PyToken.Inv B.tk x.b.tok

theorem Inv2.swap {x : Both} {ab ba : List Pkt} {rA rB : Nat} (h : Inv2 svc A B gA gB x ab ba rA rB) : Inv2 svc B A gB gA ⟨x.b, x.a⟩ ba ab rB rA :=
  ⟨h.reach.swap, h.rxB, h.rxA, h.leB, h.leA, h.ba, h.ab, h.wB, h.wA, h.sB, h.sA, h.iB, h.iA⟩

theorem Inv2.step (PR : Pair svc A B) (L : Law A.tk) {x : Both} {ab ba : List Pkt} {rA rB : Nat} (h : Inv2 svc A B gA gB x ab ba rA rB)
    (so : Sound gB okA) {a' : Chain} (t : Tx svc A gA (okA x.b.bmc) x.a a') : ∃ ab' ba' rA', Inv2 svc A B gA gB ⟨a', x.b⟩ ab' ba' rA' rB := by
  obtain ⟨rA', i, ba', rfl, h1, h2, h3, h4⟩ := tx_went PR L t h.wA h.sA.named h.iA h.rxA h.leA (fun msgs ho => so _ _ _ h.sB ho) h.ba
  obtain ⟨new, e, hn, hf, hh⟩ := h3.out
  refine ⟨ab ++ e, ba', rA', (hh ab ba').atA h.reach, h4, h.rxB, h1, ?_, ?_, h2, h3.wired, h.wB, h3.steps.inv (fun _ _ e h => PyBmc.sent_step e h) h.sA,
    h.sB, h3.inv, h.iB⟩
  · show rB ≤ (sentBytes gA a'.bmc.log).length
    rw [hn, sentBytes_append, List.length_append]; have := h.leB; omega
  · show F2 _ (ours svc A.c ((sentBytes gA a'.bmc.log).drop rB)) _
    rw [hn, sentBytes_append, List.drop_append_of_le_length h.leB, ours_append]
    exact h.ab.append hf

theorem start_inv {x : Both} (h : Start svc A B gA gB x) : ∃ rA rB, Inv2 svc A B gA gB x [] [] rA rB := by
  have sent : ∀ (c : PyBmc.Cfg) ops, PyBmc.Sent (PyBmc.run c ops) := fun c ops => PyBmc.run_inv PyBmc.sent_init (fun _ _ e h => PyBmc.sent_step e h) ops
  have sA : PyBmc.Sent x.a.bmc := by obtain ⟨ops, e⟩ := h.runA; rw [e]; exact sent _ _
  have sB : PyBmc.Sent x.b.bmc := by obtain ⟨ops, e⟩ := h.runB; rw [e]; exact sent _ _
  obtain ⟨lA, hlA, hgA⟩ := h.wA.link
  obtain ⟨lB, hlB, hgB⟩ := h.wB.link
  have len : ∀ {b : PyBmc.St} {k : Str} {l : PyBmc.Link}, PyBmc.Named b → get b.links k = some l → l.gen < b.names.length := fun n h =>
    (List.getElem?_eq_some_iff.1 (n.name _ _ h)).1
  refine ⟨lA.rx, lB.rx, ?_, ⟨sA.named, ?_, ?_⟩, ⟨sB.named, ?_, ?_⟩, h.rxA lA hlA, h.rxB lB hlB, ?_, ?_, h.wA, h.wB, sA, sB, ?_, ?_⟩
  · rw [h.tokA, h.tokB]; exact .init
  · rw [← hgA]; exact len sA.named hlA
  · intro l hl _; rw [hlA] at hl; cases hl; rfl
  · rw [← hgB]; exact len sB.named hlB
  · intro l hl _; rw [hlB] at hl; cases hl; rfl
  · rw [ours_none fun m hm => h.newA m (List.mem_of_mem_drop hm)]; exact .nil
  · rw [ours_none fun m hm => h.newB m (List.mem_of_mem_drop hm)]; exact .nil
  · rw [h.tokA]; exact PyToken.inv_init
  · rw [h.tokB]; exact PyToken.inv_init

theorem joint_inv (PA : Pair svc A B) (PB : Pair svc B A) (LA : Law A.tk) (LB : Law B.tk) (sA : Sound gB okA) (sB : Sound gA okB) {x : Both}
    (h : Joint svc A B gA gB okA okB x) : ∃ ab ba rA rB, Inv2 svc A B gA gB x ab ba rA rB := by
  induction h with
  | start x h => exact ⟨[], [], start_inv h⟩
  | atA a' h t ih =>
    obtain ⟨ab, ba, rA, rB, I⟩ := ih
    obtain ⟨ab', ba', rA', I'⟩ := I.step PA LA sA t
    exact ⟨ab', ba', rA', rB, I'⟩
  | atB b' h t ih =>
    obtain ⟨ab, ba, rA, rB, I⟩ := ih
    obtain ⟨ba', ab', rB', I'⟩ := I.swap.step PB LB sB t
    exact ⟨ab', ba', rA, rB', I'.swap⟩

/-- What is assumed of both sides and of what the verifiers accept. -/
structure Setup (svc : Bytes) (A B : Side) (gA gB : Nat) (okA okB : PyBmc.St → Nat → List Bytes → Prop) : Prop where
  pa : Pair svc A B
  pb : Pair svc B A
  la : Law A.tk
  lb : Law B.tk
  sa : Sound gB okA
  sb : Sound gA okB

theorem Setup.inv (U : Setup svc A B gA gB okA okB) {x : Both} (h : Joint svc A B gA gB okA okB x) : ∃ ab ba rA rB, Inv2 svc A B gA gB x ab ba rA rB :=
  joint_inv U.pa U.pb U.la U.lb U.sa U.sb h

/-- **C169**: what relay calls bring to the services are the packets the services sent, each at most once and in order: the services move as C132 says,
and what is under way between them are exactly the messages in the name of the service that one message center sent over its link and the other has
not taken. -/
theorem C169_refines_partial (U : Setup svc A B gA gB okA okB) {x : Both} (h : Joint svc A B gA gB okA okB x) :
    ∃ ab ba rA rB, PyToken.Reach A.tk B.tk B.net A.net ⟨x.a.tok, x.b.tok, ab, ba⟩ ∧
      (∀ l, get x.a.bmc.links A.link = some l → l.rx = rA) ∧ (∀ l, get x.b.bmc.links B.link = some l → l.rx = rB) ∧
      F2 (Enc svc A B) (ours svc A.c ((sentBytes gA x.a.bmc.log).drop rB)) ab ∧ F2 (Enc svc B A) (ours svc B.c ((sentBytes gB x.b.bmc.log).drop rA)) ba := by
  obtain ⟨ab, ba, rA, rB, I⟩ := U.inv h
  refine ⟨ab, ba, rA, rB, I.reach, fun l hl => ?_, fun l hl => ?_, I.ab, I.ba⟩
  · obtain ⟨l', hl', hg⟩ := I.wA.link
    rw [hl] at hl'; cases hl'
    exact I.rxA.2.2 l hl hg
  · obtain ⟨l', hl', hg⟩ := I.wB.link
    rw [hl] at hl'; cases hl'
    exact I.rxB.2.2 l hl hg

/-- **C169**: a transfer is credited on the other chain at most once, and only one started there, with its token, value and receiver. -/
theorem C169_received_once_partial (U : Setup svc A B gA gB okA okB) {x : Both} (h : Joint svc A B gA gB okA okB x) (sn : Int) :
    PyToken.cnt (PyToken.fromNum B.net) x.b.tok.log sn ≤ 1 ∧
    ∀ u t v, Ev.receive B.net sn u t v ∈ x.b.tok.log → ∃ u0 con, Ev.start sn u0 t v A.net con ∈ x.a.tok.log ∧ B.tk.addrOf con = some u := by
  obtain ⟨ab, ba, rA, rB, I⟩ := U.inv h
  exact PyToken.C132_received_once U.la U.lb I.reach sn

/-- **C169**: a transfer credited on the other chain is not given back. -/
theorem C169_not_both_partial (U : Setup svc A B gA gB okA okB) {x : Both} (h : Joint svc A B gA gB okA okB x) (sn : Int) (u : Nat) (t : Str) (v : Int)
    (hr : Ev.receive B.net sn u t v ∈ x.b.tok.log) :
    (∀ src u' t' v', Ev.refund src sn u' t' v' ∉ x.a.tok.log) ∧ ∀ u' t' v', Ev.rollback sn u' t' v' ∉ x.a.tok.log := by
  obtain ⟨ab, ba, rA, rB, I⟩ := U.inv h
  exact PyToken.C132_not_both U.la U.lb I.reach sn u t v hr

/-- Both message centers have taken what the other one sent over the link. -/
def Drained (A B : Side) (gA gB : Nat) (x : Both) : Prop :=
  (∀ l, get x.a.bmc.links A.link = some l → l.rx = (sentBytes gB x.b.bmc.log).length) ∧
  ∀ l, get x.b.bmc.links B.link = some l → l.rx = (sentBytes gA x.a.bmc.log).length

theorem drained {x : Both} {ab ba : List Pkt} {rA rB : Nat} (I : Inv2 svc A B gA gB x ab ba rA rB) (d : Drained A B gA gB x) : ab = [] ∧ ba = [] := by
  obtain ⟨lA, hlA, hgA⟩ := I.wA.link
  obtain ⟨lB, hlB, hgB⟩ := I.wB.link
  have h1 := I.rxA.2.2 lA hlA hgA
  have h2 := I.rxB.2.2 lB hlB hgB
  have h3 := d.1 lA hlA
  have h4 := d.2 lB hlB
  have e1 := I.ab
  have e2 := I.ba
  rw [show rB = (sentBytes gA x.a.bmc.log).length by omega, List.drop_length] at e1
  rw [show rA = (sentBytes gB x.b.bmc.log).length by omega, List.drop_length] at e2
  exact ⟨e1.nil_right, e2.nil_right⟩

/-- **C169**: when both message centers have taken what the other one sent, each transfer was credited on the other chain and settled, or given back and
not credited. -/
theorem C169_resolved_partial (U : Setup svc A B gA gB okA okB) {x : Both} (h : Joint svc A B gA gB okA okB x) (d : Drained A B gA gB x) (sn : Int) (u : Nat)
    (t : Str) (v : Int) (con : Str) (hs : Ev.start sn u t v A.net con ∈ x.a.tok.log) :
    (∃ src u', Ev.settle src sn u t v ∈ x.a.tok.log ∧ Ev.receive B.net sn u' t v ∈ x.b.tok.log) ∨
    (((∃ src, Ev.refund src sn u t v ∈ x.a.tok.log) ∨ Ev.rollback sn u t v ∈ x.a.tok.log) ∧ ∀ u' t' v', Ev.receive B.net sn u' t' v' ∉ x.b.tok.log) := by
  obtain ⟨ab, ba, rA, rB, I⟩ := U.inv h
  obtain ⟨rfl, rfl⟩ := drained I d
  exact PyToken.C132_resolved U.la U.lb I.reach sn u t v con hs rfl rfl

/-- **C169**: the balances of a token on both chains together are no less than the tokens both services hold, and equal them when both message centers
have taken what the other one sent; no balance that can be used is negative. -/
theorem C169_backed_partial (U : Setup svc A B gA gB okA okB) {x : Both} (h : Joint svc A B gA gB okA okB x) (usA usB : List Nat) (hA : usA.Nodup) (hB : usB.Nodup)
    (cA : ∀ e ∈ x.a.tok.log, ∀ u, PyToken.userOf e = some u → u ∈ usA) (cB : ∀ e ∈ x.b.tok.log, ∀ u, PyToken.userOf e = some u → u ∈ usB) (t : Str) :
    PyToken.held t x.a.tok.log + PyToken.held t x.b.tok.log ≤ PyToken.claims A.tk x.a.tok usA t + PyToken.claims B.tk x.b.tok usB t ∧
    (Drained A B gA gB x → PyToken.claims A.tk x.a.tok usA t + PyToken.claims B.tk x.b.tok usB t = PyToken.held t x.a.tok.log + PyToken.held t x.b.tok.log) ∧
    ∀ u p q, (PyToken.getBalance A.tk x.a.tok u t = some (p, q) → 0 ≤ p) ∧ (PyToken.getBalance B.tk x.b.tok u t = some (p, q) → 0 ≤ p) := by
  obtain ⟨ab, ba, rA, rB, I⟩ := U.inv h
  have h1 := PyToken.C132_backed U.la U.lb I.reach usA usB hA hB cA cB t
  exact ⟨h1.1, fun d => h1.2 (drained I d).1 (drained I d).2, fun u p q => PyToken.C132_usable U.la U.lb I.reach u t p q⟩

end

/-! ### The verifier of C167 -/

/-- What the verifier contract of C167 accepts: the chain `real` it follows emits as messages of the message center what its log has. -/
def Checked (E : PyBmv.Env) (bmc : Bytes) (net : Str) (V : PyBmv.Vals) (o : Int) (k : Str) (contract : Str) (nb : Bytes) (t : Str) (g : Nat) (st : PyBmc.St) (rx : Nat)
    (msgs : List Bytes) : Prop :=
  ∃ (real : List (PyBmv.Header × PyBmv.Vals)) (w : PyEnd.World) (cs : List PyBmv.Call) (c : PyBmv.Call), PyEnd.World.Of w E real ∧ PyEnd.Source E w real contract nb st t ∧ (∀ g', st.names[g']? = some t → g' = g) ∧
    E.text c.prev = k ∧ c.bmc = nb ∧ c.seq = (rx : Int) ∧ PyEnd.Accepts E bmc net V o real w cs c (msgs.map .bytes)

/-- **C169**: what that verifier accepts are the following messages of the other chain. -/
theorem C169_sound {E : PyBmv.Env} (hH : ∀ x, (E.H x).length = 32) {bmc : Bytes} {net : Str} {V : PyBmv.Vals} (hV : PyBmv.readVals E V.bytes = some V) {o : Int}
    (ho : 0 ≤ o) {k : Str} {prev : PyAddr.Addr} (hk : PyAddr.fromString k = some prev) (nb : Bytes) (t : Str) (g : Nat) :
    Sound g (Checked E bmc net V o k prev.contract nb t g) := by
  intro st rx msgs hS hc i b hb
  obtain ⟨real, w, cs, c, W, hsrc, hg, c1, c2, c3, acc⟩ := hc
  obtain ⟨prev', p1, p2⟩ := PyEnd.C167_verified hH hV ho W acc
  rw [c1, hk, Option.some.injEq] at p1
  subst p1
  obtain ⟨e, he, hm⟩ := p2 i (.bytes b) (by rw [List.getElem?_map, hb]; rfl)
  rw [c2, c3] at hm
  obtain ⟨g', n, b', h1, h2, h3⟩ := hsrc e he _ _ hm
  cases h2
  have := hg g' (hS.next _ _ _ _ h3)
  subst this
  have hn : n = rx + 1 + i := by omega
  subst hn
  have := (PyEnd.sentBytes_at g' _ 1 (hS.all g') _ _ _ h3).2
  rwa [show rx + 1 + i - 1 = rx + i by omega] at this

/-! ### Examples -/

namespace Ex
open Verif.PyBmc.Ex (asc txt x v)

/-- A character as three bytes, after 1; 0 ends a text. -/
def encS : Str → Bytes
  | [] => [0]
  | ch :: t => 1 :: UInt8.ofNat ch.toNat :: UInt8.ofNat (ch.toNat / 256) :: UInt8.ofNat (ch.toNat / 65536) :: encS t

def decS : Bytes → Option (Str × Bytes)
  | 0 :: r => some ([], r)
  | 1 :: a :: b :: c :: r => match decS r with
    | some (s, r') => some (Char.ofNat (a.toNat + 256 * b.toNat + 65536 * c.toNat) :: s, r')
    | none => none
  | _ => none

theorem dec_enc (s : Str) (r : Bytes) : decS (encS s ++ r) = some (s, r) := by
  induction s with
  | nil => rfl
  | cons ch t ih =>
    have h : ch.toNat < 1114112 := by
      have := ch.valid
      simp only [Char.toNat, UInt32.isValidChar, Nat.isValidChar] at *
      omega
    simp only [encS, List.cons_append, decS, ih]
    simp only [UInt8.toNat_ofNat']
    rw [show ch.toNat % 2 ^ 8 + 256 * (ch.toNat / 256 % 2 ^ 8) + 65536 * (ch.toNat / 65536 % 2 ^ 8) = ch.toNat by omega, Char.ofNat_toNat]

def decI (neg : Bool) (b : Bytes) : Int := if neg then -(b.length : Int) else b.length

/-- A simple form for the JSON of the service. -/
def ser : PyToken.Json → Bytes
  | .obj [(_, .str _), (_, .str f), (_, .str t), (_, .obj [(_, .str n), (_, .str u)])] => 1 :: (encS f ++ (encS t ++ (encS n ++ encS u)))
  | .obj [(_, .str _), (_, .int code)] => if code < 0 then 2 :: List.replicate code.natAbs 0 else 3 :: List.replicate code.natAbs 0
  | .obj [(_, .str _)] => [4]
  | _ => [5]

def parse : Bytes → Option PyToken.Json
  | 1 :: b => match decS b with
    | some (f, b) => match decS b with
      | some (t, b) => match decS b with
        | some (n, b) => match decS b with
          | some (u, _) => some (.obj [("type".toList, .str PyToken.sReq), ("from".toList, .str f), ("to".toList, .str t),
              ("args".toList, .obj [("name".toList, .str n), ("value".toList, .str u)])])
          | none => none
        | none => none
      | none => none
    | none => none
  | 2 :: b => some (.obj [("type".toList, .str PyToken.sRes), ("code".toList, .int (-(b.length : Int)))])
  | 3 :: b => some (.obj [("type".toList, .str PyToken.sRes), ("code".toList, .int b.length)])
  | [4] => some PyToken.unknownJ
  | [5] => some .null
  | _ => none

def tk : PyToken.Cfg := { PyToken.Ex.cfg with parse := parse }

theorem parse_ser (p : Pkt) : parse (ser (jsonOf tk p)) = some (jsonOf tk p) := by
  cases p with
  | req sn u con t v =>
    simp only [jsonOf, ser, parse, dec_enc]
    have h := dec_enc (PyToken.hex v) []
    rw [List.append_nil] at h
    rw [h]
  | res sn code =>
    simp only [jsonOf, ser]
    split
    · simp only [parse, List.length_replicate]
      rw [show -(code.natAbs : Int) = code by omega]
    · simp only [parse, List.length_replicate]
      rw [show (code.natAbs : Int) = code by omega]
  | unk sn => rfl
  | err sn => rfl

def svc : Bytes := asc "tok".toList
def ka : Str := "btp://a/x".toList
def kb : Str := "btp://b/y".toList
def A : Side := ⟨PyBmc.Ex.base, tk, 5, kb, "b".toList, ser⟩
def B : Side := ⟨{ PyBmc.Ex.base with me := PyBmc.Ex.peer }, tk, 5, ka, "a".toList, ser⟩

theorem pairA : Pair svc A B := ⟨by decide +kernel, rfl, fun _ => rfl, by decide +kernel, by decide +kernel, by decide +kernel, by decide +kernel,
  ⟨rfl, by decide +kernel⟩, ⟨rfl, by decide +kernel⟩, parse_ser⟩
theorem pairB : Pair svc B A := ⟨by decide +kernel, rfl, fun _ => rfl, by decide +kernel, by decide +kernel, by decide +kernel, by decide +kernel,
  ⟨rfl, by decide +kernel⟩, ⟨rfl, by decide +kernel⟩, parse_ser⟩

def ok (st : PyBmc.St) (rx : Nat) (msgs : List Bytes) : Prop := msgs = ((sentBytes 0 st.log).drop rx).take msgs.length

theorem sound : Sound 0 ok := by
  intro st rx msgs _ h i b hb
  rw [h, List.getElem?_take] at hb
  split at hb
  · rwa [List.getElem?_drop] at hb
  · cases hb

theorem law : Law tk := ⟨fun _ _ => rfl, fun a => by simp [tk, PyToken.Ex.cfg]⟩
theorem setup : Setup svc A B 0 0 ok ok := ⟨pairA, pairB, law, law, sound, sound⟩

def isRoute (b : PyBmc.St) (net k : Str) : Bool := match PyBmc.resolve b net with
  | .ok k' => k' = k
  | _ => false
theorem isRoute_iff {b : PyBmc.St} {net k : Str} : isRoute b net k = true ↔ PyBmc.resolve b net = .ok k := by
  unfold isRoute
  cases PyBmc.resolve b net <;> simp

def wiredB (S : Side) (b : PyBmc.St) : Bool :=
  isRoute b S.net S.link && decide ((get b.links S.link).map (·.gen) = some 0) && decide (get b.services (S.c.text svc) = some S.contract) &&
    b.log.all fun | .message _ _ _ x => decide (x.length < 65536) | .onError _ _ _ => true

theorem wiredB_ok {S : Side} {b : PyBmc.St} (h : wiredB S b = true) : Wired svc S 0 b := by
  simp only [wiredB, Bool.and_eq_true, decide_eq_true_eq, List.all_eq_true] at h
  obtain ⟨⟨⟨h1, h2⟩, h3⟩, h4⟩ := h
  refine ⟨isRoute_iff.1 h1, ?_, h3, fun g' k n x hx => by simpa using h4 _ hx⟩
  obtain ⟨l, hl, hg⟩ := Option.map_eq_some_iff.1 h2
  exact ⟨l, hl, hg⟩

def c5 : Ctx := x 5 3

/-- `strict`: as the theorems assume. -/
def sendsF (strict : Bool) (S : Side) : PyBmc.St → List Ev → Option PyBmc.St
  | b, [] => some b
  | b, e :: t => match msgOf e with
    | none => sendsF strict S b t
    | some (net, p) => match PyBmc.exec S.c (.send c5 net svc (num p) (S.ser (jsonOf S.tk p))) b with
      | none => none
      | some b1 => if wiredB S b1 && (!strict || decide (net = S.net)) then sendsF strict S b1 t else none

theorem sendsF_ok {S : Side} : ∀ {evs : List Ev} {b b' : PyBmc.St}, sendsF true S b evs = some b' → Sends svc S 0 c5 b evs b'
  | [], b, b', h => by cases h; exact .nil _
  | e :: t, b, b', h => by
    simp only [sendsF] at h
    split at h
    · rename_i hm; exact .skip e t hm (sendsF_ok h)
    · rename_i net p hm
      split at h
      · cases h
      · rename_i b1 hb
        split at h
        · rename_i hw
          simp only [Bool.and_eq_true, Bool.not_true, Bool.false_or, decide_eq_true_eq] at hw
          exact .send e t net p hm (fun _ => hw.2) hb (wiredB_ok hw.1) (sendsF_ok h)
        · cases h

def tokF (strict : Bool) (S : Side) (o : PyToken.Op) (s : Chain) : Option Chain := match PyToken.exec S.tk o s.tok with
  | .ok t' => (sendsF strict S s.bmc (t'.log.drop s.tok.log.length)).map fun b => ⟨b, t'⟩
  | _ => none

theorem tokF_ok {S : Side} (hS : S.contract = 5) {o : PyToken.Op} (hl : o.isLocal S.tk = true) {s s' : Chain} (h : tokF true S o s = some s') : Act svc S 0 s s' := by
  unfold tokF at h
  split at h
  · rename_i t' ht
    obtain ⟨b, hb, rfl⟩ := Option.map_eq_some_iff.1 h
    exact .tok o c5 hS.symm hl ht (sendsF_ok hb)
  · cases h

def takeF (strict : Bool) (S : Side) (key : Str) (gen seq : Nat) (s : Chain) (m : Bytes) : Option Chain := match PyBmc.readMsg S.c m with
  | some ⟨some a, some d, some sv, some sn, some p⟩ =>
    if sv = svc then
      if d.toStr = S.c.me.toStr ∧ 0 ≤ sn ∧ key = S.link ∧ get s.bmc.services (S.c.text svc) = some S.contract then
        match PyToken.exec S.tk (.message S.tk.bmc a.net sn p .ok) s.tok with
        | .ok t' => (sendsF strict S (noted s.bmc gen seq m) (t'.log.drop s.tok.log.length)).map fun b => ⟨b, t'⟩
        | _ => none
      else none
    else match PyBmc.item S.c .done (fun y => y) key gen seq s.bmc m with
      | some b' => if b'.log = s.bmc.log ∧ wiredB S b' = true then some ⟨b', s.tok⟩ else none
      | none => none
  | _ => none

theorem takeF_ok {S : Side} (hS : S.contract = 5) {key : Str} {gen seq : Nat} {s s' : Chain} {m : Bytes} (h : takeF true S key gen seq s m = some s') :
    Take svc S 0 key gen seq s m s' := by
  obtain ⟨b, t⟩ := s
  unfold takeF at h
  split at h
  · rename_i a d sv sn p hr
    split at h
    · rename_i hsv
      subst hsv
      split at h
      · rename_i hc
        obtain ⟨hd, h0, hk, hreg⟩ := hc
        split at h
        · rename_i t' ht
          obtain ⟨b', hb, rfl⟩ := Option.map_eq_some_iff.1 h
          refine .own m _ a sn p .ok c5 hk hr rfl rfl rfl h0 rfl ht hS.symm (sendsF_ok hb) ?_
          simp only [PyBmc.item, hr]
          rw [if_pos (show Option.map (fun x : PyAddr.Addr => x.toStr) (some d) = some S.c.me.toStr by rw [Option.map_some, hd])]
          unfold PyBmc.handleMsg
          rw [if_neg (show ¬ some svc = some PyBmc.bEvent by decide), if_neg (show ¬ some svc = some PyBmc.bSack by decide)]
          unfold PyBmc.handleService
          dsimp only at hreg ⊢
          rw [if_pos h0, hreg]
        · cases h
      · cases h
    · rename_i hsv
      split at h
      · rename_i b' hb
        split at h
        · rename_i hw
          cases h
          refine .plain .done t m ?_ hb ⟨[], by rw [hw.1]; simp, fun m hm => by cases hm⟩ (wiredB_ok hw.2)
          intro y hy
          rw [hr] at hy; cases hy
          intro e; cases e; exact hsv rfl
        · cases h
      · cases h
  · cases h

def takesF (strict : Bool) (S : Side) (key : Str) (gen : Nat) : Nat → Chain → List Bytes → Option Chain
  | _, s, [] => some s
  | seq, s, m :: ms => match takeF strict S key gen seq s m with
    | some s1 => takesF strict S key gen (seq + 1) s1 ms
    | none => none

theorem takesF_ok {S : Side} (hS : S.contract = 5) {key : Str} {gen : Nat} : ∀ {ms : List Bytes} {seq : Nat} {s s' : Chain}, takesF true S key gen seq s ms = some s' →
    Takes svc S 0 key gen seq s ms s'
  | [], seq, s, s', h => by cases h; exact .nil _ _
  | m :: ms, seq, s, s', h => by
    simp only [takesF] at h
    split at h
    · rename_i s1 h1; exact .cons m ms (takeF_ok hS h1) (takesF_ok hS h)
    · cases h

def relayF (strict : Bool) (S : Side) (other : PyBmc.St) (n : Nat) (s : Chain) : Option Chain :=
  match get s.bmc.links S.link with
  | none => none
  | some l =>
    let msgs := ((sentBytes 0 other.log).drop l.rx).take n
    match PyBmc.openRelay S.c (x 1 3) s.bmc S.link v msgs with
    | none => none
    | some (key, gen, rx, b1) => if wiredB S b1 = true ∧ rx = l.rx then match takesF strict S key gen (rx + 1) ⟨b1, s.tok⟩ msgs with
      | none => none
      | some s2 => match PyBmc.closeRelay s2.bmc key gen msgs.length with
        | none => none
        | some b' => if wiredB S b' = true then some ⟨b', s2.tok⟩ else none
      else none

theorem relayF_ok {S : Side} (hS : S.contract = 5) {other : PyBmc.St} {n : Nat} {s s' : Chain} (h : relayF true S other n s = some s') :
    Tx svc S 0 (ok other) s s' := by
  obtain ⟨b, t⟩ := s
  unfold relayF at h
  split at h
  · cases h
  · rename_i l hl
    dsimp only at h
    split at h
    · cases h
    · rename_i key gen rx b1 h1
      split at h
      · rename_i hw
        split at h
        · cases h
        · rename_i s2 h2
          split at h
          · cases h
          · rename_i b' h3
            split at h
            · rename_i hw'
              cases h
              obtain ⟨hw, rfl⟩ := hw
              refine .relay (x 1 3) S.link v _ key gen l.rx h1 (wiredB_ok hw) (fun _ => ?_) (takesF_ok hS h2) h3 (wiredB_ok hw')
              show List.take _ _ = _
              rw [List.length_take, List.take_eq_take_iff]; omega
            · cases h
      · cases h

def opsOf (net k : Str) : List PyBmc.Op := [.addVerifier (x 9 1) net 7, .addLink (x 9 1) k, .addService (x 9 1) "tok".toList 5, .addRelayer (x 8 2) 1 [], .addRelay (x 1 2) k 1]
def start : Both := ⟨⟨PyBmc.run A.c (opsOf A.net A.link), PyToken.initSt⟩, ⟨PyBmc.run B.c (opsOf B.net B.link), PyToken.initSt⟩⟩

def noneOurs (S : Side) (b : PyBmc.St) : Bool := (sentBytes 0 b.log).all fun m => match PyBmc.readMsg S.c m with
  | some y => decide (y.svc ≠ some svc)
  | none => true
theorem noneOurs_ok {S : Side} {b : PyBmc.St} (h : noneOurs S b = true) : ∀ m ∈ sentBytes 0 b.log, ∀ y, PyBmc.readMsg S.c m = some y → y.svc ≠ some svc := by
  intro m hm y hy
  have := List.all_eq_true.1 h m hm
  rw [hy] at this
  simpa using this

/-- New message centers with a link, whose events are still under way. -/
theorem started : Start svc A B 0 0 start :=
  ⟨⟨_, rfl⟩, ⟨_, rfl⟩, wiredB_ok (by decide +kernel), wiredB_ok (by decide +kernel), noneOurs_ok (by decide +kernel), noneOurs_ok (by decide +kernel),
    by
      intro l hl
      have h : (get start.a.bmc.links A.link).map (·.rx) = some 0 := by decide +kernel
      rw [hl] at h
      have : l.rx = 0 := by simpa using h
      omega,
    by
      intro l hl
      have h : (get start.b.bmc.links B.link).map (·.rx) = some 0 := by decide +kernel
      rw [hl] at h
      have : l.rx = 0 := by simpa using h
      omega, rfl, rfl⟩

/-- Steps of the example. -/
inductive Do where
  | tokA (o : PyToken.Op)
  | tokB (o : PyToken.Op)
  | toA (n : Nat)
  | toB (n : Nat)

def goesA : Do → Bool
  | .tokA o => o.isLocal tk
  | .tokB o => o.isLocal tk
  | _ => true

def doF (strict : Bool) (y : Both) (d : Do) : Option Both := if goesA d then match d with
  | .tokA o => (tokF strict A o y.a).map fun s => ⟨s, y.b⟩
  | .tokB o => (tokF strict B o y.b).map fun s => ⟨y.a, s⟩
  | .toA n => (relayF strict A y.b.bmc n y.a).map fun s => ⟨s, y.b⟩
  | .toB n => (relayF strict B y.a.bmc n y.b).map fun s => ⟨y.a, s⟩ else none

def doAll (strict : Bool) (y : Both) : List Do → Option Both
  | [] => some y
  | d :: t => match doF strict y d with
    | some z => doAll strict z t
    | none => none

theorem doAll_ok : ∀ {ds : List Do} {y z : Both}, Joint svc A B 0 0 ok ok y → doAll true y ds = some z → Joint svc A B 0 0 ok ok z
  | [], y, z, h, e => by cases e; exact h
  | d :: t, y, z, h, e => by
    simp only [doAll] at e
    split at e
    · rename_i y1 h1
      refine doAll_ok ?_ e
      unfold doF at h1
      split at h1
      · rename_i hg
        cases d with
        | tokA o => obtain ⟨s, hs, rfl⟩ := Option.map_eq_some_iff.1 h1; exact .atA s h (.act (tokF_ok rfl (show o.isLocal tk = true from hg) hs))
        | tokB o => obtain ⟨s, hs, rfl⟩ := Option.map_eq_some_iff.1 h1; exact .atB s h (.act (tokF_ok rfl (show o.isLocal tk = true from hg) hs))
        | toA n => obtain ⟨s, hs, rfl⟩ := Option.map_eq_some_iff.1 h1; exact .atA s h (relayF_ok rfl hs)
        | toB n => obtain ⟨s, hs, rfl⟩ := Option.map_eq_some_iff.1 h1; exact .atB s h (relayF_ok rfl hs)
      · cases h1
    · cases e

/-- Users of both chains have tokens "T"; one of A sends 30 to B, which is credited and settled; then all is taken. -/
def plan : List Do := [.tokA (.register 0 ['T'] 7), .tokA (.tokenFallback 7 1 100), .tokB (.register 0 ['T'] 7), .tokA (.transfer 1 ['T'] "btp://b/hh".toList 30 .ok),
  .toB 2, .toA 2]

def final : Both := (doAll true start plan).getD start

theorem joint : Joint svc A B 0 0 ok ok final := by
  have h : (doAll true start plan).isSome = true := by decide +kernel
  obtain ⟨z, hz⟩ := Option.isSome_iff_exists.1 h
  have : final = z := by unfold final; rw [hz]; rfl
  rw [this]
  exact doAll_ok (.start _ started) hz

example : (Ev.start 1 1 ['T'] 30 "b".toList ['h', 'h']) ∈ final.a.tok.log ∧ Ev.receive "a".toList 1 2 ['T'] 30 ∈ final.b.tok.log ∧
    Ev.settle "b".toList 1 1 ['T'] 30 ∈ final.a.tok.log := by decide +kernel
theorem done : Drained A B 0 0 final := by
  have h1 : (get final.a.bmc.links A.link).map (·.rx) = some (sentBytes 0 final.b.bmc.log).length := by decide +kernel
  have h2 : (get final.b.bmc.links B.link).map (·.rx) = some (sentBytes 0 final.a.bmc.log).length := by decide +kernel
  exact ⟨fun l hl => by rw [hl] at h1; simpa using h1, fun l hl => by rw [hl] at h2; simpa using h2⟩

/-- After the events of the links have arrived, a user of B sends to an address of B's own network. -/
def ownPlan : List Do := [.tokB (.register 0 ['T'] 7), .tokB (.tokenFallback 7 1 100), .tokA (.register 0 ['T'] 7), .toB 1, .toA 1,
  .tokB (.transfer 1 ['T'] "btp://b/hh".toList 30 .ok), .toA 1, .toB 1]
def own : Both := (doAll false start ownPlan).getD start
end Ex

/-- **C169** (false without the condition on the networks messages are sent to): the events of both `addLink` calls make each message center list itself as
reachable over the link (bmc.py:436-442), so that a transfer to an address of the chain's own network leaves it (504-521): it is credited on the other
chain, under the text of an address of this one, and settled. -/
theorem C169_own_network : (Ex.doAll false Ex.start Ex.ownPlan).isSome = true ∧
    Ex.own.b.tok.log.filterMap msgOf = [("b".toList, .req 1 1 ['h', 'h'] ['T'] 30)] ∧
    Ev.start 1 1 ['T'] 30 "b".toList ['h', 'h'] ∈ Ex.own.b.tok.log ∧ Ev.receive "b".toList 1 2 ['T'] 30 ∈ Ex.own.a.tok.log ∧
    Ev.settle "a".toList 1 1 ['T'] 30 ∈ Ex.own.b.tok.log ∧ PyToken.getBalance Ex.tk Ex.own.b.tok 2 ['T'] = some (0, 0) := by
  refine ⟨by decide +kernel, by decide +kernel, by decide +kernel, by decide +kernel, by decide +kernel, by decide +kernel⟩

end Verif.PyTokenEnd
