import Verif.JavaBtpBlockAuth
import Verif.EndToEndProps
import Verif.JavaBmcProps
/-!
C143: a link from one ICON chain to another put together from the models of its parts: the message center of the source chain (`JavaBmc`)
with the byte form of its messages, and on the destination chain the message center (`JavaBmc`) with the block verifier of the link
(`JavaBtpBlock`) in one state.

* The reader of the runtime (`ObjectReader`) is the parameter `dec`; what is assumed of it is that it reads what the runtime's writer
  (`wMsg`) writes. Relay messages are given decoded (as in `JavaBtpBlock`).
* Relay calls for the link are made from outside: a service that makes one while it handles a message is refused. All other calls, of any
  depth, are as in `JavaBmc`; verifiers of other links are arbitrary. The verifier registered for the network of the link is always this one.
* A call that throws undoes what the verifier stored.
-/
namespace Verif.IconToIcon
open Verif Verif.EndToEnd

/-- Parameters: message center, verifier, reader of messages; for the link its text, the bytes of its network, and the bytes of the message
center's account. -/
structure Par where
  c : JavaBmc.Cfg
  E : JavaBtpBlock.Env
  dec : Bytes → Option JavaBmc.Msg
  link : String
  net : Bytes
  acct : Bytes

structure St where
  bmc : JavaBmc.St
  bmv : JavaBtpBlock.St
  /-- ghost: the messages released by the verifier in calls that did not throw -/
  out : List Bytes

/-- What happens around one relayed message. -/
structure Beh where
  env : JavaBmc.Env
  out : JavaBmc.Out
  acts : JavaBmc.Ops

inductive Op where
  /-- any call but a relay call for the link -/
  | call (o : JavaBmc.Op)
  /-- a relay call for the link -/
  | relay (caller : Nat) (msgs : List JavaBtpBlock.Msg) (beh : Nat → Beh)

/-- Relay calls for the link do not pass through `JavaBmc.exec`. -/
def Par.other (P : Par) : JavaBmc.Cfg := { P.c with verify := fun v l r ms => decide (l ≠ P.link) && P.c.verify v l r ms }
/-- The message center after the verifier has returned. -/
def Par.any (P : Par) : JavaBmc.Cfg := { P.c with verify := fun _ _ _ _ => true }

/-- BTPMessageCenter.java:512-528: the messages of a relay call, decoded one after the other. -/
def readAll (dec : Bytes → Option JavaBmc.Msg) : List Bytes → Option (List JavaBmc.Msg)
  | [] => some []
  | b :: t => (dec b).bind (fun m => (readAll dec t).map (m :: ·))

def items (beh : Nat → Beh) : Nat → List JavaBmc.Msg → JavaBmc.Items
  | _, [] => .nil
  | k, m :: t => .cons m (beh k).env (beh k).out (beh k).acts (items beh (k + 1) t)

/-- The call of the verifier: BTPMessageCenter.java:494-503. -/
def vcall (P : Par) (l : JavaBmc.Link) (msgs : List JavaBtpBlock.Msg) : JavaBtpBlock.Call := ⟨P.acct, P.net, P.acct, l.rx, msgs⟩

/-- BTPMessageCenter.java:508-583 `handleRelayMessage` for the link, with BTPMessageVerifier.java:54-86 as its verifier; `none` is a throw.
The result is the state of both, and what the verifier released. -/
def relayCall (P : Par) (s : St) (caller : Nat) (msgs : List JavaBtpBlock.Msg) (beh : Nat → Beh) :
    Option (JavaBmc.St × JavaBtpBlock.St × List Bytes) :=
  (JavaBmc.getLinkA P.c s.bmc P.link).bind (fun l =>
    (JavaBtpBlock.handleRelay P.E s.bmv (vcall P l msgs)).toOption.bind (fun v =>
      (readAll P.dec v.2).bind (fun ms =>
        (JavaBmc.openRelay P.any s.bmc caller P.link ms).map (fun x =>
          (JavaBmc.execItems P.other (items beh 0 ms) caller P.link x.1.gen (x.1.rx + 1) x.2, v.1, v.2)))))

def step (P : Par) (s : St) : Op → St
  | .call o => { s with bmc := (JavaBmc.exec P.other o s.bmc).getD s.bmc }
  | .relay caller msgs beh =>
    match relayCall P s caller msgs beh with
    | none => s
    | some x => ⟨x.1, x.2.1, s.out ++ x.2.2⟩

def run (P : Par) (s : St) (ops : List Op) : St := ops.foldl (step P) s

/-- A new message center, and a verifier in state `v`. -/
def start (creator : Nat) (v : JavaBtpBlock.St) : St := ⟨JavaBmc.initSt creator, v, []⟩

/-- The calls of the verifier that were not undone. -/
def calls (P : Par) : St → List Op → List JavaBtpBlock.Call
  | _, [] => []
  | s, .call o :: t => calls P (step P s (.call o)) t
  | s, .relay caller msgs beh :: t =>
    (match JavaBmc.getLinkA P.c s.bmc P.link, relayCall P s caller msgs beh with
      | some l, some _ => [vcall P l msgs]
      | _, _ => []) ++
    calls P (step P s (.relay caller msgs beh)) t

/-! ### lemmas -/

theorem readAll_get {dec : Bytes → Option JavaBmc.Msg} {bs : List Bytes} {ms : List JavaBmc.Msg} (h : readAll dec bs = some ms) :
    ms.length = bs.length ∧ ∀ (i : Nat) m, ms[i]? = some m → ∃ b, bs[i]? = some b ∧ dec b = some m := by
  induction bs generalizing ms with
  | nil => simp only [readAll, Option.some.injEq] at h; subst h; simp
  | cons b t ih =>
    simp only [readAll, Option.bind_eq_some_iff, Option.map_eq_some_iff] at h
    obtain ⟨m, hm, ms', hms, rfl⟩ := h
    obtain ⟨i1, i2⟩ := ih hms
    refine ⟨by simp [i1], ?_⟩
    intro i x hx
    cases i with
    | zero => simp only [List.getElem?_cons_zero, Option.some.injEq] at hx ⊢; subst hx; exact ⟨b, rfl, hm⟩
    | succ k => simpa using i2 k x (by simpa using hx)

theorem items_msgs (beh : Nat → Beh) (k : Nat) (ms : List JavaBmc.Msg) : (items beh k ms).msgs = ms := by
  induction ms generalizing k with
  | nil => rfl
  | cons m t ih => simp only [items, JavaBmc.Items.msgs, ih]

/-- The verifier is only asked what it may answer. -/
theorem Tr_mono {c : JavaBmc.Cfg} {w : Nat → String → Nat → List JavaBmc.Msg → Bool} (hw : ∀ v p r ms, c.verify v p r ms = true → w v p r ms = true)
    {b : Bool} {Q Q' : List (Nat × Nat × Option JavaBmc.Msg)} {s s' : JavaBmc.St} (t : JavaBmc.Tr c b Q s Q' s') :
    JavaBmc.Tr { c with verify := w } b Q s Q' s' := by
  induction t with
  | refl P s => exact .refl P s
  | trans _ _ ih1 ih2 => exact .trans ih1 ih2
  | money P s a1 a2 a3 a4 a5 a6 a7 a8 a9 a10 => exact .money P s a1 a2 a3 a4 a5 a6 a7 a8 a9 a10
  | bump P s => exact .bump P s
  | sent P s next l m h1 h2 => exact .sent P s next l m h1 h2
  | chain P s id next l m h1 h2 => exact .chain P s id next l m h1 h2
  | dropped P s prev seq m => exact .dropped P s prev seq m
  | reach P s net l r h => exact .reach P s net l r h
  | settle P s nsn r result h => exact .settle P s nsn r result h
  | request P s s1 r _ h1 h2 h3 ih => exact .request P s s1 r ih h1 h2 h3
  | cfg P s a1 a2 a3 a4 a5 a6 => exact .cfg P s a1 a2 a3 a4 a5 a6
  | addRoute P s dst net l h => exact .addRoute P s dst net l h
  | delRoute P s dst net h => exact .delRoute P s dst net h
  | addLink P s net link h1 h2 => exact .addLink P s net link h1 h2
  | delLink P s net l h1 h2 h3 => exact .delLink P s net l h1 h2 h3
  | delBtp P s net l id h1 h2 h3 => exact .delBtp P s net l id h1 h2 h3
  | bind P s link net id h1 h2 h3 h4 => exact .bind P s link net id h1 h2 h3 h4
  | take P s net l ms h1 h2 h3 =>
    refine .take P s net l ms h1 h2 (fun i m hm => ?_)
    obtain ⟨v, msgs, a, b⟩ := h3 i m hm
    exact ⟨v, msgs, hw _ _ _ _ a, b⟩
  | disp P s g n m => exact .disp P s g n m

/-- What the verifier answers in a history in which it releases `F`. -/
def Par.full (P : Par) (F : List Bytes) : JavaBmc.Cfg := { P.c with
  verify := fun v l r ms => (decide (l ≠ P.link) && P.c.verify v l r ms) || decide (l = P.link ∧ readAll P.dec ((F.drop r).take ms.length) = some ms) }

theorem openRelay_full (P : Par) (F : List Bytes) {s s1 : JavaBmc.St} {caller : Nat} {ms : List JavaBmc.Msg} {l : JavaBmc.Link}
    (h : JavaBmc.openRelay P.any s caller P.link ms = some (l, s1)) (hd : readAll P.dec ((F.drop l.rx).take ms.length) = some ms) :
    JavaBmc.openRelay (P.full F) s caller P.link ms = some (l, s1) := by
  unfold JavaBmc.openRelay at h ⊢
  have e : ∀ a, JavaBmc.getLinkA (P.full F) s a = JavaBmc.getLinkA P.any s a := fun _ => rfl
  rw [e]
  cases hl : JavaBmc.getLinkA P.any s P.link with
  | none => rw [hl] at h; cases h
  | some l' =>
    rw [hl] at h
    dsimp only at h ⊢
    have en : (P.full F).netOf = P.any.netOf := rfl
    rw [en]
    cases hv : s.verifiers ((P.any.netOf P.link).getD "") with
    | none => rw [hv] at h; cases h
    | some v =>
      rw [hv] at h
      dsimp only at h ⊢
      split at h
      · rename_i hc
        simp only [Option.some.injEq, Prod.mk.injEq] at h
        obtain ⟨rfl, rfl⟩ := h
        rw [if_pos ⟨by simp [Par.full, hd], hc.2⟩]
        rfl
      · cases h

theorem openRelay_link {c : JavaBmc.Cfg} {s s1 : JavaBmc.St} {caller : Nat} {prev : String} {ms : List JavaBmc.Msg} {l : JavaBmc.Link}
    (h : JavaBmc.openRelay c s caller prev ms = some (l, s1)) : JavaBmc.getLinkA c s prev = some l ∧ caller ∈ s.relays prev := by
  unfold JavaBmc.openRelay at h
  split at h
  · cases h
  · rename_i l' hl
    split at h
    · cases h
    · split at h
      · rename_i hc
        simp only [Option.some.injEq, Prod.mk.injEq] at h
        exact ⟨by rw [hl, h.1], hc.2⟩
      · cases h

theorem handleRelay_seq {E : JavaBtpBlock.Env} {s s' : JavaBtpBlock.St} {c : JavaBtpBlock.Call} {out : List Bytes}
    (h : JavaBtpBlock.handleRelay E s c = .ok (s', out)) :
    s.off + s.lastSeq = c.seq ∧ s'.lastSeq = s.lastSeq + out.length ∧ s'.off = s.off := by
  unfold JavaBtpBlock.handleRelay at h
  split at h
  · cases h
  · split at h
    · cases h
    · split at h
      · cases h
      · split at h
        · cases h
        · rename_i hs
          obtain ⟨a, b, _⟩ := JavaBtpBlock.msgs_seq _ h
          exact ⟨Decidable.not_not.mp hs, a, b⟩

/-- A relay call that did not throw. -/
theorem relayCall_ok {P : Par} {s : St} {caller : Nat} {msgs : List JavaBtpBlock.Msg} {beh : Nat → Beh} {x : JavaBmc.St × JavaBtpBlock.St × List Bytes}
    (h : relayCall P s caller msgs beh = some x) :
    ∃ l s1 ms, JavaBmc.getLinkA P.c s.bmc P.link = some l ∧ JavaBtpBlock.handleRelay P.E s.bmv (vcall P l msgs) = .ok (x.2.1, x.2.2) ∧
      readAll P.dec x.2.2 = some ms ∧ JavaBmc.openRelay P.any s.bmc caller P.link ms = some (l, s1) ∧
      x.1 = JavaBmc.execItems P.other (items beh 0 ms) caller P.link l.gen (l.rx + 1) s1 := by
  unfold relayCall at h
  simp only [Option.bind_eq_some_iff, Option.map_eq_some_iff] at h
  obtain ⟨l, hl, v, hv, ms, hms, ⟨l', s1⟩, ho, rfl⟩ := h
  have hl' := (openRelay_link ho).1
  have : JavaBmc.getLinkA P.any s.bmc P.link = JavaBmc.getLinkA P.c s.bmc P.link := rfl
  rw [this, hl, Option.some.injEq] at hl'
  subst hl'
  refine ⟨l, s1, ms, hl, ?_, hms, ho, rfl⟩
  cases hh : JavaBtpBlock.handleRelay P.E s.bmv (vcall P l msgs) with
  | error e => rw [hh] at hv; cases hv
  | ok y => rw [hh] at hv; simp only [Except.toOption, Option.some.injEq] at hv; subst hv; rfl

/-- C143: only a registered relay can make the message center take messages. -/
theorem C143_relays_only (P : Par) (s : St) (caller : Nat) (msgs : List JavaBtpBlock.Msg) (beh : Nat → Beh) (h : caller ∉ s.bmc.relays P.link) :
    step P s (.relay caller msgs beh) = s := by
  simp only [step]
  cases hr : relayCall P s caller msgs beh with
  | none => rfl
  | some x =>
    obtain ⟨_, _, _, _, _, _, ho, _⟩ := relayCall_ok hr
    exact absurd (openRelay_link ho).2 h

/-- The verifier's number is the number of messages released. -/
structure Inv (s : St) : Prop where
  off : s.bmv.off = 0
  seq : s.bmv.lastSeq = s.out.length

theorem step_inv {P : Par} {s : St} (i : Inv s) (o : Op) : Inv (step P s o) ∧ s.out <+: (step P s o).out := by
  cases o with
  | call o => exact ⟨⟨i.off, i.seq⟩, List.prefix_refl _⟩
  | relay caller msgs beh =>
    simp only [step]
    cases hr : relayCall P s caller msgs beh with
    | none => exact ⟨i, List.prefix_refl _⟩
    | some x =>
      obtain ⟨l, s1, ms, hl, hh, hd, ho, hx⟩ := relayCall_ok hr
      obtain ⟨a, b, c⟩ := handleRelay_seq hh
      refine ⟨⟨c.trans i.off, ?_⟩, List.prefix_append _ _⟩
      dsimp only
      rw [b, i.seq, List.length_append]
      omega

theorem run_inv {P : Par} {s : St} (i : Inv s) (ops : List Op) : Inv (run P s ops) ∧ s.out <+: (run P s ops).out := by
  unfold run
  induction ops generalizing s with
  | nil => exact ⟨i, List.prefix_refl _⟩
  | cons o t ih =>
    obtain ⟨a, b⟩ := step_inv (P := P) i o
    obtain ⟨c, d⟩ := ih a
    exact ⟨c, b.trans d⟩

/-- One call as elementary changes of the message center, with a verifier that answers what it will have released in the end. -/
theorem step_tr {P : Par} {s : St} (i : Inv s) (o : Op) {F : List Bytes} (hF : (step P s o).out <+: F) :
    JavaBmc.Tr (P.full F) false [] s.bmc [] (step P s o).bmc := by
  have hmono : ∀ v p r ms, P.other.verify v p r ms = true → (P.full F).verify v p r ms = true := by
    intro v p r ms h
    simp only [Par.full, Bool.or_eq_true]
    exact Or.inl h
  have mono : ∀ {Q Q' : List (Nat × Nat × Option JavaBmc.Msg)} {a b : JavaBmc.St}, JavaBmc.Tr P.other false Q a Q' b → JavaBmc.Tr (P.full F) false Q a Q' b :=
    fun t => Tr_mono (c := P.other) (w := (P.full F).verify) hmono t
  cases o with
  | call o =>
    simp only [step]
    cases h : JavaBmc.exec P.other o s.bmc with
    | none => exact .refl _ _
    | some b => exact mono (JavaBmc.exec_tr o s.bmc b [] h)
  | relay caller msgs beh =>
    simp only [step] at hF ⊢
    cases hr : relayCall P s caller msgs beh with
    | none => exact .refl _ _
    | some x =>
      rw [hr] at hF
      obtain ⟨l, s1, ms, hl, hh, hd, ho, hx⟩ := relayCall_ok hr
      obtain ⟨a, b, c⟩ := handleRelay_seq hh
      obtain ⟨rest, hrest⟩ := hF
      dsimp only at hrest ⊢
      rw [hx]
      have hrx : l.rx = s.out.length := by
        simp only [vcall, i.off, i.seq] at a
        omega
      have hlen := (readAll_get hd).1
      have hdF : readAll P.dec ((F.drop l.rx).take ms.length) = some ms := by
        rw [← hrest, hrx, hlen, List.append_assoc, List.drop_left, List.take_left]
        exact hd
      have h1 := JavaBmc.Tr.openRelay (b := false) (P := []) (openRelay_full P F ho hdF) (by simp)
      refine .trans h1 ?_
      have h2 := mono (JavaBmc.execItems_tr (c := P.other) (items beh 0 ms) caller P.link l.gen (l.rx + 1) s1 [])
      rw [items_msgs] at h2
      exact h2

theorem run_tr {P : Par} {s : St} (i : Inv s) (ops : List Op) {F : List Bytes} (hF : (run P s ops).out <+: F) :
    JavaBmc.Tr (P.full F) false [] s.bmc [] (run P s ops).bmc := by
  unfold run at hF ⊢
  induction ops generalizing s with
  | nil => exact .refl _ _
  | cons o t ih =>
    rw [List.foldl_cons] at hF ⊢
    have i' := (step_inv (P := P) i o).1
    exact .trans (step_tr i o ((run_inv i' t).2.trans hF)) (ih i' hF)

theorem run_calls (P : Par) (s : St) (ops : List Op) :
    (JavaBtpBlock.run P.E s.bmv (calls P s ops)).1 = (run P s ops).bmv ∧ (run P s ops).out = s.out ++ (JavaBtpBlock.run P.E s.bmv (calls P s ops)).2.2 := by
  induction ops generalizing s with
  | nil => simp [calls, run, JavaBtpBlock.run]
  | cons o t ih =>
    have hrun : run P s (o :: t) = run P (step P s o) t := rfl
    rw [hrun]
    cases o with
    | call o => simpa [calls, step] using ih (step P s (.call o))
    | relay caller msgs beh =>
      have := ih (step P s (.relay caller msgs beh))
      simp only [calls]
      cases hr : relayCall P s caller msgs beh with
      | none =>
        have hs : step P s (.relay caller msgs beh) = s := by simp only [step, hr]
        rw [hs] at this ⊢
        cases JavaBmc.getLinkA P.c s.bmc P.link <;> simpa using this
      | some x =>
        obtain ⟨l, s1, ms, hl, hh, _⟩ := relayCall_ok hr
        have hs : step P s (.relay caller msgs beh) = ⟨x.1, x.2.1, s.out ++ x.2.2⟩ := by simp only [step, hr]
        rw [hs] at this
        rw [hl, hs]
        simp only [List.cons_append, List.nil_append, JavaBtpBlock.run, hh]
        exact ⟨this.1, by rw [this.2, List.append_assoc]⟩

/-- C143: on the destination chain, over any history of calls with any relay messages, every number from 1 to the number of the link was handled
exactly once, and the message handled under a number is the one the verifier released at that place, decoded (or was given up by an owner). -/
theorem C143_released (P : Par) (creator : Nat) (v : JavaBtpBlock.St) (h0 : v.off = 0 ∧ v.lastSeq = 0) (ops : List Op) (net : String) (l : JavaBmc.Link)
    (hl : JavaBmc.Dict.get (run P (start creator v) ops).bmc.links net = some l) (ha : l.addr = P.link) :
    let s := run P (start creator v) ops
    s.out = (JavaBtpBlock.run P.E v (calls P (start creator v) ops)).2.2 ∧
    ((s.bmc.disp.filter (fun e => e.1 = l.gen)).map (fun e => e.2.1)).Perm (List.range' 1 l.rx) ∧
    ∀ n m, (l.gen, n, some m) ∈ s.bmc.disp → 1 ≤ n ∧ ∃ b, s.out[n - 1]? = some b ∧ P.dec b = some m := by
  intro s
  have i0 : Inv (start creator v) := ⟨h0.1, h0.2⟩
  have t := run_tr i0 ops (List.prefix_refl (run P (start creator v) ops).out)
  have R : JavaBmc.Right (P.full s.out) (fun t n m => t = P.link → 1 ≤ n ∧ ∃ b, s.out[n - 1]? = some b ∧ P.dec b = some m) := by
    intro v prev rx ms hver i j hi ht
    subst ht
    simp only [Par.full, ne_eq, not_true_eq_false, decide_false, Bool.false_and, Bool.false_or, true_and, decide_eq_true_eq] at hver
    obtain ⟨b, hb, hd⟩ := (readAll_get hver).2 i j hi
    refine ⟨by omega, b, ?_, hd⟩
    rw [List.getElem?_take] at hb
    split at hb
    · rw [List.getElem?_drop] at hb; exact hb
    · cases hb
  have w := t.wf (JavaBmc.wf_init creator)
  have r := t.recv R (JavaBmc.wf_init creator) (JavaBmc.recv_init _ false creator)
  refine ⟨(run_calls P (start creator v) ops).2, ?_, ?_⟩
  · have := r.count l.gen
    rw [r.rx net l hl]
    simpa [JavaBmc.Rel, JavaBmc.nums] using this
  · intro n m hm
    obtain ⟨t, ht, hs⟩ := r.right l.gen n m (by simpa using hm)
    have := w.names net l hl
    rw [this, Option.some.injEq] at ht
    exact hs (by rw [← ht, ha])

/-- C143, part: the message center of the source chain after any history, its link bound to a BTP network with offset 0; a chain of blocks of that
network which carries, in order, the messages it was given; on the destination chain a verifier set up from the first header of that network, and
any calls with any relay messages. Then a message handled for the link under a number is the message of the source with that number - if the last
section the verifier took is one of the chain and all proofs it accepted have positive leaf counts, or else a hash collision shows. -/
theorem C143_end_to_end_partial
    -- source chain
    (cj : JavaBmc.Cfg) (jcreator : Nat) (jops : List JavaBmc.Op) (jlink : String) (id : Nat)
    (hid : (JavaBmc.run cj jcreator jops).netIds jlink = some id) (ho : (JavaBmc.run cj jcreator jops).offsets id = some 0)
    -- the blocks of the BTP network
    (nid : Int) (bs : List BtpBlock.Block) (hbs : ∀ b ∈ bs, b.msgs.length < 2 ^ 31)
    (hsent : bs.flatMap (·.msgs) <+: (given id (JavaBmc.run cj jcreator jops).log []).map (fun x => wMsg x.2))
    -- the verifier
    (P : Par) (L : Nat) (hH : ∀ x, (P.E.H x).length = L) (src bmc : Bytes) (ty : Int) (h0 : JavaBtpBlock.Header) (v : JavaBtpBlock.St)
    (hi : JavaBtpBlock.init P.E src ty bmc 0 h0 = some v) (hsn : h0.sn = 0)
    (hdec : ∀ x ∈ given id (JavaBmc.run cj jcreator jops).log [], P.dec (wMsg x.2) = some x.2)
    -- the destination chain
    (creator : Nat) (ops : List Op) (net : String) (l : JavaBmc.Link)
    (hl : JavaBmc.Dict.get (run P (start creator v) ops).bmc.links net = some l) (ha : l.addr = P.link)
    (hf : ∀ p, JavaBtpBlock.Msg.proof p ∈ (JavaBtpBlock.run P.E v (calls P (start creator v) ops)).2.1 → JavaBtpBlock.Fine P.E.H p)
    (hsmall : ∀ h sigs, (h = h0 ∨ JavaBtpBlock.Msg.upd h sigs ∈ (JavaBtpBlock.run P.E v (calls P (start creator v) ops)).2.1) →
      (BtpBlock.secBytes h.sec).length < 2 ^ 63)
    (htip : BtpBlock.tip P.E.H none (BtpBlock.chain P.E.H nid none 0 bs) = some (run P (start creator v) ops).bmv.lastHash) :
    Mbt.Collision P.E.H (BtpBlock.secBytes h0.sec :: (JavaBtpBlock.run P.E v (calls P (start creator v) ops)).2.1.flatMap (JavaBtpBlock.hashed P.E.H))
      (JavaBtpBlock.honestHashed P.E.H nid bs) ∨
    ∀ n m, (l.gen, n, some m) ∈ (run P (start creator v) ops).bmc.disp → (n, m) ∈ given id (JavaBmc.run cj jcreator jops).log [] := by
  have hv : v.off = 0 ∧ v.lastSeq = 0 := by
    unfold JavaBtpBlock.init at hi
    split at hi
    · cases hi
    · split at hi
      · cases hi
      · split at hi
        · cases hi
        · cases hi; exact ⟨rfl, rfl⟩
  obtain ⟨hout, _, hdisp⟩ := C143_released P creator v hv ops net l hl ha
  rw [← (run_calls P (start creator v) ops).1] at htip
  rcases JavaBtpBlock.C49_java_in_order_partial P.E L hH src bmc ty h0 v hi hsn _ hf hsmall nid bs hbs htip with h | ⟨done, last, k, e1, e2⟩
  · exact Or.inl h
  refine Or.inr (fun n m hm => ?_)
  obtain ⟨hn, b, hb, hd⟩ := hdisp n m hm
  rw [hout, e2] at hb
  have h1 : (bs.flatMap (·.msgs))[n - 1]? = some b := by
    rw [e1, List.flatMap_append]
    rw [List.getElem?_append] at hb ⊢
    split
    · rename_i hlt; rw [if_pos hlt] at hb; exact hb
    · rename_i hlt
      rw [if_neg hlt, List.getElem?_take] at hb
      split at hb
      · simpa using hb
      · cases hb
  obtain ⟨rest, hrest⟩ := hsent
  have h2 : ((given id (JavaBmc.run cj jcreator jops).log []).map (fun x => wMsg x.2))[n - 1]? = some b := by
    rw [← hrest, List.getElem?_append_left (List.getElem?_eq_some_iff.mp h1).1, h1]
  rw [List.getElem?_map, Option.map_eq_some_iff] at h2
  obtain ⟨⟨k', jm⟩, h3, h4⟩ := h2
  obtain ⟨o', ho', hnum⟩ := C135_given cj jcreator jops jlink id hid
  rw [ho] at ho'
  cases ho'
  have h5 := hnum _ _ _ h3
  have h6 : (k', jm) ∈ given id (JavaBmc.run cj jcreator jops).log [] := List.mem_of_getElem? h3
  have h7 := hdec _ h6
  simp only at h4 h7
  rw [h4, hd, Option.some.injEq] at h7
  have h8 : n = k' := by omega
  rw [h7, h8]
  exact h6

/-! ### nothing is lost -/

theorem put_frame (c : JavaBmc.Cfg) (s : JavaBmc.St) (l : JavaBmc.Link) :
    (JavaBmc.putLink c s l).disp = s.disp ∧ (JavaBmc.putLink c s l).names = s.names := by
  unfold JavaBmc.putLink
  split <;> exact ⟨rfl, rfl⟩

/-- What was taken is handled or still waits. -/
theorem Tr_pending {c : JavaBmc.Cfg} {b : Bool} {Q Q' : List (Nat × Nat × Option JavaBmc.Msg)} {s s' : JavaBmc.St} (t : JavaBmc.Tr c b Q s Q' s')
    (e : Nat × Nat × Option JavaBmc.Msg) (h : e ∈ Q ∨ e ∈ s.disp) : e ∈ Q' ∨ e ∈ s'.disp := by
  induction t with
  | trans _ _ ih1 ih2 => exact ih2 (ih1 h)
  | request P s s1 r _ h1 h2 h3 ih => exact ih h
  | take P s net l ms h1 h2 h3 =>
    rcases h with h | h
    · exact Or.inl (List.mem_append_right _ h)
    · exact Or.inr ((put_frame c s _).1 ▸ h)
  | sent P s next l m hl hid => rw [show (_ : JavaBmc.St).disp = s.disp from (put_frame c s _).1]; exact h
  | chain P s id next l m hl hid => rw [show (_ : JavaBmc.St).disp = s.disp from (put_frame c s _).1]; exact h
  | reach P s net l r hl => rw [(put_frame c s _).1]; exact h
  | disp P s g n m =>
    rcases h with h | h
    · rcases List.mem_cons.mp h with rfl | h
      · exact Or.inr (by simp)
      · exact Or.inl h
    · exact Or.inr (List.mem_append_left _ h)
  | _ => exact h

theorem mem_entries (gen : Nat) (ms : List (Option JavaBmc.Msg)) (n i : Nat) (m : Option JavaBmc.Msg) (h : ms[i]? = some m) :
    (gen, n + i, m) ∈ JavaBmc.entries gen n ms := by
  induction ms generalizing n i with
  | nil => simp at h
  | cons x t ih =>
    simp only [JavaBmc.entries, List.mem_cons]
    cases i with
    | zero => simp only [List.getElem?_cons_zero, Option.some.injEq] at h; subst h; exact Or.inl rfl
    | succ k =>
      have := ih (n + 1) k (by simpa using h)
      rw [show n + (k + 1) = n + 1 + k by omega]
      exact Or.inr this

theorem readAll_map {dec : Bytes → Option JavaBmc.Msg} (ms : List JavaBmc.Msg) (h : ∀ m ∈ ms, dec (wMsg m) = some m) :
    readAll dec (ms.map wMsg) = some ms := by
  induction ms with
  | nil => rfl
  | cons m t ih =>
    simp only [List.map_cons, readAll, h m (by simp), Option.bind_some, ih (fun x hx => h x (by simp [hx])), Option.map_some]

/-- C143: the call that relays the next block of the network, with the update and the proof of all its messages, made by a relay of the link in a
state in which the verifier and the message center agree on the number: it is accepted, every message of the block is handled under the number that
follows, and both agree again. -/
theorem C143_progress (P : Par) (hH : ∀ x, (P.E.H x).length = 32) (s : St) (caller v : Nat) (l : JavaBmc.Link) (b : BtpBlock.Block) (ms : List JavaBmc.Msg)
    (h : JavaBtpBlock.Header) (sigs : List Bytes) (beh : Nat → Beh)
    (hl : JavaBmc.getLinkA P.c s.bmc P.link = some l) (hv : s.bmc.verifiers ((P.c.netOf P.link).getD "") = some v) (hr : caller ∈ s.bmc.relays P.link)
    (ha : s.bmv.bmc = P.acct) (hn : s.bmv.network = P.net) (hs : JavaBtpBlock.Synced s.bmv l.rx) (hb : b.msgs.length < 2 ^ 31)
    (hh : JavaBtpBlock.Honest P.E s.bmv b l.rx h sigs) (hm : b.msgs = ms.map wMsg) (hd : ∀ m ∈ ms, P.dec (wMsg m) = some m) :
    let s' := step P s (.relay caller (JavaBtpBlock.blockCall P.E.H s.bmv l.rx b h sigs).msgs beh)
    s'.out = s.out ++ ms.map wMsg ∧ JavaBtpBlock.Synced s'.bmv (l.rx + ms.length) ∧
    ∀ i m, ms[i]? = some m → (l.gen, l.rx + 1 + i, some m) ∈ s'.bmc.disp := by
  obtain ⟨v', q1, q2, _⟩ := JavaBtpBlock.C73_java_block P.E hH s.bmv b l.rx h sigs hb hs hh
  have hc : vcall P l (JavaBtpBlock.blockCall P.E.H s.bmv l.rx b h sigs).msgs = JavaBtpBlock.blockCall P.E.H s.bmv l.rx b h sigs := by
    simp only [vcall, JavaBtpBlock.blockCall, ha, hn]
  have hl' : JavaBmc.getLinkA P.any s.bmc P.link = some l := hl
  have hv' : s.bmc.verifiers ((P.any.netOf P.link).getD "") = some v := hv
  have ho : JavaBmc.openRelay P.any s.bmc caller P.link ms = some (l, { JavaBmc.putLink P.any s.bmc { l with rx := l.rx + ms.length } with
      taken := SolBmc.upd (JavaBmc.putLink P.any s.bmc { l with rx := l.rx + ms.length }).taken l.gen (l.rx + ms.length) }) := by
    unfold JavaBmc.openRelay
    rw [hl']
    dsimp only
    rw [hv']
    dsimp only
    rw [if_pos ⟨rfl, hr⟩]
  have hrc : relayCall P s caller (JavaBtpBlock.blockCall P.E.H s.bmv l.rx b h sigs).msgs beh =
      some (JavaBmc.execItems P.other (items beh 0 ms) caller P.link l.gen (l.rx + 1) { JavaBmc.putLink P.any s.bmc { l with rx := l.rx + ms.length } with
        taken := SolBmc.upd (JavaBmc.putLink P.any s.bmc { l with rx := l.rx + ms.length }).taken l.gen (l.rx + ms.length) }, v', ms.map wMsg) := by
    unfold relayCall
    rw [hl]
    simp only [Option.bind_some]
    rw [hc, q1, hm]
    simp only [Except.toOption, Option.bind_some]
    rw [readAll_map ms hd]
    simp only [Option.bind_some]
    rw [ho]
    rfl
  simp only [step, hrc]
  refine ⟨trivial, by rw [hm, List.length_map] at q2; exact q2, ?_⟩
  intro i m hi
  have t := JavaBmc.execItems_tr (c := P.other) (items beh 0 ms) caller P.link l.gen (l.rx + 1) { JavaBmc.putLink P.any s.bmc { l with rx := l.rx + ms.length } with
        taken := SolBmc.upd (JavaBmc.putLink P.any s.bmc { l with rx := l.rx + ms.length }).taken l.gen (l.rx + ms.length) } []
  rw [items_msgs] at t
  rcases Tr_pending t (l.gen, l.rx + 1 + i, some m) (Or.inl (List.mem_append_left _ (mem_entries _ _ _ _ _ (by simp [hi])))) with h | h
  · cases h
  · exact h

/-! ### messages given up (C144) -/

/-- Links of `s'` that were there in `s` have not lost messages; new links have new generations. -/
def Keep (s s' : JavaBmc.St) : Prop :=
  s.names.length ≤ s'.names.length ∧
  ∀ net l', JavaBmc.Dict.get s'.links net = some l' → l'.gen < s.names.length → ∃ l, JavaBmc.Dict.get s.links net = some l ∧ l.gen = l'.gen ∧
    l.addr = l'.addr ∧ l.rx ≤ l'.rx

theorem Keep.refl (s : JavaBmc.St) : Keep s s := ⟨Nat.le_refl _, fun _ l' h _ => ⟨l', h, rfl, rfl, Nat.le_refl _⟩⟩
theorem Keep.trans {a b d : JavaBmc.St} (h1 : Keep a b) (h2 : Keep b d) : Keep a d := by
  refine ⟨Nat.le_trans h1.1 h2.1, fun net l' hl hg => ?_⟩
  obtain ⟨l, h3, h4, ha, h5⟩ := h2.2 net l' hl (Nat.lt_of_lt_of_le hg h1.1)
  obtain ⟨l0, h6, h7, hb, h8⟩ := h1.2 net l h3 (by omega)
  exact ⟨l0, h6, h7.trans h4, hb.trans ha, Nat.le_trans h8 h5⟩
theorem Keep.same {s s' : JavaBmc.St} (h1 : s'.links = s.links) (h2 : s'.names = s.names) : Keep s s' := by
  refine ⟨by rw [h2]; exact Nat.le_refl _, fun net l' hl _ => ⟨l', by rw [← h1]; exact hl, rfl, rfl, Nat.le_refl _⟩⟩

theorem Keep.put {c : JavaBmc.Cfg} {s s' : JavaBmc.St} (w : JavaBmc.WF c s) {net : String} {l l' : JavaBmc.Link} (hl : JavaBmc.Dict.get s.links net = some l)
    (ha : l'.addr = l.addr) (hg : l'.gen = l.gen) (hr : l.rx ≤ l'.rx) (h1 : s'.links = (JavaBmc.putLink c s l').links) (h2 : s'.names = s.names) :
    Keep s s' := by
  refine ⟨by rw [h2]; exact Nat.le_refl _, fun n x hx _ => ?_⟩
  rw [h1, JavaBmc.putLink_eq s l' net (by rw [ha]; exact w.addr net l hl)] at hx
  simp only [JavaBmc.Dict.get_put] at hx
  split at hx
  · rename_i e
    subst e
    cases hx
    exact ⟨l, hl, hg.symm, ha.symm, hr⟩
  · exact ⟨x, hx, rfl, rfl, Nat.le_refl _⟩

theorem Keep.del {c : JavaBmc.Cfg} {s s' : JavaBmc.St} (w : JavaBmc.WF c s) {net : String} {l : JavaBmc.Link} (hl : JavaBmc.Dict.get s.links net = some l)
    (h1 : s'.links = JavaBmc.Dict.del s.links net) (h2 : s'.names = s.names) : Keep s s' := by
  refine ⟨by rw [h2]; exact Nat.le_refl _, fun n x hx _ => ?_⟩
  rw [h1, JavaBmc.Dict.get_del w.linkKeys hl] at hx
  split at hx
  · cases hx
  · exact ⟨x, hx, rfl, rfl, Nat.le_refl _⟩

theorem Tr_keep {c : JavaBmc.Cfg} {b : Bool} {Q Q' : List (Nat × Nat × Option JavaBmc.Msg)} {s s' : JavaBmc.St} (t : JavaBmc.Tr c b Q s Q' s')
    (w : JavaBmc.WF c s) : Keep s s' := by
  induction t with
  | refl => exact .refl _
  | trans t1 _ ih1 ih2 => exact (ih1 w).trans (ih2 (t1.wf w))
  | sent P s next l m hl hid =>
    obtain ⟨net, hn, hg, ha⟩ := JavaBmc.getLinkA_some c hl
    exact .put w hg (l' := { l with tx := l.tx + 1 }) rfl rfl (Nat.le_refl _) rfl (put_frame c s _).2
  | chain P s id next l m hl hid =>
    obtain ⟨net, hn, hg, ha⟩ := JavaBmc.getLinkA_some c hl
    exact .put w hg (l' := { l with tx := l.tx + 1 }) rfl rfl (Nat.le_refl _) rfl (put_frame c s _).2
  | reach P s net l r hl => exact .put w hl (l' := { l with reach := r }) rfl rfl (Nat.le_refl _) rfl (put_frame c s _).2
  | request P s s1 r _ h1 h2 h3 ih => exact (ih w).trans (.same rfl rfl)
  | addLink P s net link hn hnone =>
    refine ⟨by simp, fun n x hx hg => ?_⟩
    simp only [JavaBmc.Dict.get_put] at hx
    split at hx
    · cases hx; exact absurd hg (Nat.lt_irrefl _)
    · exact ⟨x, hx, rfl, rfl, Nat.le_refl _⟩
  | delLink P s net l hl hr hid => exact .del w hl rfl rfl
  | delBtp P s net l id hl hr hid => exact .del w hl rfl rfl
  | take P s net l ms h1 hl h3 => exact .put w hl (l' := { l with rx := l.rx + ms.length }) rfl rfl (by simp) rfl (put_frame c s _).2
  | _ => exact .same rfl rfl

theorem step_tr_any (P : Par) (s : St) (o : Op) : JavaBmc.Tr P.any false [] s.bmc [] (step P s o).bmc := by
  have mono : ∀ {Q Q' : List (Nat × Nat × Option JavaBmc.Msg)} {a b : JavaBmc.St}, JavaBmc.Tr P.other false Q a Q' b → JavaBmc.Tr P.any false Q a Q' b :=
    fun t => Tr_mono (c := P.other) (w := P.any.verify) (fun _ _ _ _ _ => rfl) t
  cases o with
  | call o =>
    simp only [step]
    cases h : JavaBmc.exec P.other o s.bmc with
    | none => exact .refl _ _
    | some b => exact mono (JavaBmc.exec_tr o s.bmc b [] h)
  | relay caller msgs beh =>
    simp only [step]
    cases hr : relayCall P s caller msgs beh with
    | none => exact .refl _ _
    | some x =>
      obtain ⟨l, s1, ms, hl, hh, hd, ho, hx⟩ := relayCall_ok hr
      dsimp only
      rw [hx]
      refine .trans (JavaBmc.Tr.openRelay (b := false) (P := []) ho (by simp)) ?_
      have h2 := mono (JavaBmc.execItems_tr (c := P.other) (items beh 0 ms) caller P.link l.gen (l.rx + 1) s1 [])
      rw [items_msgs] at h2
      exact h2

theorem run_tr_any (P : Par) (s : St) (ops : List Op) : JavaBmc.Tr P.any false [] s.bmc [] (run P s ops).bmc := by
  unfold run
  induction ops generalizing s with
  | nil => exact .refl _ _
  | cons o t ih => rw [List.foldl_cons]; exact .trans (step_tr_any P s o) (ih _)

/-- C144: when the number of the link is not the verifier's, no relay call for the link does anything. -/
theorem C144_java_apart (P : Par) (s : St) (l : JavaBmc.Link) (hl : JavaBmc.getLinkA P.c s.bmc P.link = some l)
    (h : s.bmv.off + s.bmv.lastSeq ≠ l.rx) (caller : Nat) (msgs : List JavaBtpBlock.Msg) (beh : Nat → Beh) :
    step P s (.relay caller msgs beh) = s := by
  simp only [step]
  cases hr : relayCall P s caller msgs beh with
  | none => rfl
  | some x =>
    obtain ⟨l', _, _, hl', hh, _⟩ := relayCall_ok hr
    rw [hl, Option.some.injEq] at hl'
    subst hl'
    exact absurd (handleRelay_seq hh).1 h

/-- C144: when the number of the link is above the verifier's, no call whatsoever makes the link work again while it is not removed: the verifier
takes nothing and no relay call does anything. -/
theorem C144_java_ahead (P : Par) (creator : Nat) (v : JavaBtpBlock.St) (ops0 ops : List Op) (l l' : JavaBmc.Link)
    (hl : JavaBmc.getLinkA P.c (run P (start creator v) ops0).bmc P.link = some l)
    (h : (run P (start creator v) ops0).bmv.off + (run P (start creator v) ops0).bmv.lastSeq < l.rx)
    (hl' : JavaBmc.getLinkA P.c (run P (start creator v) (ops0 ++ ops)).bmc P.link = some l') (hg : l'.gen = l.gen) :
    let s := run P (start creator v) ops0
    let s' := run P (start creator v) (ops0 ++ ops)
    s'.bmv = s.bmv ∧ s'.out = s.out ∧ ∀ caller msgs beh, step P s' (.relay caller msgs beh) = s' := by
  intro s s'
  have hs' : s' = run P s ops := by simp only [s', s, run, List.foldl_append]
  have w : JavaBmc.WF P.any s.bmc := (run_tr_any P (start creator v) ops0).wf (JavaBmc.wf_init creator)
  have hlast : JavaBmc.getLinkA P.c (run P s ops).bmc P.link = some l' := by rw [← hs']; exact hl'
  have hl0 : JavaBmc.getLinkA P.c s.bmc P.link = some l := hl
  have h0 : s.bmv.off + s.bmv.lastSeq < l.rx := h
  rw [hs']
  clear hl hl' h hs' s'
  generalize s = s at *
  induction ops generalizing s l with
  | nil =>
    rw [show run P s [] = s from rfl] at *
    refine ⟨rfl, rfl, fun caller msgs beh => C144_java_apart P s l hl0 (by omega) caller msgs beh⟩
  | cons o t ih =>
    rw [show run P s (o :: t) = run P (step P s o) t from rfl] at *
    have t1 := step_tr_any P s o
    have w1 := t1.wf w
    have k1 := Tr_keep t1 w
    have k2 := Tr_keep (run_tr_any P (step P s o) t) w1
    obtain ⟨net, hn, hd, ha⟩ := JavaBmc.getLinkA_some P.c hl0
    obtain ⟨net', hn', hd', ha'⟩ := JavaBmc.getLinkA_some P.c hlast
    rw [hn, Option.some.injEq] at hn'
    subst hn'
    have hlt : l.gen < s.bmc.names.length := (List.getElem?_eq_some_iff.mp (w.names net l hd)).1
    obtain ⟨l1, e1, e2, e7, e3⟩ := k2.2 net l' hd' (by have := k1.1; omega)
    obtain ⟨l2, e4, e5, _, e6⟩ := k1.2 net l1 e1 (by omega)
    rw [hd, Option.some.injEq] at e4
    subst e4
    have hl1 : JavaBmc.getLinkA P.c (step P s o).bmc P.link = some l1 := by
      unfold JavaBmc.getLinkA
      rw [hn]
      dsimp only
      rw [e1]
      dsimp only
      rw [if_pos (e7.trans ha')]
    have hbmv : (step P s o).bmv = s.bmv ∧ (step P s o).out = s.out := by
      cases o with
      | call o => exact ⟨rfl, rfl⟩
      | relay caller msgs beh =>
        rw [C144_java_apart P s l hl0 (by omega) caller msgs beh]
        exact ⟨rfl, rfl⟩
    have := ih l1 (by omega) (step P s o) w1 hlast hl1 (by rw [hbmv.1]; omega)
    rw [hbmv.1, hbmv.2] at this
    exact this

theorem resolve_other (P : Par) (s : JavaBmc.St) (src : String) : JavaBmc.resolve P.c s src = JavaBmc.resolve P.other s src := by
  have h : ∀ ls, JavaBmc.fromReach P.c src ls = JavaBmc.fromReach P.other src ls := by
    intro ls
    induction ls with
    | nil => rfl
    | cons x t ih => simp only [JavaBmc.fromReach, ih]; rfl
  unfold JavaBmc.resolve
  rw [h]

/-- An owner gives up a message of a link. -/
theorem drop_rx {c : JavaBmc.Cfg} {env : JavaBmc.Env} {s s' : JavaBmc.St} {caller seq : Nat} {src svc fn prev : String} {sn nsn : Int}
    {fv : List Nat} (w : JavaBmc.WF c s) (h : JavaBmc.dropMessage c env s caller src seq svc sn nsn fn fv = some s')
    (hp : JavaBmc.resolve c s src = .ok prev) {l l' : JavaBmc.Link} (hl : JavaBmc.Dict.get s.links ((c.netOf prev).getD "") = some l)
    (hl' : JavaBmc.Dict.get s'.links ((c.netOf prev).getD "") = some l') (hg : l'.gen = l.gen) : l.rx + 1 ≤ l'.rx := by
  unfold JavaBmc.dropMessage at h
  split at h
  · cases h
  rw [hp] at h
  dsimp only at h
  rw [hl] at h
  dsimp only at h
  split at h
  · cases h
  rename_i hseq
  split at h
  · cases h
  split at h
  · cases h
  have hq : seq = l.rx + 1 := by omega
  subst hq
  have t0 := JavaBmc.Tr.take (c := c) (strict := false) [] s _ l [none] (by simp) hl (fun i m hi => by
    cases i with
    | zero => simp at hi
    | succ j => simp at hi)
  have t1 := t0.trans (JavaBmc.Tr.disp [] _ l.gen (l.rx + 1) none)
  simp only [List.length_cons, List.length_nil, Nat.zero_add] at t1
  simp only [(JavaBmc.Tr.putLink_fields (c := c) _ _).1] at h
  have hlt : l.gen < s.names.length := (List.getElem?_eq_some_iff.mp (w.names _ l hl)).1
  have ht : ∃ s1, JavaBmc.Tr c false [] s [] s1 ∧ s1.links = (JavaBmc.putLink c s { l with rx := l.rx + 1 }).links ∧ JavaBmc.Tr c false [] s1 [] s' := by
    refine ⟨_, t1, rfl, ?_⟩
    refine .trans (JavaBmc.Tr.inFee _ (JavaBmc.dropFee fn fv)) ?_
    refine .trans (JavaBmc.Tr.accumulate _ c.addr (JavaBmc.dropFee fn fv)) ?_
    split at h
    · split at h
      · rename_i h3; cases h; exact JavaBmc.Tr.sendError h3
      · cases h
    · cases h
      exact (JavaBmc.Tr.lostFee _ _).trans (.dropped [] _ _ _ _)
  clear t1
  obtain ⟨s1, t1, hs1, t2⟩ := ht
  obtain ⟨x, e1, e2, _, e3⟩ := (Tr_keep t2 (t1.wf w)).2 _ l' hl' (by
    rw [hg]
    exact Nat.lt_of_lt_of_le hlt (Tr_keep t1 w).1)
  rw [hs1, JavaBmc.putLink_eq s { l with rx := l.rx + 1 } _ (w.addr _ l hl), JavaBmc.Dict.get_put, if_pos rfl, Option.some.injEq] at e1
  subst e1
  exact e3

/-- C144 is false for links with block verifiers: once an owner has given up one message of a link, in a state in which the link worked, no call
whatsoever makes the verifier take a message while the link is not removed, and no relay call does anything. -/
theorem C144_java_drop_blocks (P : Par) (creator : Nat) (v : JavaBtpBlock.St) (ops0 ops : List Op) (l l' : JavaBmc.Link)
    (hl : JavaBmc.getLinkA P.c (run P (start creator v) ops0).bmc P.link = some l)
    (h : (run P (start creator v) ops0).bmv.off + (run P (start creator v) ops0).bmv.lastSeq = l.rx)
    (env : JavaBmc.Env) (caller seq : Nat) (src svc fn : String) (sn nsn : Int) (fv : List Nat)
    (hp : JavaBmc.resolve P.c (run P (start creator v) ops0).bmc src = .ok P.link)
    (hd : (JavaBmc.exec P.other (.drop env caller src seq svc sn nsn fn fv) (run P (start creator v) ops0).bmc).isSome)
    (hl' : JavaBmc.getLinkA P.c (run P (start creator v) (ops0 ++ .call (.drop env caller src seq svc sn nsn fn fv) :: ops)).bmc P.link = some l')
    (hg : l'.gen = l.gen) :
    let s := run P (start creator v) ops0
    let s' := run P (start creator v) (ops0 ++ .call (.drop env caller src seq svc sn nsn fn fv) :: ops)
    s'.bmv = s.bmv ∧ s'.out = s.out ∧ ∀ caller msgs beh, step P s' (.relay caller msgs beh) = s' := by
  have hrun : ∀ t, run P (start creator v) (ops0 ++ .call (.drop env caller src seq svc sn nsn fn fv) :: t) =
      run P (run P (start creator v) (ops0 ++ [.call (.drop env caller src seq svc sn nsn fn fv)])) t := by
    intro t; simp [run, List.foldl_append]
  have happ : ops0 ++ .call (.drop env caller src seq svc sn nsn fn fv) :: ops = (ops0 ++ [.call (.drop env caller src seq svc sn nsn fn fv)]) ++ ops := by simp
  have w := (run_tr_any P (start creator v) ops0).wf (JavaBmc.wf_init creator)
  have hstep : run P (start creator v) (ops0 ++ [.call (.drop env caller src seq svc sn nsn fn fv)]) =
      step P (run P (start creator v) ops0) (.call (.drop env caller src seq svc sn nsn fn fv)) := by simp [run, List.foldl_append]
  have t1 := step_tr_any P (run P (start creator v) ops0) (.call (.drop env caller src seq svc sn nsn fn fv))
  have w1 := t1.wf w
  have hlast := hl'
  rw [hrun, hstep] at hlast
  obtain ⟨net, hn, hdl, ha⟩ := JavaBmc.getLinkA_some P.c hl
  obtain ⟨net', hn', hdl', ha'⟩ := JavaBmc.getLinkA_some P.c hlast
  rw [hn, Option.some.injEq] at hn'
  subst hn'
  have hlt : l.gen < (run P (start creator v) ops0).bmc.names.length := (List.getElem?_eq_some_iff.mp (w.names net l hdl)).1
  obtain ⟨l1, e1, e2, e7, e3⟩ := (Tr_keep (run_tr_any P _ ops) w1).2 net l' hdl' (by have := (Tr_keep t1 w).1; omega)
  have hl1 : JavaBmc.getLinkA P.c (run P (start creator v) (ops0 ++ [.call (.drop env caller src seq svc sn nsn fn fv)])).bmc P.link = some l1 := by
    rw [hstep]
    unfold JavaBmc.getLinkA
    rw [hn]
    dsimp only
    rw [e1]
    dsimp only
    rw [if_pos (e7.trans ha')]
  have hb : (run P (start creator v) (ops0 ++ [.call (.drop env caller src seq svc sn nsn fn fv)])).bmv = (run P (start creator v) ops0).bmv ∧
      (run P (start creator v) (ops0 ++ [.call (.drop env caller src seq svc sn nsn fn fv)])).out = (run P (start creator v) ops0).out := by
    rw [hstep]; exact ⟨rfl, rfl⟩
  have hrx : l.rx + 1 ≤ l1.rx := by
    cases hx : JavaBmc.exec P.other (.drop env caller src seq svc sn nsn fn fv) (run P (start creator v) ops0).bmc with
    | none => rw [hx] at hd; cases hd
    | some b =>
      have e1' : JavaBmc.Dict.get b.links net = some l1 := by
        rw [← e1]; simp only [step, hx, Option.getD_some]
      have hw : JavaBmc.WF P.other (run P (start creator v) ops0).bmc := ⟨w.1, w.2, w.3, w.4, w.5⟩
      have hno : P.other.netOf P.link = some net := hn
      have hx' : JavaBmc.dropMessage P.other env (run P (start creator v) ops0).bmc caller src seq svc sn nsn fn fv = some b := by
        simpa only [JavaBmc.exec] using hx
      refine drop_rx (c := P.other) hw (s' := b) (prev := P.link) (l := l) (l' := l1) hx' (resolve_other P _ src ▸ hp) ?_ ?_ (e2.trans hg)
      · rw [hno]; exact hdl
      · rw [hno]; exact e1'
  rw [happ] at hl' ⊢
  have := C144_java_ahead P creator v _ ops l1 l' hl1 (by rw [hb.1]; omega) hl' e2.symm
  dsimp only at this
  rw [hb.1, hb.2] at this
  exact this

end Verif.IconToIcon
