import Verif.XMixLinksInv
import Verif.XMixProps
/-!
C162: calls between contracts over a network of message centers of EVM chains and of ICON with numbered links.

* `LReach addr nd nets bal L`: the state `L` is reached; `L.st` are the message centers, `L.x` the call services. There is no pool: a relay
  call reads the messages of a link that follow the number received.
* `outs b` are the messages a message center emitted, each with the address it is for; `heard b a` is what it handled of the link `a`.
-/
namespace Verif.XMix
open Verif
open Verif.SolBmc (upd)
open Verif.SolNet (upd_same' upd_other')
open Verif.MixNet
open Verif.JavaBmc
open Verif.XNet (X)

section
variable (addr : String → String) (nd : String → Chain) (nets : List String) (bal : String → Nat) (hnd : nets.Nodup) (hname : ∀ n ∈ nets, (nd n).kind.net = n)
  (hsl : ∀ n ∈ nets, '/' ∉ n.toList) (hinj : ∀ a ∈ nets, ∀ b ∈ nets, addr a = addr b → a = b)
include hnd hname hsl hinj

/-- C162: the network with links is a network of C161; what is under way there (`P`) is, each message as often, what was not read from the
    links between the chains, and what was emitted for other addresses. -/
theorem C162_network (L : LNet) (h : LReach addr nd nets bal L) : ∃ P T, Reach nd nets bal ⟨⟨L.st, P⟩, L.x⟩ T ∧ ∀ m : Msg, P.count m =
    (nets.map fun p => (nets.map fun q => if p = q then 0 else
      ((toLink (addr q) (outs (L.st p))).drop (heard (L.st q) (addr p)).length).count m).sum).sum +
    (nets.map fun p => (stray addr nets p (outs (L.st p))).count m).sum := by
  obtain ⟨P, T, g⟩ := lreach_inv hnd hname hsl hinj h
  exact ⟨P, T, g.reach, g.wires.pool⟩

/-- C162: of what `p` emits for `q`, `q` handles the messages in the order emitted, each once, none left out but those its owner dropped. -/
theorem C162_in_order (L : LNet) (h : LReach addr nd nets bal L) (p q : String) (hp : p ∈ nets) (hq : q ∈ nets) (hpq : p ≠ q) :
    (heard (L.st q) (addr p)).length ≤ (toLink (addr q) (outs (L.st p))).length ∧
      ∀ i, i < (heard (L.st q) (addr p)).length → (heard (L.st q) (addr p))[i]? = some none ∨
        ∃ m, (heard (L.st q) (addr p))[i]? = some (some (tr m)) ∧ (toLink (addr q) (outs (L.st p)))[i]? = some m := by
  obtain ⟨P, T, g⟩ := lreach_inv hnd hname hsl hinj h
  refine ⟨g.wires.le p hp q hq hpq, fun i hi => ?_⟩
  cases e : (heard (L.st q) (addr p))[i]? with
  | none => rw [List.getElem?_eq_none_iff] at e; omega
  | some x =>
    cases x with
    | none => exact .inl rfl
    | some m =>
      have := g.hist p hp q hq hpq i m e
      rw [List.getElem?_map, Option.map_eq_some_iff] at this
      obtain ⟨m', h1, h2⟩ := this
      exact .inr ⟨m', by rw [h2], h1⟩

/-- C162: the number received, by which the next relay call reads, is the number of messages handled or dropped. -/
theorem C162_numbers (L : LNet) (h : LReach addr nd nets bal L) (n : String) (hn : n ∈ nets) :
    (∀ v s, nd n = .evm v → L.st n = .evm s → ∀ a, s.rx a = (heard (L.st n) a).length) ∧
    (∀ v s, nd n = .icon v → L.st n = .icon s → ∀ a l, getLinkA v.c s a = some l → l.rx = (heard (L.st n) a).length) := by
  obtain ⟨P, T, g⟩ := lreach_inv hnd hname hsl hinj h
  have hok := g.ok n hn
  refine ⟨fun v s hv hs a => ?_, fun v s hv hs a l hl => ?_⟩
  · rw [hv, hs] at hok
    rw [hs]
    exact (hok a).symm
  · rw [hv, hs] at hok
    rw [hs]
    exact (heard_rx hok.1 hok.2 (lreach_names h n s hs) hl).symm

/-- C162: if the rollback of a call is run, the call was not executed with success anywhere. -/
theorem C162_atomic (L : LNet) (h : LReach addr nd nets bal L) (a b : String) (sn : Int) (dst : BtpAddress.Str) (data : Option Bytes)
    (hu : XCall.Ev.undo sn dst data ∈ (L.x a).log) (id : Nat) (q : XCall.Req) (hr : XCall.Ev.received id a.toList q ∈ (L.x b).log) (hq : q.sn = sn)
    (c : Int) (he : XCall.Ev.executed id c ∈ (L.x b).log) : c ≠ 0 := by
  obtain ⟨P, T, g⟩ := lreach_inv hnd hname hsl hinj h
  exact C161_atomic nd nets bal hnd hname hsl _ T g.reach a b sn dst data hu id q hr hq c he

/-- C162: a success reported to a call is the success of its execution, on the chain and contract called, with the data sent. -/
theorem C162_success (L : LNet) (h : LReach addr nd nets bal L) (a : String) (sn : Int) (hc : XCall.Ev.response sn 0 ∈ (L.x a).log) :
    ∃ (k : Nat) (caller : BtpAddress.Str) (b : String) (acct : BtpAddress.Str) (data : Bytes) (rb : Option Bytes) (id : Nat) (q : XCall.Req), sn = k ∧
      XCall.Ev.sent k caller b.toList acct data rb ∈ (L.x a).log ∧ XCall.Ev.received id a.toList q ∈ (L.x b).log ∧ q.sn = sn ∧
      q.src = caller ∧ q.dst = acct ∧ q.data = data ∧ XCall.Ev.executed id 0 ∈ (L.x b).log := by
  obtain ⟨P, T, g⟩ := lreach_inv hnd hname hsl hinj h
  exact C161_success nd nets bal hnd hname hsl _ T g.reach a sn hc

/-- C162: what a service runs was sent to it, by the contract the target is told, to the target, with the data. -/
theorem C162_integrity (L : LNet) (h : LReach addr nd nets bal L) (b : String) (id : Int) (r : XCall.Req) (hc : XCall.Ev.call id r ∈ (L.x b).log) :
    ∃ (a : String) (k : Nat) (caller : BtpAddress.Str) (rb : Option Bytes), r.src = BtpAddress.solCompose a.toList caller ∧ r.sn = k ∧
      XCall.Ev.sent k caller b.toList r.dst r.data rb ∈ (L.x a).log := by
  obtain ⟨P, T, g⟩ := lreach_inv hnd hname hsl hinj h
  exact C161_integrity nd nets bal hnd hname hsl _ T g.reach b id r hc

/-- C162: no call is received twice, on any chains. -/
theorem C162_once (L : LNet) (h : LReach addr nd nets bal L) (a b b' : String) (id id' : Nat) (q q' : XCall.Req)
    (h1 : XCall.Ev.received id a.toList q ∈ (L.x b).log) (h2 : XCall.Ev.received id' a.toList q' ∈ (L.x b').log) (hs : q.sn = q'.sn) : b = b' ∧ id = id' := by
  obtain ⟨P, T, g⟩ := lreach_inv hnd hname hsl hinj h
  exact C161_once nd nets bal hnd hname hsl _ T g.reach a b b' id id' q q' h1 h2 hs

/-- C162: a call is settled with the code of its execution on the chain it was sent to, or with -2. -/
theorem C162_settled (L : LNet) (h : LReach addr nd nets bal L) (a : String) (sn code : Int) (hc : XCall.Ev.response sn code ∈ (L.x a).log) :
    ∃ (k : Nat) (caller : BtpAddress.Str) (b : String) (acct : BtpAddress.Str) (data : Bytes) (rb : Option Bytes), sn = k ∧
      XCall.Ev.sent k caller b.toList acct data rb ∈ (L.x a).log ∧
      ((∃ (id : Nat) (q : XCall.Req), XCall.Ev.received id a.toList q ∈ (L.x b).log ∧ q.sn = sn ∧ XCall.Ev.executed id code ∈ (L.x b).log) ∨ code = -2) := by
  obtain ⟨P, T, g⟩ := lreach_inv hnd hname hsl hinj h
  exact C161_settled nd nets bal hnd hname hsl _ T g.reach a sn code hc

/-- C162: a call that wants an answer is always somewhere. Its message or the answer is on a link between two chains and not read yet, or was sent
    to an address that is no other chain of the network; or the request waits, or the answer is recorded, or one of them was given up. -/
theorem C162_accounted (L : LNet) (h : LReach addr nd nets bal L) (n : String) (hn : n ∈ nets) (k : Nat) (caller : BtpAddress.Str) (b : String)
    (acct : BtpAddress.Str) (data : Bytes) (rb : Option Bytes) (hs : XCall.Ev.sent k caller b.toList acct data rb ∈ (L.x n).log)
    (hp : XCall.present (nd n).x.lang rb = true) :
    ∃ m0 ∈ (L.st n).sent, m0.src = n ∧ m0.dst = b ∧ m0.svc = X ∧ m0.sn = k ∧ 0 < m0.nsn ∧
      ((∃ m, ((∃ p ∈ nets, ∃ q ∈ nets, p ≠ q ∧ m ∈ (toLink (addr q) (outs (L.st p))).drop (heard (L.st q) (addr p)).length) ∨
          ∃ p ∈ nets, m ∈ stray addr nets p (outs (L.st p))) ∧ ((m.src = n ∧ m.nsn = m0.nsn) ∨ (m.dst = n ∧ m.nsn = -m0.nsn))) ∨
       (b ∈ nets ∧ (L.st b).owes n X k = m0.nsn ∧
          ∃ id r a, (L.x b).proxy id = some r ∧ r.rb = true ∧ r.sn = k ∧ r.src = BtpAddress.solCompose n.toList a) ∨
       (∃ code, XCall.Ev.response k code ∈ (L.x n).log) ∨
       (∃ a ∈ nets, ∃ m' ∈ (L.st a).given, m'.nsn = -m0.nsn) ∨
       (∃ a ∈ nets, ∃ s, L.st a = .icon s ∧ ∃ m' ∈ (L.st a).given, m'.src = n ∧ m'.nsn = m0.nsn)) := by
  obtain ⟨P, T, g⟩ := lreach_inv hnd hname hsl hinj h
  obtain ⟨m0, h1, h2, h3, h4, h5, h6, hc⟩ := C161_accounted nd nets bal hnd hname hsl _ T g.reach n hn k caller b acct data rb hs hp
  refine ⟨m0, h1, h2, h3, h4, h5, h6, ?_⟩
  rcases hc with ⟨m, g1, g2, g3⟩ | hc | ⟨m, g1, g2, g3⟩ | hc | hc | hc
  · exact .inl ⟨m, g.wires.mem m g1, .inl ⟨g2, g3⟩⟩
  · exact .inr (.inl hc)
  · exact .inl ⟨m, g.wires.mem m g1, .inr ⟨g2, g3⟩⟩
  · exact .inr (.inr (.inl hc))
  · exact .inr (.inr (.inr (.inl hc)))
  · exact .inr (.inr (.inr (.inr hc)))

/-- C162: if all links of the network are read to the end, and nothing was sent to other addresses, a call that wants an answer waits on the chain
    called or is answered, unless one of its messages was given up. -/
theorem C162_drained (L : LNet) (h : LReach addr nd nets bal L)
    (hread : ∀ p ∈ nets, ∀ q ∈ nets, p ≠ q → (toLink (addr q) (outs (L.st p))).length ≤ (heard (L.st q) (addr p)).length)
    (hin : ∀ p ∈ nets, ∀ e ∈ outs (L.st p), ∃ q ∈ nets, q ≠ p ∧ addr q = e.1)
    (n : String) (hn : n ∈ nets) (k : Nat) (caller : BtpAddress.Str) (b : String)
    (acct : BtpAddress.Str) (data : Bytes) (rb : Option Bytes) (hs : XCall.Ev.sent k caller b.toList acct data rb ∈ (L.x n).log)
    (hp : XCall.present (nd n).x.lang rb = true) :
    (b ∈ nets ∧ (L.st b).owes n X k ≠ 0 ∧ ∃ id r a, (L.x b).proxy id = some r ∧ r.rb = true ∧ r.sn = k ∧ r.src = BtpAddress.solCompose n.toList a) ∨
      (∃ code, XCall.Ev.response k code ∈ (L.x n).log) ∨ ∃ a ∈ nets, ∃ m' ∈ (L.st a).given, ∃ m0 ∈ (L.st n).sent, m0.sn = k ∧ m0.dst = b ∧
        (m'.nsn = -m0.nsn ∨ m'.nsn = m0.nsn) := by
  obtain ⟨m0, h1, h2, h3, h4, h5, h6, hc⟩ := C162_accounted addr nd nets bal hnd hname hsl hinj L h n hn k caller b acct data rb hs hp
  rcases hc with ⟨m, g1, -⟩ | ⟨g1, g2, g3⟩ | hc | ⟨a, ha, m', g1, g2⟩ | ⟨a, ha, s, -, m', g1, -, g2⟩
  · exfalso
    rcases g1 with ⟨p, hp, q, hq, hpq, hm⟩ | ⟨p, hp, hm⟩
    · rw [List.drop_eq_nil_of_le (hread p hp q hq hpq)] at hm
      exact nomatch hm
    · obtain ⟨e, he, h7⟩ := List.mem_filterMap.1 hm
      obtain ⟨q, hq, h8, h9⟩ := hin p hp e he
      rw [if_pos (List.any_eq_true.2 ⟨q, hq, by simp [h8, h9]⟩)] at h7
      exact nomatch h7
  · exact .inl ⟨g1, by omega, g3⟩
  · exact .inr (.inl hc)
  · exact .inr (.inr ⟨a, ha, m', g1, m0, h1, h5, h3, .inl g2⟩)
  · exact .inr (.inr ⟨a, ha, m', g1, m0, h1, h5, h3, .inr g2⟩)
end

/-! ### Histories -/
namespace LDemo
open _root_.Verif.XMix.Demo

/-- The address of a chain is its name. -/
abbrev ad : String → String := id

inductive Act where
  | onA (o : XNet.JOp)
  | onB (o : IOp)
  /-- the next message of the link from B -/
  | toA
  /-- the next message of the link from A -/
  | toB (env : Env)
  /-- the owner of B drops the next message of the link from A, if it has this source -/
  | dropB (src : String)

def Act.run (w : LNet) : Act → LNet
  | .onA o => match w.st "A" with
    | .evm s => match XNet.jexec (evm "A") o ⟨s, w.x "A"⟩ with
      | some j => w.next "A" (.evm j.b) j.x
      | none => w
    | _ => w
  | .onB o => match w.st "B" with
    | .icon s => match iexec icon o ⟨s, w.x "B"⟩ with
      | some j => w.next "B" (.icon j.b) j.x
      | none => w
    | _ => w
  | .toA => match w.st "A" with
    | .evm s => match after ad w "B" "A" (s.rx "B") with
      | m :: _ => match XNet.jrelay (evm "A") env 70 "B" (.cons (tr m) env true .nil .nil) ⟨s, w.x "A"⟩ with
        | some j => w.next "A" (.evm j.b) j.x
        | none => w
      | [] => w
    | _ => w
  | .toB e => match w.st "B" with
    | .icon s => match getLinkA icon.c s "A" with
      | some l => match after ad w "A" "B" l.rx with
        | m :: _ => match irelay icon 9 "A" (.cons m e none .nil .nil) ⟨s, w.x "B"⟩ with
          | some j => w.next "B" (.icon j.b) j.x
          | none => w
        | [] => w
      | none => w
    | _ => w
  | .dropB src => match w.st "B" with
    | .icon s => match getLinkA icon.c s "A" with
      | some l => match after ad w "A" "B" l.rx with
        | m :: _ =>
          if m.src = src ∧ goes (resolve icon.c s m.src) "A" = true then
            match JavaBmc.exec icon.c (.drop jenv 1 m.src (l.rx + 1) m.svc m.sn m.nsn "" []) s with
            | some s' => w.next "B" (.icon s') (w.x "B")
            | none => w
          else w
        | [] => w
      | none => w
    | _ => w

def Act.Fine : Act → Prop
  | .onA o => XNet.Fine (evm "A") o
  | .onB o => IFine icon o
  | _ => True

def namesOk : MixNet.Node → Bool
  | .icon s => decide s.names.Nodup
  | .evm _ => true

def check (w : LNet) : Bool := nets.all fun n => decide ((w.x n).sn < 2 ^ 255) && (w.x n).log.all evOk && namesOk (w.st n)

def start : LNet := ⟨fun n => (chain n).kind.init, fun _ => XCall.init 0⟩

structure Good (w : LNet) : Prop where
  reach : LReach ad chain nets (fun _ => 0) w
  x : ∀ n, n ∉ nets → w.x n = XCall.init 0
  st : ∀ n, n ∉ nets → w.st n = (chain n).kind.init

theorem keep {w : LNet} {n : String} {b : MixNet.Node} {x : XCall.St} (hn : n ∈ nets) (h : Good w) :
    (∀ n', n' ∉ nets → (w.next n b x).x n' = XCall.init 0) ∧ ∀ n', n' ∉ nets → (w.next n b x).st n' = (chain n').kind.init := by
  refine ⟨fun n' hn' => ?_, fun n' hn' => ?_⟩
  · show upd w.x n x n' = _
    rw [upd_other' _ _ _ _ (fun e : n' = n => hn' (e ▸ hn))]; exact h.x n' hn'
  · show upd w.st n b n' = _
    rw [upd_other' _ _ _ _ (fun e : n' = n => hn' (e ▸ hn))]; exact h.st n' hn'

theorem step_good {w : LNet} {n : String} {b : MixNet.Node} {x : XCall.St} (hn : n ∈ nets) (h : Good w) (hs : LStep ad chain nets w (w.next n b x))
    (hc : check (w.next n b x) = true) : Good (w.next n b x) := by
  obtain ⟨h1, h2⟩ := keep (b := b) (x := x) hn h
  have hall : ∀ y ∈ nets, ((w.next n b x).x y).sn < 2 ^ 255 ∧ (((w.next n b x).x y).log.all evOk = true) ∧ namesOk ((w.next n b x).st y) = true := by
    intro y hy
    have := List.all_eq_true.1 hc y hy
    rw [Bool.and_eq_true, Bool.and_eq_true, decide_eq_true_eq] at this
    exact ⟨this.1.1, this.1.2, this.2⟩
  refine ⟨h.reach.step hs ?_ ?_, h1, h2⟩
  · refine sane (w := ((w.next n b x).net [], fun _ => [])) (List.all_eq_true.2 fun y hy => ?_) h1
    rw [Bool.and_eq_true, decide_eq_true_eq]
    exact ⟨(hall y hy).1, (hall y hy).2.1⟩
  · intro y s e
    by_cases hy : y ∈ nets
    · have := (hall y hy).2.2
      rw [e] at this
      exact of_decide_eq_true this
    · rw [h2 y hy] at e
      unfold chain at e
      split at e
      · cases e; exact List.nodup_nil
      · exact nomatch e

theorem act_good (w : LNet) (a : Act) (h : Good w) (ha : a.Fine) (hc : check (a.run w) = true) : Good (a.run w) := by
  cases a with
  | onA o =>
    simp only [Act.run] at hc ⊢
    split
    · rename_i s hs
      rw [hs] at hc
      dsimp only at hc
      split
      · rename_i j he
        rw [he] at hc
        exact step_good (by decide) h (.evmCall "A" (evm "A") s o j (by decide) rfl hs ha he) hc
      · exact h
    · exact h
  | onB o =>
    simp only [Act.run] at hc ⊢
    split
    · rename_i s hs
      rw [hs] at hc
      dsimp only at hc
      split
      · rename_i j he
        rw [he] at hc
        exact step_good (by decide) h (.iconCall "B" icon s o j (by decide) rfl hs ha he) hc
      · exact h
    · exact h
  | toA =>
    simp only [Act.run] at hc ⊢
    split
    · rename_i s hs
      rw [hs] at hc
      dsimp only at hc
      split
      · rename_i m later hu
        rw [hu] at hc
        dsimp only at hc
        split
        · rename_i j he
          rw [he] at hc
          exact step_good (by decide) h (.evmRelay "A" "B" (evm "A") s env 70 (.cons (tr m) env true .nil .nil) [m] later j (by decide) (by decide) (by decide)
            rfl hs ⟨trivial, trivial⟩ rfl hu he) hc
        · exact h
      · exact h
    · exact h
  | toB e =>
    simp only [Act.run] at hc ⊢
    split
    · rename_i s hs
      rw [hs] at hc
      dsimp only at hc
      split
      · rename_i l hl
        rw [hl] at hc
        dsimp only at hc
        split
        · rename_i m later hu
          rw [hu] at hc
          dsimp only at hc
          split
          · rename_i j he
            rw [he] at hc
            exact step_good (by decide) h (.iconRelay "B" "A" icon s l 9 (.cons m e none .nil .nil) later j (by decide) (by decide) (by decide)
              rfl hs ⟨trivial, trivial⟩ hl hu he) hc
          · exact h
        · exact h
      · exact h
    · exact h
  | dropB src =>
    simp only [Act.run] at hc ⊢
    split
    · rename_i s hs
      rw [hs] at hc
      dsimp only at hc
      split
      · rename_i l hl
        rw [hl] at hc
        dsimp only at hc
        split
        · rename_i m later hu
          rw [hu] at hc
          dsimp only at hc
          split
          · rename_i hg
            rw [if_pos hg] at hc
            split
            · rename_i s' he
              rw [he] at hc
              exact step_good (by decide) h (.iconDrop "B" "A" icon s l jenv 1 (l.rx + 1) m "" [] later s' (by decide) (by decide) (by decide)
                rfl hs (goes_eq hg.2) hl hu he) hc
            · exact h
          · exact h
        · exact h
      · exact h
    · exact h

theorem acts_good : ∀ (l : List Act) (w : LNet), Good w → (∀ a ∈ l, a.Fine) → (∀ i, i < l.length → check ((l.take (i + 1)).foldl Act.run w) = true) →
    Good (l.foldl Act.run w)
  | [], _, h, _, _ => h
  | a :: t, w, h, hf, hc => acts_good t (a.run w) (act_good w a h (hf a (List.mem_cons_self ..)) (hc 0 (Nat.zero_lt_succ _)))
      (fun b hb => hf b (List.mem_cons_of_mem _ hb)) (fun i hi => hc (i + 1) (Nat.succ_lt_succ hi))

/-- Two calls of a of A, both under way together; the owner of B drops the first, so an error goes back and it is rolled back; the second is
    executed. -/
def history : List Act := [.onB (.conf jenv 1 (.addVerifier "A" 30)), .onB (.conf jenv 1 (.addService X 50)), .onB (.conf jenv 1 (.addBTPLink "A" 1)),
  .onB (.conf jenv 1 (.addRelay "A" 9)), .onB (.conf jenv 1 (.setFees [("A", [1, 1])])), .toA,
  .onA (.send env ['a'] true ("btp://B/b".toList) [7] (some [9]) 10 (some 4)), .onA (.send env ['a'] true ("btp://B/b".toList) [8] (some [9]) 10 (some 4)),
  .dropB "A", .toB jenv, .onB (.exec jenv 1 .nil .ok), .toA, .toA, .onA (.undo 1 .nil .ok)]

def W2 := history.foldl Act.run start

theorem history_fine : ∀ a ∈ history, a.Fine := by
  intro a ha
  simp only [history, List.mem_cons, List.not_mem_nil, or_false] at ha
  rcases ha with rfl | rfl | rfl | rfl | rfl | rfl | rfl | rfl | rfl | rfl | rfl | rfl | rfl | rfl
  · exact plain_fine jenv 1 _ (fun _ _ e => nomatch e)
  · exact reg_fine jenv 1
  · exact plain_fine jenv 1 _ (fun _ _ e => nomatch e)
  · exact plain_fine jenv 1 _ (fun _ _ e => nomatch e)
  · exact plain_fine jenv 1 _ (fun _ _ e => nomatch e)
  · exact trivial
  · exact rfl
  · exact rfl
  · exact trivial
  · exact trivial
  · exact trivial
  · exact trivial
  · exact trivial
  · exact trivial

theorem start_good : Good start := ⟨.init, fun _ _ => rfl, fun _ _ => rfl⟩
theorem W2_good : Good W2 := acts_good history start start_good history_fine (by decide +kernel)

example : (W2.x "A").log =
    [.out ['B'] 1 (.req ⟨['a'], ['b'], 1, true, [7]⟩) 10, .sent 1 ['a'] ['B'] ['b'] [7] (some [9]),
     .out ['B'] 2 (.req ⟨['a'], ['b'], 2, true, [8]⟩) 10, .sent 2 ['a'] ['B'] ['b'] [8] (some [9]), .response 1 (-2), .response 2 0,
     .undo 1 ['a'] (some [9]), .undone 1 0] := by decide +kernel
example : (heard (W2.st "B") "A").map (fun o => o.map fun m => (m.src, m.nsn)) = [none, some ("A", 2)] := by decide +kernel
example : (heard (W2.st "A") "B").map (fun o => o.map fun m => (m.src, m.svc, m.nsn)) = [some ("B", "bmc", 1), some ("B", "xcall", -1), some ("B", "xcall", -2)] := by
  decide +kernel

theorem ad_inj : ∀ a ∈ nets, ∀ b ∈ nets, ad a = ad b → a = b := fun _ _ _ _ h => h
theorem W2_read : ∀ p ∈ nets, ∀ q ∈ nets, p ≠ q → (toLink (ad q) (outs (W2.st p))).length ≤ (heard (W2.st q) (ad p)).length := by decide +kernel
theorem W2_in : ∀ p ∈ nets, ∀ e ∈ outs (W2.st p), ∃ q ∈ nets, q ≠ p ∧ ad q = e.1 := by decide +kernel

-- The theorems apply: both links are read to the end, the first call was not executed with success, the second is answered.
example (id : Nat) (q : XCall.Req) (hr : XCall.Ev.received id "A".toList q ∈ (W2.x "B").log) (hq : q.sn = 1) (c : Int)
    (he : XCall.Ev.executed id c ∈ (W2.x "B").log) : c ≠ 0 :=
  C162_atomic ad chain nets _ (by decide) named slash ad_inj _ W2_good.reach "A" "B" 1 ['a'] (some [9]) (by decide +kernel) id q hr hq c he
example : ("B" ∈ nets ∧ (W2.st "B").owes "A" X 2 ≠ 0 ∧ ∃ id r a, (W2.x "B").proxy id = some r ∧ r.rb = true ∧ r.sn = 2 ∧
      r.src = BtpAddress.solCompose "A".toList a) ∨
      (∃ code, XCall.Ev.response 2 code ∈ (W2.x "A").log) ∨ ∃ a ∈ nets, ∃ m' ∈ (W2.st a).given, ∃ m0 ∈ (W2.st "A").sent, m0.sn = 2 ∧ m0.dst = "B" ∧
        (m'.nsn = -m0.nsn ∨ m'.nsn = m0.nsn) :=
  C162_drained ad chain nets _ (by decide) named slash ad_inj _ W2_good.reach W2_read W2_in "A" (by decide) 2 ['a'] "B" ['b'] [8] (some [9]) (by decide +kernel)
    (by decide +kernel)
example : (heard (W2.st "B") (ad "A")).length ≤ (toLink (ad "B") (outs (W2.st "A"))).length :=
  (C162_in_order ad chain nets _ (by decide) named slash ad_inj _ W2_good.reach "A" "B" (by decide) (by decide) (by decide)).1

end LDemo

end Verif.XMix
