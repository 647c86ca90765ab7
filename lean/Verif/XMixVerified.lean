import Verif.XMixNum
import Verif.EvmToIcon
import Verif.IconToIcon
/-!
The network of XMixLinks with the verifiers of its links, down to the bytes: a relay call brings what the verifier of the link made of some relay message.

* Bridge verifiers (BmvBridge): the relay message lists events; they are events `Message` the other chain's message center emitted, each with
  the address it is for, its number and the bytes of the message (that a relay of the bridge tells the truth is the trust the bridge rests on). The
  verifier has stored some height. That of EVM chains checks the address itself; that of ICON does not (C142_destination_ignored), so its relay
  message must list the events for this chain.
* BTP block verifiers (SolBtpBlock from bytes, JavaBtpBlock): set up from a header of the other chain, then called any number of times with any
  relay messages. The last section they took is one of the chain of blocks of the BTP network of the link, whose blocks carry the messages given to
  the network in order, the proofs are placed (C50) or have positive counts (C49), and the hash shows no collision.
* Both kinds of links may be between the same chains; a link of ICON may be bound to a BTP network later.
* Messages are decoded from the bytes released. On ICON this is the runtime's decoder, a parameter (`dec`).
-/
namespace Verif.XMix
open Verif
open Verif.SolBmc (upd)
open Verif.MixNet
open Verif.JavaBmc
open Verif.EndToEnd (utf8 wMsg decodeMsg decodeAll given seen Fits C135_codec C135_ascii given_fst init_off handleBytes_seq decodeAll_get utf8_inj)
open Verif.EvmToIcon
open Verif.BmvBridge
open Verif.SolRlp
open Verif.SolRelay

/-! ### What verifiers release -/

/-- The message center emitted the event `Message` for `next` with the number and bytes: BMCService.sol (`_sendInternal`, encoded by
    RLPEncodeStruct.sol:18-33) and BTPMessageCenter.java:846-853. -/
def Shown : MixNet.Node → String → Nat → Bytes → Prop
  | .evm s, next, n, b => ∃ m, SolBmc.Event.message next n m ∈ s.log ∧ encodeBTPMessage (EndToEnd.toStruct m) = some b
  | .icon s, next, n, b => ∃ m, Event.message next n m ∈ s.log ∧ b = wMsg m

/-- A BTP block verifier of an EVM chain: set-up, the calls before, the call at hand and what it released; and the blocks of the other chain. -/
structure BlockRun where
  E : SolBtpBlock.Env
  bmc : Bytes
  src : Bytes
  ty : Nat
  off : Nat
  J : Mem
  hb0 : Bytes
  h0 : SolBtpBlock.Header
  C : SolBtpBlock.Cfg
  v : SolBtpBlock.St
  before : List BCall
  call : BCall
  v' : SolBtpBlock.St
  out : List Bytes
  id : Nat
  nid : Int
  pre : List BtpBlock.Block
  bs : List BtpBlock.Block

/-- The relay messages accepted. -/
def BlockRun.accepted (R : BlockRun) : List SolBtpBlock.Msg := (SolBtpBlock.run R.E R.C R.v ((R.before ++ [R.call]).filterMap BCall.read)).2.1

/-- `rx` is the number given with the call, `s` the message center of the other chain, `here` the link it has to this one. -/
structure BlockRun.Ok (R : BlockRun) (s : St) (here : String) (rx : Nat) : Prop where
  hash : ∀ x, (R.E.H x).length = 32
  head : decodeHeader R.J R.hb0 = some R.h0
  setup : initBytes R.E R.bmc R.src R.ty R.off R.J R.hb0 = some (R.C, R.v)
  call : handleBytes R.E R.C (runBytes R.E R.C R.v R.before).1 R.call = some (R.v', R.out)
  sn : R.call.sn = rx
  placed : PlacedBytes R.E R.C R.v (R.before ++ [R.call])
  bound : s.netIds here = some R.id
  offset : s.offsets R.id = some R.off
  small : ∀ b ∈ R.bs, b.msgs.length < 2 ^ 31
  sent : R.bs.flatMap (·.msgs) <+: (given R.id s.log []).map (fun x => wMsg x.2)
  pre : SolBtpBlock.optOf R.h0.prev = BtpBlock.tip R.E.H none (BtpBlock.chain R.E.H R.nid none 0 R.pre)
  preSmall : ∀ x ∈ BtpBlock.chain R.E.H R.nid none 0 R.pre, (BtpBlock.secBytes x).length < 2 ^ 63
  tip : BtpBlock.tip R.E.H none (BtpBlock.chain R.E.H R.nid none 0 R.bs) = some R.v'.secHash
  nonzero : ¬ ∃ x ∈ BtpBlock.secBytes R.h0.sec :: R.accepted.flatMap (SolBtpBlock.hashed R.E.H), R.E.H x = SolBtpBlock.zero32
  nocoll : ¬ Mbt.Collision R.E.H ((BtpBlock.chain R.E.H R.nid none 0 R.pre).map BtpBlock.secBytes ++
      BtpBlock.secBytes R.h0.sec :: R.accepted.flatMap (SolBtpBlock.hashed R.E.H)) (SolBtpBlock.honestHashed R.E.H R.nid R.bs)

/-- A BTP block verifier of ICON. -/
structure JBlockRun where
  E : JavaBtpBlock.Env
  len : Nat
  src : Bytes
  bmc : Bytes
  ty : Int
  h0 : JavaBtpBlock.Header
  v : JavaBtpBlock.St
  before : List JavaBtpBlock.Call
  call : JavaBtpBlock.Call
  v' : JavaBtpBlock.St
  out : List Bytes
  id : Nat
  nid : Int
  bs : List BtpBlock.Block

def JBlockRun.accepted (R : JBlockRun) : List JavaBtpBlock.Msg := (JavaBtpBlock.run R.E R.v (R.before ++ [R.call])).2.1

structure JBlockRun.Ok (R : JBlockRun) (s : St) (here : String) (rx : Nat) : Prop where
  hash : ∀ x, (R.E.H x).length = R.len
  setup : JavaBtpBlock.init R.E R.src R.ty R.bmc 0 R.h0 = some R.v
  first : R.h0.sn = 0
  call : JavaBtpBlock.handleRelay R.E (JavaBtpBlock.run R.E R.v R.before).1 R.call = .ok (R.v', R.out)
  sn : R.call.seq = rx
  fine : ∀ p, JavaBtpBlock.Msg.proof p ∈ R.accepted → JavaBtpBlock.Fine R.E.H p
  secs : ∀ h sigs, (h = R.h0 ∨ JavaBtpBlock.Msg.upd h sigs ∈ R.accepted) → (BtpBlock.secBytes h.sec).length < 2 ^ 63
  bound : s.netIds here = some R.id
  offset : s.offsets R.id = some 0
  small : ∀ b ∈ R.bs, b.msgs.length < 2 ^ 31
  sent : R.bs.flatMap (·.msgs) <+: (given R.id s.log []).map (fun x => wMsg x.2)
  tip : BtpBlock.tip R.E.H none (BtpBlock.chain R.E.H R.nid none 0 R.bs) = some R.v'.lastHash
  nocoll : ¬ Mbt.Collision R.E.H (BtpBlock.secBytes R.h0.sec :: R.accepted.flatMap (JavaBtpBlock.hashed R.E.H)) (JavaBtpBlock.honestHashed R.E.H R.nid R.bs)

/-- What the verifier of an EVM chain `here` for the chain with the message center `b` gives for the number `rx`, decoded (BMCService.sol:149-153). -/
inductive EvmReads (b : MixNet.Node) (here : String) (rx : Nat) (ms : List SolBmc.Msg) : Prop where
  | bridge (height : Nat) (rps : List (Rp Nat)) (h' : Nat) (bs : List Bytes) (junk : Nat → Bytes) :
      (∀ rp ∈ rps, ∀ ev ∈ rp.events, ∃ next, ev.next = utf8 next ∧ Shown b next ev.seq ev.msg) →
      sHandle true (utf8 here) height rx rps = some (h', bs) → decodeAll junk 0 bs = some ms → EvmReads b here rx ms
  | block (s : St) (R : BlockRun) (junk : Nat → Bytes) : b = .icon s → R.Ok s here rx → decodeAll junk 0 R.out = some ms → EvmReads b here rx ms

/-- What the verifier of an ICON chain `here` for the chain with the message center `b` gives for the number `rx`, decoded
    (BTPMessageCenter.java:512-528). -/
inductive IconReads (dec : Bytes → Option Msg) (b : MixNet.Node) (here : String) (rx : Nat) (ms : List Msg) : Prop where
  | bridge : Bridged dec (fun ev => ∃ n : Nat, ev.seq = n ∧ Shown b here n ev.msg) rx ms → IconReads dec b here rx ms
  | block (s : St) (R : JBlockRun) : b = .icon s → R.Ok s here rx → IconToIcon.readAll dec R.out = some ms → IconReads dec b here rx ms

/-! ### The network -/

/-- A message that reads the same on the other chains: ASCII texts, numbers the EVM can hold, and on EVM chains no length or number Solidity's
    encoder writes wrongly. -/
structure Neat (dec : Bytes → Option Msg) (k : Chain) (m : Msg) : Prop where
  texts : ∀ t ∈ [m.src, m.dst, m.svc, (m.fee.getD ⟨"", []⟩).network], ∀ c ∈ t.toList, c.toNat < 128
  fits : Fits m
  dec : dec (wMsg m) = some m
  plain : ∀ v, k = .evm v → Plain (EndToEnd.toStruct (tr m))

/-- One call on one of the chains; the messages of a relay call are what the verifier released. -/
inductive VStep (dec : Bytes → Option Msg) (addr : String → String) (nd : String → Chain) (nets : List String) (L : LNet) : LNet → Prop where
  | evmCall (n : String) (v : XNet.Node) (s : SolBmc.St) (o : XNet.JOp) (j : XNet.J) : n ∈ nets → nd n = .evm v → L.st n = .evm s →
      XNet.Fine v o → XNet.jexec v o ⟨s, L.x n⟩ = some j → VStep dec addr nd nets L (L.next n (.evm j.b) j.x)
  | evmRelay (n p : String) (v : XNet.Node) (s : SolBmc.St) (env : SolBmc.Env) (caller : Nat) (items : XNet.JItems) (j : XNet.J) :
      n ∈ nets → p ∈ nets → p ≠ n → nd n = .evm v → L.st n = .evm s → XNet.FineItems v items →
      EvmReads (L.st p) (addr n) (s.rx (addr p)) items.msgs → XNet.jrelay v env caller (addr p) items ⟨s, L.x n⟩ = some j →
      VStep dec addr nd nets L (L.next n (.evm j.b) j.x)
  | evmDrop (n p : String) (v : XNet.Node) (s : SolBmc.St) (env : SolBmc.Env) (seq : Nat) (m : Msg) (s' : SolBmc.St) :
      n ∈ nets → p ∈ nets → p ≠ n → nd n = .evm v → L.st n = .evm s → env.resolve m.src = some (addr p) →
      (s.rx (addr p) + 1, m) ∈ numbered (addr n) (L.st p) →
      SolBmc.exec v.bmc (.drop env m.src seq m.svc m.sn m.nsn (tr m).fee) s = some s' → VStep dec addr nd nets L (L.next n (.evm s') (L.x n))
  | iconCall (n : String) (v : INode) (s : St) (o : IOp) (j : IJ) : n ∈ nets → nd n = .icon v → L.st n = .icon s →
      IFine v o → iexec v o ⟨s, L.x n⟩ = some j → VStep dec addr nd nets L (L.next n (.icon j.b) j.x)
  | iconRelay (n p : String) (v : INode) (s : St) (l : Link) (caller : Nat) (items : IItems) (j : IJ) :
      n ∈ nets → p ∈ nets → p ≠ n → nd n = .icon v → L.st n = .icon s → IFineItems v items → getLinkA v.c s (addr p) = some l →
      IconReads dec (L.st p) (addr n) l.rx items.msgs → irelay v caller (addr p) items ⟨s, L.x n⟩ = some j →
      VStep dec addr nd nets L (L.next n (.icon j.b) j.x)
  | iconDrop (n p : String) (v : INode) (s : St) (l : Link) (env : Env) (caller seq : Nat) (m : Msg) (fn : String) (fv : List Nat) (s' : St) :
      n ∈ nets → p ∈ nets → p ≠ n → nd n = .icon v → L.st n = .icon s → resolve v.c s m.src = .ok (addr p) →
      getLinkA v.c s (addr p) = some l → (l.rx + 1, m) ∈ numbered (addr n) (L.st p) →
      JavaBmc.exec v.c (.drop env caller m.src seq m.svc m.sn m.nsn fn fv) s = some s' → VStep dec addr nd nets L (L.next n (.icon s') (L.x n))

/-- The states reached. No link of ICON is added twice, and the messages are neat. -/
inductive VReach (dec : Bytes → Option Msg) (addr : String → String) (nd : String → Chain) (nets : List String) (bal : String → Nat) : LNet → Prop where
  | init : VReach dec addr nd nets bal ⟨fun n => (nd n).kind.init, fun n => XCall.init (bal n)⟩
  | step {L L' : LNet} : VReach dec addr nd nets bal L → VStep dec addr nd nets L L' → Sane nd (L'.net []) →
      (∀ n s, L'.st n = .icon s → s.names.Nodup) → (∀ n ∈ nets, ∀ e ∈ outs (L'.st n), Neat dec (nd n) e.2) → VReach dec addr nd nets bal L'

/-! ### What is released is what was emitted -/

theorem seen_tr {m : Msg} (h : ∀ t ∈ [m.src, m.dst, m.svc, (m.fee.getD ⟨"", []⟩).network], ∀ c ∈ t.toList, c.toNat < 128) : seen m = tr m := by
  simp only [List.mem_cons, List.not_mem_nil, or_false, forall_eq_or_imp, forall_eq] at h
  obtain ⟨h1, h2, h3, h4⟩ := h
  unfold seen tr
  rw [C135_ascii _ h1, C135_ascii _ h2, C135_ascii _ h3]
  cases hf : m.fee with
  | none => rfl
  | some f => rw [hf] at h4; dsimp only [Option.getD_some] at h4 ⊢; rw [C135_ascii _ h4]

theorem numbered_out {a : String} {b : MixNet.Node} {n : Nat} {m : Msg} (h : (n, m) ∈ numbered a b) : (a, m) ∈ outs b := by
  have h1 : m ∈ toLink a (outs b) := by rw [← numbered_msgs]; exact List.mem_map.2 ⟨_, h, rfl⟩
  unfold toLink at h1
  rw [List.mem_filterMap] at h1
  obtain ⟨e, he, h2⟩ := h1
  split at h2
  · rename_i ha
    cases h2
    rw [← ha]; exact he
  · exact nomatch h2

theorem mem_numberedE {a : String} {n : Nat} {m : SolBmc.Msg} : ∀ {l : List SolBmc.Event}, SolBmc.Event.message a n m ∈ l → (n, m) ∈ SolBmc.numbered a l
  | l, h => by
    unfold SolBmc.numbered
    exact List.mem_filterMap.2 ⟨_, h, by simp⟩

theorem shown_numbered {dec : Bytes → Option Msg} {k : Chain} {c : MixNet.Node} (hl : InLine k c) (hn : ∀ e ∈ outs c, Neat dec k e.2) {next : String} {n : Nat} {b : Bytes}
    (h : Shown c next n b) : ∃ m, (n, m) ∈ numbered next c ∧ b = wMsg m := by
  match k, c, hl with
  | .evm v, .evm s, _ =>
    obtain ⟨m, h1, h2⟩ := h
    have hm : (n, emb m) ∈ numbered next (.evm s) := List.mem_map.2 ⟨(n, m), mem_numberedE h1, rfl⟩
    refine ⟨emb m, hm, ?_⟩
    have hne := hn _ (numbered_out hm)
    have hs : Same m (emb m) := ⟨(seen_tr hne.texts).symm, rfl⟩
    have := C142_codec_partial m (emb m) hs (hne.plain v rfl)
    rw [this] at h2
    exact (Option.some.inj h2).symm
  | .icon v, .icon s, _ =>
    obtain ⟨m, h1, h2⟩ := h
    exact ⟨m, List.mem_flatMap.2 ⟨_, h1, by simp [numJ]⟩, h2⟩

/-- What was given to the BTP network of a link, with the numbers of the link. -/
theorem given_numbered {c : Cfg} {s : St} (hk : Kept c s) {here : String} {id o : Nat} (hid : s.netIds here = some id) (ho : s.offsets id = some o) {k : Nat} {n : Nat} {m : Msg}
    (h : (given id s.log [])[k]? = some (n, m)) : n = o + k + 1 ∧ (n, m) ∈ numbered here (.icon s) := by
  refine ⟨?_, List.mem_flatMap.2 ⟨_, hk.bound here id hid _ (List.mem_of_getElem? h), by simp [numJ]⟩⟩
  obtain ⟨o', h1, _, h3⟩ := hk.num.bound here id hid
  rw [ho] at h1
  cases h1
  have := given_fst id s.log []
  simp only [List.map_nil] at this
  rw [h3] at this
  have h4 : ((given id s.log []).map Prod.fst)[k]? = some n := by rw [List.getElem?_map, h]; rfl
  rw [this] at h4
  have h5 := (List.getElem?_eq_some_iff.mp h4).1
  rw [List.getElem?_range' (by simpa using h5)] at h4
  simp only [Option.some.injEq] at h4
  omega

theorem prefix_get {α : Type} {done : List (List α)} {last : List α} {k i : Nat} {x : α} (h : (done.flatten ++ last.take k)[i]? = some x) :
    (done.flatten ++ last)[i]? = some x := by
  rw [List.getElem?_append] at h ⊢
  split
  · rename_i hlt; rw [if_pos hlt] at h; exact h
  · rename_i hlt
    rw [if_neg hlt, List.getElem?_take] at h
    split at h
    · exact h
    · cases h

theorem runBytes_snoc (E : SolBtpBlock.Env) (C : SolBtpBlock.Cfg) (c : BCall) : ∀ (cs : List BCall) (s : SolBtpBlock.St),
    runBytes E C s (cs ++ [c]) = match handleBytes E C (runBytes E C s cs).1 c with
      | none => runBytes E C s cs
      | some x => (x.1, (runBytes E C s cs).2 ++ x.2)
  | [], s => by
    simp only [List.nil_append, runBytes]
    cases handleBytes E C s c with
    | none => rfl
    | some x => simp
  | d :: t, s => by
    simp only [List.cons_append, runBytes]
    cases handleBytes E C s d with
    | none => exact runBytes_snoc E C c t s
    | some x =>
      dsimp only
      rw [runBytes_snoc E C c t x.1]
      cases handleBytes E C (runBytes E C x.1 t).1 c with
      | none => rfl
      | some y => simp

theorem runBytes_next (E : SolBtpBlock.Env) (C : SolBtpBlock.Cfg) : ∀ (cs : List BCall) (s : SolBtpBlock.St),
    (runBytes E C s cs).1.next = s.next + (runBytes E C s cs).2.length
  | [], s => rfl
  | d :: t, s => by
    simp only [runBytes]
    cases h : handleBytes E C s d with
    | none => exact runBytes_next E C t s
    | some x =>
      have h1 := (handleBytes_seq (s' := x.1) (out := x.2) h).2.1
      have h2 := runBytes_next E C t x.1
      dsimp only
      rw [List.length_append]
      omega

theorem blockRun_out {c : Cfg} {s : St} (hk : Kept c s) {here : String} {rx : Nat} {R : BlockRun} (h : R.Ok s here rx) (i : Nat) (b : Bytes) (hb : R.out[i]? = some b) :
    ∃ m, (rx + 1 + i, m) ∈ numbered here (.icon s) ∧ b = wMsg m := by
  have hrun : runBytes R.E R.C R.v (R.before ++ [R.call]) = (R.v', (runBytes R.E R.C R.v R.before).2 ++ R.out) := by
    rw [runBytes_snoc, h.call]
  have htip := h.tip
  rw [show R.v' = (runBytes R.E R.C R.v (R.before ++ [R.call])).1 by rw [hrun]] at htip
  rcases C133_in_order_partial R.E h.hash R.bmc R.src R.ty R.off R.J R.hb0 R.h0 h.head R.C R.v h.setup _ h.placed R.nid R.pre R.bs h.small h.pre h.preSmall htip with g | g | g
  · exact absurd g h.nonzero
  · exact absurd g h.nocoll
  obtain ⟨pre', done, last, k, e1, _, e3, e4⟩ := g
  rw [hrun] at e4
  dsimp only at e4
  have h1 : (done.flatMap (·.msgs) ++ last.msgs.take k)[(runBytes R.E R.C R.v R.before).2.length + i]? = some b := by
    rw [← e4, List.getElem?_append_right (by omega), Nat.add_sub_cancel_left]
    exact hb
  have h2 : (R.bs.flatMap (·.msgs))[R.v.next + ((runBytes R.E R.C R.v R.before).2.length + i)]? = some b := by
    rw [e1, List.flatMap_append, List.flatMap_append, List.append_assoc, List.getElem?_append_right (by omega), e3, Nat.add_sub_cancel_left]
    simp only [List.flatMap_cons, List.flatMap_nil, List.append_nil]
    exact prefix_get (done := done.map (·.msgs)) h1
  obtain ⟨rest, hrest⟩ := h.sent
  have h3 : ((given R.id s.log []).map (fun x => wMsg x.2))[R.v.next + ((runBytes R.E R.C R.v R.before).2.length + i)]? = some b := by
    rw [← hrest, List.getElem?_append_left (List.getElem?_eq_some_iff.mp h2).1, h2]
  rw [List.getElem?_map, Option.map_eq_some_iff] at h3
  obtain ⟨⟨n, m⟩, h4, h5⟩ := h3
  obtain ⟨h6, h7⟩ := given_numbered hk h.bound h.offset h4
  have h8 := (handleBytes_seq h.call).1
  rw [runBytes_next, h.sn, init_off h.setup] at h8
  refine ⟨m, ?_, h5.symm⟩
  rw [show rx + 1 + i = n by omega]
  exact h7

theorem jrun_snoc (E : JavaBtpBlock.Env) (c : JavaBtpBlock.Call) {s' : JavaBtpBlock.St} {out : List Bytes} : ∀ (cs : List JavaBtpBlock.Call) (s : JavaBtpBlock.St),
    JavaBtpBlock.handleRelay E (JavaBtpBlock.run E s cs).1 c = .ok (s', out) →
    (JavaBtpBlock.run E s (cs ++ [c])).1 = s' ∧ (JavaBtpBlock.run E s (cs ++ [c])).2.2 = (JavaBtpBlock.run E s cs).2.2 ++ out
  | [], s => by
    intro h
    simp only [JavaBtpBlock.run] at h
    simp only [List.nil_append, JavaBtpBlock.run, h]
    exact ⟨trivial, by simp⟩
  | d :: t, s => by
    intro h
    simp only [List.cons_append, JavaBtpBlock.run] at h ⊢
    cases e : JavaBtpBlock.handleRelay E s d with
    | error x => rw [e] at h; exact jrun_snoc E c t s h
    | ok x =>
      rw [e] at h
      obtain ⟨h1, h2⟩ := jrun_snoc E c t x.1 h
      exact ⟨h1, by dsimp only; rw [h2, List.append_assoc]⟩

theorem jblockRun_out {c : Cfg} {s : St} (hk : Kept c s) {here : String} {rx : Nat} {R : JBlockRun} (h : R.Ok s here rx) (i : Nat) (b : Bytes) (hb : R.out[i]? = some b) :
    ∃ m, (rx + 1 + i, m) ∈ numbered here (.icon s) ∧ b = wMsg m := by
  obtain ⟨hr1, hr2⟩ := jrun_snoc R.E R.call R.before R.v h.call
  have htip := h.tip
  rw [← hr1] at htip
  rcases JavaBtpBlock.C49_java_in_order_partial R.E R.len h.hash R.src R.bmc R.ty R.h0 R.v h.setup h.first _ h.fine h.secs R.nid R.bs h.small htip with g | ⟨done, last, k, e1, e2⟩
  · exact absurd g h.nocoll
  rw [hr2] at e2
  have h1 : (done.flatMap (·.msgs) ++ last.msgs.take k)[(JavaBtpBlock.run R.E R.v R.before).2.2.length + i]? = some b := by
    rw [← e2, List.getElem?_append_right (by omega), Nat.add_sub_cancel_left]
    exact hb
  have h2 : (R.bs.flatMap (·.msgs))[(JavaBtpBlock.run R.E R.v R.before).2.2.length + i]? = some b := by
    rw [e1, List.flatMap_append]
    simp only [List.flatMap_cons, List.flatMap_nil, List.append_nil]
    exact prefix_get (done := done.map (·.msgs)) h1
  obtain ⟨rest, hrest⟩ := h.sent
  have h3 : ((given R.id s.log []).map (fun x => wMsg x.2))[(JavaBtpBlock.run R.E R.v R.before).2.2.length + i]? = some b := by
    rw [← hrest, List.getElem?_append_left (List.getElem?_eq_some_iff.mp h2).1, h2]
  rw [List.getElem?_map, Option.map_eq_some_iff] at h3
  obtain ⟨⟨n, m⟩, h4, h5⟩ := h3
  obtain ⟨h6, h7⟩ := given_numbered hk h.bound h.offset h4
  have hv : R.v.off = 0 ∧ R.v.lastSeq = 0 := by
    have hi := h.setup
    unfold JavaBtpBlock.init at hi
    split at hi
    · cases hi
    · split at hi
      · cases hi
      · split at hi
        · cases hi
        · rw [← Option.some.inj hi]; exact ⟨rfl, rfl⟩
  have h8 := ((JavaBtpBlock.C49_java_sequence R.E R.v R.before).2.2.2 _ _ _ h.call).1
  rw [h.sn, hv.1, hv.2] at h8
  refine ⟨m, ?_, h5.symm⟩
  rw [show rx + 1 + i = n by omega]
  exact h7

/-- What the verifier of an EVM chain gives is what the other chain emitted for it, by number. -/
theorem evm_reads {dec : Bytes → Option Msg} {k : Chain} {b : MixNet.Node} (hl : InLine k b) (hn : ∀ e ∈ outs b, Neat dec k e.2) {here : String} {rx : Nat} {ms : List SolBmc.Msg}
    (h : EvmReads b here rx ms) (i : Nat) (m : SolBmc.Msg) (hi : ms[i]? = some m) : ∃ x, (rx + 1 + i, x) ∈ numbered here b ∧ m = tr x := by
  have fin : ∀ (y : Bytes) (j : Bytes) (x : Msg), (rx + 1 + i, x) ∈ numbered here b → y = wMsg x → decodeMsg y j = some m → m = tr x := by
    intro y j x hx hy hd
    have hne := hn _ (numbered_out hx)
    rw [hy, C135_codec x hne.fits j, seen_tr hne.texts] at hd
    exact (Option.some.inj hd).symm
  cases h with
  | bridge height rps h' bs junk hev hs hd =>
    obtain ⟨-, -, -, evs, h1, h2, h3⟩ := C40_sound true _ height rx rps h' bs hs
    obtain ⟨y, hy, j, hdec⟩ := (decodeAll_get hd).2 i m hi
    rw [h2, List.getElem?_map, Option.map_eq_some_iff] at hy
    obtain ⟨ev, hev1, rfl⟩ := hy
    obtain ⟨g1, g2⟩ := h3 i ev hev1
    have hmem := h1.subset (List.mem_of_getElem? hev1)
    rw [List.mem_flatMap] at hmem
    obtain ⟨rp, hrp, hev2⟩ := hmem
    obtain ⟨next, e1, e2⟩ := hev rp (List.mem_filter.1 hrp).1 ev hev2
    rw [g2] at e1
    rw [← utf8_inj e1, g1] at e2
    obtain ⟨x, hx, hb⟩ := shown_numbered hl hn e2
    exact ⟨x, hx, fin _ _ x hx hb hdec⟩
  | block s R junk hb hR hd =>
    subst hb
    match k, hl with
    | .icon v, hl =>
      obtain ⟨y, hy, j, hdec⟩ := (decodeAll_get hd).2 i m hi
      obtain ⟨x, hx, hb⟩ := blockRun_out hl hR i y hy
      exact ⟨x, hx, fin _ _ x hx hb hdec⟩

/-- Likewise on ICON. -/
theorem icon_reads {dec : Bytes → Option Msg} {k : Chain} {b : MixNet.Node} (hl : InLine k b) (hn : ∀ e ∈ outs b, Neat dec k e.2) {here : String} {rx : Nat} {ms : List Msg}
    (h : IconReads dec b here rx ms) (i : Nat) (m : Msg) (hi : ms[i]? = some m) : (rx + 1 + i, m) ∈ numbered here b := by
  have fin : ∀ (y : Bytes) (x : Msg), (rx + 1 + i, x) ∈ numbered here b → y = wMsg x → dec y = some m → (rx + 1 + i, m) ∈ numbered here b := by
    intro y x hx hy hd
    rw [hy, (hn _ (numbered_out hx)).dec] at hd
    rw [← Option.some.inj hd]; exact hx
  cases h with
  | bridge hb =>
    rcases C142_one_at_a_time dec _ rx ms hb with rfl | ⟨ev, m', rfl, ⟨n, hn1, hs⟩, hseq, hdec⟩
    · exact nomatch hi
    · cases i with
      | succ k => exact nomatch hi
      | zero =>
        obtain rfl : m' = m := by simpa using hi
        obtain ⟨x, hx, hb⟩ := shown_numbered hl hn hs
        have : n = rx + 1 + 0 := by omega
        subst this
        exact fin _ x hx hb hdec
  | block s R hb hR hd =>
    subst hb
    match k, hl with
    | .icon v, hl =>
      obtain ⟨y, hy, hdec⟩ := (IconToIcon.readAll_get hd).2 i m hi
      obtain ⟨x, hx, hb⟩ := jblockRun_out hl hR i y hy
      exact fin _ x hx hb hdec

theorem take_next {α β : Type} (f : α → β) (l : List α) (rx : Nat) (ms : List β) (h : ∀ i m, ms[i]? = some m → ∃ x, l[rx + i]? = some x ∧ m = f x) :
    ∃ D later, ms = D.map f ∧ l.drop rx = D ++ later := by
  refine ⟨(l.drop rx).take ms.length, (l.drop rx).drop ms.length, ?_, (List.take_append_drop _ _).symm⟩
  apply List.ext_getElem?
  intro i
  rw [List.getElem?_map, List.getElem?_take]
  by_cases hi : i < ms.length
  · rw [if_pos hi, List.getElem?_drop]
    obtain ⟨x, h1, h2⟩ := h i ms[i] (List.getElem?_eq_getElem hi)
    rw [h1, List.getElem?_eq_getElem hi, h2]; rfl
  · rw [if_neg hi, List.getElem?_eq_none (by omega)]; rfl

section
variable {dec : Bytes → Option Msg} {addr : String → String} {nd : String → Chain} {nets : List String} {bal : String → Nat}

theorem vreach_neat {L : LNet} (h : VReach dec addr nd nets bal L) : ∀ n ∈ nets, ∀ e ∈ outs (L.st n), Neat dec (nd n) e.2 := by
  cases h with
  | init =>
    intro n _ e he
    have : outs ((nd n).kind.init) = [] := by cases nd n <;> rfl
    rw [show outs _ = _ from this] at he
    exact nomatch he
  | step _ _ _ _ h => exact h

theorem drop_next {l : List Msg} {k : Nat} {m : Msg} (h : l[k]? = some m) : ∃ later, l.drop k = m :: later := by
  obtain ⟨h1, h2⟩ := List.getElem?_eq_some_iff.1 h
  exact ⟨l.drop (k + 1), by rw [← h2]; exact (List.drop_eq_getElem_cons h1)⟩

theorem VStep.lstep (hnd : nets.Nodup) (hname : ∀ n ∈ nets, (nd n).kind.net = n) (hsl : ∀ n ∈ nets, '/' ∉ n.toList)
    (hinj : ∀ a ∈ nets, ∀ b ∈ nets, addr a = addr b → a = b) {L L' : LNet} (hr : LReach addr nd nets bal L)
    (hneat : ∀ n ∈ nets, ∀ e ∈ outs (L.st n), Neat dec (nd n) e.2) (h : VStep dec addr nd nets L L') : LStep addr nd nets L L' := by
  have hline := lreach_line hnd hname hsl hinj hr
  have get : ∀ p a k m, (k + 1, m) ∈ numbered a (L.st p) → (toLink a (outs (L.st p)))[k]? = some m := fun p a k m => line_get hnd hname hsl hinj hr p a k m
  cases h with
  | evmCall n v s o j h1 h2 h3 h4 h5 => exact .evmCall n v s o j h1 h2 h3 h4 h5
  | evmRelay n p v s env caller items j hn hp hne hv hs hf hrd he =>
    obtain ⟨D, later, h1, h2⟩ := take_next tr (toLink (addr n) (outs (L.st p))) (s.rx (addr p)) items.msgs (fun i m hi => by
      obtain ⟨x, hx, e⟩ := evm_reads (hline p) (hneat p hp) hrd i m hi
      exact ⟨x, get p (addr n) _ x (by rw [show s.rx (addr p) + i + 1 = s.rx (addr p) + 1 + i by omega]; exact hx), e⟩)
    exact .evmRelay n p v s env caller items D later j hn hp hne hv hs hf h1 h2 he
  | evmDrop n p v s env seq m s' hn hp hne hv hs hres hm he =>
    obtain ⟨later, h1⟩ := drop_next (get p (addr n) _ m hm)
    exact .evmDrop n p v s env seq m later s' hn hp hne hv hs hres h1 he
  | iconCall n v s o j h1 h2 h3 h4 h5 => exact .iconCall n v s o j h1 h2 h3 h4 h5
  | iconRelay n p v s l caller items j hn hp hne hv hs hf hl hrd he =>
    obtain ⟨D, later, h1, h2⟩ := take_next id (toLink (addr n) (outs (L.st p))) l.rx items.msgs (fun i m hi =>
      ⟨m, get p (addr n) _ m (by rw [show l.rx + i + 1 = l.rx + 1 + i by omega]; exact icon_reads (hline p) (hneat p hp) hrd i m hi), rfl⟩)
    rw [List.map_id] at h1
    exact .iconRelay n p v s l caller items later j hn hp hne hv hs hf hl (by rw [h1]; exact h2) he
  | iconDrop n p v s l env caller seq m fn fv s' hn hp hne hv hs hres hl hm he =>
    obtain ⟨later, h1⟩ := drop_next (get p (addr n) _ m hm)
    exact .iconDrop n p v s l env caller seq m fn fv later s' hn hp hne hv hs hres hl h1 he

theorem vreach_lreach (hnd : nets.Nodup) (hname : ∀ n ∈ nets, (nd n).kind.net = n) (hsl : ∀ n ∈ nets, '/' ∉ n.toList)
    (hinj : ∀ a ∈ nets, ∀ b ∈ nets, addr a = addr b → a = b) {L : LNet} (h : VReach dec addr nd nets bal L) : LReach addr nd nets bal L := by
  induction h with
  | init => exact .init
  | step hr hs hsane hnames _ ih => exact .step ih (hs.lstep hnd hname hsl hinj ih (vreach_neat hr)) hsane hnames

end

end Verif.XMix
