import Verif.XMixVerified
import Verif.XMixLinksProps
/-!
C164: calls between contracts over a network of EVM chains and of ICON whose relay calls go through the verifiers of the links, down to the bytes.

* `VReach dec addr nd nets bal L`: the state `L` is reached with relay calls that bring what bridge or BTP block verifiers released
  (`EvmReads`, `IconReads`); `dec` is the decoder of messages of ICON's runtime.
-/
namespace Verif.XMix
open Verif
open Verif.SolBmc (upd)
open Verif.SolNet (upd_same' upd_other')
open Verif.MixNet
open Verif.JavaBmc
open Verif.EndToEnd (utf8 wMsg decodeMsg decodeAll given seen Fits C135_codec C135_ascii)
open Verif.EvmToIcon
open Verif.BmvBridge
open Verif.SolRlp
open Verif.SolRelay
open Verif.XNet (X)

section
variable (dec : Bytes → Option Msg) (addr : String → String) (nd : String → Chain) (nets : List String) (bal : String → Nat) (hnd : nets.Nodup)
  (hname : ∀ n ∈ nets, (nd n).kind.net = n) (hsl : ∀ n ∈ nets, '/' ∉ n.toList) (hinj : ∀ a ∈ nets, ∀ b ∈ nets, addr a = addr b → a = b)
include hnd hname hsl hinj

/-- C164: what the verifier on `n` for the link to `p` releases is, decoded, the messages `p` emitted for `n` that follow the number given, in the order
    emitted, none left out. -/
theorem C164_released (L : LNet) (h : VReach dec addr nd nets bal L) (p n : String) (hp : p ∈ nets) (rx : Nat) :
    (∀ ms, EvmReads (L.st p) (addr n) rx ms → ∃ D later, ms = D.map tr ∧ (toLink (addr n) (outs (L.st p))).drop rx = D ++ later) ∧
    (∀ ms, IconReads dec (L.st p) (addr n) rx ms → ∃ later, (toLink (addr n) (outs (L.st p))).drop rx = ms ++ later) := by
  have hr := vreach_lreach hnd hname hsl hinj h
  have hline := lreach_line hnd hname hsl hinj hr
  have hneat := vreach_neat h p hp
  refine ⟨fun ms hm => ?_, fun ms hm => ?_⟩
  · exact take_next tr _ rx ms (fun i m hi => by
      obtain ⟨x, hx, e⟩ := evm_reads (hline p) hneat hm i m hi
      exact ⟨x, line_get hnd hname hsl hinj hr p (addr n) _ x (by rw [show rx + i + 1 = rx + 1 + i by omega]; exact hx), e⟩)
  · obtain ⟨D, later, h1, h2⟩ := take_next id (toLink (addr n) (outs (L.st p))) rx ms (fun i m hi =>
      ⟨m, line_get hnd hname hsl hinj hr p (addr n) _ m (by rw [show rx + i + 1 = rx + 1 + i by omega]; exact icon_reads (hline p) hneat hm i m hi), rfl⟩)
    rw [List.map_id] at h1
    exact ⟨later, by rw [h1]; exact h2⟩

/-- C164: the network with verifiers is a network of C162: all that holds there holds here. -/
theorem C164_network (L : LNet) (h : VReach dec addr nd nets bal L) : LReach addr nd nets bal L := vreach_lreach hnd hname hsl hinj h

/-- C164: the messages of a link are numbered 1, 2, 3, … in the order emitted. -/
theorem C164_numbers (L : LNet) (h : VReach dec addr nd nets bal L) (p a : String) : ∃ k, (numbered a (L.st p)).map (·.1) = List.range' 1 k :=
  (lreach_line hnd hname hsl hinj (vreach_lreach hnd hname hsl hinj h) p).numbers (lreach_names (vreach_lreach hnd hname hsl hinj h) p) a

/-- C164: of what `p` emits for `q`, `q` handles the messages in the order emitted, each once, none left out but those its owner dropped. -/
theorem C164_in_order (L : LNet) (h : VReach dec addr nd nets bal L) (p q : String) (hp : p ∈ nets) (hq : q ∈ nets) (hpq : p ≠ q) :
    (heard (L.st q) (addr p)).length ≤ (toLink (addr q) (outs (L.st p))).length ∧
      ∀ i, i < (heard (L.st q) (addr p)).length → (heard (L.st q) (addr p))[i]? = some none ∨
        ∃ m, (heard (L.st q) (addr p))[i]? = some (some (tr m)) ∧ (toLink (addr q) (outs (L.st p)))[i]? = some m :=
  C162_in_order addr nd nets bal hnd hname hsl hinj L (vreach_lreach hnd hname hsl hinj h) p q hp hq hpq

/-- C164: if the rollback of a call is run, the call was not executed with success anywhere. -/
theorem C164_atomic (L : LNet) (h : VReach dec addr nd nets bal L) (a b : String) (sn : Int) (dst : BtpAddress.Str) (data : Option Bytes)
    (hu : XCall.Ev.undo sn dst data ∈ (L.x a).log) (id : Nat) (q : XCall.Req) (hr : XCall.Ev.received id a.toList q ∈ (L.x b).log) (hq : q.sn = sn)
    (c : Int) (he : XCall.Ev.executed id c ∈ (L.x b).log) : c ≠ 0 :=
  C162_atomic addr nd nets bal hnd hname hsl hinj L (vreach_lreach hnd hname hsl hinj h) a b sn dst data hu id q hr hq c he

/-- C164: a success reported to a call is the success of its execution, on the chain and contract called, with the data sent. -/
theorem C164_success (L : LNet) (h : VReach dec addr nd nets bal L) (a : String) (sn : Int) (hc : XCall.Ev.response sn 0 ∈ (L.x a).log) :
    ∃ (k : Nat) (caller : BtpAddress.Str) (b : String) (acct : BtpAddress.Str) (data : Bytes) (rb : Option Bytes) (id : Nat) (q : XCall.Req), sn = k ∧
      XCall.Ev.sent k caller b.toList acct data rb ∈ (L.x a).log ∧ XCall.Ev.received id a.toList q ∈ (L.x b).log ∧ q.sn = sn ∧
      q.src = caller ∧ q.dst = acct ∧ q.data = data ∧ XCall.Ev.executed id 0 ∈ (L.x b).log :=
  C162_success addr nd nets bal hnd hname hsl hinj L (vreach_lreach hnd hname hsl hinj h) a sn hc

/-- C164: what a service runs was sent to it, by the contract the target is told, to the target, with the data. -/
theorem C164_integrity (L : LNet) (h : VReach dec addr nd nets bal L) (b : String) (id : Int) (r : XCall.Req) (hc : XCall.Ev.call id r ∈ (L.x b).log) :
    ∃ (a : String) (k : Nat) (caller : BtpAddress.Str) (rb : Option Bytes), r.src = BtpAddress.solCompose a.toList caller ∧ r.sn = k ∧
      XCall.Ev.sent k caller b.toList r.dst r.data rb ∈ (L.x a).log :=
  C162_integrity addr nd nets bal hnd hname hsl hinj L (vreach_lreach hnd hname hsl hinj h) b id r hc

/-- C164: no call is received twice, on any chains. -/
theorem C164_once (L : LNet) (h : VReach dec addr nd nets bal L) (a b b' : String) (id id' : Nat) (q q' : XCall.Req)
    (h1 : XCall.Ev.received id a.toList q ∈ (L.x b).log) (h2 : XCall.Ev.received id' a.toList q' ∈ (L.x b').log) (hs : q.sn = q'.sn) : b = b' ∧ id = id' :=
  C162_once addr nd nets bal hnd hname hsl hinj L (vreach_lreach hnd hname hsl hinj h) a b b' id id' q q' h1 h2 hs

/-- C164: a call is settled with the code of its execution on the chain it was sent to, or with -2. -/
theorem C164_settled (L : LNet) (h : VReach dec addr nd nets bal L) (a : String) (sn code : Int) (hc : XCall.Ev.response sn code ∈ (L.x a).log) :
    ∃ (k : Nat) (caller : BtpAddress.Str) (b : String) (acct : BtpAddress.Str) (data : Bytes) (rb : Option Bytes), sn = k ∧
      XCall.Ev.sent k caller b.toList acct data rb ∈ (L.x a).log ∧
      ((∃ (id : Nat) (q : XCall.Req), XCall.Ev.received id a.toList q ∈ (L.x b).log ∧ q.sn = sn ∧ XCall.Ev.executed id code ∈ (L.x b).log) ∨ code = -2) :=
  C162_settled addr nd nets bal hnd hname hsl hinj L (vreach_lreach hnd hname hsl hinj h) a sn code hc

/-! ### Nothing has to be left behind -/

theorem numbered_get (L : LNet) (h : VReach dec addr nd nets bal L) (p a : String) (k : Nat) (m : Msg) (hm : (toLink a (outs (L.st p)))[k]? = some m) :
    (k + 1, m) ∈ numbered a (L.st p) := by
  obtain ⟨n, hn⟩ := C164_numbers dec addr nd nets bal hnd hname hsl hinj L h p a
  rw [← numbered_msgs, List.getElem?_map, Option.map_eq_some_iff] at hm
  obtain ⟨⟨q, m'⟩, h1, rfl⟩ := hm
  have h2 : ((numbered a (L.st p)).map (·.1))[k]? = some q := by rw [List.getElem?_map, h1]; rfl
  rw [hn] at h2
  obtain ⟨hlt, h3⟩ := List.getElem?_eq_some_iff.1 h2
  rw [List.getElem_range'] at h3
  have : q = k + 1 := by omega
  subst this
  exact List.mem_of_getElem? h1

/-- The messages of `p` for the link `a` are events, not given to a BTP network. -/
def Logged (b : MixNet.Node) (a : String) : Prop := ∀ s, b = .icon s → ∀ id n m, Event.chain id a n m ∉ s.log

omit hnd hname hsl hinj in
theorem numbered_shown {k : Chain} {b : MixNet.Node} (hl : InLine k b) (hn : ∀ e ∈ outs b, Neat dec k e.2) {a : String} (hlog : Logged b a) {n : Nat} {m : Msg}
    (h : (n, m) ∈ numbered a b) : Shown b a n (wMsg m) := by
  have hne := hn _ (numbered_out h)
  match k, b, hl with
  | .evm v, .evm s, _ =>
    obtain ⟨⟨n', m'⟩, h1, h2⟩ := List.mem_map.1 h
    cases h2
    have hs : Same m' (emb m') := ⟨(seen_tr hne.texts).symm, rfl⟩
    refine ⟨m', ?_, C142_codec_partial m' (emb m') hs (hne.plain v rfl)⟩
    unfold SolBmc.numbered at h1
    obtain ⟨e, he, h3⟩ := List.mem_filterMap.1 h1
    cases e with
    | message next q x =>
      simp only at h3
      split at h3
      · rename_i e
        cases h3
        rw [← e]; exact he
      · exact nomatch h3
    | _ => exact nomatch h3
  | .icon v, .icon s, _ =>
    obtain ⟨e, he, h1⟩ := List.mem_flatMap.1 h
    cases e with
    | message next q x =>
      simp only [numJ] at h1
      split at h1
      · rename_i e
        cases List.mem_singleton.1 h1
        exact ⟨_, by rw [← e]; exact he, rfl⟩
      · exact nomatch h1
    | chain id next q x =>
      simp only [numJ] at h1
      split at h1
      · rename_i e
        cases List.mem_singleton.1 h1
        rw [e] at he
        exact absurd he (hlog s rfl _ _ _)
      · exact nomatch h1
    | _ => exact nomatch h1

/-- C164: any number of messages waiting on a link to an EVM chain can be brought with one relay message through its bridge verifier, whatever height
    it has stored, if they were emitted as events. -/
theorem C164_bridge_evm (L : LNet) (h : VReach dec addr nd nets bal L) (p n : String) (hp : p ∈ nets) (rx height : Nat) (D later : List Msg)
    (hu : (toLink (addr n) (outs (L.st p))).drop rx = D ++ later) (hlog : Logged (L.st p) (addr n)) (hb : rx + 1 + D.length < 2 ^ 256) :
    ∃ rps h' bs, (∀ rp ∈ rps, ∀ ev ∈ rp.events, ∃ next, ev.next = utf8 next ∧ Shown (L.st p) next ev.seq ev.msg) ∧
      sHandle true (utf8 (addr n)) height rx rps = some (h', bs) ∧ decodeAll (fun _ => []) 0 bs = some (D.map tr) := by
  have hneat := vreach_neat h p hp
  have hline := lreach_line hnd hname hsl hinj (vreach_lreach hnd hname hsl hinj h) p
  have hD : ∀ i m, D[i]? = some m → (rx + i + 1, m) ∈ numbered (addr n) (L.st p) := by
    intro i m hi
    refine numbered_get dec addr nd nets bal hnd hname hsl hinj L h p (addr n) (rx + i) m ?_
    have h1 := (List.getElem?_eq_some_iff.1 hi).1
    rw [← List.getElem?_drop, hu, List.getElem?_append_left h1]; exact hi
  obtain ⟨evs, hevs⟩ : ∃ evs : List (Ev Nat), evs = D.zipIdx.map fun e => ⟨utf8 (addr n), rx + 1 + e.2, wMsg e.1⟩ := ⟨_, rfl⟩
  have hev : ∀ (i : Nat) (ev : Ev Nat), evs[i]? = some ev → ∃ m, D[i]? = some m ∧ ev = (⟨utf8 (addr n), rx + 1 + i, wMsg m⟩ : Ev Nat) := by
    intro i ev hi
    rw [hevs, List.getElem?_map, Option.map_eq_some_iff] at hi
    obtain ⟨⟨m, j⟩, h1, rfl⟩ := hi
    rw [List.getElem?_zipIdx, Option.map_eq_some_iff] at h1
    obtain ⟨m', h2, h3⟩ := h1
    cases h3
    exact ⟨m, h2, by simp⟩
  have hlen : evs.length = D.length := by simp [hevs]
  have hflat : ([⟨height, evs⟩] : List (Rp Nat)).flatMap (·.events) = evs := by simp
  obtain ⟨h', e⟩ := C40_complete (utf8 (addr n)) (rx + 1) height rx [⟨height, evs⟩]
    (by rw [hflat]; intro i ev hi; obtain ⟨m, -, rfl⟩ := hev i ev hi; exact ⟨rfl, rfl⟩) ⟨Nat.le_refl _, trivial⟩ (Nat.le_refl _) (by rw [hflat, hlen]; omega) (by omega)
  rw [hflat] at e
  have hall : evs.filter (fun ev => decide (rx < ev.seq)) = evs := by
    rw [List.filter_eq_self]
    intro ev hm
    obtain ⟨i, hi⟩ := List.mem_iff_getElem?.1 hm
    obtain ⟨m, -, rfl⟩ := hev i ev hi
    simp; omega
  rw [hall] at e
  have hmsgs : evs.map (·.msg) = D.map wMsg := by
    apply List.ext_getElem?
    intro i
    rw [List.getElem?_map, List.getElem?_map]
    cases hi : evs[i]? with
    | none =>
      have : D[i]? = none := by rw [List.getElem?_eq_none_iff] at hi ⊢; omega
      rw [this]; rfl
    | some ev =>
      obtain ⟨m, h1, rfl⟩ := hev i ev hi
      rw [h1]; rfl
  refine ⟨[⟨height, evs⟩], h', _, ?_, e, ?_⟩
  · intro rp hrp ev hm
    rw [List.mem_singleton.1 hrp] at hm
    obtain ⟨i, hi⟩ := List.mem_iff_getElem?.1 hm
    obtain ⟨m, h1, rfl⟩ := hev i ev hi
    refine ⟨addr n, rfl, ?_⟩
    have := hD i m h1
    rw [show rx + i + 1 = rx + 1 + i by omega] at this
    exact numbered_shown dec hline hneat hlog this
  · have hin : ∀ m ∈ D, Neat dec (nd p) m := by
      intro m hm
      obtain ⟨i, hi⟩ := List.mem_iff_getElem?.1 hm
      exact hneat _ (numbered_out (hD i m hi))
    rw [hmsgs, EndToEnd.decodeAll_map D (fun m hm => (hin m hm).fits)]
    congr 1
    exact List.map_congr_left (fun m hm => seen_tr (hin m hm).texts)

/-- C164: the next message waiting on a link to ICON can be brought through its bridge verifier, whatever height it has stored (one with each
    relay call: C39), if it was emitted as an event. -/
theorem C164_bridge_icon (L : LNet) (h : VReach dec addr nd nets bal L) (p n : String) (hp : p ∈ nets) (rx : Nat) (height : Int) (m : Msg) (later : List Msg)
    (hu : (toLink (addr n) (outs (L.st p))).drop rx = m :: later) (hlog : Logged (L.st p) (addr n)) :
    ∃ ev : Ev Int, ev.seq = (rx + 1 : Nat) ∧ Shown (L.st p) (addr n) (rx + 1) ev.msg ∧
      jHandle true height rx [⟨height, [ev]⟩] = some (height, [some ev.msg]) ∧ decodeRet dec [some ev.msg] = some [m] := by
  have hneat := vreach_neat h p hp
  have hline := lreach_line hnd hname hsl hinj (vreach_lreach hnd hname hsl hinj h) p
  have hm : (toLink (addr n) (outs (L.st p)))[rx]? = some m := by
    have h1 : ((toLink (addr n) (outs (L.st p))).drop rx)[0]? = some m := by rw [hu]; rfl
    rwa [List.getElem?_drop, Nat.add_zero] at h1
  have hN := numbered_get dec addr nd nets bal hnd hname hsl hinj L h p (addr n) rx m hm
  refine ⟨⟨utf8 (addr n), (rx + 1 : Nat), wMsg m⟩, rfl, numbered_shown dec hline hneat hlog hN, ?_⟩
  exact C142_verified dec height height rx _ m (Int.le_refl _) (by simp) ((hneat _ (numbered_out hN)).dec)

end

/-! ### A history

A is an EVM chain and B is ICON, whose link to A has a BTP network. Messages of A reach B through a bridge verifier; those of B reach A through a BTP
block verifier. -/
namespace VDemo
open _root_.Verif.XMix.Demo (nets chain evm icon env jenv evOk sane goes_eq plain_fine reg_fine named slash)
open _root_.Verif.XMix.LDemo (Act ad namesOk start ad_inj)
open _root_.Verif.SolRelay.Toy (sigs headerBytes)
open _root_.Verif.Rlp (wList wBytes nullSeq)
open _root_.Verif.IntConv (bigIntToBytes)

/-- The messages of the history: two requests of A; of B the announcement of its links, an error for the first, the answer to the second. -/
def a1 : Msg := ⟨"A", "B", "xcall", 1, [], 1, some ⟨"A", [2, 2]⟩⟩
def a2 : Msg := ⟨"A", "B", "xcall", 2, [0, 0], 2, some ⟨"A", [2, 2]⟩⟩
def b1 : Msg := ⟨"B", "A", "bmc", 0, [3], 1, none⟩
def b2 : Msg := ⟨"B", "A", "xcall", -1, [0], -1, none⟩
def b3 : Msg := ⟨"B", "A", "xcall", 0, [0, 0, 0], -2, some ⟨"A", [2]⟩⟩

/-- The messages of another history: a request that is to fail, and the answer. -/
def a3 : Msg := ⟨"A", "B", "xcall", 1, [0, 0, 0, 0, 0, 0], 1, some ⟨"A", [2, 2]⟩⟩
def b4 : Msg := ⟨"B", "A", "xcall", 0, [0], -1, some ⟨"A", [2]⟩⟩

/-- A decoder that reads these. -/
def dec (b : Bytes) : Option Msg := [a1, a2, b1, b2, b3, a3, b4].find? fun m => wMsg m == b

def neatB (m : Msg) : Bool := decide (
  (∀ t ∈ [m.src, m.dst, m.svc, (m.fee.getD ⟨"", []⟩).network], ∀ c ∈ t.toList, c.toNat < 128) ∧
  ((-(2 ^ 100) ≤ m.sn ∧ m.sn < 2 ^ 100 ∧ m.sn ≠ -128) ∧ (-(2 ^ 100) ≤ m.nsn ∧ m.nsn < 2 ^ 100 ∧ m.nsn ≠ -128) ∧
    (∀ v ∈ (m.fee.getD ⟨"", []⟩).values, v < 2 ^ 100) ∧ (wMsg m).length < 2 ^ 50 ∧ dec (wMsg m) = some m) ∧
  (∀ t ∈ [(EndToEnd.toStruct (tr m)).src, (EndToEnd.toStruct (tr m)).dst, (EndToEnd.toStruct (tr m)).svc, m.body, (EndToEnd.toStruct (tr m)).fee.network], t.length < 2 ^ 50 ∧ t ≠ [0x80]) ∧
  (∀ v ∈ (EndToEnd.toStruct (tr m)).fee.values, v < 2 ^ 100) ∧ (EndToEnd.toStruct (tr m)).fee.values.length < 2 ^ 50 ∧
  ((EndToEnd.toStruct (tr m)).fee.values.map uEnc).flatten.length < 200 ∧
  (wBytes (EndToEnd.toStruct (tr m)).fee.network ++ wList ((EndToEnd.toStruct (tr m)).fee.values.map uEnc).flatten).length < 200 ∧
  (wBytes (EndToEnd.toStruct (tr m)).src ++ (wBytes (EndToEnd.toStruct (tr m)).dst ++ (wBytes (EndToEnd.toStruct (tr m)).svc ++ (wBytes (bigIntToBytes m.sn) ++ (wBytes m.body ++
      (wBytes (bigIntToBytes m.nsn) ++ (relayFee (EndToEnd.toStruct (tr m)).fee ++ []))))))).length < 200)

theorem small_len {n : Nat} (h : n < 200) : LenOk n := by
  refine ⟨by omega, ?_⟩
  by_cases h1 : n ≤ 55
  · exact Or.inl h1
  · refine Or.inr (fun k e => ?_)
    rcases Nat.eq_zero_or_pos k with rfl | hk
    · simp at e; omega
    · have := Nat.pow_le_pow_right (show 0 < 256 by decide) hk
      omega

theorem neat_of {m : Msg} (h : neatB m = true) (k : Chain) : Neat dec k m := by
  obtain ⟨h1, ⟨h2, h3, h4, h5, h6⟩, h7, h8, h9, h10, h11, h12⟩ := of_decide_eq_true h
  simp only [List.mem_cons, List.not_mem_nil, or_false, forall_eq_or_imp, forall_eq] at h7
  obtain ⟨t1, t2, t3, t4, t5⟩ := h7
  have big : (2 : Nat) ^ 50 ≤ 2 ^ 56 := Nat.pow_le_pow_right (by decide) (by decide)
  have f : ∀ {b : Bytes}, b.length < 2 ^ 50 ∧ b ≠ [0x80] → StrOk b := fun hb => ⟨Nat.lt_of_lt_of_le hb.1 big, hb.2⟩
  refine ⟨h1, ⟨?_, ?_, ?_, ?_⟩, h6, fun _ _ => ⟨⟨f t1, f t2, f t3, ?_, f t4, ?_, f t5, ?_, Nat.lt_of_lt_of_le h9 big⟩, small_len h10, small_len h11, small_len h12⟩⟩
  · exact ⟨by omega, by omega⟩
  · exact ⟨by omega, by omega⟩
  · intro fi hf v hv
    have := h4 v (by rw [hf]; exact hv)
    omega
  · omega
  · exact ⟨by show _ ≤ m.sn; omega, by show m.sn < _; omega, h2.2.2⟩
  · exact ⟨by show _ ≤ m.nsn; omega, by show m.nsn < _; omega, h3.2.2⟩
  · intro v hv
    have := h8 v hv
    show v < 2 ^ 128 - 1
    omega

def check (w : LNet) : Bool := LDemo.check w && nets.all fun n => (outs (w.st n)).all fun e => neatB e.2

structure Good (w : LNet) : Prop where
  reach : VReach dec ad chain nets (fun _ => 0) w
  x : ∀ n, n ∉ nets → w.x n = XCall.init 0
  st : ∀ n, n ∉ nets → w.st n = (chain n).kind.init

theorem step_good {w : LNet} {n : String} {b : MixNet.Node} {x : XCall.St} (hn : n ∈ nets) (h : Good w) (hs : VStep dec ad chain nets w (w.next n b x))
    (hc : check (w.next n b x) = true) : Good (w.next n b x) := by
  have hl : LDemo.Good w := ⟨vreach_lreach (by decide) named slash ad_inj h.reach, h.x, h.st⟩
  obtain ⟨h1, h2⟩ := LDemo.keep (b := b) (x := x) hn hl
  rw [check, Bool.and_eq_true] at hc
  obtain ⟨hc, hneat⟩ := hc
  have hall : ∀ y ∈ nets, ((w.next n b x).x y).sn < 2 ^ 255 ∧ (((w.next n b x).x y).log.all evOk = true) ∧ namesOk ((w.next n b x).st y) = true := by
    intro y hy
    have := List.all_eq_true.1 hc y hy
    rw [Bool.and_eq_true, Bool.and_eq_true, decide_eq_true_eq] at this
    exact ⟨this.1.1, this.1.2, this.2⟩
  refine ⟨h.reach.step hs ?_ ?_ ?_, h1, h2⟩
  · refine sane (w := ((w.next n b x).net [], fun _ => [])) (List.all_eq_true.2 fun y hy => ?_) h1
    rw [Bool.and_eq_true, decide_eq_true_eq]
    exact ⟨(hall y hy).1, (hall y hy).2.1⟩
  · intro y s e
    by_cases hy : y ∈ nets
    · have := (hall y hy).2.2
      rw [e] at this
      exact of_decide_eq_true this
    · rw [h2 y hy] at e
      unfold chain at e
      split at e
      · cases e; exact List.nodup_nil
      · exact nomatch e
  · intro y hy e he
    exact neat_of (List.all_eq_true.1 (List.all_eq_true.1 hneat y hy) e he) _

/-- Messages of B are not taken one by one here. -/
def Fine : Act → Prop
  | .toA => False
  | a => a.Fine

theorem act_good (w : LNet) (a : Act) (h : Good w) (ha : Fine a) (hc : check (a.run w) = true) : Good (a.run w) := by
  have hget : ∀ (k : Nat) (m : Msg) (later : List Msg), after ad w "A" "B" k = m :: later → (k + 1, m) ∈ numbered (ad "B") (w.st "A") := by
    intro k m later hu
    refine numbered_get dec ad chain nets _ (by decide) named slash ad_inj w h.reach "A" (ad "B") k m ?_
    have h1 : (after ad w "A" "B" k)[0]? = some m := by rw [hu]; rfl
    unfold after at h1
    rwa [List.getElem?_drop, Nat.add_zero] at h1
  cases a with
  | onA o =>
    simp only [Act.run] at hc ⊢
    split
    · rename_i s hs
      rw [hs] at hc
      dsimp only at hc
      split
      · rename_i j he
        rw [he] at hc
        exact step_good (by decide) h (.evmCall "A" (evm "A") s o j (by decide) rfl hs ha he) hc
      · exact h
    · exact h
  | onB o =>
    simp only [Act.run] at hc ⊢
    split
    · rename_i s hs
      rw [hs] at hc
      dsimp only at hc
      split
      · rename_i j he
        rw [he] at hc
        exact step_good (by decide) h (.iconCall "B" icon s o j (by decide) rfl hs ha he) hc
      · exact h
    · exact h
  | toA => exact ha.elim
  | toB e =>
    simp only [Act.run] at hc ⊢
    split
    · rename_i s hs
      rw [hs] at hc
      dsimp only at hc
      split
      · rename_i l hl
        rw [hl] at hc
        dsimp only at hc
        split
        · rename_i m later hu
          rw [hu] at hc
          dsimp only at hc
          split
          · rename_i j he
            rw [he] at hc
            by_cases hev : ∃ s', w.st "A" = .evm s'
            · obtain ⟨s', hs'⟩ := hev
              obtain ⟨ev, e1, e2, e3, e4⟩ := C164_bridge_icon dec ad chain nets _ (by decide) named slash ad_inj w h.reach "A" "B" (by decide) l.rx 0 m later hu
                (fun s'' e'' => by rw [hs'] at e''; exact nomatch e'')
              exact step_good (by decide) h (.iconRelay "B" "A" icon s l 9 (.cons m e none .nil .nil) j (by decide) (by decide) (by decide)
                rfl hs ⟨trivial, trivial⟩ hl (.bridge ⟨0, _, 0, _, fun rp hrp ev' hev' => by
                  cases List.mem_singleton.1 hrp
                  cases List.mem_singleton.1 hev'
                  exact ⟨_, e1, e2⟩, e3, e4⟩) he) hc
            · refine absurd ?_ hev
              have hline := lreach_line (addr := ad) (nd := chain) (nets := nets) (by decide) named slash ad_inj
                (vreach_lreach (by decide) named slash ad_inj h.reach) "A"
              cases hA : w.st "A" with
              | evm s' => exact ⟨s', rfl⟩
              | icon s' => rw [hA] at hline; exact hline.elim
          · exact h
        · exact h
      · exact h
    · exact h
  | dropB src =>
    simp only [Act.run] at hc ⊢
    split
    · rename_i s hs
      rw [hs] at hc
      dsimp only at hc
      split
      · rename_i l hl
        rw [hl] at hc
        dsimp only at hc
        split
        · rename_i m later hu
          rw [hu] at hc
          dsimp only at hc
          split
          · rename_i hg
            rw [if_pos hg] at hc
            split
            · rename_i s' he
              rw [he] at hc
              exact step_good (by decide) h (.iconDrop "B" "A" icon s l jenv 1 (l.rx + 1) m "" [] s' (by decide) (by decide) (by decide)
                rfl hs (goes_eq hg.2) hl (hget _ _ _ hu) he) hc
            · exact h
          · exact h
        · exact h
      · exact h
    · exact h

theorem acts_good : ∀ (l : List Act) (w : LNet), Good w → (∀ a ∈ l, Fine a) → (∀ i, i < l.length → check ((l.take (i + 1)).foldl Act.run w) = true) →
    Good (l.foldl Act.run w)
  | [], _, h, _, _ => h
  | a :: t, w, h, hf, hc => acts_good t (a.run w) (act_good w a h (hf a (List.mem_cons_self ..)) (hc 0 (Nat.zero_lt_succ _)))
      (fun b hb => hf b (List.mem_cons_of_mem _ hb)) (fun i hi => hc (i + 1) (Nat.succ_lt_succ hi))

/-- Two calls of a of A; the owner of B drops the first, so an error goes back; the second is executed. Nothing of B has reached A yet. -/
def before : List Act := [.onB (.conf jenv 1 (.addVerifier "A" 30)), .onB (.conf jenv 1 (.addService X 50)), .onB (.conf jenv 1 (.addBTPLink "A" 1)),
  .onB (.conf jenv 1 (.addRelay "A" 9)), .onB (.conf jenv 1 (.setFees [("A", [1, 1])])),
  .onA (.send env ['a'] true ("btp://B/b".toList) [7] (some [1, 0, 9]) 10 (some 4)), .onA (.send env ['a'] true ("btp://B/b".toList) [8] (some [1, 1, 0, 9]) 10 (some 4)),
  .dropB "A", .toB jenv, .onB (.exec jenv 1 .nil .ok)]

def V1 := before.foldl Act.run start

theorem before_fine : ∀ a ∈ before, Fine a := by
  intro a ha
  simp only [before, List.mem_cons, List.not_mem_nil, or_false] at ha
  rcases ha with rfl | rfl | rfl | rfl | rfl | rfl | rfl | rfl | rfl | rfl
  · exact plain_fine jenv 1 _ (fun _ _ e => nomatch e)
  · exact reg_fine jenv 1
  · exact plain_fine jenv 1 _ (fun _ _ e => nomatch e)
  · exact plain_fine jenv 1 _ (fun _ _ e => nomatch e)
  · exact plain_fine jenv 1 _ (fun _ _ e => nomatch e)
  · exact rfl
  · exact rfl
  · exact trivial
  · exact trivial
  · exact trivial

theorem V1_good : Good V1 := acts_good before start ⟨.init, fun _ _ => rfl, fun _ _ => rfl⟩ before_fine (by decide +kernel)

/-- The two states of the message centers. -/
def sA (w : LNet) : SolBmc.St := match w.st "A" with
  | .evm s => s
  | .icon _ => SolBmc.init
def sB (w : LNet) : St := match w.st "B" with
  | .icon s => s
  | .evm _ => JavaBmc.run icon.c 0 []

theorem stA : V1.st "A" = .evm (sA V1) := by
  have : (match V1.st "A" with | .evm _ => true | .icon _ => false) = true := by decide +kernel
  unfold sA
  split
  · assumption
  · rename_i e; rw [e] at this; exact nomatch this
theorem stB : V1.st "B" = .icon (sB V1) := by
  have : (match V1.st "B" with | .evm _ => false | .icon _ => true) = true := by decide +kernel
  unfold sB
  split
  · assumption
  · rename_i e; rw [e] at this; exact nomatch this

theorem given_eq : given 1 (sB V1).log [] = [(1, b1), (2, b2), (3, b3)] := by decide +kernel

/-- A block of the BTP network with the three messages, and a relay message with the block and a proof of all of them. -/
abbrev h : Bytes → Bytes := SolRelay.Toy.hash
def block : BtpBlock.Block := ⟨true, [wMsg b1, wMsg b2, wMsg b3]⟩
def v0 : SolBtpBlock.St := SolRelay.Toy.start0
def cfg : SolBtpBlock.Cfg := ⟨[7], [0x62], 1, 3, 0⟩
def header : SolBtpBlock.Header := ⟨11, 0, h [4, 4], [], 3, 1, v0.secHash, 3, Merkle.mroot h (block.msgs.map h), [SolRelay.Toy.addr 8]⟩
def update : Bytes := wList [wBytes (headerBytes header), wBytes (wList (wList (sigs.map sigEnc).flatten))].flatten
def proof : Bytes := wList [nullSeq, wList (block.msgs.map wBytes).flatten, nullSeq].flatten
def call : BCall := ⟨[7], [0x62], 0, relayEnc [(1, update), (2, proof)], fun _ => []⟩
def res : SolBtpBlock.St × List Bytes := (handleBytes SolRelay.Toy.env cfg v0 call).getD (v0, [])
def R : BlockRun := ⟨SolRelay.Toy.env, [7], [0x62], 1, 0, fun _ => [], headerBytes SolRelay.Toy.first0, SolRelay.Toy.first0, cfg, v0, [], call, res.1, res.2,
  1, 3, [], [⟨true, []⟩, block]⟩

theorem placed : PlacedBytes R.E R.C R.v (R.before ++ [R.call]) := by
  have hr : call.read = some ⟨[7], [0x62], 0, [.upd header sigs, .proof ⟨[], block.msgs, []⟩]⟩ := by decide +kernel
  have hu : SolBtpBlock.handleUpdate SolRelay.Toy.env cfg v0 0 header sigs =
      some ({ v0 with secHash := h (BtpBlock.secBytes header.sec), height := 11, root := header.root, cnt := 3, vals := [SolRelay.Toy.addr 8] }, 3) := by
    decide +kernel
  show PlacedBytes SolRelay.Toy.env cfg v0 [call]
  unfold PlacedBytes
  rw [hr]
  simp only
  split
  · trivial
  · refine ⟨fun x hx => ?_, trivial⟩
    rw [show v0.cnt - (v0.next - v0.first) = 0 from rfl, hu] at hx
    simp only [Option.some.injEq] at hx
    subst hx
    exact ⟨⟨rfl, by decide⟩, fun _ _ => trivial⟩

theorem R_ok : R.Ok (sB V1) (ad "A") 0 where
  hash := SolRelay.Toy.hash_len
  head := by decide +kernel
  setup := by decide +kernel
  call := by decide +kernel
  sn := rfl
  placed := placed
  bound := by decide +kernel
  offset := by decide +kernel
  small := by decide +kernel
  sent := by
    show [⟨true, []⟩, block].flatMap (·.msgs) <+: (given 1 (sB V1).log []).map (fun x => wMsg x.2)
    rw [given_eq]; exact ⟨[], rfl⟩
  pre := by decide +kernel
  preSmall := by intro x hx; cases hx
  tip := by decide +kernel
  nonzero := by decide +kernel
  nocoll := by unfold Mbt.Collision; decide +kernel

/-- All three with one relay call. -/
def items : XNet.JItems := .cons (tr b1) env true .nil (.cons (tr b2) env true .nil (.cons (tr b3) env true .nil .nil))
def j2 : XNet.J := (XNet.jrelay (evm "A") env 70 "B" items ⟨sA V1, V1.x "A"⟩).getD ⟨sA V1, V1.x "A"⟩
def V2 : LNet := V1.next "A" (.evm j2.b) j2.x
/-- Then the first call is rolled back. -/
def V3 : LNet := (Act.onA (.undo 1 .nil .ok)).run V2

theorem j2_eq : XNet.jrelay (evm "A") env 70 "B" items ⟨sA V1, V1.x "A"⟩ = some j2 := by
  have hs : (XNet.jrelay (evm "A") env 70 "B" items ⟨sA V1, V1.x "A"⟩).isSome = true := by decide +kernel
  unfold j2
  cases he : XNet.jrelay (evm "A") env 70 "B" items ⟨sA V1, V1.x "A"⟩ with
  | none => rw [he] at hs; exact nomatch hs
  | some j => rfl

theorem reads : EvmReads (V1.st "B") (ad "A") ((sA V1).rx (ad "B")) items.msgs := by
  rw [stB, show (sA V1).rx (ad "B") = 0 by decide +kernel]
  exact .block (sB V1) R (fun _ => []) rfl R_ok (by decide +kernel)

theorem V2_good : Good V2 := step_good (by decide) V1_good (.evmRelay "A" "B" (evm "A") (sA V1) env 70 items j2 (by decide) (by decide) (by decide)
  rfl stA ⟨trivial, trivial, trivial, trivial⟩ reads j2_eq) (by decide +kernel)
theorem V3_good : Good V3 := act_good V2 _ V2_good trivial (by decide +kernel)

example : (V3.x "A").log =
    [.out ['B'] 1 (.req ⟨['a'], ['b'], 1, true, [7]⟩) 10, .sent 1 ['a'] ['B'] ['b'] [7] (some [1, 0, 9]),
     .out ['B'] 2 (.req ⟨['a'], ['b'], 2, true, [8]⟩) 10, .sent 2 ['a'] ['B'] ['b'] [8] (some [1, 1, 0, 9]), .response 1 (-2), .response 2 0,
     .undo 1 ['a'] (some [1, 0, 9]), .undone 1 0] := by decide +kernel
example : (heard (V3.st "B") "A").map (fun o => o.map fun m => (m.src, m.nsn)) = [none, some ("A", 2)] := by decide +kernel
example : numbered (ad "A") (V3.st "B") = [(1, b1), (2, b2), (3, b3)] := by decide +kernel

-- The theorems apply.
example : LReach ad chain nets (fun _ => 0) V3 := C164_network dec ad chain nets _ (by decide) named slash ad_inj _ V3_good.reach
example (id : Nat) (q : XCall.Req) (hr : XCall.Ev.received id "A".toList q ∈ (V3.x "B").log) (hq : q.sn = 1) (c : Int)
    (he : XCall.Ev.executed id c ∈ (V3.x "B").log) : c ≠ 0 :=
  C164_atomic dec ad chain nets _ (by decide) named slash ad_inj _ V3_good.reach "A" "B" 1 ['a'] (some [1, 0, 9]) (by decide +kernel) id q hr hq c he
example := C164_success dec ad chain nets _ (by decide) named slash ad_inj _ V3_good.reach "A" 2 (by decide +kernel)
example := (C164_released dec ad chain nets _ (by decide) named slash ad_inj _ V1_good.reach "B" "A" (by decide) _).1 _ reads
-- Before the link is given a BTP network the messages of B are events, which the bridge brings: here A's two for B.
example := C164_bridge_evm dec ad chain nets _ (by decide) named slash ad_inj _ V1_good.reach "A" "B" (by decide) 0 5 [a1, a2] [] (by decide +kernel)
  (fun s e => by rw [stA] at e; exact nomatch e) (by decide)
example := C164_bridge_icon dec ad chain nets _ (by decide) named slash ad_inj _ V1_good.reach "A" "B" (by decide) 1 5 a2 [] (by decide +kernel)
  (fun s e => by rw [stA] at e; exact nomatch e)

end VDemo

end Verif.XMix
