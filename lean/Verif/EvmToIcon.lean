import Verif.SolBmcBlock
import Verif.JavaBmcProps
import Verif.BmvBridgeProps
import Verif.JavaMsgs
/-!
C142: a link from an EVM chain to ICON put together from the models of its parts: the message center of the EVM chain (`SolBmc`) with the
byte form of its messages (`SolRlp`), the bridge verifier of ICON (`BmvBridge.jHandle`), which trusts the relays for the events, and the
message center of ICON (`JavaBmc`).

* The reader of ICON's runtime (`ObjectReader`) is the parameter `dec`; what is assumed of it is that it reads what the runtime's writer
  (`wMsg`) writes.
* Relays are not restricted in what they submit when, how often, in what order and by whom: only in that every event they present is one the
  EVM chain has emitted for this link (the verifier takes their word for it).
* The height the verifier stored may be any at every call; `C142_progress` and `C142_height_blocks` say what it does.
-/
namespace Verif.EvmToIcon
open Verif Verif.Rlp Verif.IntConv Verif.SolRlp Verif.EndToEnd Verif.BmvBridge

/-! ### messages as bytes -/

theorem bytesOf_text (b : Bytes) : bytesOf (text b) = b := by
  unfold bytesOf text
  rw [String.toList_ofList, List.map_map]
  conv => rhs; rw [← List.map_id b]
  refine List.map_congr_left (fun x _ => ?_)
  simp only [Function.comp, toNat_ofByte, id]
  exact UInt8.ofNat_toNat

/-- The message of the EVM chain `m` and the message of ICON `j` say the same: `m` is what the EVM's message center sees of `j`. The EVM's
message center always writes the fee, even an empty one (RLPEncodeStruct.sol:47-63). -/
def Same (m : SolBmc.Msg) (j : JavaBmc.Msg) : Prop := m = seen j ∧ j.fee.isSome = true

/-- Beyond C59: no list has a length that Solidity's encoder writes wrongly. -/
structure Plain (m : BTPMessage) : Prop where
  ok : MsgOk m
  values : LenOk (m.fee.values.map uEnc).flatten.length
  fee : LenOk (wBytes m.fee.network ++ wList (m.fee.values.map uEnc).flatten).length
  all : LenOk (wBytes m.src ++ (wBytes m.dst ++ (wBytes m.svc ++ (wBytes (bigIntToBytes m.sn) ++ (wBytes m.message ++
      (wBytes (bigIntToBytes m.nsn) ++ (relayFee m.fee ++ []))))))).length

/-- C142: the bytes the EVM's message center emits for a message are those ICON's runtime writes for it. -/
theorem C142_codec_partial (m : SolBmc.Msg) (j : JavaBmc.Msg) (hs : Same m j) (hp : Plain (toStruct m)) :
    encodeBTPMessage (toStruct m) = some (wMsg j) := by
  rw [C59_btp_message_relay_partial _ hp.ok hp.values hp.fee hp.all]
  obtain ⟨rfl, hf⟩ := hs
  obtain ⟨src, dst, svc, sn, body, nsn, fee⟩ := j
  cases fee with
  | none => cases hf
  | some f =>
    simp only [relayBTP, toStruct, seen, bytesOf_text, wMsg, relayFee, wFee, List.flatten_cons, List.flatten_nil, List.append_nil]

/-- C142: texts of ASCII characters are the same on both chains. -/
theorem C142_ascii (m : SolBmc.Msg) (h : ∀ t ∈ [m.src, m.dst, m.svc, m.fee.network], ∀ c ∈ t.toList, c.toNat < 128) :
    Same m ⟨m.src, m.dst, m.svc, m.sn, m.body, m.nsn, some m.fee⟩ := by
  refine ⟨?_, rfl⟩
  simp only [List.mem_cons, List.not_mem_nil, or_false, forall_eq_or_imp, forall_eq] at h
  simp only [seen]
  rw [C135_ascii _ h.1, C135_ascii _ h.2.1, C135_ascii _ h.2.2.1, C135_ascii _ h.2.2.2]

/-! ### one relay call -/

/-- BTPMessageCenter.java:512-528: the messages of a relay call, decoded; a null one or one that does not decode fails the call. -/
def decodeRet (dec : Bytes → Option JavaBmc.Msg) : List (Option Bytes) → Option (List JavaBmc.Msg)
  | [] => some []
  | none :: _ => none
  | some b :: t => (dec b).bind (fun m => (decodeRet dec t).map (m :: ·))

theorem decodeRet_none (dec : Bytes → Option JavaBmc.Msg) (ret : List (Option Bytes)) (h : none ∈ ret) : decodeRet dec ret = none := by
  induction ret with
  | nil => cases h
  | cons x t ih =>
    cases x with
    | none => rfl
    | some b =>
      simp only [List.mem_cons, reduceCtorEq, false_or] at h
      simp only [decodeRet, ih h]
      cases dec b <;> rfl

/-- What the bridge verifier gives ICON's message center for some relay message whose events all satisfy `T`, whatever height it has stored. -/
def Bridged (dec : Bytes → Option JavaBmc.Msg) (T : Ev Int → Prop) (rx : Nat) (ms : List JavaBmc.Msg) : Prop :=
  ∃ (height : Int) (rps : List (Rp Int)) (h' : Int) (ret : List (Option Bytes)),
    (∀ rp ∈ rps, ∀ ev ∈ rp.events, T ev) ∧ jHandle true height rx rps = some (h', ret) ∧ decodeRet dec ret = some ms

/-- C142: at most one message gets through with a relay call: with two or more the array has nulls (C39) and the call fails. -/
theorem C142_one_at_a_time (dec : Bytes → Option JavaBmc.Msg) (T : Ev Int → Prop) (rx : Nat) (ms : List JavaBmc.Msg)
    (h : Bridged dec T rx ms) : ms = [] ∨ ∃ ev m, ms = [m] ∧ T ev ∧ ev.seq = rx + 1 ∧ dec ev.msg = some m := by
  obtain ⟨height, rps, h', ret, ht, hh, hd⟩ := h
  by_cases h2 : 2 ≤ ret.length
  · obtain ⟨m, hr, _⟩ := C39_array_wrong true height rx rps h' ret hh h2
    rw [decodeRet_none] at hd
    · cases hd
    · rw [hr]
      refine List.mem_cons_of_mem _ ?_
      rw [List.mem_replicate]
      exact ⟨by omega, rfl⟩
  · obtain ⟨_, _, evs, he, hn, hl, hr⟩ := C39_java_partial true height rx rps h' ret hh
    have hr := hr (by omega)
    match evs, hl with
    | [], _ => subst hr; simp only [List.map_nil, decodeRet, Option.some.injEq] at hd; exact Or.inl hd.symm
    | [ev], _ =>
      subst hr
      simp only [List.map_cons, List.map_nil, decodeRet] at hd
      cases hdec : dec ev.msg with
      | none => rw [hdec] at hd; cases hd
      | some m =>
        rw [hdec] at hd
        simp only [Option.map_some, Option.bind_some, Option.some.injEq] at hd
        have := he.subset (List.mem_singleton_self ev)
        simp only [List.mem_flatMap, List.mem_filter] at this
        obtain ⟨rp, hrp, hev⟩ := this
        exact Or.inr ⟨ev, m, hd.symm, ht rp hrp.1 ev hev, by simpa using hn 0 ev rfl, hdec⟩
    | _ :: _ :: _, hl => simp at hl; omega

/-- C142 is false for throughput: a relay message with two events that are due, in one block or in several, is refused by ICON. -/
theorem C142_two_refused (dec : Bytes → Option JavaBmc.Msg) (height : Int) (rx : Nat) (rps : List (Rp Int)) (h' : Int) (ret : List (Option Bytes))
    (hh : jHandle true height rx rps = some (h', ret)) (h2 : 2 ≤ ret.length) : decodeRet dec ret = none := by
  obtain ⟨m, hr, _⟩ := C39_array_wrong true height rx rps h' ret hh h2
  refine decodeRet_none _ _ ?_
  rw [hr]
  refine List.mem_cons_of_mem _ ?_
  rw [List.mem_replicate]
  exact ⟨by omega, rfl⟩

/-! ### the link -/

/-- The events the EVM's message center emitted for a link since the link was last added. -/
def Emitted (log : List SolBmc.Event) (here : String) (ev : Ev Int) : Prop :=
  ∃ (n : Nat) (m : SolBmc.Msg), (n, m) ∈ SolBmc.sentSince here log ∧ ev.seq = n ∧ encodeBTPMessage (toStruct m) = some ev.msg

theorem sent_unique {c : SolBmc.Cfg} {ops : List SolBmc.Op} {here : String} {n : Nat} {m m' : SolBmc.Msg}
    (h : (n, m) ∈ SolBmc.sentSince here (SolBmc.run c ops).log) (h' : (n, m') ∈ SolBmc.sentSince here (SolBmc.run c ops).log) : m = m' := by
  have hc := SolBmc.C42_consecutive c ops here
  have hn : ((SolBmc.sentSince here (SolBmc.run c ops).log).map Prod.fst).Nodup := by rw [hc]; exact List.nodup_range'
  generalize SolBmc.sentSince here (SolBmc.run c ops).log = l at h h' hn
  induction l with
  | nil => cases h
  | cons x t ih =>
    simp only [List.map_cons, List.nodup_cons, List.mem_map, not_exists, not_and] at hn
    rcases List.mem_cons.1 h with e | h1
    · rcases List.mem_cons.1 h' with e' | h2
      · rw [← e] at e'; simpa using e'.symm
      · exact absurd (by rw [← e]) (hn.1 _ h2)
    · rcases List.mem_cons.1 h' with e' | h2
      · exact absurd (by rw [← e']) (hn.1 _ h1)
      · exact ih h1 h2 hn.2

/-- What ICON may handle under a number of the link. -/
def Ours (log : List SolBmc.Event) (here link : String) (t : String) (n : Nat) (j : JavaBmc.Msg) : Prop :=
  t = link → ∃ m, (n, m) ∈ SolBmc.sentSince here log ∧ Same m j

/-- C142: whatever the two chains do and whatever relays submit, as long as the events they present are events of the link, every number from
1 to the number ICON has received was handled exactly once, and what was handled under a number is the message the EVM's message center sent
under that number (or was given up by an owner). Other links of ICON may have any verifiers. Missing: messages the encoders do not write
correctly (C59), and texts that are not UTF-8. -/
theorem C142_end_to_end_partial (ce : SolBmc.Cfg) (eops : List SolBmc.Op) (here : String)
    (ci : JavaBmc.Cfg) (dec : Bytes → Option JavaBmc.Msg) (link : String) (J : Nat → JavaBmc.Msg)
    (hJ : ∀ n m, (n, m) ∈ SolBmc.sentSince here (SolBmc.run ce eops).log → Same m (J n) ∧ Plain (toStruct m) ∧ dec (wMsg (J n)) = some (J n))
    (hv : ∀ v rx ms, ci.verify v link rx ms = true → Bridged dec (Emitted (SolBmc.run ce eops).log here) rx ms)
    (creator : Nat) (ops : List JavaBmc.Op) (net : String) (l : JavaBmc.Link)
    (hl : JavaBmc.Dict.get (JavaBmc.run ci creator ops).links net = some l) (ha : l.addr = link) :
    (((JavaBmc.run ci creator ops).disp.filter (fun e => e.1 = l.gen)).map (fun e => e.2.1)).Perm (List.range' 1 l.rx) ∧
    ∀ n j, (l.gen, n, some j) ∈ (JavaBmc.run ci creator ops).disp →
      j = J n ∧ ∃ m, (n, m) ∈ SolBmc.sentSince here (SolBmc.run ce eops).log ∧ Same m j := by
  have R : JavaBmc.Right ci (fun t n j => t = link → j = J n ∧ ∃ m, (n, m) ∈ SolBmc.sentSince here (SolBmc.run ce eops).log ∧ Same m j) := by
    intro v prev rx ms hver i j hi ht
    subst ht
    rcases C142_one_at_a_time dec _ rx ms (hv v rx ms hver) with rfl | ⟨ev, j', rfl, ⟨n, m, hm, hn, he⟩, hs, hd⟩
    · simp at hi
    · have h0 : i = 0 := by
        cases i with
        | zero => rfl
        | succ k => simp at hi
      subst h0
      have hj : j' = j := by simpa using hi
      subst hj
      have hnn : n = rx + 0 + 1 := by omega
      obtain ⟨s1, s2, s3⟩ := hJ n m hm
      have := C142_codec_partial m (J n) s1 s2
      rw [he, Option.some.injEq] at this
      rw [this, s3, Option.some.injEq] at hd
      subst hd
      rw [← hnn]
      exact ⟨rfl, m, hm, s1⟩
  have w := JavaBmc.wf_run (c := ci) creator ops
  have r := (JavaBmc.run_tr (c := ci) creator ops).recv R (JavaBmc.wf_init creator) (JavaBmc.recv_init _ false creator)
  refine ⟨?_, ?_⟩
  · have := r.count l.gen
    rw [r.rx net l hl]
    simpa [JavaBmc.Rel, JavaBmc.nums] using this
  · intro n m hm
    obtain ⟨t, ht, hs⟩ := r.right l.gen n m (by simpa using hm)
    rw [w.names net l hl, Option.some.injEq] at ht
    exact hs (by rw [← ht, ha])

/-! ### order -/

theorem single_msgs {items : JavaBmc.Items} (h : items.msgs.length ≤ 1) :
    items = .nil ∨ ∃ m env out acts, items = .cons m env out acts .nil := by
  cases items with
  | nil => exact Or.inl rfl
  | cons m env out acts t =>
    cases t with
    | nil => exact Or.inr ⟨m, env, out, acts, rfl⟩
    | cons => simp [JavaBmc.Items.msgs] at h

section
set_option linter.unusedSectionVars false
variable {c : JavaBmc.Cfg} (hs : ∀ v p r ms, c.verify v p r ms = true → ms.length ≤ 1)
include hs

theorem openRelay_single {s s1 : JavaBmc.St} {caller : Nat} {prev : String} {msgs : List JavaBmc.Msg} {l : JavaBmc.Link}
    (h : JavaBmc.openRelay c s caller prev msgs = some (l, s1)) : msgs.length ≤ 1 := by
  unfold JavaBmc.openRelay at h
  split at h
  · cases h
  · split at h
    · cases h
    · split at h
      · rename_i hv; exact hs _ _ _ _ hv.1
      · cases h

mutual
theorem exec_single (o : JavaBmc.Op) (s s' : JavaBmc.St) (h : JavaBmc.exec c o s = some s') : JavaBmc.Tr c true [] s [] s' := by
  cases o with
  | relay caller prev items =>
    simp only [JavaBmc.exec] at h
    split at h
    · cases h
    · rename_i l s1 h1
      cases h
      refine JavaBmc.Tr.trans (JavaBmc.Tr.openRelay h1 (by simp)) ?_
      have hl := openRelay_single hs h1
      cases items with
      | nil => simp only [JavaBmc.execItems, JavaBmc.Items.msgs, List.map_nil, JavaBmc.entries, List.nil_append]; exact .refl [] s1
      | cons m env out acts t =>
        cases t with
        | cons => simp [JavaBmc.Items.msgs] at hl
        | nil =>
          simp only [JavaBmc.execItems, JavaBmc.Items.msgs, List.map_cons, List.map_nil, JavaBmc.entries, List.cons_append, List.nil_append]
          exact JavaBmc.Tr.item env out _ caller prev l.gen (l.rx + 1) s1 m (fun x => execOps_single acts x)
  | send env caller value to svc sn body => simp only [JavaBmc.exec] at h; exact JavaBmc.Tr.sendMessage h
  | claim env acts caller value net receiver =>
    simp only [JavaBmc.exec] at h
    exact JavaBmc.Tr.claimReward (fun x => execOps_single acts x) h
  | drop env caller src seq svc sn nsn fn fv => simp only [JavaBmc.exec] at h; exact JavaBmc.Tr.dropMessage h (by simp)
  | conf env caller k => simp only [JavaBmc.exec] at h; exact JavaBmc.Tr.conf h
theorem execOps_single (acts : JavaBmc.Ops) (s : JavaBmc.St) : JavaBmc.Tr c true [] s [] (JavaBmc.execOps c acts s) := by
  cases acts with
  | nil => simp only [JavaBmc.execOps]; exact .refl [] s
  | cons o t =>
    simp only [JavaBmc.execOps]
    refine JavaBmc.Tr.trans ?_ (execOps_single t _)
    cases h : JavaBmc.exec c o s with
    | none => exact .refl [] s
    | some s1 => exact exec_single o s s1 h
end

theorem run_single (creator : Nat) (ops : List JavaBmc.Op) : JavaBmc.Tr c true [] (JavaBmc.initSt creator) [] (JavaBmc.run c creator ops) := by
  have key : ∀ (ops : List JavaBmc.Op) s, JavaBmc.Tr c true [] s [] (ops.foldl (fun s o => (JavaBmc.exec c o s).getD s) s) := by
    intro ops
    induction ops with
    | nil => exact fun s => .refl [] s
    | cons o t ih =>
      intro s
      simp only [List.foldl_cons]
      refine JavaBmc.Tr.trans ?_ (ih _)
      cases h : JavaBmc.exec c o s with
      | none => exact .refl [] s
      | some s1 => exact exec_single hs o s s1 h
  exact key ops _

/-- C142 and C41: where no verifier releases more than one message at a time (as on links with the bridge verifier, `C142_one_at_a_time`),
messages are handled in order whatever the called contracts do, also if they relay messages and give messages up while they handle one. -/
theorem C142_in_order (creator : Nat) (ops : List JavaBmc.Op) (net : String) (l : JavaBmc.Link)
    (h : JavaBmc.Dict.get (JavaBmc.run c creator ops).links net = some l) :
    ((JavaBmc.run c creator ops).disp.filter (fun e => e.1 = l.gen)).map (fun e => e.2.1) = List.range' 1 l.rx := by
  have r := (run_single hs creator ops).recv (R := fun _ _ _ => True) (fun _ _ _ _ _ _ _ _ => trivial) (JavaBmc.wf_init creator)
    (JavaBmc.recv_init _ true creator)
  have := r.count l.gen
  rw [r.rx net l h]
  simpa [JavaBmc.Rel, JavaBmc.nums] using this
end

/-! ### progress -/

/-- C142: a relay message with the next event alone, from a block not below the height the verifier has stored, is verified; ICON's message
center gets this one message. -/
theorem C142_verified (dec : Bytes → Option JavaBmc.Msg) (height h : Int) (rx : Nat) (ev : Ev Int) (j : JavaBmc.Msg) (hh : height ≤ h)
    (hs : ev.seq = rx + 1) (hd : dec ev.msg = some j) :
    jHandle true height rx [⟨h, [ev]⟩] = some (h, [some ev.msg]) ∧ decodeRet dec [some ev.msg] = some [j] := by
  refine ⟨?_, by simp [decodeRet, hd]⟩
  have h1 : ¬ h < height := by omega
  have h2 : ¬ ev.seq < (rx : Int) + 1 := by omega
  have h3 : ¬ ev.seq > (rx : Int) + 1 := by omega
  simp [jHandle, jProofs, jEvents, h1, h2, h3, jCopy]

/-- C142: and the call of a registered relay with it succeeds and counts it, whatever the service does. -/
theorem C142_progress (c : JavaBmc.Cfg) (s : JavaBmc.St) (caller v : Nat) (link : String) (l : JavaBmc.Link) (j : JavaBmc.Msg)
    (env : JavaBmc.Env) (out : JavaBmc.Out) (acts : JavaBmc.Ops) (hl : JavaBmc.getLinkA c s link = some l)
    (hv : s.verifiers ((c.netOf link).getD "") = some v) (hr : caller ∈ s.relays link) (hb : c.verify v link l.rx [j] = true) :
    ∃ s', JavaBmc.exec c (.relay caller link (.cons j env out acts .nil)) s = some s' ∧
      ∃ s1, JavaBmc.openRelay c s caller link [j] = some (l, s1) ∧ s1.taken l.gen = l.rx + 1 ∧
        s' = JavaBmc.item c env out (fun x => JavaBmc.execOps c acts x) caller link l.gen (l.rx + 1) s1 j := by
  have ho : JavaBmc.openRelay c s caller link [j] = some (l, { JavaBmc.putLink c s { l with rx := l.rx + 1 } with
      taken := SolBmc.upd (JavaBmc.putLink c s { l with rx := l.rx + 1 }).taken l.gen (l.rx + 1) }) := by
    simp [JavaBmc.openRelay, hl, hv, hr, hb]
  refine ⟨_, ?_, _, ho, by simp [SolBmc.upd], rfl⟩
  simp only [JavaBmc.exec, JavaBmc.Items.msgs, ho, JavaBmc.execItems]

/-- C142 is false: the verifier takes any height that is not below its own, also with a proof without events. -/
theorem C142_height_raised (height h : Int) (rx : Nat) (hh : height ≤ h) : jHandle true height rx [⟨h, []⟩] = some (h, []) := by
  have h1 : ¬ h < height := by omega
  simp [jHandle, jProofs, jEvents, h1, jCopy]

/-- C142 is false: then no relay message for blocks below that height releases anything, whatever events it has: relay calls succeed and
change nothing, neither the height. One relay call with a false height ends the link. -/
theorem C142_height_blocks (height : Int) (rx : Nat) (rps : List (Rp Int)) (hh : ∀ rp ∈ rps, rp.height < height) :
    jHandle true height rx rps = some (height, []) := by
  have key : ∀ (rps : List (Rp Int)), (∀ rp ∈ rps, rp.height < height) → ∀ n ms, jProofs rps height n ms = some (height, n, ms) := by
    intro rps
    induction rps with
    | nil => intro _ n ms; rfl
    | cons x t ih =>
      intro h n ms
      simp only [jProofs, if_pos (h x (by simp))]
      exact ih (fun y hy => h y (by simp [hy])) n ms
  simp [jHandle, key rps hh, jCopy]

/-- C142 is false: the address an event names is not looked at, so an event the EVM chain emitted for another link is taken as well as one
for this link (the relays have to leave them out; BMV.sol:97 compares). -/
theorem C142_destination_ignored (f : Ev Int → Bytes) (acc : Bool) (height seq : Int) (rps : List (Rp Int)) :
    jHandle acc height seq (rps.map (fun rp => { rp with events := rp.events.map (fun e => { e with next := f e }) })) =
      jHandle acc height seq rps := by
  have key : ∀ (evs : List (Ev Int)) n ms, jEvents (evs.map (fun e => { e with next := f e })) n ms = jEvents evs n ms := by
    intro evs
    induction evs with
    | nil => intro n ms; rfl
    | cons x t ih => intro n ms; simp only [List.map_cons, jEvents, ih]
  have key2 : ∀ (rps : List (Rp Int)) h n ms,
      jProofs (rps.map (fun rp => { rp with events := rp.events.map (fun e => { e with next := f e }) })) h n ms = jProofs rps h n ms := by
    intro rps
    induction rps with
    | nil => intro h n ms; rfl
    | cons x t ih => intro h n ms; simp only [List.map_cons, jProofs, key, ih]
  simp only [jHandle, key2]

/-! ### a concrete link -/
namespace Demo

def ecfg : SolBmc.Cfg := { SolBmc.Demo.cfg with net := "e" }
/-- Two messages to ICON, the first with a response expected, and one to another network in between. -/
def eops : List SolBmc.Op := [.send SolBmc.Demo.env 50 4 "icon" "s" 1 [9], .send SolBmc.Demo.env 50 4 "x" "s" 0 [8],
  .send SolBmc.Demo.env 50 4 "icon" "s" 0 [7, 7]]

def e1 : SolBmc.Msg := ⟨"e", "icon", "s", 1, [9], 1, ⟨"e", [2, 2]⟩⟩
def e2 : SolBmc.Msg := ⟨"e", "icon", "s", 0, [7, 7], 3, ⟨"e", [2]⟩⟩
def j1 : JavaBmc.Msg := ⟨"e", "icon", "s", 1, [9], 1, some ⟨"e", [2, 2]⟩⟩
def j2 : JavaBmc.Msg := ⟨"e", "icon", "s", 0, [7, 7], 3, some ⟨"e", [2]⟩⟩

theorem sent : SolBmc.sentSince "icon" (SolBmc.run ecfg eops).log = [(1, e1), (2, e2)] := by decide +kernel

def J (n : Nat) : JavaBmc.Msg := if n = 1 then j1 else j2
def dec (b : Bytes) : Option JavaBmc.Msg := if b = wMsg j1 then some j1 else if b = wMsg j2 then some j2 else none

theorem enc : encodeBTPMessage (toStruct e1) = some (wMsg j1) ∧ encodeBTPMessage (toStruct e2) = some (wMsg j2) := by decide +kernel

theorem lenOk {n : Nat} (h : n ≤ 55) : LenOk n := ⟨by omega, Or.inl h⟩

theorem plain : ∀ m ∈ [e1, e2], Plain (toStruct m) := by
  intro m hm
  simp only [List.mem_cons, List.not_mem_nil, or_false] at hm
  rcases hm with rfl | rfl
  · refine ⟨⟨⟨by decide +kernel, by decide +kernel⟩, ⟨by decide +kernel, by decide +kernel⟩, ⟨by decide +kernel, by decide +kernel⟩, ⟨by decide, by decide, by decide⟩,
      ⟨by decide +kernel, by decide +kernel⟩, ⟨by decide, by decide, by decide⟩, ⟨by decide +kernel, by decide +kernel⟩, ?_, by decide⟩, lenOk (by decide +kernel),
      lenOk (by decide +kernel), lenOk (by decide +kernel)⟩
    intro n hn; simp [toStruct, e1] at hn; subst hn; unfold UintOk; omega
  · refine ⟨⟨⟨by decide +kernel, by decide +kernel⟩, ⟨by decide +kernel, by decide +kernel⟩, ⟨by decide +kernel, by decide +kernel⟩, ⟨by decide, by decide, by decide⟩,
      ⟨by decide +kernel, by decide +kernel⟩, ⟨by decide, by decide, by decide⟩, ⟨by decide +kernel, by decide +kernel⟩, ?_, by decide⟩, lenOk (by decide +kernel),
      lenOk (by decide +kernel), lenOk (by decide +kernel)⟩
    intro n hn; simp [toStruct, e2] at hn; subst hn; unfold UintOk; omega

theorem same : Same e1 j1 ∧ Same e2 j2 := by
  refine ⟨⟨?_, rfl⟩, ⟨?_, rfl⟩⟩ <;> decide +kernel

theorem fits : ∀ n m, (n, m) ∈ SolBmc.sentSince "icon" (SolBmc.run ecfg eops).log → Same m (J n) ∧ Plain (toStruct m) ∧ dec (wMsg (J n)) = some (J n) := by
  rw [sent]
  intro n m h
  simp only [List.mem_cons, Prod.mk.injEq, List.not_mem_nil, or_false] at h
  rcases h with ⟨rfl, rfl⟩ | ⟨rfl, rfl⟩
  · exact ⟨same.1, plain _ (by simp), by decide +kernel⟩
  · exact ⟨same.2, plain _ (by simp), by decide +kernel⟩

/-- ICON with the link to the EVM chain, on which the verifier gets the right events in relay messages with one event or none. -/
def icfg : JavaBmc.Cfg := { JavaBmc.Demo.cfg (fun _ => []) with
  verify := fun _ l rx ms => decide (l = "e/A" ∧ (ms = [] ∨ (rx < 2 ∧ ms = [J (rx + 1)]))) }

theorem bridged : ∀ v rx ms, icfg.verify v "e/A" rx ms = true → Bridged dec (Emitted (SolBmc.run ecfg eops).log "icon") rx ms := by
  intro v rx ms h
  have h := of_decide_eq_true h
  rcases h.2 with rfl | ⟨hlt, rfl⟩
  · exact ⟨0, [], 0, [], by simp, by simp [jHandle, jProofs, jCopy], rfl⟩
  · obtain ⟨a, b⟩ := C142_verified dec 0 0 rx ⟨[], rx + 1, wMsg (J (rx + 1))⟩ (J (rx + 1)) (by omega) rfl (by
      match rx, hlt with
      | 0, _ => decide +kernel
      | 1, _ => decide +kernel)
    refine ⟨0, _, _, _, ?_, a, b⟩
    intro rp hrp ev hev
    simp only [List.mem_singleton] at hrp
    subst hrp
    simp only [List.mem_singleton] at hev
    subst hev
    match rx, hlt with
    | 0, _ => exact ⟨1, e1, by rw [sent]; simp, rfl, enc.1⟩
    | 1, _ => exact ⟨2, e2, by rw [sent]; simp, rfl, enc.2⟩

/-- The service relays the second message itself while it handles the first one. -/
def iops : List JavaBmc.Op := JavaBmc.Demo.setup ++ [.conf JavaBmc.Demo.env 1 (.addRelay "e/A" 5),
  .relay 9 "e/A" .nil,
  .relay 9 "e/A" (.cons j1 JavaBmc.Demo.env none (.cons (.relay 5 "e/A" (.cons j2 JavaBmc.Demo.env none .nil .nil)) .nil) .nil)]

/-- C142_end_to_end_partial, C142_in_order: both messages are handled, in order. -/
example : (JavaBmc.run icfg 1 iops).disp = [(0, 1, some j1), (0, 2, some j2)] ∧
    ((JavaBmc.Dict.get (JavaBmc.run icfg 1 iops).links "e").map (fun l => (l.addr, l.rx, l.gen))) = some ("e/A", 2, 0) := by decide +kernel

example (l : JavaBmc.Link) (hl : JavaBmc.Dict.get (JavaBmc.run icfg 1 iops).links "e" = some l) (ha : l.addr = "e/A") :=
  C142_end_to_end_partial ecfg eops "icon" icfg dec "e/A" J fits bridged 1 iops "e" l hl ha

theorem single : ∀ v p r ms, icfg.verify v p r ms = true → ms.length ≤ 1 := by
  intro v p r ms h
  have h := of_decide_eq_true h
  rcases h.2 with rfl | ⟨_, rfl⟩ <;> simp

/-- C142_two_refused: both events in one relay message: refused. -/
example : (jHandle true 0 0 [⟨5, [⟨[], 1, wMsg j1⟩, ⟨[], 2, wMsg j2⟩]⟩]).map (fun x => (x.1, decodeRet dec x.2)) = some (5, none) := by decide +kernel
/-- C142_height_raised, C142_height_blocks: a proof without events for block 1000, then the right event of block 5. -/
example : jHandle true 3 0 [⟨1000, []⟩] = some (1000, []) ∧ jHandle true 1000 0 [⟨5, [⟨[], 1, wMsg j1⟩]⟩] = some (1000, []) := by decide +kernel
/-- C142_destination_ignored: the message for network "x", which has number 1 on its own link, is handled as the first message of this link. -/
theorem C142_other_link_witness :
    let b := wMsg ⟨"e", "x", "s", 0, [8], 2, some ⟨"e", [2]⟩⟩
    (SolBmc.sentSince "x" (SolBmc.run ecfg eops).log).map (fun p => (p.1, p.2.dst, encodeBTPMessage (toStruct p.2))) = [(1, "x", some b)] ∧
    jHandle true 0 0 [⟨5, [⟨[0x78], 1, b⟩]⟩] = some (5, [some b]) := by decide +kernel

end Demo

end Verif.EvmToIcon
