import Verif.XMixLinksInv
import Verif.SolBmcGrow
import Verif.EndToEndProps
/-!
The messages a chain of the network emitted for a link are numbered 1, 2, 3, … in the order of its log, on EVM chains and on ICON, as long as no
link of ICON is added twice and no numbers of an EVM chain are cleared (which are the networks of `LReach`).
-/
namespace Verif.XMix
open Verif
open Verif.SolBmc (upd)
open Verif.MixNet
open Verif.JavaBmc

/-! ### ICON -/

/-- The links added, in order. -/
def starts : Event → List String
  | .start link => [link]
  | _ => []

/-- The number and the message of an event for the link `a` (BTPMessageCenter.java:846-853). -/
def numJ (a : String) : Event → List (Nat × Msg)
  | .message next n m => if next = a then [(n, m)] else []
  | .chain _ next n m => if next = a then [(n, m)] else []
  | _ => []

/-- Messages for a link come after the link was added. -/
inductive Opened : List Event → Prop where
  | nil : Opened []
  | snoc {l : List Event} {e : Event} : Opened l → (∀ a, numJ a e ≠ [] → .start a ∈ l) → Opened (l ++ [e])

theorem opened_none {l : List Event} (h : Opened l) (a : String) (hs : .start a ∉ l) : l.flatMap (numJ a) = [] := by
  induction h with
  | nil => rfl
  | @snoc l e _ h2 ih =>
    have hs' : .start a ∉ l := fun x => hs (List.mem_append_left _ x)
    rw [List.flatMap_append, ih hs']
    by_cases e1 : numJ a e = []
    · simp only [List.flatMap_cons, List.flatMap_nil, e1, List.append_nil]
    · exact absurd (h2 a e1) hs'

theorem mem_starts (a : String) (l : List Event) : a ∈ l.flatMap starts ↔ .start a ∈ l := by
  rw [List.mem_flatMap]
  constructor
  · intro ⟨e, he, h⟩
    cases e <;> simp only [starts, List.not_mem_nil, List.mem_singleton] at h
    subst h; exact he
  · intro h
    exact ⟨_, h, List.mem_singleton.2 rfl⟩

/-- Without a link added twice, the numbers since a link was last added are all its numbers. -/
theorem opened_numbers {l : List Event} (h : Opened l) (hn : (l.flatMap starts).Nodup) (a : String) : sentOn a l [] = (l.flatMap (numJ a)).map (·.1) := by
  induction h with
  | nil => rfl
  | @snoc l e h1 h2 ih =>
    rw [List.flatMap_append, List.nodup_append] at hn
    rw [sentOn_append, ih hn.1, List.flatMap_append, List.map_append]
    simp only [List.flatMap_cons, List.flatMap_nil, List.append_nil]
    cases e with
    | message next n m => simp only [sentOn, numJ]; split <;> simp
    | chain id next n m => simp only [sentOn, numJ]; split <;> simp
    | dropped => simp [sentOn, numJ]
    | bind => simp [sentOn, numJ]
    | start link =>
      simp only [sentOn, numJ]
      split
      · rename_i e; subst e
        have hno : .start link ∉ l := by
          intro hm
          exact hn.2.2 link ((mem_starts link l).2 hm) link (by simp [starts]) rfl
        rw [opened_none h1 link hno]; rfl
      · simp

/-- ICON: what is needed of the log. -/
structure Kept (c : Cfg) (s : St) : Prop where
  wf : WF c s
  num : NumInv c s
  opened : Opened s.log
  starts : s.log.flatMap starts = s.names
  /-- what was given to the BTP network of a link was sent over that link -/
  bound : ∀ a id, s.netIds a = some id → ∀ x ∈ EndToEnd.given id s.log [], Event.chain id a x.1 x.2 ∈ s.log

theorem given_append (id : Nat) (l2 : List Event) : ∀ (l1 : List Event) (acc : List (Nat × Msg)),
    EndToEnd.given id (l1 ++ l2) acc = EndToEnd.given id l2 (EndToEnd.given id l1 acc)
  | [], _ => rfl
  | e :: t, acc => by cases e <;> simp only [List.cons_append, EndToEnd.given] <;> exact given_append id l2 t _

theorem Kept.numbers {c : Cfg} {s : St} (h : Kept c s) (hn : s.names.Nodup) (a : String) :
    ∃ k, (s.log.flatMap (numJ a)).map (·.1) = List.range' 1 k := by
  rw [← opened_numbers h.opened (by rw [h.starts]; exact hn) a]
  exact h.num.any a

/-- Part of `Kept` along the elementary changes. -/
def Base (s : St) : Prop := Opened s.log ∧ s.log.flatMap starts = s.names

theorem Base.same {s s' : St} (h : Base s) (h1 : s'.log = s.log) (h2 : s'.names = s.names) : Base s' := by
  unfold Base; rw [h1, h2]; exact h

theorem Base.snoc {s s' : St} (h : Base s) (e : Event) (h1 : s'.log = s.log ++ [e]) (h2 : s'.names = s.names ++ XMix.starts e)
    (h3 : ∀ a, numJ a e ≠ [] → a ∈ s.names) : Base s' := by
  unfold Base
  rw [h1, h2, List.flatMap_append, h.2]
  refine ⟨.snoc h.1 (fun a ha => ?_), by simp⟩
  have := h3 a ha
  rw [← h.2] at this
  exact (mem_starts a _).1 this

theorem link_named {c : Cfg} {s : St} (hw : WF c s) {next : String} {l : Link} (h : getLinkA c s next = some l) : next ∈ s.names := by
  obtain ⟨net, -, h2, h3⟩ := XMix.getLinkA_some h
  have := hw.names net l h2
  rw [h3] at this
  exact List.mem_of_getElem? this

theorem tr_base {c : Cfg} {b : Bool} {P : List (Nat × Nat × Option Msg)} {s : St} {P' : List (Nat × Nat × Option Msg)} {s' : St} (t : Tr c b P s P' s') :
    WF c s → Base s → Base s' := by
  have hput : ∀ (s : St) (l : Link), (putLink c s l).names = s.names ∧ (putLink c s l).log = s.log := by intro s l; unfold putLink; split <;> exact ⟨rfl, rfl⟩
  induction t with
  | refl P s => exact fun _ h => h
  | trans t1 _ ih1 ih2 => exact fun hw h => ih2 (t1.wf hw) (ih1 hw h)
  | money => exact fun _ h => h.same rfl rfl
  | bump => exact fun _ h => h.same rfl rfl
  | sent P s next l m hl hid =>
    intro hw h
    refine h.snoc (.message next (l.tx + 1) m) rfl (by simp only [XMix.starts, List.append_nil]; exact (hput _ _).1) ?_
    intro a ha
    by_cases e : next = a
    · subst e; exact link_named hw hl
    · simp only [numJ, if_neg e] at ha; exact absurd rfl ha
  | chain P s id next l m hl hid =>
    intro hw h
    refine h.snoc (.chain id next (l.tx + 1) m) rfl (by simp only [XMix.starts, List.append_nil]; exact (hput _ _).1) ?_
    intro a ha
    by_cases e : next = a
    · subst e; exact link_named hw hl
    · simp only [numJ, if_neg e] at ha; exact absurd rfl ha
  | dropped P s prev seq m =>
    exact fun _ h => h.snoc (.dropped prev seq m) rfl (by simp [XMix.starts]) (fun a ha => absurd rfl ha)
  | reach P s net l r hl => exact fun _ h => h.same (hput _ _).2 (hput _ _).1
  | settle => exact fun _ h => h.same rfl rfl
  | request P s s1 r _ _ _ _ ih => exact fun hw h => (ih hw h).same rfl rfl
  | cfg => exact fun _ h => h.same rfl rfl
  | addRoute => exact fun _ h => h.same rfl rfl
  | delRoute => exact fun _ h => h.same rfl rfl
  | addLink P s net link hn hnone =>
    exact fun _ h => h.snoc (.start link) rfl rfl (fun a ha => absurd rfl ha)
  | delLink => exact fun _ h => h.same rfl rfl
  | delBtp => exact fun _ h => h.same rfl rfl
  | bind P s link net id =>
    exact fun _ h => h.snoc (.bind id link) rfl (by simp [XMix.starts]) (fun a ha => absurd rfl ha)
  | take P s net l ms hs hl hv => exact fun _ h => h.same (hput _ _).2 (hput _ _).1
  | disp => exact fun _ h => h.same rfl rfl

/-- Likewise for `bound`. -/
def Bound (s : St) : Prop := ∀ a id, s.netIds a = some id → ∀ x ∈ EndToEnd.given id s.log [], Event.chain id a x.1 x.2 ∈ s.log

theorem Bound.same {s s' : St} (h : Bound s) (h1 : s'.log = s.log) (h2 : s'.netIds = s.netIds) : Bound s' := by
  unfold Bound; rw [h1, h2]; exact h

theorem Bound.other {s s' : St} (h : Bound s) (e : Event) (h1 : s'.log = s.log ++ [e]) (h2 : s'.netIds = s.netIds)
    (h3 : ∀ id acc, EndToEnd.given id [e] acc = acc) : Bound s' := by
  intro a id ha x hx
  rw [h2] at ha
  rw [h1, given_append, h3] at hx
  rw [h1]
  exact List.mem_append_left _ (h a id ha x hx)

theorem tr_bound {c : Cfg} {b : Bool} {P : List (Nat × Nat × Option Msg)} {s : St} {P' : List (Nat × Nat × Option Msg)} {s' : St} (t : Tr c b P s P' s') :
    WF c s → NumInv c s → Bound s → Bound s' := by
  have hput : ∀ (s : St) (l : Link), (putLink c s l).netIds = s.netIds ∧ (putLink c s l).log = s.log := by intro s l; unfold putLink; split <;> exact ⟨rfl, rfl⟩
  induction t with
  | refl P s => exact fun _ _ h => h
  | trans t1 _ ih1 ih2 => exact fun hw hn h => ih2 (t1.wf hw) (t1.num hw hn) (ih1 hw hn h)
  | money => exact fun _ _ h => h.same rfl rfl
  | bump => exact fun _ _ h => h.same rfl rfl
  | sent P s next l m hl hid => exact fun _ _ h => h.other (.message next (l.tx + 1) m) rfl (hput _ _).1 (fun _ _ => rfl)
  | chain P s id next l m hl hid =>
    intro hw hn h a id' ha x hx
    have ha' : s.netIds a = some id' := by rw [← ha]; exact ((congrFun (hput _ _).1 a).symm)
    show Event.chain id' a x.1 x.2 ∈ s.log ++ [.chain id next (l.tx + 1) m]
    rw [show EndToEnd.given id' (s.log ++ [.chain id next (l.tx + 1) m]) [] = _ from given_append id' [.chain id next (l.tx + 1) m] s.log []] at hx
    simp only [EndToEnd.given] at hx
    split at hx
    · rename_i e
      subst e
      rcases List.mem_append.1 hx with hx | hx
      · exact List.mem_append_left _ (h a id ha' x hx)
      · rw [List.mem_singleton.1 hx, hn.unique a next id ha' hid]
        exact List.mem_append_right _ (List.mem_singleton.2 rfl)
    · exact List.mem_append_left _ (h a id' ha' x hx)
  | dropped P s prev seq m => exact fun _ _ h => h.other (.dropped prev seq m) rfl rfl (fun _ _ => rfl)
  | reach P s net l r hl => exact fun _ _ h => h.same (hput _ _).2 (hput _ _).1
  | settle => exact fun _ _ h => h.same rfl rfl
  | request P s s1 r _ _ _ _ ih => exact fun hw hn h => (ih hw hn h).same rfl rfl
  | cfg => exact fun _ _ h => h.same rfl rfl
  | addRoute => exact fun _ _ h => h.same rfl rfl
  | delRoute => exact fun _ _ h => h.same rfl rfl
  | addLink P s net link hn hnone => exact fun _ _ h => h.other (.start link) rfl rfl (fun _ _ => rfl)
  | delLink => exact fun _ _ h => h.same rfl rfl
  | delBtp P s net l id h1 h2 h3 =>
    intro _ _ h a id' ha x hx
    dsimp only at ha
    by_cases e : a = l.addr
    · subst e; rw [upd_same] at ha; exact nomatch ha
    · rw [upd_ne _ _ e] at ha; exact h a id' ha x hx
  | bind P s link net id h1 h2 h3 h4 =>
    intro _ hn h a id' ha x hx
    dsimp only at ha
    show Event.chain id' a x.1 x.2 ∈ s.log ++ [.bind id link]
    rw [show EndToEnd.given id' (s.log ++ [.bind id link]) [] = _ from given_append id' [.bind id link] s.log []] at hx
    simp only [EndToEnd.given] at hx
    split at hx
    · exact nomatch hx
    · rename_i e
      by_cases e2 : a = link
      · subst e2
        rw [upd_same] at ha
        exact absurd (Option.some.inj ha) e
      · rw [upd_ne _ _ e2] at ha
        exact List.mem_append_left _ (h a id' ha x hx)
  | take P s net l ms hs hl hv => exact fun _ _ h => h.same (hput _ _).2 (hput _ _).1
  | disp => exact fun _ _ h => h.same rfl rfl

theorem Kept.tr {c : Cfg} {P : List (Nat × Nat × Option Msg)} {s : St} {P' : List (Nat × Nat × Option Msg)} {s' : St} (h : Kept c s) (t : Tr c true P s P' s') :
    Kept c s' := by
  obtain ⟨h1, h2⟩ := tr_base t h.wf ⟨h.opened, h.starts⟩
  exact ⟨t.wf h.wf, t.num h.wf h.num, h1, h2, tr_bound t h.wf h.num h.bound⟩

theorem kept_init (c : Cfg) (creator : Nat) : Kept c (initSt creator) :=
  ⟨wf_init creator, num_run creator [], .nil, rfl, fun _ _ h => nomatch h⟩

/-! ### Both kinds -/

/-- The numbered messages a chain emitted for the link `a`. -/
def numbered (a : String) : MixNet.Node → List (Nat × Msg)
  | .evm s => (SolBmc.numbered a s.log).map fun e => (e.1, emb e.2)
  | .icon s => s.log.flatMap (numJ a)

/-- Numbers are kept in order. -/
def InLine : Chain → MixNet.Node → Prop
  | .evm _, .evm s => SolBmc.Lined s
  | .icon v, .icon s => Kept v.c s
  | _, _ => False

theorem numbered_msgs (a : String) (b : MixNet.Node) : (numbered a b).map (·.2) = toLink a (outs b) := by
  cases b with
  | evm s =>
    simp only [numbered, outs, List.map_map]
    induction s.log with
    | nil => rfl
    | cons e t ih =>
      rw [List.flatMap_cons, toLink_append, ← ih]
      cases e with
      | message next n m =>
        simp only [SolBmc.numbered, outE, toLink, List.filterMap_cons, List.filterMap_nil]
        by_cases h : next = a <;> simp [h]
      | _ => simp [SolBmc.numbered, outE, toLink]
  | icon s =>
    simp only [numbered, outs]
    induction s.log with
    | nil => rfl
    | cons e t ih =>
      rw [List.flatMap_cons, List.flatMap_cons, toLink_append, ← ih, List.map_append]
      congr 1
      cases e with
      | message next n m => simp only [numJ, outJ, toLink, List.filterMap_cons, List.filterMap_nil]; by_cases h : next = a <;> simp [h]
      | chain id next n m => simp only [numJ, outJ, toLink, List.filterMap_cons, List.filterMap_nil]; by_cases h : next = a <;> simp [h]
      | _ => rfl

theorem InLine.numbers {k : Chain} {b : MixNet.Node} (h : InLine k b) (hn : ∀ s, b = .icon s → s.names.Nodup) (a : String) :
    ∃ n, (numbered a b).map (·.1) = List.range' 1 n := by
  match k, b, h with
  | .evm _, .evm s, h =>
    refine ⟨s.tx a, ?_⟩
    rw [← SolBmc.Lined.numbers h a]
    simp only [numbered, List.map_map]
    rfl
  | .icon v, .icon s, h => exact Kept.numbers h (hn s rfl) a

section
variable {addr : String → String} {nd : String → Chain} {nets : List String} {bal : String → Nat}

theorem lstep_line (hnd : nets.Nodup) (hname : ∀ n ∈ nets, (nd n).kind.net = n) (hsl : ∀ n ∈ nets, '/' ∉ n.toList)
    {L L' : LNet} {P : List Msg} {T : String → List Msg} (g : LInv addr nd nets bal L P T)
    (hnames : ∀ n s, L.st n = .icon s → s.names.Nodup) (h : LStep addr nd nets L L') (hl : ∀ n, InLine (nd n) (L.st n)) :
    ∀ n, InLine (nd n) (L'.st n) := by
  have gx := reach_xinv hnd hname hsl g.reach
  have go : ∀ (n : String) (b : MixNet.Node) (x : XCall.St), InLine (nd n) b → ∀ q, InLine (nd q) ((L.next n b x).st q) := by
    intro n b x hb q
    by_cases e : q = n
    · subst e; show InLine (nd q) (upd L.st q b q); rw [upd_same]; exact hb
    · show InLine (nd q) (upd L.st n b q); rw [upd_ne _ _ e]; exact hl q
  cases h with
  | evmCall n v s o j hn hv hs hf he =>
    have h0 := hl n
    rw [hv, hs] at h0
    obtain ⟨evs, new, acts, ht⟩ := XNet.jexec_coup v o _ j hf he (gx.start hn hs)
    have e : SolBmc.execOps v.bmc acts s = j.b := ht.acts
    refine go n _ _ ?_
    rw [hv, ← e]
    exact SolBmc.Lined.ops v.bmc h0 acts ht.quiet
  | evmRelay n p v s env caller items D later j hn hp hne hv hs hf hD hu he =>
    have h0 := hl n
    rw [hv, hs] at h0
    obtain ⟨its, h1, h2, h3⟩ := XNet.jrelay_proj v env caller (addr p) items hf ⟨s, L.x n⟩ j (gx.start hn hs) he
    refine go n _ _ ?_
    rw [hv]
    exact SolBmc.Lined.exec v.bmc h0 _ h1 h3
  | evmDrop n p v s env seq m later s' hn hp hne hv hs hres hu he =>
    have h0 := hl n
    rw [hv, hs] at h0
    refine go n _ _ ?_
    rw [hv]
    exact SolBmc.Lined.exec v.bmc h0 _ (by trivial) he
  | iconCall n v s o j hn hv hs hf he =>
    have h0 := hl n
    rw [hv, hs] at h0
    obtain ⟨evs, new, acts, ht⟩ := iexec_coup v o _ j hf he (gx.fit hn hv hs)
    have e : execOps v.c acts s = j.b := ht.acts
    refine go n _ _ ?_
    rw [hv, ← e]
    exact Kept.tr h0 (execOps_quiet acts s [] ht.quiet)
  | iconRelay n p v s l caller items later j hn hp hne hv hs hf hgl hu he =>
    have h0 := hl n
    rw [hv, hs] at h0
    have hok := g.ok n hn
    rw [hv, hs] at hok
    have hcur : (heard (L.st n) (addr p)).length = l.rx := by rw [hs]; exact heard_rx hok.1 hok.2 (hnames n s hs) hgl
    rw [← hcur] at hu
    obtain ⟨rest, hP⟩ := g.wires.take n p hn hp hne items.msgs later hu
    have hw := gx.wire (D := items.msgs) (rest := rest) hP
    obtain ⟨its, h1, h2, h3⟩ := irelay_proj v caller (addr p) items hf ⟨s, L.x n⟩ j (gx.fit hn hv hs) hw he
    refine go n _ _ ?_
    rw [hv]
    exact Kept.tr h0 (exec_flat _ s j.b (by simpa only [Op.flat] using h1) h3)
  | iconDrop n p v s l env caller seq m fn fv later s' hn hp hne hv hs hres hgl hu he =>
    have h0 := hl n
    rw [hv, hs] at h0
    refine go n _ _ ?_
    rw [hv]
    exact Kept.tr h0 (exec_flat _ s s' rfl he)

theorem lreach_line (hnd : nets.Nodup) (hname : ∀ n ∈ nets, (nd n).kind.net = n) (hsl : ∀ n ∈ nets, '/' ∉ n.toList)
    (hinj : ∀ a ∈ nets, ∀ b ∈ nets, addr a = addr b → a = b) {L : LNet} (h : LReach addr nd nets bal L) : ∀ n, InLine (nd n) (L.st n) := by
  induction h with
  | init =>
    intro n
    show InLine (nd n) ((nd n).kind.init)
    cases nd n with
    | evm v => exact ⟨fun _ => rfl, fun l hl => nomatch hl⟩
    | icon v => exact kept_init _ _
  | step hr hs _ _ ih =>
    obtain ⟨P, T, g⟩ := lreach_inv hnd hname hsl hinj hr
    exact lstep_line hnd hname hsl g (lreach_names hr) hs ih

/-- The message with the number `k + 1` for a link follows the first `k`. -/
theorem line_get (hnd : nets.Nodup) (hname : ∀ n ∈ nets, (nd n).kind.net = n) (hsl : ∀ n ∈ nets, '/' ∉ n.toList)
    (hinj : ∀ a ∈ nets, ∀ b ∈ nets, addr a = addr b → a = b) {L : LNet} (h : LReach addr nd nets bal L) (p a : String) (k : Nat) (m : Msg)
    (hm : (k + 1, m) ∈ numbered a (L.st p)) : (toLink a (outs (L.st p)))[k]? = some m := by
  obtain ⟨n, hn⟩ := (lreach_line hnd hname hsl hinj h p).numbers (lreach_names h p) a
  rw [← numbered_msgs, List.getElem?_map]
  obtain ⟨i, hi⟩ := List.mem_iff_getElem?.1 hm
  have h1 : ((numbered a (L.st p)).map (·.1))[i]? = some (k + 1) := by rw [List.getElem?_map, hi]; rfl
  rw [hn] at h1
  obtain ⟨hlt, h2⟩ := List.getElem?_eq_some_iff.1 h1
  rw [List.getElem_range'] at h2
  have : i = k := by omega
  subst this
  rw [hi]; rfl

end

end Verif.XMix
