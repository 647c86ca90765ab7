import Verif.XMixLinks
/-!
The network of XMixLinks is the network of XMix, with the messages under way being those not read from the links.
-/
namespace Verif.XMix
open Verif
open Verif.SolBmc (upd)
open Verif.SolNet (osum psum psum_congr psum_one psum_zero upd_same' upd_other' msgsOf)
open Verif.MixNet
open Verif.JavaBmc

/-! ### What is emitted -/

theorem outs_sent (b : MixNet.Node) : (outs b).map (·.2) = b.sent := by
  cases b with
  | evm s =>
    show (s.log.flatMap outE).map (·.2) = (msgsOf s.log).map emb
    induction s.log with
    | nil => rfl
    | cons e t ih =>
      rw [List.flatMap_cons, List.map_append, ih]
      cases e <;> rfl
  | icon s =>
    show (s.log.flatMap outJ).map (·.2) = sentBy s.log
    unfold sentBy
    induction s.log with
    | nil => rfl
    | cons e t ih =>
      rw [List.flatMap_cons, List.map_append, ih, List.flatMap_cons]
      cases e <;> rfl

/-! ### Numbers received -/

/-- What holds of a message center by itself. -/
def NodeOk : Chain → MixNet.Node → Prop
  | .evm _, .evm s => ∀ a, (s.disp a).length = s.rx a
  | .icon v, .icon s => WF v.c s ∧ Recv v.c (fun _ _ _ => True) true [] s
  | _, _ => False

theorem right_true (c : Cfg) : Right c (fun _ _ _ => True) := fun _ _ _ _ _ _ _ _ => trivial

/-- Entries are of links that were added. -/
theorem disp_names {c : Cfg} {R : String → Nat → Msg → Prop} {s : St} (h : Recv c R true [] s) (e : Nat × Nat × Option Msg) (he : e ∈ s.disp) : e.1 < s.names.length := by
  refine Nat.lt_of_not_le fun hle => ?_
  have h1 := h.count e.1
  rw [h.fresh e.1 hle] at h1
  have h2 : nums e.1 s.disp ++ nums e.1 [] = [] := h1
  have h3 : e.2.1 ∈ nums e.1 s.disp := List.mem_map.2 ⟨e, List.mem_filter.2 ⟨he, by simp⟩, rfl⟩
  have h4 := (List.append_eq_nil_iff.1 h2).1
  rw [h4] at h3
  exact nomatch h3

/-- More names change nothing of what was heard. -/
theorem heard_names {c : Cfg} {R : String → Nat → Msg → Prop} {s : St} (h : Recv c R true [] s) (k : List String) (a : String) :
    (s.disp.filter fun e => decide ((s.names ++ k)[e.1]? = some a)) = s.disp.filter fun e => decide (s.names[e.1]? = some a) := by
  apply List.filter_congr
  intro e he
  rw [List.getElem?_append_left (disp_names h e he)]

/-- The number received is the number of messages heard. -/
theorem heard_rx {c : Cfg} {R : String → Nat → Msg → Prop} {s : St} (hw : WF c s) (h : Recv c R true [] s) (hn : s.names.Nodup) {a : String} {l : Link}
    (hl : getLinkA c s a = some l) : (heard (.icon s) a).length = l.rx := by
  unfold getLinkA at hl
  split at hl
  · cases hl
  rename_i net hnet
  split at hl
  · cases hl
  rename_i l' hl'
  split at hl
  case isFalse => cases hl
  rename_i ha
  obtain rfl := Option.some.inj hl
  have h1 := hw.names net l' hl'
  rw [ha] at h1
  have h2 : nums l'.gen s.disp ++ nums l'.gen [] = List.range' 1 (s.taken l'.gen) := h.count l'.gen
  rw [h.rx net l' hl']
  have h3 : (nums l'.gen s.disp).length = s.taken l'.gen := by
    have := congrArg List.length h2
    rw [List.length_append, List.length_range'] at this
    exact this
  rw [← h3]
  unfold heard nums
  rw [List.length_map, List.length_map]
  congr 1
  apply List.filter_congr
  intro e he
  rw [decide_eq_decide]
  constructor
  · intro h4
    rw [← h4] at h1
    exact ((List.getElem?_inj (disp_names h e he) hn).1 h1.symm)
  · intro h4
    rw [h4]; exact h1

theorem entries_heard (a : String) (names : List String) (g : Nat) : ∀ (ms : List (Option Msg)) (k : Nat),
    (((entries g k ms).filter fun e => decide (names[e.1]? = some a)).map fun e => e.2.2.map tr) = if names[g]? = some a then ms.map (·.map tr) else []
  | [], k => by simp [entries]
  | m :: t, k => by
    have ih := entries_heard a names g t (k + 1)
    rw [entries, List.filter_cons]
    by_cases h : names[g]? = some a
    · rw [if_pos h] at ih ⊢
      rw [if_pos (by simpa using h), List.map_cons, ih]; rfl
    · rw [if_neg h] at ih ⊢
      rw [if_neg (by simpa using h), ih]

/-- From `b` to `b'` the messages `es` of the link `a` are handled. -/
def Hears (b b' : MixNet.Node) (a : String) (es : List (Option SolBmc.Msg)) : Prop := ∀ z, heard b' z = heard b z ++ if z = a then es else []

theorem evm_calls {v : XNet.Node} {s : SolBmc.St} (h : NodeOk (.evm v) (.evm s)) (acts : SolBmc.Ops) (hq : SolNet.QuietOps v.bmc acts) :
    NodeOk (.evm v) (.evm (SolBmc.execOps v.bmc acts s)) ∧ ∀ z, heard (.evm (SolBmc.execOps v.bmc acts s)) z = heard (.evm s) z := by
  have h1 := SolNet.quietOps_rx v.bmc acts hq s
  have h2 := SolNet.quietOps_disp v.bmc acts hq s
  refine ⟨?_, fun z => ?_⟩
  · show ∀ a, _ = _
    rw [h1, h2]; exact h
  · show (SolBmc.execOps v.bmc acts s).disp z = _
    rw [h2]; rfl

theorem evm_relay {v : XNet.Node} {s s' : SolBmc.St} (h : NodeOk (.evm v) (.evm s)) {env : SolBmc.Env} {caller : Nat} {prev : String} {its : SolBmc.Items}
    (hq : SolNet.QuietItems v.bmc its) (he : SolBmc.exec v.bmc (.relay env caller prev its) s = some s') :
    NodeOk (.evm v) (.evm s') ∧ Hears (.evm s) (.evm s') prev (its.msgs.map some) := by
  have h1 := SolNet.relay_rx v.bmc env caller prev its hq s s' he
  have h2 := SolNet.relay_disp v.bmc env caller prev its hq s s' he
  have h' : ∀ a, (s.disp a).length = s.rx a := h
  refine ⟨?_, fun z => ?_⟩
  · intro a
    rw [h1, h2 a]
    by_cases e : a = prev
    · subst e
      rw [if_pos rfl, upd_same', List.length_append, List.length_map, h' a]
    · rw [if_neg e, upd_other' _ _ _ _ e, h' a]
  · show s'.disp z = s.disp z ++ _
    rw [h2 z]
    by_cases e : z = prev
    · subst e; rw [if_pos rfl, if_pos rfl]
    · rw [if_neg e, if_neg e, List.append_nil]

theorem evm_drop {v : XNet.Node} {s s' : SolBmc.St} (h : NodeOk (.evm v) (.evm s)) {env : SolBmc.Env} {src svc prev : String} {seq : Nat} {sn nsn : Int}
    {f : SolBmc.FeeInfo} (hr : env.resolve src = some prev) (he : SolBmc.exec v.bmc (.drop env src seq svc sn nsn f) s = some s') :
    NodeOk (.evm v) (.evm s') ∧ Hears (.evm s) (.evm s') prev [none] := by
  rw [SolBmc.exec] at he
  obtain ⟨next, h0, h1, h2, -, -⟩ := SolBmc.drop_shape v.bmc env s s' src seq svc sn nsn f he
  rw [hr] at h0
  obtain rfl := Option.some.inj h0
  have h' : ∀ a, (s.disp a).length = s.rx a := h
  refine ⟨?_, fun z => ?_⟩
  · intro a
    rw [h1, h2]
    by_cases e : a = prev
    · subst e
      rw [upd_same', upd_same', List.length_append, h' a]; rfl
    · rw [upd_other' _ _ _ _ e, upd_other' _ _ _ _ e, h' a]
  · show s'.disp z = s.disp z ++ _
    rw [h2]
    by_cases e : z = prev
    · subst e; rw [upd_same', if_pos rfl]
    · rw [upd_other' _ _ _ _ e, if_neg e, List.append_nil]

theorem icon_ok {v : INode} {s s' : St} (h : NodeOk (.icon v) (.icon s)) (t : Tr v.c true [] s [] s') : NodeOk (.icon v) (.icon s') :=
  ⟨t.wf h.1, t.recv (right_true _) h.1 h.2⟩

theorem icon_calls {v : INode} {s : St} (h : NodeOk (.icon v) (.icon s)) (acts : Ops) (hq : acts.quiet = true) :
    NodeOk (.icon v) (.icon (execOps v.c acts s)) ∧ ∀ z, heard (.icon (execOps v.c acts s)) z = heard (.icon s) z := by
  refine ⟨icon_ok h (execOps_quiet acts s [] hq), fun z => ?_⟩
  have hi := tr_idle (execOps_quiet (c := v.c) acts s _ hq)
  obtain ⟨k, hk⟩ := hi.names
  unfold heard
  dsimp only
  rw [hi.disp, hk, heard_names h.2]

theorem getLinkA_some {c : Cfg} {s : St} {a : String} {l : Link} (hl : getLinkA c s a = some l) : ∃ net, c.netOf a = some net ∧ Dict.get s.links net = some l ∧ l.addr = a := by
  unfold getLinkA at hl
  split at hl
  · cases hl
  rename_i net hnet
  split at hl
  · cases hl
  rename_i l' hl'
  split at hl
  case isFalse => cases hl
  rename_i ha
  obtain rfl := Option.some.inj hl
  exact ⟨net, hnet, hl', ha⟩

theorem put_names (c : Cfg) (s : St) (l : Link) : (putLink c s l).names = s.names := by unfold putLink; split <;> rfl

theorem icon_relay {v : INode} {s s' : St} (h : NodeOk (.icon v) (.icon s)) {caller : Nat} {prev : String} {its : Items} (hq : its.flat = true)
    (he : exec v.c (.relay caller prev its) s = some s') : NodeOk (.icon v) (.icon s') ∧ Hears (.icon s) (.icon s') prev (its.msgs.map fun m => some (tr m)) := by
  refine ⟨icon_ok h (exec_flat _ s s' (by simpa only [Op.flat] using hq) he), fun z => ?_⟩
  simp only [exec] at he
  split at he
  · cases he
  rename_i l s1 h1
  cases he
  have hg : ∃ net, Dict.get s.links net = some l ∧ l.addr = prev ∧ s1.disp = s.disp ∧ s1.names = s.names := by
    unfold openRelay at h1
    split at h1
    · cases h1
    rename_i l0 hl0
    split at h1
    · cases h1
    split at h1
    case isFalse => cases h1
    obtain ⟨net, -, h3, h4⟩ := getLinkA_some hl0
    cases h1
    exact ⟨net, h3, h4, (Tr.putLink_fields _ _).2, put_names _ _ _⟩
  obtain ⟨net, h2, h3, h4, h5⟩ := hg
  obtain ⟨-, h6, k, h7⟩ := tr_items (execItems_flat (c := v.c) its caller prev l.gen (l.rx + 1) s1 [(0, 0, none)] hq)
  have h8 := h.1.names net l h2
  rw [h3] at h8
  have h9 : (s.names ++ k)[l.gen]? = some prev := by
    rw [List.getElem?_append_left (List.getElem?_eq_some_iff.1 h8).1]; exact h8
  unfold heard
  dsimp only
  rw [h6, h7, h4, h5, List.filter_append, List.map_append, heard_names h.2, entries_heard, h9]
  congr 1
  by_cases e : z = prev
  · subst e
    rw [if_pos rfl, if_pos rfl, List.map_map]; rfl
  · rw [if_neg e, if_neg (fun e' => e (Option.some.inj e').symm)]

theorem icon_drop {v : INode} {s s' : St} (h : NodeOk (.icon v) (.icon s)) {env : Env} {caller seq : Nat} {src svc prev : String} {sn nsn : Int} {fn : String}
    {fv : List Nat} {l : Link} (hr : resolve v.c s src = .ok prev) (hl : getLinkA v.c s prev = some l)
    (he : exec v.c (.drop env caller src seq svc sn nsn fn fv) s = some s') : NodeOk (.icon v) (.icon s') ∧ Hears (.icon s) (.icon s') prev [none] := by
  refine ⟨icon_ok h (exec_flat _ s s' rfl he), fun z => ?_⟩
  obtain ⟨net, hnet, hget, haddr⟩ := getLinkA_some hl
  have hfin : ∃ k, s'.disp = s.disp ++ [(l.gen, seq, none)] ∧ s'.names = s.names ++ k := by
    simp only [exec] at he
    unfold JavaBmc.dropMessage at he
    split at he
    · cases he
    rw [hr] at he
    dsimp only at he
    rw [hnet, Option.getD_some, hget] at he
    dsimp only at he
    split at he
    · cases he
    split at he
    · cases he
    split at he
    · cases he
    have hs1 := Tr.putLink_fields (c := v.c) s { l with rx := seq }
    have hs2 := put_names v.c s { l with rx := seq }
    generalize hs0 : ({ putLink v.c s { l with rx := seq } with
      taken := SolBmc.upd (putLink v.c s { l with rx := seq }).taken l.gen seq
      disp := (putLink v.c s { l with rx := seq }).disp ++ [(l.gen, seq, none)] } : St) = s1 at he
    have hd1 : s1.disp = s.disp ++ [(l.gen, seq, none)] := by rw [← hs0, ← hs1.2]
    have hn1 : s1.names = s.names := by rw [← hs0, ← hs2]
    have t2 := Tr.trans (Tr.inFee (c := v.c) (b := true) (P := [(0, 0, none)]) s1 (dropFee fn fv)) (Tr.accumulate _ v.c.addr (dropFee fn fv))
    generalize accumulate (inFee s1 (dropFee fn fv)) v.c.addr (dropFee fn fv) = q at he t2
    have hi : Idle s1 s' := by
      split at he
      · split at he
        · rename_i h3
          cases he
          exact tr_idle (t2.trans (Tr.sendError h3))
        · cases he
      · cases he
        exact tr_idle (t2.trans ((Tr.lostFee _ _).trans (.dropped _ _ _ _ _)))
    obtain ⟨k, hk⟩ := hi.names
    exact ⟨k, by rw [hi.disp, hd1], by rw [hk, hn1]⟩
  obtain ⟨k, h6, h7⟩ := hfin
  have h8 := h.1.names net l hget
  rw [haddr] at h8
  have h9 : (s.names ++ k)[l.gen]? = some prev := by
    rw [List.getElem?_append_left (List.getElem?_eq_some_iff.1 h8).1]; exact h8
  unfold heard
  dsimp only
  have h10 := entries_heard z (s.names ++ k) l.gen [none] seq
  rw [entries, entries] at h10
  rw [h6, h7, List.filter_append, List.map_append, heard_names h.2, h10, h9]
  congr 1
  by_cases e : z = prev
  · subst e
    rw [if_pos rfl, if_pos rfl]; rfl
  · rw [if_neg e, if_neg (fun e' => e (Option.some.inj e').symm)]

/-! ### The network -/

section
variable {addr : String → String} {nd : String → Chain} {nets : List String} {bal : String → Nat}

/-- The messages under way are those not read, and each chain handled the first messages of every link. -/
structure LInv (addr : String → String) (nd : String → Chain) (nets : List String) (bal : String → Nat) (L : LNet) (P : List Msg) (T : String → List Msg) : Prop where
  reach : Reach nd nets bal (L.net P) T
  wires : Wires addr nets (fun p => outs (L.st p)) (fun p q => (heard (L.st q) (addr p)).length) P
  ok : ∀ n ∈ nets, NodeOk (nd n) (L.st n)
  hist : ∀ p ∈ nets, ∀ q ∈ nets, p ≠ q → ∀ (i : Nat) (m : SolBmc.Msg), (heard (L.st q) (addr p))[i]? = some (some m) →
    ((toLink (addr q) (outs (L.st p))).map tr)[i]? = some m

/-- What a step does to the links: the chain `n` goes to `b`, emits `new` and handles the messages `D` next on the link from `p`. -/
theorem LInv.go (hnd : nets.Nodup) (hinj : ∀ a ∈ nets, ∀ b ∈ nets, addr a = addr b → a = b) {L : LNet} {P : List Msg} {T : String → List Msg}
    (g : LInv addr nd nets bal L P T) (n : String) (hn : n ∈ nets) (b : MixNet.Node) (x : XCall.St) (D rest : List Msg) (new : List (String × Msg))
    (del : String → List Msg) (es : String → List (Option SolBmc.Msg))
    (hr : Reach nd nets bal ((L.next n b x).net (rest ++ new.map (·.2))) (upd T n (T n ++ D)))
    (hout : outs b = outs (L.st n) ++ new) (hok : NodeOk (nd n) b) (hP : P.Perm (D ++ rest))
    (hear : ∀ a ∈ nets, a ≠ n → heard b (addr a) = heard (L.st n) (addr a) ++ es a)
    (hlen : ∀ a, (es a).length = (del a).length) (hes : ∀ a (i : Nat) m, (es a)[i]? = some (some m) → ((del a).map tr)[i]? = some m)
    (hu : ∀ a ∈ nets, a ≠ n → ∃ later, after addr L a n (heard (L.st n) (addr a)).length = del a ++ later)
    (hdel : ∀ m, psum nets (fun a b => if b = n then (del a).count m else 0) = D.count m) :
    LInv addr nd nets bal (L.next n b x) (rest ++ new.map (·.2)) (upd T n (T n ++ D)) := by
  refine ⟨hr, ?_, ?_, ?_⟩
  · refine Wires.step (outs := fun p => outs (L.st p)) (cur := fun p q => (heard (L.st q) (addr p)).length) g.wires hnd hinj n hn D rest del new _ _ ?_ ?_ ?_ hdel hP
    · funext y
      by_cases e : y = n
      · subst e; show outs (upd L.st y b y) = _; rw [upd_same', upd_same', hout]
      · show outs (upd L.st n b y) = _; rw [upd_other' _ _ _ _ e, upd_other' _ _ _ _ e]
    · intro a _ q _ hq
      show (heard (upd L.st n b q) (addr a)).length = _
      rw [upd_other' _ _ _ _ hq]
    · intro a ha hne
      obtain ⟨later, h1⟩ := hu a ha hne
      refine ⟨later, h1, ?_⟩
      show (heard (upd L.st n b n) (addr a)).length = _
      rw [upd_same', hear a ha hne, List.length_append, hlen]
  · intro y hy
    by_cases e : y = n
    · subst e; show NodeOk (nd y) (upd L.st y b y); rw [upd_same']; exact hok
    · show NodeOk (nd y) (upd L.st n b y); rw [upd_other' _ _ _ _ e]; exact g.ok y hy
  · intro p hp q hq hpq i m hi
    have h2 := g.hist p hp q hq hpq
    by_cases e1 : p = n
    · subst e1
      have e2 : (L.next p b x).st q = L.st q := upd_other' _ _ _ _ (fun e => hpq e.symm)
      have e3 : (L.next p b x).st p = b := upd_same' _ _ _
      rw [e2] at hi
      rw [e3, hout, toLink_append, List.map_append]
      have := h2 i m hi
      rw [List.getElem?_append_left (List.getElem?_eq_some_iff.1 this).1]
      exact this
    · have e3 : (L.next n b x).st p = L.st p := upd_other' _ _ _ _ e1
      rw [e3]
      by_cases e2 : q = n
      · subst e2
        have e4 : (L.next q b x).st q = b := upd_same' _ _ _
        rw [e4, hear p hp hpq] at hi
        by_cases hlt : i < (heard (L.st q) (addr p)).length
        · rw [List.getElem?_append_left hlt] at hi
          exact h2 i m hi
        · rw [List.getElem?_append_right (by omega)] at hi
          have h3 := hes p _ m hi
          obtain ⟨later, h4⟩ := hu p hp hpq
          have h5 : (((toLink (addr q) (outs (L.st p))).drop (heard (L.st q) (addr p)).length).map tr)[i - (heard (L.st q) (addr p)).length]? = some m := by
            have h4' : (toLink (addr q) (outs (L.st p))).drop (heard (L.st q) (addr p)).length = del p ++ later := h4
            rw [h4', List.map_append, List.getElem?_append_left (List.getElem?_eq_some_iff.1 h3).1]
            exact h3
          rw [List.map_drop, List.getElem?_drop, show (heard (L.st q) (addr p)).length + (i - (heard (L.st q) (addr p)).length) = i by omega] at h5
          exact h5
      · have e4 : (L.next n b x).st q = L.st q := upd_other' _ _ _ _ e2
        rw [e4] at hi
        exact h2 i m hi

theorem psum_del (hnd : nets.Nodup) (n p : String) (hn : n ∈ nets) (hp : p ∈ nets) (hne : p ≠ n) (D : List Msg) (m : Msg) :
    psum nets (fun a b => if b = n then (if a = p then D else []).count m else 0) = D.count m := by
  rw [← psum_one nets hnd p n hp hn hne (D.count m)]
  apply psum_congr
  intro a _ b _ _
  by_cases e1 : b = n
  · by_cases e2 : a = p
    · rw [if_pos e1, if_pos e2, if_pos ⟨e2, e1⟩]
    · rw [if_pos e1, if_neg e2, if_neg (fun h => e2 h.1)]; rfl
  · rw [if_neg e1, if_neg (fun h => e1 h.2)]

/-- A call that reads nothing. -/
theorem LInv.call (hnd : nets.Nodup) (hinj : ∀ a ∈ nets, ∀ b ∈ nets, addr a = addr b → a = b) {L : LNet} {P : List Msg} {T : String → List Msg}
    (g : LInv addr nd nets bal L P T) (n : String) (hn : n ∈ nets) (b : MixNet.Node) (x : XCall.St) (new : List (String × Msg))
    (hr : Reach nd nets bal ((L.next n b x).net (P ++ new.map (·.2))) (upd T n (T n ++ []))) (hout : outs b = outs (L.st n) ++ new) (hok : NodeOk (nd n) b)
    (hear : ∀ z, heard b z = heard (L.st n) z) : ∃ P' T', LInv addr nd nets bal (L.next n b x) P' T' :=
  ⟨_, _, g.go hnd hinj n hn b x [] P new (fun _ => []) (fun _ => []) hr hout hok (.refl _) (fun a _ _ => by rw [hear, List.append_nil]) (fun _ => rfl)
    (fun a i m h => nomatch h) (fun a _ _ => ⟨_, rfl⟩) (fun m => by
      refine Eq.trans (psum_congr nets _ (fun _ _ => 0) (fun a _ b _ _ => ?_)) (psum_zero nets)
      rw [List.count_nil, ite_self])⟩

/-- Messages read from a link, or dropped. -/
theorem LInv.read (hnd : nets.Nodup) (hinj : ∀ a ∈ nets, ∀ b ∈ nets, addr a = addr b → a = b) {L : LNet} {P : List Msg} {T : String → List Msg}
    (g : LInv addr nd nets bal L P T) (n p : String) (hn : n ∈ nets) (hp : p ∈ nets) (hne : p ≠ n) (b : MixNet.Node) (x : XCall.St) (D later rest : List Msg)
    (hP : P.Perm (D ++ rest)) (new : List (String × Msg)) (es : List (Option SolBmc.Msg)) (hu : after addr L p n (heard (L.st n) (addr p)).length = D ++ later)
    (hr : Reach nd nets bal ((L.next n b x).net (rest ++ new.map (·.2))) (upd T n (T n ++ D)))
    (hout : outs b = outs (L.st n) ++ new) (hok : NodeOk (nd n) b) (hear : Hears (L.st n) b (addr p) es) (hlen : es.length = D.length)
    (hes : ∀ (i : Nat) m, es[i]? = some (some m) → (D.map tr)[i]? = some m) : ∃ P' T', LInv addr nd nets bal (L.next n b x) P' T' := by
  refine ⟨_, _, g.go hnd hinj n hn b x D rest new (fun a => if a = p then D else []) (fun a => if a = p then es else []) hr hout hok hP ?_ ?_ ?_ ?_ ?_⟩
  · intro a ha _
    rw [hear (addr a)]
    by_cases e : a = p
    · subst e; rw [if_pos rfl, if_pos rfl]
    · rw [if_neg e, if_neg (fun e' => e (hinj a ha p hp e'))]
  · intro a
    by_cases e : a = p
    · rw [if_pos e, if_pos e, hlen]
    · rw [if_neg e, if_neg e]; rfl
  · intro a i m h
    by_cases e : a = p
    · rw [if_pos e] at h ⊢; exact hes i m h
    · rw [if_neg e] at h; exact nomatch h
  · intro a _ _
    by_cases e : a = p
    · subst e; rw [if_pos rfl]; exact ⟨later, hu⟩
    · rw [if_neg e]; exact ⟨_, rfl⟩
  · exact psum_del hnd n p hn hp hne D

theorem next_net (L : LNet) (n : String) (b : MixNet.Node) (x : XCall.St) (P rest : List Msg) (new : List (String × Msg)) (h : outs b = outs (L.st n) ++ new) :
    (L.net P).next n b x rest = (L.next n b x).net (rest ++ new.map (·.2)) := by
  unfold LNet.net LNet.next Net.next Sys.next
  dsimp only
  rw [← outs_sent, ← outs_sent, h, List.map_append, List.drop_left]

theorem LInv.step (hnd : nets.Nodup) (hname : ∀ n ∈ nets, (nd n).kind.net = n) (hsl : ∀ n ∈ nets, '/' ∉ n.toList)
    (hinj : ∀ a ∈ nets, ∀ b ∈ nets, addr a = addr b → a = b) {L L' : LNet} {P : List Msg} {T : String → List Msg} (g : LInv addr nd nets bal L P T)
    (hnames : ∀ n s, L.st n = .icon s → s.names.Nodup) (h : LStep addr nd nets L L') (hsane : Sane nd (L'.net [])) :
    ∃ P' T', LInv addr nd nets bal L' P' T' := by
  have gx := reach_xinv hnd hname hsl g.reach
  have sane : ∀ Q, Sane nd (L'.net Q) := fun Q => ⟨hsane.small, hsane.legible⟩
  cases h with
  | evmCall n v s o j hn hv hs hf he =>
    have hok := g.ok n hn
    rw [hv, hs] at hok
    obtain ⟨evs, new, acts, ht⟩ := XNet.jexec_coup v o _ j hf he (gx.start hn hs)
    have e : SolBmc.execOps v.bmc acts s = j.b := ht.acts
    obtain ⟨h1, h2⟩ := evm_calls hok acts ht.quiet
    rw [e] at h1 h2
    have hout : outs (.evm j.b) = outs (L.st n) ++ evs.flatMap outE := by
      rw [hs]; show j.b.log.flatMap outE = s.log.flatMap outE ++ _; rw [ht.log]; exact List.flatMap_append
    have hr := g.reach.step (.evmCall n v s o j hn hv hs hf he) (by rw [next_net L n _ _ _ _ _ hout]; exact sane _)
    rw [show (L.net P).sys.pool = P from rfl, next_net L n _ _ _ _ _ hout] at hr
    exact g.call hnd hinj n hn _ _ _ hr hout (by rw [hv]; exact h1) (by rw [hs]; exact h2)
  | evmRelay n p v s env caller items D later j hn hp hne hv hs hf hD hu he =>
    have hok := g.ok n hn
    rw [hv, hs] at hok
    obtain ⟨its, h1, h2, h3⟩ := XNet.jrelay_proj v env caller (addr p) items hf ⟨s, L.x n⟩ j (gx.start hn hs) he
    obtain ⟨h4, h5⟩ := evm_relay hok h1 h3
    obtain ⟨evs, h6, -⟩ := XNet.jrelay_go v env caller (addr p) items hf ⟨s, L.x n⟩ j he (gx.start hn hs)
    have hcur : (heard (L.st n) (addr p)).length = s.rx (addr p) := by rw [hs]; exact hok (addr p)
    rw [← hcur] at hu
    obtain ⟨rest, hP⟩ := g.wires.take n p hn hp hne D later hu
    have hout : outs (.evm j.b) = outs (L.st n) ++ evs.flatMap outE := by
      rw [hs]; show j.b.log.flatMap outE = s.log.flatMap outE ++ _; rw [h6]; exact List.flatMap_append
    have hr := g.reach.step (.evmRelay n v s env caller (addr p) items D rest j hn hv hs hf hD hP he) (by rw [next_net L n _ _ _ _ _ hout]; exact sane _)
    rw [next_net L n _ _ _ _ _ hout] at hr
    refine g.read hnd hinj n p hn hp hne _ _ D later rest hP _ _ hu hr hout (by rw [hv]; exact h4) (by rw [hs]; exact h5) ?_ ?_
    · rw [List.length_map, h2, hD, List.length_map]
    · intro i m hi
      rw [h2, hD, List.getElem?_map, Option.map_eq_some_iff] at hi
      obtain ⟨m', hi, e⟩ := hi
      obtain rfl := Option.some.inj e
      exact hi
  | evmDrop n p v s env seq m later s' hn hp hne hv hs hres hu he =>
    have hok := g.ok n hn
    rw [hv, hs] at hok
    obtain ⟨h4, h5⟩ := evm_drop hok hres he
    obtain ⟨evs, h6, -⟩ := XNet.drop_jgo v env seq (tr m) s s' (L.x n) he (gx.start hn hs)
    have hcur : (heard (L.st n) (addr p)).length = s.rx (addr p) := by rw [hs]; exact hok (addr p)
    rw [← hcur] at hu
    obtain ⟨rest, hP⟩ := g.wires.take n p hn hp hne [m] later hu
    have hout : outs (.evm s') = outs (L.st n) ++ evs.flatMap outE := by
      have h6' : s'.log = s.log ++ evs := h6
      rw [hs]; show s'.log.flatMap outE = s.log.flatMap outE ++ _; rw [h6']; exact List.flatMap_append
    have hr := g.reach.step (.evmDrop n v s env seq m rest s' hn hv hs hP he) (by
      rw [show (L.net P).x n = L.x n from rfl, next_net L n _ _ _ _ _ hout]; exact sane _)
    rw [show (L.net P).x n = L.x n from rfl, next_net L n _ _ _ _ _ hout] at hr
    refine g.read hnd hinj n p hn hp hne _ _ [m] later rest hP _ _ hu hr hout (by rw [hv]; exact h4) (by rw [hs]; exact h5) rfl ?_
    intro i m' hi
    cases i with
    | zero => simp at hi
    | succ k => simp at hi
  | iconCall n v s o j hn hv hs hf he =>
    have hok := g.ok n hn
    rw [hv, hs] at hok
    obtain ⟨evs, new, acts, ht⟩ := iexec_coup v o _ j hf he (gx.fit hn hv hs)
    have e : execOps v.c acts s = j.b := ht.acts
    obtain ⟨h1, h2⟩ := icon_calls hok acts ht.quiet
    rw [e] at h1 h2
    have hout : outs (.icon j.b) = outs (L.st n) ++ evs.flatMap outJ := by
      rw [hs]; show j.b.log.flatMap outJ = s.log.flatMap outJ ++ _; rw [ht.log]; exact List.flatMap_append
    have hr := g.reach.step (.iconCall n v s o j hn hv hs hf he) (by rw [next_net L n _ _ _ _ _ hout]; exact sane _)
    rw [show (L.net P).sys.pool = P from rfl, next_net L n _ _ _ _ _ hout] at hr
    exact g.call hnd hinj n hn _ _ _ hr hout (by rw [hv]; exact h1) (by rw [hs]; exact h2)
  | iconRelay n p v s l caller items later j hn hp hne hv hs hf hl hu he =>
    have hok := g.ok n hn
    rw [hv, hs] at hok
    have hcur : (heard (L.st n) (addr p)).length = l.rx := by rw [hs]; exact heard_rx hok.1 hok.2 (hnames n s hs) hl
    rw [← hcur] at hu
    obtain ⟨rest, hP⟩ := g.wires.take n p hn hp hne items.msgs later hu
    have hw := gx.wire (D := items.msgs) (rest := rest) hP
    obtain ⟨its, h1, h2, h3⟩ := irelay_proj v caller (addr p) items hf ⟨s, L.x n⟩ j (gx.fit hn hv hs) hw he
    obtain ⟨h4, h5⟩ := icon_relay hok h1 h3
    obtain ⟨-, evs, h6, -⟩ := irelay_go v caller (addr p) items hf ⟨s, L.x n⟩ j he (gx.fit hn hv hs) hw
    have hout : outs (.icon j.b) = outs (L.st n) ++ evs.flatMap outJ := by
      rw [hs]; show j.b.log.flatMap outJ = s.log.flatMap outJ ++ _; rw [h6]; exact List.flatMap_append
    have hr := g.reach.step (.iconRelay n v s caller (addr p) items rest j hn hv hs hf hP he) (by rw [next_net L n _ _ _ _ _ hout]; exact sane _)
    rw [next_net L n _ _ _ _ _ hout] at hr
    refine g.read hnd hinj n p hn hp hne _ _ items.msgs later rest hP _ _ hu hr hout (by rw [hv]; exact h4) (by rw [hs]; exact h5) ?_ ?_
    · rw [List.length_map, h2]
    · intro i m hi
      rw [h2, List.getElem?_map, Option.map_eq_some_iff] at hi
      obtain ⟨m', hi, e⟩ := hi
      obtain rfl := Option.some.inj e
      rw [List.getElem?_map, hi]; rfl
  | iconDrop n p v s l env caller seq m fn fv later s' hn hp hne hv hs hres hl hu he =>
    have hok := g.ok n hn
    rw [hv, hs] at hok
    obtain ⟨h4, h5⟩ := icon_drop hok hres hl he
    have hcur : (heard (L.st n) (addr p)).length = l.rx := by rw [hs]; exact heard_rx hok.1 hok.2 (hnames n s hs) hl
    rw [← hcur] at hu
    obtain ⟨rest, hP⟩ := g.wires.take n p hn hp hne [m] later hu
    have hw := gx.wire (D := [m]) (rest := rest) hP
    obtain ⟨-, evs, h6, -⟩ := drop_igo v env caller seq m fn fv s s' (L.x n) he (gx.fit hn hv hs) hw
    have hout : outs (.icon s') = outs (L.st n) ++ evs.flatMap outJ := by
      have h6' : s'.log = s.log ++ evs := h6
      rw [hs]; show s'.log.flatMap outJ = s.log.flatMap outJ ++ _; rw [h6']; exact List.flatMap_append
    have hr := g.reach.step (.iconDrop n v s env caller seq m fn fv rest s' hn hv hs hP he) (by
      rw [show (L.net P).x n = L.x n from rfl, next_net L n _ _ _ _ _ hout]; exact sane _)
    rw [show (L.net P).x n = L.x n from rfl, next_net L n _ _ _ _ _ hout] at hr
    refine g.read hnd hinj n p hn hp hne _ _ [m] later rest hP _ _ hu hr hout (by rw [hv]; exact h4) (by rw [hs]; exact h5) rfl ?_
    intro i m' hi
    cases i with
    | zero => simp at hi
    | succ k => simp at hi

theorem lreach_names {L : LNet} (h : LReach addr nd nets bal L) : ∀ n s, L.st n = .icon s → s.names.Nodup := by
  cases h with
  | init =>
    intro n s e
    dsimp only at e
    cases hv : nd n with
    | evm v => rw [hv] at e; exact nomatch e
    | icon v =>
      rw [hv] at e
      cases e
      exact List.nodup_nil
  | step _ _ _ hn => exact hn

theorem lreach_inv (hnd : nets.Nodup) (hname : ∀ n ∈ nets, (nd n).kind.net = n) (hsl : ∀ n ∈ nets, '/' ∉ n.toList)
    (hinj : ∀ a ∈ nets, ∀ b ∈ nets, addr a = addr b → a = b) {L : LNet} (h : LReach addr nd nets bal L) : ∃ P T, LInv addr nd nets bal L P T := by
  induction h with
  | init =>
    refine ⟨[], fun _ => [], .init, ?_, ?_, ?_⟩
    · have e1 : (fun p => outs ((nd p).kind.init)) = fun _ => [] := by funext p; cases nd p <;> rfl
      have e2 : (fun (p q : String) => (heard ((nd q).kind.init) (addr p)).length) = fun _ _ => 0 := by funext p q; cases nd q <;> rfl
      show Wires addr nets (fun p => outs ((nd p).kind.init)) (fun p q => (heard ((nd q).kind.init) (addr p)).length) []
      rw [e1, e2]
      exact Wires.init
    · intro n _
      show NodeOk (nd n) ((nd n).kind.init)
      cases nd n with
      | evm v => exact fun a => rfl
      | icon v => exact ⟨wf_init _, recv_init _ _ _⟩
    · intro p _ q _ _ i m hi
      have : heard ((nd q).kind.init) (addr p) = [] := by cases nd q <;> rfl
      have hi' : (heard ((nd q).kind.init) (addr p))[i]? = some (some m) := hi
      rw [this] at hi'
      exact nomatch hi'
  | step hr hs hsane _ ih =>
    obtain ⟨P, T, g⟩ := ih
    exact g.step hnd hname hsl hinj (lreach_names hr) hs hsane
end

end Verif.XMix
