import Verif.JavaRoutesInv
/-!
C165: ICON message centers know over which neighbour they reach the networks two links away, by the announcements their neighbours make.

* A network of ICON message centers. `addr n` is the address of the message center of the network `n`. A relay call on `n` for the link to `p`
  brings messages `p` emitted for `n` that follow the number `n` has received from `p` (verifiers: C40, C41, C50, C135, C142, C143).
* A link may be removed, but is not added again under the same address (the numbers would start again).
* Contracts called while a message or a claim is handled may call the message center, but not as owners or relays.
* Bodies of messages between message centers are read as they were written (C139, bodies shorter than 2^63 bytes).
-/
namespace Verif.JavaBmc.Ann
open Verif
open Verif.JavaBmc
open Verif.SolBmc (upd)

/-! ### One message center -/
section one
variable {c : Cfg} (hr : Reads c)
include hr

/-- C165: at any time, the messages emitted for a link since it was added tell its other side the addresses of all the other links, and nothing else. -/
theorem C165_told (creator : Nat) (ops : List Op) (ht : ∀ o ∈ ops, o.tame = true) (hh : ∀ o ∈ ops, o.Honest c) (net : String) (l : Link)
    (hl : Dict.get (run c creator ops).links net = some l) (x : String) :
    x ∈ (since l.addr (run c creator ops).log []).foldl (ann c) [] ↔
      ∃ net' l', net' ≠ net ∧ Dict.get (run c creator ops).links net' = some l' ∧ l'.addr = x := by
  have := (inv_run hr creator ops ht hh).told net l hl x
  constructor
  · intro h
    obtain ⟨n, e, l', h1, h2⟩ := this.1 h
    exact ⟨n, l', e, h1, h2⟩
  · rintro ⟨n, l', e, h1, h2⟩
    exact this.2 ⟨n, e, l', h1, h2⟩

/-- C165: at any time, the addresses reachable over a link are those its messages handled so far told, in order. -/
theorem C165_learnt (creator : Nat) (ops : List Op) (ht : ∀ o ∈ ops, o.tame = true) (hh : ∀ o ∈ ops, o.Honest c) (net : String) (l : Link)
    (hl : Dict.get (run c creator ops).links net = some l) :
    l.reach = ((handled l.gen (run c creator ops).disp).filterMap id).foldl (ann c) [] :=
  (inv_run hr creator ops ht hh).learnt net l hl

/-- C165: a message center makes announcements in its own name only, each for the chain it goes to. -/
theorem C165_own (creator : Nat) (ops : List Op) (ht : ∀ o ∈ ops, o.tame = true) (hh : ∀ o ∈ ops, o.Honest c) (a : String) (m : Msg)
    (hm : m ∈ since a (run c creator ops).log []) (ha : isAnn c m = true) : m.src = c.net ∧ c.netOf a = some m.dst :=
  (inv_run hr creator ops ht hh).own a m hm ha
end one

/-! ### The network -/
section net
variable (addr : String → String) (nd : String → Cfg) (creator : String → Nat) (nets : List String)

/-- A relay call on `n` brings what another chain emitted for `n`, from the number received on. -/
def From (S : String → St) (n : String) : Op → Prop
  | .relay _ prev items => ∃ p ∈ nets, p ≠ n ∧ prev = addr p ∧ ∃ l later, getLinkA (nd n) (S n) prev = some l ∧
      (since (addr n) (S p).log []).drop l.rx = items.msgs ++ later
  | _ => True

/-- The states the network can reach. -/
inductive NReach : (String → St) → Prop
  | init : NReach (fun n => initSt (creator n))
  | step {S : String → St} (n : String) (o : Op) (s' : St) : NReach S → n ∈ nets → o.tame = true → From addr nd nets S n o →
      exec (nd n) o (S n) = some s' → s'.names.Nodup → NReach (upd S n s')

/-- The chains of the network: names, addresses, and one way to write bodies. -/
structure Setup (dec : Bytes → Option Inner) : Prop where
  name : ∀ n ∈ nets, (nd n).net = n
  netOf : ∀ n ∈ nets, ∀ p ∈ nets, (nd n).netOf (addr p) = some p
  dec : ∀ n ∈ nets, (nd n).decInner = dec
  reads : ∀ n ∈ nets, Reads (nd n)

theorem isAnn_dec {c c' : Cfg} (h : c.decInner = c'.decInner) (m : Msg) : isAnn c m = isAnn c' m := by unfold isAnn; rw [h]
theorem ann_dec {c c' : Cfg} (h : c.decInner = c'.decInner) : ann c = ann c' := by
  funext r m; unfold ann; rw [isAnn_dec h, h]

/-- Invariant of the network. -/
structure NInv (S : String → St) : Prop where
  inv : ∀ n ∈ nets, Inv (nd n) (S n).disp (S n)
  wf : ∀ n ∈ nets, WF (nd n) (S n)
  recv : ∀ n ∈ nets, Recv (nd n) (fun _ _ _ => True) true [] (S n)
  hist : ∀ n ∈ nets, ∀ p ∈ nets, p ≠ n → ∀ g, (S n).names[g]? = some (addr p) → ∀ (i : Nat) (m : Msg), (handled g (S n).disp)[i]? = some (some m) →
    (since (addr n) (S p).log [])[i]? = some m

variable {addr nd creator nets}

mutual
theorem mild_quiet (o : Op) (h : o.mild = true) : o.quiet = true := by
  cases o with
  | relay _ _ _ => simp [Op.mild] at h
  | send _ _ _ _ _ _ _ => rfl
  | claim _ acts _ _ _ _ => simp only [Op.mild] at h; simp only [Op.quiet]; exact milds_quiet acts h
  | drop _ _ _ _ _ _ _ _ _ => simp [Op.mild] at h
  | conf _ _ _ => simp [Op.mild] at h
theorem milds_quiet (acts : Ops) (h : acts.mild = true) : acts.quiet = true := by
  cases acts with
  | nil => rfl
  | cons o t =>
    simp only [Ops.mild, Bool.and_eq_true] at h
    simp only [Ops.quiet, Bool.and_eq_true]
    exact ⟨mild_quiet o h.1, milds_quiet t h.2⟩
end

theorem items_flat : ∀ items : Items, items.mild = true → items.flat = true
  | .nil, _ => rfl
  | .cons _ _ _ acts t, h => by
    simp only [Items.mild, Bool.and_eq_true] at h
    simp only [Items.flat, Bool.and_eq_true]
    exact ⟨milds_quiet acts h.1, items_flat t h.2⟩

theorem tame_flat (o : Op) (h : o.tame = true) : o.flat = true := by
  cases o with
  | relay _ _ items => exact items_flat items h
  | claim _ acts _ _ _ _ => exact milds_quiet acts h
  | _ => rfl

theorem handled_entries (g gen : Nat) : ∀ (ms : List (Option Msg)) (k : Nat), handled g (entries gen k ms) = if gen = g then ms else []
  | [], k => by simp [entries, handled]
  | m :: t, k => by
    have : entries gen k (m :: t) = [(gen, k, m)] ++ entries gen (k + 1) t := rfl
    rw [this, handled_append, handled_one, handled_entries g gen t (k + 1)]
    split <;> rfl

theorem handled_len (g : Nat) (d : List (Nat × Nat × Option Msg)) : (handled g d).length = (nums g d).length := by
  unfold handled nums; rw [List.length_map, List.length_map]

/-- The number received is the number of messages handled or given up. -/
theorem rx_handled {c : Cfg} {s : St} (h : Recv c (fun _ _ _ => True) true [] s) {net : String} {l : Link} (hl : Dict.get s.links net = some l) :
    (handled l.gen s.disp).length = l.rx := by
  have h1 : nums l.gen s.disp ++ nums l.gen [] = List.range' 1 (s.taken l.gen) := h.count l.gen
  rw [handled_len, h.rx net l hl]
  have h2 := congrArg List.length h1
  rw [List.length_range', List.length_append] at h2
  exact h2

variable {dec : Bytes → Option Inner}

theorem NReach.ninv (st : Setup addr nd nets dec) {S : String → St} (h : NReach addr nd creator nets S) : NInv addr nd nets S := by
  induction h with
  | init =>
    refine ⟨fun n _ => inv_init (creator n), fun n _ => wf_init (creator n), fun n _ => recv_init _ _ (creator n), ?_⟩
    intro n _ p _ _ g hg
    simp [initSt] at hg
  | step n o s' hS hn ht hfrom he hnd ih =>
    rename_i S
    have hnames := ih.inv n hn
    -- announcements read from other chains are honest
    have hh : o.Honest (nd n) := by
      cases o with
      | relay caller prev items =>
        obtain ⟨p, hp, hpn, hprev, l, later, hl, hms⟩ := hfrom
        intro m hm ha
        have hmem : m ∈ since (addr n) (S p).log [] := List.mem_of_mem_drop (by rw [hms]; exact List.mem_append_left _ hm)
        have hd : (nd p).decInner = (nd n).decInner := by rw [st.dec p hp, st.dec n hn]
        obtain ⟨h1, h2⟩ := (ih.inv p hp).own (addr n) m hmem (by rw [isAnn_dec hd]; exact ha)
        rw [st.netOf p hp n hn] at h2
        rw [hprev, st.netOf n hn p hp, h1, st.name p hp, st.name n hn, ← Option.some.inj h2]
        exact ⟨rfl, rfl⟩
      | _ => trivial
    obtain ⟨d, k, htk⟩ := hnames.exec (st.reads n hn) ht hh he
    have tr := exec_flat o (S n) s' (tame_flat o ht) he
    have hwf := tr.wf (ih.wf n hn)
    have hrecv := Tr.recv (R := fun _ _ _ => True) (fun _ _ _ _ _ _ _ _ => trivial) tr (ih.wf n hn) (ih.recv n hn)
    have hself : upd S n s' n = s' := upd_same S n s'
    have hoth : ∀ q, q ≠ n → upd S n s' q = S q := fun q hq => upd_ne S s' hq
    refine ⟨fun q hq => ?_, fun q hq => ?_, fun q hq => ?_, ?_⟩
    · by_cases e : q = n
      · subst e; rw [hself]; exact k.inv
      · rw [hoth q e]; exact ih.inv q hq
    · by_cases e : q = n
      · subst e; rw [hself]; exact hwf
      · rw [hoth q e]; exact ih.wf q hq
    · by_cases e : q = n
      · subst e; rw [hself]; exact hrecv
      · rw [hoth q e]; exact ih.recv q hq
    · intro q hq p hp hpq g hg i m hi
      by_cases eq : q = n
      · subst eq
        rw [hself] at hg hi
        rw [hoth p hpq]
        obtain ⟨kn, hkn⟩ := k.names
        rw [k.disp, handled_append] at hi
        by_cases hlt : i < (handled g (S q).disp).length
        · rw [List.getElem?_append_left hlt] at hi
          have hgl : g < (S q).names.length := by
            have : handled g (S q).disp ≠ [] := by intro e; rw [e] at hlt; exact absurd hlt (Nat.not_lt_zero _)
            obtain ⟨e0, he0⟩ := List.exists_mem_of_ne_nil ((S q).disp.filter (fun e => e.1 = g)) (fun e => this (by unfold handled; rw [e]; rfl))
            have h2 := List.mem_filter.1 he0
            have := hnames.gens e0 h2.1
            have h3 := h2.2
            simp only [decide_eq_true_eq] at h3
            omega
          rw [hkn, List.getElem?_append_left hgl] at hg
          exact ih.hist q hq p hp hpq g hg i m hi
        · rw [List.getElem?_append_right (Nat.le_of_not_lt hlt)] at hi
          -- a message of this call
          cases o with
          | relay caller prev items =>
            obtain ⟨l, hl, rfl⟩ := htk
            obtain ⟨p', hp', hpn', hprev, l', later, hl', hms⟩ := hfrom
            rw [hl] at hl'
            cases hl'
            rw [handled_entries] at hi
            split at hi
            · rename_i eg
              subst eg
              obtain ⟨net, hnet, hget, hla⟩ := getLinkA_some _ hl
              have hnm := hnames.names net l hget
              rw [hkn, List.getElem?_append_left (List.getElem?_eq_some_iff.1 hnm).1, hnm] at hg
              have hpp : p' = p := by
                have e1 : addr p' = addr p := by rw [← hprev, ← hla]; exact Option.some.inj hg
                have e2 := st.netOf q hq p' hp'
                rw [e1, st.netOf q hq p hp] at e2
                exact (Option.some.inj e2).symm
              subst hpp
              have hlen := rx_handled (ih.recv q hq) hget
              rw [hlen] at hi hlt
              rw [List.getElem?_map, Option.map_eq_some_iff] at hi
              obtain ⟨m', h1, h2⟩ := hi
              cases h2
              have h3 : ((since (addr q) (S p').log []).drop l.rx)[i - l.rx]? = some m := by
                rw [hms, List.getElem?_append_left (List.getElem?_eq_some_iff.1 h1).1]; exact h1
              rw [List.getElem?_drop, show l.rx + (i - l.rx) = i by omega] at h3
              exact h3
            · simp at hi
          | _ =>
            exfalso
            have hm := List.mem_of_getElem? hi
            unfold handled at hm
            obtain ⟨e0, h1, h2⟩ := List.mem_map.1 hm
            have := htk e0 (List.mem_filter.1 h1).1
            rw [this] at h2
            cases h2
      · rw [hoth q eq] at hg hi
        have h0 := ih.hist q hq p hp hpq g hg i m hi
        by_cases ep : p = n
        · subst ep
          rw [hself]
          obtain ⟨ms, hms⟩ := k.log hnd (addr q)
          rw [hms, List.getElem?_append_left (List.getElem?_eq_some_iff.1 h0).1]
          exact h0
        · rw [hoth p ep]; exact h0

theorem all_some {M : Type} : ∀ (h : List (Option M)) (l : List M), h.length = l.length → none ∉ h → (∀ (i : Nat) (m : M), h[i]? = some (some m) → l[i]? = some m) →
    h.filterMap id = l
  | [], [], _, _, _ => rfl
  | [], _ :: _, h, _, _ => by simp at h
  | _ :: _, [], h, _, _ => by simp at h
  | none :: t, _, _, h, _ => absurd List.mem_cons_self h
  | some a :: t, b :: u, h1, h2, h3 => by
    have := h3 0 a rfl
    simp only [List.getElem?_cons_zero, Option.some.injEq] at this
    subst this
    show b :: t.filterMap id = b :: u
    rw [all_some t u (by simpa using h1) (fun h => h2 (List.mem_cons_of_mem _ h)) (fun i m hi => by
      have := h3 (i + 1) m (by rw [List.getElem?_cons_succ]; exact hi)
      rw [List.getElem?_cons_succ] at this
      exact this)]

/-- C165: if `q` is linked to `p` and has read everything, and `p` is linked to `q`, then what `q` holds reachable over `p` are the addresses of the
    other links `p` has. -/
theorem C165_network (st : Setup addr nd nets dec) (S : String → St) (h : NReach addr nd creator nets S) (q p : String) (hq : q ∈ nets) (hp : p ∈ nets)
    (hpq : p ≠ q) (l : Link) (hl : Dict.get (S q).links p = some l) (hla : l.addr = addr p) (hread : l.rx = (since (addr q) (S p).log []).length)
    (hdrop : none ∉ handled l.gen (S q).disp) (l' : Link) (hl' : Dict.get (S p).links q = some l') (hla' : l'.addr = addr q) (x : String) :
    x ∈ l.reach ↔ ∃ n k, n ≠ q ∧ Dict.get (S p).links n = some k ∧ k.addr = x := by
  have g := h.ninv st
  have hi := (g.inv q hq).learnt p l hl
  have hnm := (g.inv q hq).names p l hl
  have hlen := rx_handled (g.recv q hq) hl
  have hall := all_some (handled l.gen (S q).disp) (since (addr q) (S p).log []) (hlen.trans hread) hdrop
    (fun i m hm => g.hist q hq p hp hpq l.gen (by rw [hnm, hla]) i m hm)
  have hd : (nd q).decInner = (nd p).decInner := by rw [st.dec p hp, st.dec q hq]
  rw [hi]
  unfold learnt
  rw [hall, ann_dec hd, ← hla']
  have := (g.inv p hp).told q l' hl' x
  constructor
  · intro hx
    obtain ⟨n, e, k, h1, h2⟩ := this.1 hx
    exact ⟨n, k, e, h1, h2⟩
  · rintro ⟨n, k, e, h1, h2⟩
    exact this.2 ⟨n, e, k, h1, h2⟩

theorem fromReach_some {c : Cfg} {net : String} {a : String} : ∀ (L : List (String × Link)), fromReach c net L = some a →
    ∃ k l, (k, l) ∈ L ∧ l.addr = a ∧ ∃ r ∈ l.reach, c.reachNet r = net
  | [], h => by simp [fromReach] at h
  | (k, l) :: t, h => by
    simp only [fromReach] at h
    split at h
    · rename_i hc
      cases h
      obtain ⟨r, h1, h2⟩ := List.any_eq_true.1 hc
      exact ⟨k, l, List.mem_cons_self, rfl, r, h1, of_decide_eq_true h2⟩
    · obtain ⟨k', l', h1, h2⟩ := fromReach_some t h
      exact ⟨k', l', List.mem_cons_of_mem _ h1, h2⟩

theorem fromReach_none {c : Cfg} {net : String} : ∀ (L : List (String × Link)), fromReach c net L = none → ∀ k l, (k, l) ∈ L → ∀ r ∈ l.reach, c.reachNet r ≠ net
  | [], _, _, _, hm => nomatch hm
  | (k, l) :: t, h, k', l', hm => by
    simp only [fromReach] at h
    split at h
    · cases h
    · rename_i hc
      rcases List.mem_cons.1 hm with e | hm
      · cases e
        intro r hr e
        exact hc (List.any_eq_true.2 ⟨r, hr, decide_eq_true e⟩)
      · exact fromReach_none t h k' l' hm

/-- C165: where a message center has no link and no route of its own to a network, and has read everything its neighbours emitted for it, it sends
    messages for that network to a neighbour linked to it, if there is one, and to nobody if there is none. -/
theorem C165_next (st : Setup addr nd nets dec) (S : String → St) (h : NReach addr nd creator nets S) (q : String) (hq : q ∈ nets)
    (hall : ∀ p l, Dict.get (S q).links p = some l → p ∈ nets ∧ p ≠ q ∧ l.addr = addr p ∧ l.rx = (since (addr q) (S p).log []).length ∧
      none ∉ handled l.gen (S q).disp ∧ ∃ l', Dict.get (S p).links q = some l' ∧ l'.addr = addr q)
    (hnet : ∀ p ∈ nets, ∀ a n, (nd p).netOf a = some n → (nd q).reachNet a = n)
    (x : String) (hx : x ≠ q) (hx1 : Dict.get (S q).links x = none) (hx2 : Dict.get (S q).routes x = none) :
    (∀ a, resolve (nd q) (S q) x = .ok a → ∃ p ∈ nets, a = addr p ∧ (∃ l, Dict.get (S q).links p = some l) ∧ ∃ k, Dict.get (S p).links x = some k ∧
      resolve (nd p) (S p) x = .ok k.addr) ∧
    (∀ e, resolve (nd q) (S q) x = .error e → ∀ p l, Dict.get (S q).links p = some l → Dict.get (S p).links x = none) := by
  have g := h.ninv st
  have hres : resolve (nd q) (S q) x = match fromReach (nd q) x (S q).links with
      | some a => .ok a
      | none => .error exUnreachable := by
    unfold resolve; rw [hx1, hx2]; rfl
  refine ⟨fun a ha => ?_, fun e he p l hl => ?_⟩
  · rw [hres] at ha
    split at ha
    · rename_i a' hf
      cases ha
      obtain ⟨p, l, hm, h1, r, hr, h2⟩ := fromReach_some _ hf
      have hl := Dict.get_of_mem (g.inv q hq).keys hm
      obtain ⟨a1, a2, a3, a4, a5, l', a6, a7⟩ := hall p l hl
      obtain ⟨n, k, b1, b2, b3⟩ := (C165_network st S h q p hq a1 a2 l hl a3 a4 a5 l' a6 a7 r).1 hr
      have b4 := hnet p a1 k.addr n ((g.inv p a1).addr n k b2)
      rw [b3, h2] at b4
      subst b4
      exact ⟨p, a1, by rw [← h1, a3], ⟨l, hl⟩, k, b2, by unfold resolve; rw [b2]⟩
    · cases ha
  · rw [hres] at he
    split at he
    · cases he
    · rename_i hf
      obtain ⟨a1, a2, a3, a4, a5, l', a6, a7⟩ := hall p l hl
      cases hk : Dict.get (S p).links x with
      | none => rfl
      | some k =>
        exfalso
        have hr := (C165_network st S h q p hq a1 a2 l hl a3 a4 a5 l' a6 a7 k.addr).2 ⟨x, k, hx, hk, rfl⟩
        exact fromReach_none _ hf p l (Dict.get_mem hl) k.addr hr (hnet p a1 k.addr x ((g.inv p a1).addr x k hk))
end net

/-! ### A network of three chains -/
namespace Demo

/-- Bodies of the demo: a letter is as many ones as its code and a zero, a text ends with 2, a list of texts with 3. -/
def encC (ch : Char) : Bytes := List.replicate ch.toNat 1 ++ [0]
def encS (s : String) : Bytes := s.toList.flatMap encC ++ [2]
def encN (n : Nat) : Bytes := List.replicate n 1 ++ [0]

def decN : Bytes → Nat → Option (Nat × Bytes)
  | 1 :: t, k => decN t (k + 1)
  | 0 :: t, k => some (k, t)
  | _, _ => none

def decS : Bytes → Nat → List Char → Option (String × Bytes)
  | 1 :: t, k, acc => decS t (k + 1) acc
  | 0 :: t, k, acc => decS t 0 (acc ++ [Char.ofNat k])
  | 2 :: t, _, acc => some (String.ofList acc, t)
  | _, _, _ => none

def decL : Nat → Bytes → List String → Option (List String)
  | 0, _, _ => none
  | _ + 1, [3], acc => some acc
  | f + 1, b, acc =>
    match decS b 0 [] with
    | some (s, t) => decL f t (acc ++ [s])
    | none => none

def enc : Inner → Bytes
  | .claim n r => 10 :: (encN n ++ encS r)
  | .response n => 11 :: encN n
  | .link a => 12 :: encS a
  | .unlink a => 13 :: encS a
  | .initial l => 14 :: (l.flatMap encS ++ [3])

def dec : Bytes → Option Inner
  | 10 :: t =>
    match decN t 0 with
    | some (n, u) => (decS u 0 []).map fun p => .claim n p.1
    | none => none
  | 11 :: t => (decN t 0).map fun p => .response p.1
  | 12 :: t => (decS t 0 []).map fun p => .link p.1
  | 13 :: t => (decS t 0 []).map fun p => .unlink p.1
  | 14 :: t => (decL (t.length + 1) t []).map .initial
  | _ => none

theorem decN_enc (u : Bytes) : ∀ n k, decN (encN n ++ u) k = some (k + n, u)
  | 0, k => rfl
  | n + 1, k => by
    have : encN (n + 1) ++ u = 1 :: (encN n ++ u) := by
      unfold encN; rw [List.replicate_succ]; rfl
    rw [this]
    show decN (encN n ++ u) (k + 1) = _
    rw [decN_enc u n (k + 1), Nat.add_right_comm, Nat.add_assoc]

theorem decS_ones (u : Bytes) (acc : List Char) : ∀ n k, decS (List.replicate n 1 ++ [0] ++ u) k acc = decS u 0 (acc ++ [Char.ofNat (k + n)])
  | 0, k => rfl
  | n + 1, k => by
    have : List.replicate (n + 1) (1 : UInt8) ++ [0] ++ u = 1 :: (List.replicate n 1 ++ [0] ++ u) := by
      rw [List.replicate_succ]; rfl
    rw [this]
    show decS (List.replicate n 1 ++ [0] ++ u) (k + 1) acc = _
    rw [decS_ones u acc n (k + 1), Nat.add_right_comm, Nat.add_assoc]

theorem decS_chars (u : Bytes) : ∀ (l acc : List Char), decS (l.flatMap encC ++ [2] ++ u) 0 acc = some (String.ofList (acc ++ l), u)
  | [], acc => by rw [List.append_nil]; rfl
  | ch :: t, acc => by
    have : (ch :: t).flatMap encC ++ [2] ++ u = List.replicate ch.toNat 1 ++ [0] ++ (t.flatMap encC ++ [2] ++ u) := by
      rw [List.flatMap_cons]; unfold encC; simp only [List.append_assoc]
    rw [this, decS_ones, decS_chars u t]
    rw [Nat.zero_add, Char.ofNat_toNat, List.append_assoc]
    rfl

theorem decS_enc (s : String) (u : Bytes) : decS (encS s ++ u) 0 [] = some (s, u) := by
  have := decS_chars u s.toList []
  unfold encS
  rw [this, List.nil_append, String.ofList_toList]

theorem encS_head (s : String) (u : Bytes) : encS s ++ u ≠ [3] := by
  intro e
  have := decS_enc s u
  rw [e] at this
  cases this

theorem decL_enc : ∀ (l : List String) (acc : List String) (f : Nat), l.length < f → decL f (l.flatMap encS ++ [3]) acc = some (acc ++ l)
  | [], acc, f + 1, _ => by rw [List.append_nil]; rfl
  | [], _, 0, h => absurd h (Nat.not_lt_zero _)
  | _ :: _, _, 0, h => absurd h (Nat.not_lt_zero _)
  | s :: t, acc, f + 1, h => by
    have e : (s :: t).flatMap encS ++ [3] = encS s ++ (t.flatMap encS ++ [3]) := by rw [List.flatMap_cons, List.append_assoc]
    rw [e]
    have := encS_head s (t.flatMap encS ++ [3])
    unfold decL
    split
    · rename_i heq; cases heq
    · rename_i heq; exact absurd heq this
    · rename_i hf _
      have hf' := Nat.succ.inj hf
      rw [decS_enc, ← hf']
      simp only
      rw [decL_enc t _ f (Nat.lt_of_succ_lt_succ h), List.append_assoc]
      rfl

theorem flat_len (l : List String) : l.length ≤ (l.flatMap encS ++ [3]).length := by
  induction l with
  | nil => simp
  | cons s t ih =>
    rw [List.flatMap_cons, List.append_assoc, List.length_append, List.length_cons]
    have : 1 ≤ (encS s).length := by unfold encS; simp
    omega

theorem dec_enc : ∀ i, dec (enc i) = some i
  | .claim n r => by
    show (match decN (encN n ++ encS r) 0 with
      | some (n, u) => (decS u 0 []).map (fun p : String × Bytes => Inner.claim n p.1)
      | none => none) = _
    rw [decN_enc, Nat.zero_add]
    simp only
    have := decS_enc r []
    rw [List.append_nil] at this
    rw [this]; rfl
  | .response n => by
    show (decN (encN n) 0).map _ = _
    have := decN_enc [] n 0
    rw [List.append_nil, Nat.zero_add] at this
    rw [this]; rfl
  | .link a => by
    show (decS (encS a) 0 []).map _ = _
    have := decS_enc a []
    rw [List.append_nil] at this
    rw [this]; rfl
  | .unlink a => by
    show (decS (encS a) 0 []).map _ = _
    have := decS_enc a []
    rw [List.append_nil] at this
    rw [this]; rfl
  | .initial l => by
    show (decL _ (l.flatMap encS ++ [3]) []).map _ = _
    rw [decL_enc l [] _ (Nat.lt_succ_of_le (flat_len l))]; rfl

/-- The chains A, B, C (and D outside) with message centers at a, b, c (d). -/
def netOf (a : String) : Option String :=
  if a = "a" then some "A" else if a = "b" then some "B" else if a = "c" then some "C" else if a = "d" then some "D" else none

def cfg (n : String) : Cfg where
  net := n
  addr := 0
  netOf := netOf
  reachNet := fun a => (netOf a).getD ""
  verify := fun _ _ _ _ => true
  decInner := dec
  decResp := fun _ => none
  encInner := enc
  encResp := fun _ => []
  parseAddr := fun _ => none
  alnum := fun _ => true

def addrOf (n : String) : String := if n = "A" then "a" else if n = "B" then "b" else "c"
def nets : List String := ["A", "B", "C"]

theorem setup : Setup addrOf cfg nets dec := by
  refine ⟨fun n _ => rfl, ?_, fun n _ => rfl, fun n _ => dec_enc⟩
  intro n _ p hp
  simp only [nets, List.mem_cons, List.not_mem_nil, or_false] at hp
  rcases hp with rfl | rfl | rfl <;> rfl

def env : Env := ⟨fun _ _ => true, true⟩
def cf (k : Conf) : Op := .conf env 1 k
def items : List Msg → Items
  | [] => .nil
  | m :: t => .cons m env none .nil (items t)

/-- What each chain does on its own: A and C are linked to B, B to A, C and D, and then no longer to D. -/
def opsA : List Op := [cf (.addVerifier "B" 9), cf (.addLink "b"), cf (.addRelay "b" 5)]
def opsB : List Op := [cf (.addVerifier "A" 9), cf (.addVerifier "C" 9), cf (.addVerifier "D" 9), cf (.addLink "a"), cf (.addLink "d"), cf (.addLink "c"),
  cf (.removeLink "d")]

def sA : St := run (cfg "A") 1 opsA
def sB : St := run (cfg "B") 1 opsB

/-- A reads all that B emitted for it: Init [], Link d, Link c, Unlink d. -/
def relayA : Op := .relay 5 "b" (items (since "a" sB.log []))
def sA' : St := (exec (cfg "A") relayA sA).getD sA

theorem runs (n : String) (hn : n ∈ nets) (S : String → St) (h : NReach addrOf cfg (fun _ => 1) nets S) : ∀ (ops : List Op) (s : St), S n = s →
    (∀ o ∈ ops, ∃ k, o = cf k) → (ops.foldl (fun s o => (exec (cfg n) o s).getD s) s).names.Nodup →
    (∀ i ≤ ops.length, ((ops.take i).foldl (fun s o => (exec (cfg n) o s).getD s) s).names.Nodup) →
    ∃ S', NReach addrOf cfg (fun _ => 1) nets S' ∧ S' n = ops.foldl (fun s o => (exec (cfg n) o s).getD s) s ∧ ∀ m, m ≠ n → S' m = S m := by
  intro ops
  induction ops generalizing S with
  | nil => intro s hs _ _ _; exact ⟨S, h, hs, fun _ _ => rfl⟩
  | cons o t ih =>
    intro s hs ho hnd hpre
    rw [List.foldl_cons] at hnd ⊢
    have hpre' : ∀ i ≤ t.length, ((t.take i).foldl (fun s o => (exec (cfg n) o s).getD s) ((exec (cfg n) o s).getD s)).names.Nodup := by
      intro i hi
      have := hpre (i + 1) (by rw [List.length_cons]; omega)
      rw [List.take_succ_cons, List.foldl_cons] at this
      exact this
    cases e : exec (cfg n) o s with
    | none =>
      rw [e] at hnd hpre'
      exact ih S h s hs (fun x hx => ho x (List.mem_cons_of_mem _ hx)) hnd hpre'
    | some s1 =>
      rw [e] at hnd hpre'
      have h1 := hpre' 0 (Nat.zero_le _)
      rw [List.take_zero] at h1
      obtain ⟨k, rfl⟩ := ho o List.mem_cons_self
      have hst := NReach.step n (cf k) s1 h hn rfl trivial (by rw [hs]; exact e) h1
      obtain ⟨S', r1, r2, r3⟩ := ih (upd S n s1) hst s1 (upd_same S n s1) (fun x hx => ho x (List.mem_cons_of_mem _ hx)) hnd hpre'
      exact ⟨S', r1, r2, fun m hm => by rw [r3 m hm]; exact upd_ne S s1 hm⟩

theorem reach : ∃ S, NReach addrOf cfg (fun _ => 1) nets S ∧ S "A" = sA' ∧ S "B" = sB := by
  obtain ⟨S1, r1, a1, b1⟩ := runs "A" (by decide) _ .init opsA (initSt 1) rfl
    (by intro o ho; simp only [opsA, List.mem_cons, List.not_mem_nil, or_false] at ho; rcases ho with rfl | rfl | rfl <;> exact ⟨_, rfl⟩)
    (by decide +kernel) (by decide +kernel)
  obtain ⟨S2, r2, a2, b2⟩ := runs "B" (by decide) _ r1 opsB (initSt 1) (by rw [b1 "B" (by decide)])
    (by intro o ho; simp only [opsB, List.mem_cons, List.not_mem_nil, or_false] at ho; rcases ho with rfl | rfl | rfl | rfl | rfl | rfl | rfl <;> exact ⟨_, rfl⟩)
    (by decide +kernel) (by decide +kernel)
  have hA : S2 "A" = sA := by rw [b2 "A" (by decide), a1]; rfl
  have hB : S2 "B" = sB := a2
  have hex : ∃ s, exec (cfg "A") relayA sA = some s := by
    cases e : exec (cfg "A") relayA sA with
    | some s => exact ⟨s, rfl⟩
    | none =>
      have : (exec (cfg "A") relayA sA).isSome = true := by decide +kernel
      rw [e] at this
      cases this
  obtain ⟨s, hs⟩ := hex
  have hs' : sA' = s := by unfold sA'; rw [hs]; rfl
  refine ⟨upd S2 "A" s, NReach.step "A" relayA s r2 (by decide) (by decide +kernel) ?_ (by rw [hA]; exact hs) (by rw [← hs']; decide +kernel), ?_, ?_⟩
  · refine ⟨"B", by decide, by decide, rfl, ?_⟩
    rw [hA, hB]
    have hl : ∃ l, getLinkA (cfg "A") sA "b" = some l ∧ l.rx = 0 := by
      cases e : getLinkA (cfg "A") sA "b" with
      | some l =>
        have : (getLinkA (cfg "A") sA "b").map (·.rx) = some 0 := by decide +kernel
        rw [e] at this
        exact ⟨l, rfl, Option.some.inj this⟩
      | none =>
        have : (getLinkA (cfg "A") sA "b").isSome = true := by decide +kernel
        rw [e] at this
        cases this
    obtain ⟨l, h1, h2⟩ := hl
    refine ⟨l, [], h1, ?_⟩
    rw [h2, List.drop_zero, List.append_nil]
    have hit : ∀ ms : List Msg, (items ms).msgs = ms := by
      intro ms
      induction ms with
      | nil => rfl
      | cons m t ih => show m :: (items t).msgs = _; rw [ih]
    exact (hit _).symm
  · rw [upd_same, hs']
  · rw [upd_ne _ _ (by decide)]; exact hB

/-- A has read four announcements of B, holds c reachable over b (and d no longer), and sends messages for C to b. -/
example : ((Dict.get sA'.links "B").map (fun l => (l.rx, l.reach))) = some (4, ["c"]) ∧
    (resolve (cfg "A") sA' "C").toOption = some "b" ∧ (resolve (cfg "A") sA' "D").toOption = none ∧
    ((sB.links).map (fun p => (p.1, p.2.addr))) = [("A", "a"), ("C", "c")] ∧ (since "a" sB.log []).length = 4 ∧ (since "c" sB.log []).length = 2 ∧
    (Dict.get sA'.links "C").isNone = true ∧ (Dict.get sA'.routes "C").isNone = true ∧
    ((Dict.get sA'.links "B").map (fun l => (handled l.gen sA'.disp).contains none)) = some false := by decide +kernel
end Demo

end Verif.JavaBmc.Ann
