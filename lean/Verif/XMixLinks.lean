import Verif.XMixInv
import Verif.JavaBmcInv
import Verif.SolLinksProps
/-!
The network of XMix with links: messages are not taken from a pool, but read by number from what the other chain emitted.

* `addr n` is the BTP address of the message center of the network `n`; different networks have different addresses.
* A relay call on `n` for the link to `p` brings the messages `p` emitted for `n` that follow the number `n` has received from `p`; that
  verifiers release nothing else is C40, C41, C50, C135, C142, C143.
* An owner who drops a message gives its source, service and numbers as `p` emitted it.
* A link of ICON may be removed, but is not added again; numbers of EVM links are not cleared. (The numbers would start again at 0.)
-/
namespace Verif.XMix
open Verif
open Verif.SolBmc (upd)
open Verif.SolNet (osum psum osum_congr osum_add osum_one psum_congr psum_add psum_one psum_zero upd_same' upd_other')
open Verif.MixNet
open Verif.JavaBmc

/-! ### Lists of messages with the link each goes to -/
section wires
variable {M : Type} [DecidableEq M]

/-- The messages for one link, in order. -/
def toLink (a : String) (l : List (String × M)) : List M := l.filterMap fun e => if e.1 = a then some e.2 else none

/-- The messages for no other chain of the network. -/
def stray (addr : String → String) (nets : List String) (n : String) (l : List (String × M)) : List M :=
  l.filterMap fun e => if nets.any (fun q => decide (q ≠ n) && decide (addr q = e.1)) then none else some e.2

omit [DecidableEq M] in
theorem toLink_append (a : String) (l k : List (String × M)) : toLink a (l ++ k) = toLink a l ++ toLink a k := List.filterMap_append ..
omit [DecidableEq M] in
theorem stray_append (addr : String → String) (nets : List String) (n : String) (l k : List (String × M)) :
    stray addr nets n (l ++ k) = stray addr nets n l ++ stray addr nets n k := List.filterMap_append ..

theorem osum_zero : ∀ l : List String, osum l (fun _ => 0) = 0
  | [] => rfl
  | a :: t => by
    have := osum_zero t
    unfold osum at this ⊢
    rw [List.map_cons, List.sum_cons, this]

/-- Every message is for one other chain, or for none. -/
theorem split_count (addr : String → String) (nets : List String) (hn : nets.Nodup) (hinj : ∀ a ∈ nets, ∀ b ∈ nets, addr a = addr b → a = b) (n : String) (m : M) :
    ∀ l : List (String × M), (l.map (·.2)).count m = osum nets (fun q => if n = q then 0 else (toLink (addr q) l).count m) + (stray addr nets n l).count m
  | [] => by
    have h1 : osum nets (fun q => if n = q then 0 else (toLink (addr q) ([] : List (String × M))).count m) = osum nets (fun _ => 0) := by
      apply osum_congr; intro q _; split <;> rfl
    rw [h1, osum_zero]; rfl
  | (a, x) :: t => by
    have ih := split_count addr nets hn hinj n m t
    have e2 : ∀ q, (toLink (addr q) ((a, x) :: t)).count m = (toLink (addr q) t).count m + (if a = addr q then (if x = m then 1 else 0) else 0) := by
      intro q
      unfold toLink
      rw [List.filterMap_cons]
      by_cases h : a = addr q
      · simp only [if_pos h, List.count_cons, beq_iff_eq]
      · simp only [if_neg h, Nat.add_zero]
    have e3 : ∀ q, (if n = q then 0 else (toLink (addr q) ((a, x) :: t)).count m) = (if n = q then 0 else (toLink (addr q) t).count m) +
        (if n = q then 0 else if a = addr q then (if x = m then 1 else 0) else 0) := by
      intro q; rw [e2]; split <;> rfl
    rw [osum_congr _ _ nets (fun q _ => e3 q), osum_add, List.map_cons, List.count_cons, ih]
    simp only [beq_iff_eq]
    by_cases h : ∃ q ∈ nets, q ≠ n ∧ addr q = a
    · obtain ⟨q0, hq0, hne, h⟩ := h
      have h3 : osum nets (fun q => if n = q then 0 else if a = addr q then (if x = m then 1 else 0) else 0) =
          osum nets (fun q => if q = q0 then (if x = m then 1 else 0) else 0) := by
        apply osum_congr
        intro q hq
        by_cases e : q = q0
        · subst e; rw [if_neg (fun e => hne e.symm), if_pos h.symm, if_pos rfl]
        · rw [if_neg e, if_neg (c := a = addr q) (fun e' => e (hinj q hq q0 hq0 (e'.symm.trans h.symm))), ite_self]
      rw [h3, osum_one q0 _ nets hn, if_pos hq0]
      have h4 : stray addr nets n ((a, x) :: t) = stray addr nets n t := by
        unfold stray
        rw [List.filterMap_cons]
        rw [if_pos (List.any_eq_true.2 ⟨q0, hq0, by simp [hne, h]⟩)]
      rw [h4]; omega
    · have h3 : osum nets (fun q => if n = q then 0 else if a = addr q then (if x = m then 1 else 0) else 0) = osum nets (fun _ => 0) := by
        apply osum_congr
        intro q hq
        by_cases e : n = q
        · rw [if_pos e]
        · rw [if_neg e, if_neg (fun e' => h ⟨q, hq, fun e2 => e e2.symm, e'.symm⟩)]
      rw [h3, osum_zero]
      have h4 : stray addr nets n ((a, x) :: t) = x :: stray addr nets n t := by
        unfold stray
        rw [List.filterMap_cons]
        rw [if_neg (fun h' => by
          obtain ⟨q, hq, h5⟩ := List.any_eq_true.1 h'
          rw [Bool.and_eq_true, decide_eq_true_eq, decide_eq_true_eq] at h5
          exact h ⟨q, hq, h5.1, h5.2⟩)]
      rw [h4, List.count_cons]
      simp only [beq_iff_eq]
      omega

theorem perm_of_count : ∀ (d P : List M), (∀ m, d.count m ≤ P.count m) → ∃ rest, P.Perm (d ++ rest)
  | [], P, _ => ⟨P, .refl _⟩
  | a :: t, P, h => by
    have h1 := h a
    rw [List.count_cons_self] at h1
    have hm : a ∈ P := List.count_pos_iff.1 (by omega)
    have hp := List.perm_cons_erase hm
    obtain ⟨rest, hr⟩ := perm_of_count t (P.erase a) (fun m => by
      have h2 := h m
      have h3 := hp.count_eq m
      rw [List.count_cons] at h2 h3
      omega)
    exact ⟨rest, hp.trans (hr.cons a)⟩

/-- What is under way is what was not read from a link, and what is for no chain of the network. `outs p` is what `p` emitted, `cur p q` the
    number of messages `q` has read from `p`. -/
structure Wires (addr : String → String) (nets : List String) (outs : String → List (String × M)) (cur : String → String → Nat) (P : List M) : Prop where
  le : ∀ p ∈ nets, ∀ q ∈ nets, p ≠ q → cur p q ≤ (toLink (addr q) (outs p)).length
  pool : ∀ m, P.count m = psum nets (fun p q => ((toLink (addr q) (outs p)).drop (cur p q)).count m) + osum nets (fun p => (stray addr nets p (outs p)).count m)

variable {addr : String → String} {nets : List String} {outs : String → List (String × M)} {cur : String → String → Nat} {P : List M}

theorem Wires.take (g : Wires addr nets outs cur P) (n p : String) (hnm : n ∈ nets) (hpm : p ∈ nets) (hne : p ≠ n) (D later : List M)
    (hu : (toLink (addr n) (outs p)).drop (cur p n) = D ++ later) : ∃ rest, P.Perm (D ++ rest) := by
  apply perm_of_count
  intro m
  have h1 := g.pool m
  have h2 : D.count m ≤ ((toLink (addr n) (outs p)).drop (cur p n)).count m := by rw [hu, List.count_append]; omega
  have h4 := SolNet.osum_mem (fun p => osum nets fun q => if p = q then 0 else ((toLink (addr q) (outs p)).drop (cur p q)).count m) p nets hpm
  have h5 := SolNet.osum_mem (fun q => if p = q then 0 else ((toLink (addr q) (outs p)).drop (cur p q)).count m) n nets hnm
  rw [if_neg hne] at h5
  have : psum nets (fun p q => ((toLink (addr q) (outs p)).drop (cur p q)).count m) =
    osum nets fun p => osum nets fun q => if p = q then 0 else ((toLink (addr q) (outs p)).drop (cur p q)).count m := rfl
  omega

/-- `n` emits `new` and reads `del a` from each `a`, together `D`. -/
theorem Wires.step (g : Wires addr nets outs cur P) (hn : nets.Nodup) (hinj : ∀ a ∈ nets, ∀ b ∈ nets, addr a = addr b → a = b) (n : String) (hnm : n ∈ nets)
    (D rest : List M) (del : String → List M) (new : List (String × M)) (outs' : String → List (String × M)) (cur' : String → String → Nat)
    (ho : outs' = upd outs n (outs n ++ new)) (hc : ∀ a ∈ nets, ∀ b ∈ nets, b ≠ n → cur' a b = cur a b)
    (hu : ∀ a ∈ nets, a ≠ n → ∃ later, (toLink (addr n) (outs a)).drop (cur a n) = del a ++ later ∧ cur' a n = cur a n + (del a).length)
    (hdel : ∀ m, psum nets (fun a b => if b = n then (del a).count m else 0) = D.count m) (hP : P.Perm (D ++ rest)) :
    Wires addr nets outs' cur' (rest ++ new.map (·.2)) := by
  subst ho
  refine ⟨?_, fun m => ?_⟩
  · intro a ha b hb hab
    have h0 := g.le a ha b hb hab
    by_cases e1 : a = n
    · subst e1
      rw [hc a ha b hb (fun e => hab e.symm), upd_same', toLink_append, List.length_append]
      omega
    · rw [upd_other' _ _ _ _ e1]
      by_cases e2 : b = n
      · subst e2
        obtain ⟨later, h1, h2⟩ := hu a ha e1
        rw [h2]
        have : ((toLink (addr b) (outs a)).drop (cur a b)).length = (del a).length + later.length := by rw [h1, List.length_append]
        rw [List.length_drop] at this
        omega
      · rw [hc a ha b hb e2]; exact h0
  · have hmain : ∀ a ∈ nets, ∀ b ∈ nets, a ≠ b → ((toLink (addr b) (upd outs n (outs n ++ new) a)).drop (cur' a b)).count m + (if b = n then (del a).count m else 0) =
        ((toLink (addr b) (outs a)).drop (cur a b)).count m + (if a = n then (toLink (addr b) new).count m else 0) := by
      intro a ha b hb hab
      by_cases e1 : a = n
      · subst e1
        rw [if_neg (fun h => hab h.symm), if_pos rfl, upd_same', hc a ha b hb (fun e => hab e.symm), toLink_append,
          List.drop_append_of_le_length (g.le a ha b hb hab), List.count_append, Nat.add_zero]
      · rw [if_neg e1, Nat.add_zero, upd_other' _ _ _ _ e1]
        by_cases e2 : b = n
        · subst e2
          rw [if_pos rfl]
          obtain ⟨later, h1, h2⟩ := hu a ha e1
          rw [h2, ← List.drop_drop, h1, List.drop_append_of_le_length (Nat.le_refl _), List.drop_length, List.nil_append, List.count_append]
          omega
        · rw [if_neg e2, hc a ha b hb e2]; rfl
    have h1 := psum_congr nets _ _ hmain
    rw [psum_add, psum_add, hdel m] at h1
    have hrow : psum nets (fun a b => if a = n then (toLink (addr b) new).count m else 0) = osum nets (fun q => if n = q then 0 else (toLink (addr q) new).count m) := by
      have h0 := osum_one n (osum nets (fun q => if n = q then 0 else (toLink (addr q) new).count m)) nets hn
      rw [if_pos hnm] at h0
      rw [← h0]
      apply osum_congr
      intro p _
      by_cases e : p = n
      · subst e
        rw [if_pos rfl]
        apply osum_congr
        intro q _
        dsimp only
        rw [if_pos rfl]
      · rw [if_neg e]
        refine Eq.trans (osum_congr _ _ nets (fun q _ => ?_)) (osum_zero nets)
        dsimp only
        rw [if_neg e, ite_self]
    have h2 := split_count addr nets hn hinj n m new
    have hst : osum nets (fun p => (stray addr nets p (upd outs n (outs n ++ new) p)).count m) =
        osum nets (fun p => (stray addr nets p (outs p)).count m) + (stray addr nets n new).count m := by
      have h0 := osum_one n ((stray addr nets n new).count m) nets hn
      rw [if_pos hnm] at h0
      rw [← h0, ← osum_add]
      apply osum_congr
      intro p _
      by_cases e : p = n
      · subst e
        rw [upd_same', if_pos rfl, stray_append, List.count_append]
      · rw [upd_other' _ _ _ _ e, if_neg e]; rfl
    have h4 := g.pool m
    have h5 := hP.count_eq m
    rw [List.count_append] at h5 ⊢
    omega

theorem Wires.init : Wires addr nets (fun _ => []) (fun _ _ => 0) ([] : List M) :=
  ⟨fun _ _ _ _ _ => Nat.le_refl _, fun m => by
    have h1 := psum_zero nets
    have h2 := osum_zero nets
    show 0 = psum nets (fun _ _ => 0) + osum nets (fun _ => 0)
    omega⟩

theorem osum_pos (f : String → Nat) : ∀ l : List String, 0 < osum l f → ∃ a ∈ l, 0 < f a
  | [], h => absurd h (Nat.lt_irrefl _)
  | a :: t, h => by
    have h' : 0 < f a + osum t f := h
    by_cases e : 0 < f a
    · exact ⟨a, List.mem_cons_self .., e⟩
    · obtain ⟨b, hb, h2⟩ := osum_pos f t (by omega)
      exact ⟨b, List.mem_cons_of_mem _ hb, h2⟩

/-- A message under way is not read from its link, or is for no chain of the network. -/
theorem Wires.mem (g : Wires addr nets outs cur P) (m : M) (h : m ∈ P) :
    (∃ p ∈ nets, ∃ q ∈ nets, p ≠ q ∧ m ∈ (toLink (addr q) (outs p)).drop (cur p q)) ∨ ∃ p ∈ nets, m ∈ stray addr nets p (outs p) := by
  have h1 := g.pool m
  have h2 := List.count_pos_iff.2 h
  by_cases e : 0 < osum nets (fun p => (stray addr nets p (outs p)).count m)
  · obtain ⟨p, hp, h3⟩ := osum_pos _ _ e
    exact .inr ⟨p, hp, List.count_pos_iff.1 h3⟩
  · obtain ⟨p, hp, h3⟩ := osum_pos (fun p => osum nets fun q => if p = q then 0 else ((toLink (addr q) (outs p)).drop (cur p q)).count m) nets (by
      have : psum nets (fun p q => ((toLink (addr q) (outs p)).drop (cur p q)).count m) =
        osum nets fun p => osum nets fun q => if p = q then 0 else ((toLink (addr q) (outs p)).drop (cur p q)).count m := rfl
      omega)
    obtain ⟨q, hq, h4⟩ := osum_pos _ _ h3
    by_cases e2 : p = q
    · rw [if_pos e2] at h4; exact absurd h4 (Nat.lt_irrefl _)
    · rw [if_neg e2] at h4
      exact .inl ⟨p, hp, q, hq, e2, List.count_pos_iff.1 h4⟩
end wires

/-! ### ICON: numbers taken -/

/-- While a relay call is under way (a place with the number 0 never comes up), no other takes messages. -/
theorem tr_zero {c : Cfg} {P : List (Nat × Nat × Option Msg)} {s : St} {P' : List (Nat × Nat × Option Msg)} {s' : St} (t : Tr c true P s P' s') :
    (∃ e ∈ P', e.2.1 = 0) → (∃ e ∈ P, e.2.1 = 0) ∧ s'.taken = s.taken ∧ s'.disp ++ P' = s.disp ++ P := by
  have hput : ∀ (s : St) (l : Link), (putLink c s l).taken = s.taken ∧ (putLink c s l).disp = s.disp := Tr.putLink_fields
  induction t with
  | refl P s => exact fun h => ⟨h, rfl, rfl⟩
  | trans _ _ ih1 ih2 =>
    intro h
    obtain ⟨h1, h2, h3⟩ := ih2 h
    obtain ⟨h4, h5, h6⟩ := ih1 h1
    exact ⟨h4, h2.trans h5, h3.trans h6⟩
  | money => exact fun h => ⟨h, rfl, rfl⟩
  | bump => exact fun h => ⟨h, rfl, rfl⟩
  | sent P s next l m hl hid => exact fun h => ⟨h, (hput _ _).1, by dsimp only; rw [(hput _ _).2]⟩
  | chain P s id next l m hl hid => exact fun h => ⟨h, (hput _ _).1, by dsimp only; rw [(hput _ _).2]⟩
  | dropped => exact fun h => ⟨h, rfl, rfl⟩
  | reach P s net l r hl => exact fun h => ⟨h, (hput _ _).1, by rw [(hput _ _).2]⟩
  | settle => exact fun h => ⟨h, rfl, rfl⟩
  | request P s s1 r _ _ _ _ ih => exact ih
  | cfg => exact fun h => ⟨h, rfl, rfl⟩
  | addRoute => exact fun h => ⟨h, rfl, rfl⟩
  | delRoute => exact fun h => ⟨h, rfl, rfl⟩
  | addLink => exact fun h => ⟨h, rfl, rfl⟩
  | delLink => exact fun h => ⟨h, rfl, rfl⟩
  | delBtp => exact fun h => ⟨h, rfl, rfl⟩
  | bind => exact fun h => ⟨h, rfl, rfl⟩
  | take P s net l ms hs hl hv =>
    intro ⟨e, he, h0⟩
    have hP := hs rfl
    subst hP
    rw [List.append_nil] at he
    obtain ⟨-, i, hi, -⟩ := mem_entries ms _ _ _ _ (show (e.1, e.2.1, e.2.2) ∈ _ from he)
    omega
  | disp P s g n m =>
    intro ⟨e, he, h0⟩
    exact ⟨⟨e, List.mem_cons_of_mem _ he, h0⟩, rfl, by dsimp only; rw [List.append_assoc]; rfl⟩

theorem tr_names {c : Cfg} {b : Bool} {P : List (Nat × Nat × Option Msg)} {s : St} {P' : List (Nat × Nat × Option Msg)} {s' : St} (t : Tr c b P s P' s') :
    ∃ k, s'.names = s.names ++ k := by
  have hput : ∀ (s : St) (l : Link), (putLink c s l).names = s.names := by intro s l; unfold putLink; split <;> rfl
  have hsame : ∀ {s s' : St}, s'.names = s.names → ∃ k, s'.names = s.names ++ k := fun e => ⟨[], by rw [e, List.append_nil]⟩
  induction t with
  | refl P s => exact hsame rfl
  | trans _ _ ih1 ih2 =>
    obtain ⟨k1, h1⟩ := ih1
    obtain ⟨k2, h2⟩ := ih2
    exact ⟨k1 ++ k2, by rw [h2, h1, List.append_assoc]⟩
  | money => exact hsame rfl
  | bump => exact hsame rfl
  | sent P s next l m hl hid => exact hsame (hput _ _)
  | chain P s id next l m hl hid => exact hsame (hput _ _)
  | dropped => exact hsame rfl
  | reach P s net l r hl => exact hsame (hput _ _)
  | settle => exact hsame rfl
  | request P s s1 r _ _ _ _ ih => exact ih
  | cfg => exact hsame rfl
  | addRoute => exact hsame rfl
  | delRoute => exact hsame rfl
  | addLink P s net link hn hnone => exact ⟨[link], rfl⟩
  | delLink => exact hsame rfl
  | delBtp => exact hsame rfl
  | bind => exact hsame rfl
  | take P s net l ms hs hl hv => exact hsame (hput _ _)
  | disp => exact hsame rfl

/-- Nothing is taken, links may be added. -/
structure Idle (s s' : St) : Prop where
  taken : s'.taken = s.taken
  disp : s'.disp = s.disp
  names : ∃ k, s'.names = s.names ++ k

theorem tr_idle {c : Cfg} {s s' : St} (t : Tr c true [(0, 0, none)] s [(0, 0, none)] s') : Idle s s' := by
  obtain ⟨-, h2, h3⟩ := tr_zero t ⟨_, List.mem_singleton.2 rfl, rfl⟩
  exact ⟨h2, List.append_cancel_right h3, tr_names t⟩

theorem tr_items {c : Cfg} {s s' : St} {es : List (Nat × Nat × Option Msg)} (t : Tr c true (es ++ [(0, 0, none)]) s [(0, 0, none)] s') :
    s'.taken = s.taken ∧ s'.disp = s.disp ++ es ∧ ∃ k, s'.names = s.names ++ k := by
  obtain ⟨-, h2, h3⟩ := tr_zero t ⟨_, List.mem_singleton.2 rfl, rfl⟩
  rw [← List.append_assoc] at h3
  exact ⟨h2, List.append_cancel_right h3, tr_names t⟩

/-! ### The network with links -/

/-- A message an EVM message center emitted, with the link it is for. -/
def outE : SolBmc.Event → List (String × Msg)
  | .message next _ m => [(next, emb m)]
  | _ => []

/-- A message a message center of ICON emitted (BTPMessageCenter.java:846-853), with the link it is for. -/
def outJ : Event → List (String × Msg)
  | .message next _ m => [(next, m)]
  | .chain _ next _ m => [(next, m)]
  | _ => []

/-- The messages emitted, each with its link. -/
def outs : MixNet.Node → List (String × Msg)
  | .evm s => s.log.flatMap outE
  | .icon s => s.log.flatMap outJ

/-- What a message center handled of a link, in order, as an EVM chain reads it; `none` is a message its owner dropped. -/
def heard : MixNet.Node → String → List (Option SolBmc.Msg)
  | .evm s, a => s.disp a
  | .icon s, a => (s.disp.filter fun e => decide (s.names[e.1]? = some a)).map fun e => e.2.2.map tr

/-- The chains: message centers and call services. -/
structure LNet where
  st : String → MixNet.Node
  x : String → XCall.St

def LNet.net (L : LNet) (P : List Msg) : Net := ⟨⟨L.st, P⟩, L.x⟩

def LNet.next (L : LNet) (n : String) (b : MixNet.Node) (x : XCall.St) : LNet := ⟨upd L.st n b, upd L.x n x⟩

/-- The messages `p` emitted for `n` from the number `k` on. -/
def after (addr : String → String) (L : LNet) (p n : String) (k : Nat) : List Msg := (toLink (addr n) (outs (L.st p))).drop k

/-- One call on one of the chains; the messages of a relay call are the next ones of the link. -/
inductive LStep (addr : String → String) (nd : String → Chain) (nets : List String) (L : LNet) : LNet → Prop where
  | evmCall (n : String) (v : XNet.Node) (s : SolBmc.St) (o : XNet.JOp) (j : XNet.J) : n ∈ nets → nd n = .evm v → L.st n = .evm s →
      XNet.Fine v o → XNet.jexec v o ⟨s, L.x n⟩ = some j → LStep addr nd nets L (L.next n (.evm j.b) j.x)
  | evmRelay (n p : String) (v : XNet.Node) (s : SolBmc.St) (env : SolBmc.Env) (caller : Nat) (items : XNet.JItems) (D later : List Msg) (j : XNet.J) :
      n ∈ nets → p ∈ nets → p ≠ n → nd n = .evm v → L.st n = .evm s → XNet.FineItems v items → items.msgs = D.map tr →
      after addr L p n (s.rx (addr p)) = D ++ later → XNet.jrelay v env caller (addr p) items ⟨s, L.x n⟩ = some j →
      LStep addr nd nets L (L.next n (.evm j.b) j.x)
  | evmDrop (n p : String) (v : XNet.Node) (s : SolBmc.St) (env : SolBmc.Env) (seq : Nat) (m : Msg) (later : List Msg) (s' : SolBmc.St) :
      n ∈ nets → p ∈ nets → p ≠ n → nd n = .evm v → L.st n = .evm s → env.resolve m.src = some (addr p) →
      after addr L p n (s.rx (addr p)) = m :: later →
      SolBmc.exec v.bmc (.drop env m.src seq m.svc m.sn m.nsn (tr m).fee) s = some s' → LStep addr nd nets L (L.next n (.evm s') (L.x n))
  | iconCall (n : String) (v : INode) (s : St) (o : IOp) (j : IJ) : n ∈ nets → nd n = .icon v → L.st n = .icon s →
      IFine v o → iexec v o ⟨s, L.x n⟩ = some j → LStep addr nd nets L (L.next n (.icon j.b) j.x)
  | iconRelay (n p : String) (v : INode) (s : St) (l : Link) (caller : Nat) (items : IItems) (later : List Msg) (j : IJ) :
      n ∈ nets → p ∈ nets → p ≠ n → nd n = .icon v → L.st n = .icon s → IFineItems v items → getLinkA v.c s (addr p) = some l →
      after addr L p n l.rx = items.msgs ++ later → irelay v caller (addr p) items ⟨s, L.x n⟩ = some j →
      LStep addr nd nets L (L.next n (.icon j.b) j.x)
  | iconDrop (n p : String) (v : INode) (s : St) (l : Link) (env : Env) (caller seq : Nat) (m : Msg) (fn : String) (fv : List Nat) (later : List Msg)
      (s' : St) : n ∈ nets → p ∈ nets → p ≠ n → nd n = .icon v → L.st n = .icon s → resolve v.c s m.src = .ok (addr p) →
      getLinkA v.c s (addr p) = some l → after addr L p n l.rx = m :: later →
      JavaBmc.exec v.c (.drop env caller m.src seq m.svc m.sn m.nsn fn fv) s = some s' → LStep addr nd nets L (L.next n (.icon s') (L.x n))

/-- The states reached. No link of ICON is added twice. -/
inductive LReach (addr : String → String) (nd : String → Chain) (nets : List String) (bal : String → Nat) : LNet → Prop where
  | init : LReach addr nd nets bal ⟨fun n => (nd n).kind.init, fun n => XCall.init (bal n)⟩
  | step {L L' : LNet} : LReach addr nd nets bal L → LStep addr nd nets L L' → Sane nd (L'.net []) →
      (∀ n s, L'.st n = .icon s → s.names.Nodup) → LReach addr nd nets bal L'

end Verif.XMix
