import Verif.SolAnswer
/-!
The invariant of requests and answers in the network of EVM message centers, kept by every move of SolAnswer.
-/
namespace Verif.SolNet
open Verif Verif.SolBmc

/-- The message `k` of `n` as it was first sent. -/
def orig (L : String → List Event) (n : String) (k : Int) : Option Msg := (msgsOf (L n)).find? fun m => decide (m.src = n ∧ m.nsn = k)

theorem orig_mem {L : String → List Event} {n : String} {k : Int} {m : Msg} (h : orig L n k = some m) :
    m ∈ msgsOf (L n) ∧ m.src = n ∧ m.nsn = k := by
  unfold orig at h
  exact ⟨List.mem_of_find?_eq_some h, of_decide_eq_true (List.find?_some (p := fun m : Msg => decide (m.src = n ∧ m.nsn = k)) h)⟩

/-- Events are added. -/
def Ext (L L' : String → List Event) : Prop := ∀ a, ∃ e, L' a = L a ++ e

theorem Ext.upd (L : String → List Event) (n : String) (e : List Event) : Ext L (upd L n (L n ++ e)) := by
  intro a
  by_cases h : a = n
  · exact ⟨e, by rw [h, show SolBmc.upd L n (L n ++ e) n = _ from if_pos rfl]⟩
  · exact ⟨[], by rw [show SolBmc.upd L n (L n ++ e) a = _ from if_neg h, List.append_nil]⟩

theorem Ext.mem {L L' : String → List Event} (h : Ext L L') {a : String} {x : Event} (hx : x ∈ L a) : x ∈ L' a := by
  obtain ⟨e, he⟩ := h a
  rw [he]; exact List.mem_append_left _ hx

theorem Ext.msg {L L' : String → List Event} (h : Ext L L') {a : String} {x : Msg} (hx : x ∈ msgsOf (L a)) : x ∈ msgsOf (L' a) := by
  obtain ⟨e, he⟩ := h a
  rw [he, msgsOf_append]; exact List.mem_append_left _ hx

theorem Ext.orig {L L' : String → List Event} (h : Ext L L') {n : String} {k : Int} {m : Msg} (hm : SolNet.orig L n k = some m) :
    SolNet.orig L' n k = some m := by
  obtain ⟨e, he⟩ := h n
  unfold SolNet.orig at hm ⊢
  rw [he, msgsOf_append, List.find?_append, hm]; rfl

variable (nets : List String)

/-- A message is a message of a chain as first sent, or an answer to such a message: an error from anywhere, or what the service of
    the same name on the chain it was sent to answered. -/
structure Auth (L : String → List Event) (m : Msg) : Prop where
  zero : m.nsn ≠ 0
  pos : 0 < m.sn → 0 < m.nsn
  neg : m.sn < 0 → m.nsn < 0
  req : 0 < m.nsn → m.src ∈ nets ∧ ∃ m0, orig L m.src m.nsn = some m0 ∧ SameMsg m0 m
  ans : m.nsn < 0 → m.dst ∈ nets ∧ ∃ m0, orig L m.dst (-m.nsn) = some m0 ∧ m0.svc = m.svc ∧ 0 < m0.sn ∧
    (m.sn = -m0.sn ∨ (m.sn = 0 ∧ m.src = m0.dst))
  bmc : m.svc = "bmc" → 0 < m.sn → m.sn = m.nsn

/-- An answer owed by `a` belongs to a message that was sent to it. -/
def Kept (L : String → List Event) (a x svc : String) (sn k : Int) : Prop :=
  0 < k ∧ x ∈ nets ∧ ∃ m0, orig L x k = some m0 ∧ m0.svc = svc ∧ m0.sn = sn ∧ 0 < sn ∧ m0.dst = a

variable {nets}

theorem Auth.ext {L L' : String → List Event} (h : Ext L L') {m : Msg} (g : Auth nets L m) : Auth nets L' m := by
  refine ⟨g.zero, g.pos, g.neg, fun hp => ?_, fun hp => ?_, g.bmc⟩
  · obtain ⟨h1, m0, h2, h3⟩ := g.req hp
    exact ⟨h1, m0, h.orig h2, h3⟩
  · obtain ⟨h1, m0, h2, h3⟩ := g.ans hp
    exact ⟨h1, m0, h.orig h2, h3⟩

theorem Auth.same {L : String → List Event} {m m' : Msg} (g : Auth nets L m) (h : SameMsg m m') : Auth nets L m' := by
  refine ⟨by rw [h.nsn]; exact g.zero, by rw [h.sn, h.nsn]; exact g.pos, by rw [h.sn, h.nsn]; exact g.neg, fun hp => ?_, fun hp => ?_,
    by rw [h.svc, h.sn, h.nsn]; exact g.bmc⟩
  · rw [h.nsn] at hp
    obtain ⟨h1, m0, h2, h3⟩ := g.req hp
    rw [h.src, h.nsn]
    exact ⟨h1, m0, h2, h3.trans h⟩
  · rw [h.nsn] at hp
    obtain ⟨h1, m0, h2, h3⟩ := g.ans hp
    rw [h.dst, h.nsn, h.svc, h.sn, h.src]
    exact ⟨h1, m0, h2, h3⟩

theorem Kept.ext {L L' : String → List Event} (h : Ext L L') {a x svc : String} {sn k : Int} (g : Kept nets L a x svc sn k) :
    Kept nets L' a x svc sn k := by
  obtain ⟨h1, h2, m0, h3, h4⟩ := g
  exact ⟨h1, h2, m0, h.orig h3, h4⟩

variable (nets)

/-- Where the answer to a request of `n` is: the request is under way, its answer is owed, under way or there, another request took its
    place, or an answer was given up. -/
inductive Acc (A : String → Abs) (L : String → List Event) (P : List Msg) (T : String → List Msg) (n : String) (m0 : Msg) : Prop where
  | under (m : Msg) : m ∈ P → m.src = n → m.nsn = m0.nsn → Acc A L P T n m0
  | owed : m0.dst ∈ nets → owed (A m0.dst) (n, m0.svc, m0.sn) = m0.nsn → Acc A L P T n m0
  | back (m : Msg) : m ∈ P → m.dst = n → m.nsn = -m0.nsn → Acc A L P T n m0
  | there (m : Msg) : m ∈ T n → m.dst = n → m.nsn = -m0.nsn → Acc A L P T n m0
  | again (m1 : Msg) : m1 ∈ msgsOf (L n) → m1.src = n → m1.nsn ≠ m0.nsn → m1.dst = m0.dst → m1.svc = m0.svc → m1.sn = m0.sn → Acc A L P T n m0
  | lost (a : String) (p : String) (q : Nat) (m' : Msg) (code : Nat) : a ∈ nets → Event.dropped p q m' code ∈ L a → m'.nsn = -m0.nsn → Acc A L P T n m0
  /-- the request was given up with no answer sent -/
  | fallen (a : String) (p : String) (q : Nat) (m' : Msg) (code : Nat) : a ∈ nets → (A a).ic = true → Event.dropped p q m' code ∈ L a → m'.src = n →
      m'.nsn = m0.nsn → Acc A L P T n m0

/-- The token of message `k` of `n`: owed, under way, or taken as an answer. -/
def weight (A : String → Abs) (P : List Msg) (T : String → List Msg) (n : String) (k : Int) : Nat :=
  osum nets (fun a => kept (A a) n k) + P.countP (isTok n k) + (T n).countP (isAns n k)

structure Inv (A : String → Abs) (L : String → List Event) (P : List Msg) (T : String → List Msg) : Prop where
  start : ∀ a ∈ nets, 0 ≤ (A a).nsn
  num : ∀ a ∈ nets, ∀ m ∈ msgsOf (L a), m.src = a → m.nsn ≤ (A a).nsn
  log : ∀ a ∈ nets, ∀ m ∈ msgsOf (L a), Auth nets L m
  pool : ∀ m ∈ P, Auth nets L m
  got : ∀ a ∈ nets, ∀ m ∈ T a, Auth nets L m
  kept : ∀ a ∈ nets, ∀ x svc sn, owed (A a) (x, svc, sn) = 0 ∨ Kept nets L a x svc sn (owed (A a) (x, svc, sn))
  tok : ∀ n ∈ nets, ∀ k, 0 < k → weight nets A P T n k ≤ used n (A n) n k
  acc : ∀ n ∈ nets, ∀ m0 ∈ msgsOf (L n), m0.src = n → 0 < m0.sn → Acc nets A L P T n m0

variable {nets}

theorem Inv.perm {A : String → Abs} {L : String → List Event} {P P' : List Msg} {T : String → List Msg} (h : P.Perm P') (g : Inv nets A L P T) :
    Inv nets A L P' T := by
  refine ⟨g.start, g.num, g.log, fun m hm => g.pool m (h.mem_iff.2 hm), g.got, g.kept, fun n hn k hk => ?_, fun n hn m0 hm h1 h2 => ?_⟩
  · have := g.tok n hn k hk
    unfold weight at this ⊢
    rw [← h.countP_eq]; exact this
  · rcases g.acc n hn m0 hm h1 h2 with ⟨m, h3, h4, h5⟩ | ⟨h3, h4⟩ | ⟨m, h3, h4, h5⟩ | ⟨m, h3, h4, h5⟩ | ⟨m, h3, h4, h5, h6, h7, h8⟩ | ⟨a, p, q, m, c, h3, h4, h5⟩ |
        ⟨a, p, q, m, c, h3, h4, h5, h6, h7⟩
    · exact .under m (h.mem_iff.1 h3) h4 h5
    · exact .owed h3 h4
    · exact .back m (h.mem_iff.1 h3) h4 h5
    · exact .there m h3 h4 h5
    · exact .again m h3 h4 h5 h6 h7 h8
    · exact .lost a p q m c h3 h4 h5
    · exact .fallen a p q m c h3 h4 h5 h6 h7

theorem osum_upd {V : Type} (A : String → V) (f : V → Nat) (n : String) (b : V) : ∀ l : List String, l.Nodup → n ∈ l →
    osum l (fun a => f (upd A n b a)) + f (A n) = osum l (fun a => f (A a)) + f b
  | [], _, h => nomatch h
  | a :: t, hd, h => by
    rcases List.nodup_cons.1 hd with ⟨h1, h2⟩
    unfold osum
    rw [List.map_cons, List.map_cons, List.sum_cons, List.sum_cons]
    by_cases e : a = n
    · subst e
      rw [show upd A a b a = b from if_pos rfl]
      have : osum t (fun x => f (upd A a b x)) = osum t (fun x => f (A x)) := by
        apply osum_congr
        intro x hx
        rw [show upd A a b x = A x from if_neg (fun e : x = a => h1 (e ▸ hx))]
      unfold osum at this
      omega
    · rw [show upd A n b a = A a from if_neg e]
      have ih := osum_upd A f n b t h2 (by
        rcases List.mem_cons.1 h with h | h
        · exact absurd h.symm e
        · exact h)
      unfold osum at ih
      omega

theorem owed_set (r : FM (String × String × Int) Resp) (key key' : String × String × Int) (v : Resp) (z : Int) (w : Bool) :
    owed ⟨r.set key v, z, w⟩ key' = if key = key' then v.nsn else owed ⟨r, z, w⟩ key' := by
  unfold owed
  dsimp only
  rw [FM.get_set]
  split <;> rfl

theorem total_get' {K V : Type} [DecidableEq K] (w : K → V → Nat) (d : V) (k : K) (hd : w k d = 0) : ∀ m : FM K V, w k (m.get d k) ≤ FM.total w m
  | [] => by unfold FM.get; omega
  | (a, b) :: t => by
    have ih := total_get' w d k hd t
    unfold FM.get FM.total
    rw [List.map_cons, List.sum_cons]
    unfold FM.total at ih
    split
    · rename_i e; subst e; dsimp only; omega
    · omega

theorem kept_pos (a : Abs) (x svc : String) (sn k : Int) (hk : 0 < k) (h : owed a (x, svc, sn) = k) : 1 ≤ kept a x k := by
  have := total_get' (fun (key : String × String × Int) (v : Resp) => if key.1 = x ∧ v.nsn = k then 1 else 0) Resp.empty (x, svc, sn) (by
    rw [if_neg]
    intro h
    have : (0 : Int) = k := h.2
    omega) a.resp
  unfold owed at h
  rw [if_pos ⟨rfl, h⟩] at this
  exact this

/-- A number is not owed while the message is under way. -/
theorem Inv.not_both {A : String → Abs} {L : String → List Event} {P : List Msg} {T : String → List Msg} (g : Inv nets A L P T) {a : String} (ha : a ∈ nets)
    {m : Msg} (hm : m ∈ P) (hs : m.src ∈ nets) (hp : 0 < m.nsn) (svc : String) (sn : Int) : owed (A a) (m.src, svc, sn) ≠ m.nsn := by
  intro h
  have h1 := kept_pos (A a) m.src svc sn m.nsn hp h
  have h2 := osum_mem (fun a => SolNet.kept (A a) m.src m.nsn) a nets ha
  have h3 : 1 ≤ P.countP (isTok m.src m.nsn) := List.countP_pos_iff.2 ⟨m, hm, isTok_iff.2 (.inl ⟨rfl, rfl⟩)⟩
  have h4 := g.tok m.src hs m.nsn hp
  unfold weight used at h4
  split at h4 <;> omega

section
variable {A : String → Abs} {L : String → List Event} {T : String → List Msg} {n : String} {b : Abs} {i rest : List Msg} {e : List Event}

theorem upd_same' {V : Type} (f : String → V) (k : String) (v : V) : upd f k v k = v := if_pos rfl
theorem upd_other' {V : Type} (f : String → V) (k : String) (v : V) (x : String) (h : x ≠ k) : upd f k v x = f x := if_neg h

/-- The messages a move emits. -/
theorem Inv.out (g : Inv nets A L (i ++ rest) T) (hn : n ∈ nets) (h : Mv n (A n) i e b) :
    ∀ m ∈ msgsOf e, Auth nets (upd L n (L n ++ e)) m ∧ (m.src = n → m.nsn ≤ b.nsn) ∧
      (0 < m.sn → (m.src = n ∧ m.nsn = (A n).nsn + 1) ∨ ∃ m1 ∈ i, SameMsg m1 m) := by
  have hx := Ext.upd L n e
  intro m hm
  have hpool : ∀ m ∈ i, Auth nets L m := fun m hm => g.pool m (List.mem_append_left _ hm)
  have h0 := g.start n hn
  cases h with
  | fresh next seq m1 h1 h2 h3 hb =>
    obtain rfl : m = m1 := List.mem_singleton.1 hm
    refine ⟨⟨by omega, fun _ => by omega, fun h => by omega, fun _ => ?_, fun h => by omega, hb⟩, fun _ => by dsimp only; omega, fun _ => .inl ⟨h1, h2⟩⟩
    rw [h1]
    refine ⟨hn, m, ?_, .refl m⟩
    unfold orig
    rw [upd_same', msgsOf_append, List.find?_append]
    have hnone : (msgsOf (L n)).find? (fun m' => decide (m'.src = n ∧ m'.nsn = m.nsn)) = none := by
      rw [List.find?_eq_none]
      intro x hx hd
      have hd := of_decide_eq_true hd
      have := g.num n hn x hx hd.1
      omega
    rw [hnone, Option.none_or]
    show List.find? _ [m] = some m
    rw [List.find?_cons, show decide (m.src = n ∧ m.nsn = m.nsn) = true from decide_eq_true ⟨h1, rfl⟩]
  | answer next seq m1 sn h1 h2 h3 h4 =>
    obtain rfl : m = m1 := List.mem_singleton.1 hm
    rcases g.kept n hn m.dst m.svc sn with hk | ⟨-, hk1, m0, hk2, hk3, hk4, hk5, hk6⟩
    · omega
    have hneg : m.nsn < 0 := by omega
    refine ⟨⟨by omega, fun h => by omega, fun _ => hneg, fun h => by omega, fun _ => ⟨hk1, m0, hx.orig (by rw [h3, Int.neg_neg]; exact hk2), hk3, by omega, ?_⟩, fun _ h => by omega⟩,
      fun _ => by dsimp only; omega, fun h => by omega⟩
    rcases h4 with h4 | h4
    · exact .inr ⟨h4, h2.trans hk6.symm⟩
    · exact .inl (by omega)
  | store m f h1 h2 => exact nomatch hm
  | receive m h1 h2 => exact nomatch hm
  | pass next seq m1 m2 h1 h2 =>
    obtain rfl : m = m2 := List.mem_singleton.1 hm
    have ha := (hpool m1 (List.mem_singleton.2 rfl)).same h2
    refine ⟨ha.ext hx, fun hs => ?_, fun _ => .inr ⟨m1, List.mem_singleton.2 rfl, h2⟩⟩
    by_cases hp : 0 < m.nsn
    · obtain ⟨-, m0, h3, h4⟩ := ha.req hp
      rw [hs] at h3
      have h5 := orig_mem h3
      have := g.num n hn m0 h5.1 h5.2.1
      omega
    · omega
  | back next seq m1 m2 h1 h2 h3 h4 h5 h6 =>
    obtain rfl : m = m2 := List.mem_singleton.1 hm
    have ha := hpool m1 (List.mem_singleton.2 rfl)
    have hp := ha.pos h1
    obtain ⟨h7, m0, h8, h9⟩ := ha.req hp
    refine ⟨⟨by omega, fun h => by omega, fun _ => by omega, fun h => by omega,
      fun _ => ⟨by rw [h3]; exact h7, m0, ?_, by rw [h4, ← h9.svc], by rw [← h9.sn]; exact h1, (.inl (by rw [h5, h9.sn]))⟩, fun _ h => by omega⟩, fun _ => by omega, fun h => by omega⟩
    apply hx.orig
    rw [h3, h6, Int.neg_neg]
    exact h8
  | giveUp prev seq m m' code h1 h2 => exact nomatch hm
  | note prev seq m' code => exact nomatch hm
  | fall => exact nomatch hm
  | forget => exact nomatch hm

theorem Mv.mono (h : Mv n (A n) i e b) : (A n).nsn ≤ b.nsn := by
  cases h <;> first | exact Int.le_refl _ | (dsimp only; omega)

theorem Mv.ic (h : Mv n (A n) i e b) : b.ic = (A n).ic := by
  cases h <;> rfl

/-- The answer to a request does not get lost. -/
theorem Inv.acc_step (g : Inv nets A L (i ++ rest) T) (hn : n ∈ nets) (h : Mv n (A n) i e b) (x : String) (hxn : x ∈ nets) (m0 : Msg)
    (hm0 : m0 ∈ msgsOf (L x)) (hs0 : m0.src = x) (hp0 : 0 < m0.sn) :
    Acc nets (upd A n b) (upd L n (L n ++ e)) (rest ++ msgsOf e) (upd T n (T n ++ i)) x m0 := by
  have hx := Ext.upd L n e
  have hpool : ∀ m ∈ i, Auth nets L m := fun m hm => g.pool m (List.mem_append_left _ hm)
  have ha0 := g.log x hxn m0 hm0
  have hk0 := ha0.pos hp0
  have horig : ∃ m00, orig L x m0.nsn = some m00 ∧ SameMsg m00 m0 := by
    obtain ⟨-, m00, h1, h2⟩ := ha0.req hk0
    rw [hs0] at h1
    exact ⟨m00, h1, h2⟩
  obtain ⟨m00, ho, hsame⟩ := horig
  rcases g.acc x hxn m0 hm0 hs0 hp0 with ⟨m, h3, h4, h5⟩ | ⟨h3, h4⟩ | ⟨m, h3, h4, h5⟩ | ⟨m, h3, h4, h5⟩ | ⟨m, h3, h4, h5, h6, h7, h8⟩ | ⟨a, p, q, m, c, h3, h4, h5⟩ |
      ⟨a, p, q, m, c, h3, h4, h5, h6, h7⟩
  · rcases List.mem_append.1 h3 with h3 | h3
    · have ha := hpool m h3
      obtain ⟨-, m01, h6, h7⟩ := ha.req (by omega)
      rw [h4, h5, ho] at h6
      obtain rfl := Option.some.inj h6
      have hmm : SameMsg m0 m := hsame.symm.trans h7
      have hsn := hmm.sn
      cases h with
      | fresh next seq m1 h1 h2 h3' => exact nomatch h3
      | answer next seq m1 sn h1 h2 h3' h4 => exact nomatch h3
      | store m1 f h1 h2 =>
        obtain rfl : m = m1 := List.mem_singleton.1 h3
        have hd : m0.dst = n := by rw [← hmm.dst]; exact h1
        refine .owed (by rw [hd]; exact hn) ?_
        rw [hd, upd_same', owed_set, if_pos (by rw [h4, hmm.svc, hmm.sn])]
        exact h5
      | receive m1 h1 h2 =>
        obtain rfl : m = m1 := List.mem_singleton.1 h3
        omega
      | pass next seq m1 m2 h1 h2 =>
        obtain rfl : m = m1 := List.mem_singleton.1 h3
        exact .under m2 (List.mem_append_right _ (List.mem_singleton.2 rfl)) (h2.src.trans h4) (h2.nsn.trans h5)
      | back next seq m1 m2 h1 h2 h3' h4' h5' h6 =>
        obtain rfl : m = m1 := List.mem_singleton.1 h3
        exact .back m2 (List.mem_append_right _ (List.mem_singleton.2 rfl)) (h3'.trans h4) (by omega)
      | giveUp prev seq m1 m' code h1 h2 =>
        obtain rfl : m = m1 := List.mem_singleton.1 h3
        omega
      | note prev seq m' code => exact nomatch h3
      | fall prev seq m1 m' code h0 h1 h2 h2' =>
        obtain rfl : m = m1 := List.mem_singleton.1 h3
        refine .fallen n prev seq m' code hn (by rw [upd_same']; exact h0) ?_ (h2.trans h4) (h2'.trans h5)
        rw [upd_same']
        exact List.mem_append_right _ (List.mem_singleton.2 rfl)
      | forget => exact nomatch h3
    · exact .under m (List.mem_append_left _ h3) h4 h5
  · by_cases hd : m0.dst = n
    · have keep : owed b (x, m0.svc, m0.sn) = owed (A n) (x, m0.svc, m0.sn) →
          Acc nets (upd A n b) (upd L n (L n ++ e)) (rest ++ msgsOf e) (upd T n (T n ++ i)) x m0 := by
        intro h
        refine .owed h3 ?_
        rw [hd, upd_same', h, ← hd]
        exact h4
      rw [hd] at h4
      cases h with
      | fresh next seq m1 h1 h2 h3' => exact keep rfl
      | answer next seq m1 sn h1 h2 h3' h4' =>
        by_cases hkey : (m1.dst, m1.svc, sn) = (x, m0.svc, m0.sn)
        · refine .back m1 (List.mem_append_right _ (List.mem_singleton.2 rfl)) (congrArg Prod.fst hkey) ?_
          rw [h3', hkey, h4]
        · apply keep
          rw [owed_set, if_neg hkey]
      | store m1 f h1 h2 =>
        by_cases hkey : (m1.src, m1.svc, m1.sn) = (x, m0.svc, m0.sn)
        · have hk1 : m1.src = x := congrArg Prod.fst hkey
          have hk2 : m1.svc = m0.svc := congrArg (fun p => p.2.1) hkey
          have hk3 : m1.sn = m0.sn := congrArg (fun p => p.2.2) hkey
          have ha := hpool m1 (List.mem_singleton.2 rfl)
          have hp := ha.pos h2
          obtain ⟨h5, m01, h6, h7⟩ := ha.req hp
          have h8 := orig_mem h6
          have hne := g.not_both hn (List.mem_append_left _ (List.mem_singleton.2 rfl)) h5 hp m0.svc m0.sn
          rw [hk1, h4] at hne
          rw [hk1] at h8
          exact .again m01 (hx.msg h8.1) h8.2.1 (by rw [h8.2.2]; exact fun h => hne h.symm) (by rw [← h7.dst, h1, hd]) (by rw [← h7.svc]; exact hk2)
            (by rw [← h7.sn]; exact hk3)
        · apply keep
          rw [owed_set, if_neg hkey]
      | receive m1 h1 h2 => exact keep rfl
      | pass next seq m1 m2 h1 h2 => exact keep rfl
      | back next seq m1 m2 h1 h2 h3' h4' h5' h6 => exact keep rfl
      | giveUp prev seq m1 m' code h1 h2 => exact keep rfl
      | note prev seq m' code => exact keep rfl
      | fall => exact keep rfl
      | forget prev seq key m' code h0 h1 h2 h2' =>
        by_cases hkey : key = (x, m0.svc, m0.sn)
        · subst hkey
          refine .fallen n prev seq m' code hn (by rw [upd_same']; exact h0) ?_ h2 (h2'.trans h4)
          rw [upd_same']
          exact List.mem_append_right _ (List.mem_singleton.2 rfl)
        · apply keep
          rw [owed_set, if_neg hkey]
    · refine .owed h3 ?_
      rw [upd_other' _ _ _ _ hd]; exact h4
  · rcases List.mem_append.1 h3 with h3 | h3
    · have ha := hpool m h3
      have hneg : m.nsn < 0 := by omega
      cases h with
      | fresh next seq m1 h1 h2 h3' => exact nomatch h3
      | answer next seq m1 sn h1 h2 h3' h4 => exact nomatch h3
      | store m1 f h1 h2 =>
        obtain rfl : m = m1 := List.mem_singleton.1 h3
        have := ha.pos h2
        omega
      | receive m1 h1 h2 =>
        obtain rfl : m = m1 := List.mem_singleton.1 h3
        have hnx : n = x := h1.symm.trans h4
        refine .there m ?_ h4 h5
        rw [← hnx, upd_same']
        exact List.mem_append_right _ (List.mem_singleton.2 rfl)
      | pass next seq m1 m2 h1 h2 =>
        obtain rfl : m = m1 := List.mem_singleton.1 h3
        exact .back m2 (List.mem_append_right _ (List.mem_singleton.2 rfl)) (h2.dst.trans h4) (h2.nsn.trans h5)
      | back next seq m1 m2 h1 h2 h3' h4' h5' h6 =>
        obtain rfl : m = m1 := List.mem_singleton.1 h3
        have := ha.pos h1
        omega
      | giveUp prev seq m1 m' code h1 h2 =>
        obtain rfl : m = m1 := List.mem_singleton.1 h3
        refine .lost n prev seq m' code hn ?_ (h2.trans h5)
        rw [upd_same']
        exact List.mem_append_right _ (List.mem_singleton.2 rfl)
      | note prev seq m' code => exact nomatch h3
      | fall prev seq m1 m' code h0 h1 h2 h2' =>
        obtain rfl : m = m1 := List.mem_singleton.1 h3
        have := ha.pos h1
        omega
      | forget => exact nomatch h3
    · exact .back m (List.mem_append_left _ h3) h4 h5
  · refine .there m ?_ h4 h5
    by_cases hxe : x = n
    · rw [hxe] at h3 ⊢; rw [upd_same']; exact List.mem_append_left _ h3
    · rw [upd_other' _ _ _ _ hxe]; exact h3
  · exact .again m (hx.msg h3) h4 h5 h6 h7 h8
  · exact .lost a p q m c h3 (hx.mem h4) h5
  · refine .fallen a p q m c h3 ?_ (hx.mem h5) h6 h7
    by_cases e1 : a = n
    · subst e1; rw [upd_same', h.ic]; exact h4
    · rw [upd_other' _ _ _ _ e1]; exact h4

theorem Acc.same {A : String → Abs} {L : String → List Event} {P : List Msg} {T : String → List Msg} {x : String} {m m' : Msg} (h : SameMsg m m')
    (g : Acc nets A L P T x m) : Acc nets A L P T x m' := by
  rcases g with ⟨m1, h3, h4, h5⟩ | ⟨h3, h4⟩ | ⟨m1, h3, h4, h5⟩ | ⟨m1, h3, h4, h5⟩ | ⟨m1, h3, h4, h5, h6, h7, h8⟩ | ⟨a, p, q, m1, c, h3, h4, h5⟩ |
      ⟨a, p, q, m1, c, h3, h4, h5, h6, h7⟩
  · exact .under m1 h3 h4 (by rw [h.nsn]; exact h5)
  · exact .owed (by rw [h.dst]; exact h3) (by rw [h.dst, h.svc, h.sn, h.nsn]; exact h4)
  · exact .back m1 h3 h4 (by rw [h.nsn]; exact h5)
  · exact .there m1 h3 h4 (by rw [h.nsn]; exact h5)
  · exact .again m1 h3 h4 (by rw [h.nsn]; exact h5) (by rw [h.dst]; exact h6) (by rw [h.svc]; exact h7) (by rw [h.sn]; exact h8)
  · exact .lost a p q m1 c h3 h4 (by rw [h.nsn]; exact h5)
  · exact .fallen a p q m1 c h3 h4 h5 h6 (by rw [h.nsn]; exact h7)

/-- A token appears with its number, and not again. -/
theorem Inv.weight_move (hnd : nets.Nodup) (g : Inv nets A L (i ++ rest) T) (hn : n ∈ nets) (h : Mv n (A n) i e b) (x : String) (k : Int) (hk : 0 < k) :
    weight nets (upd A n b) (rest ++ msgsOf e) (upd T n (T n ++ i)) x k + used x (A x) x k ≤ weight nets A (i ++ rest) T x k + used x (upd A n b x) x k := by
  have hpool : ∀ m ∈ i, Auth nets L m := fun m hm => g.pool m (List.mem_append_left _ hm)
  have h2 := h.tok x k hk (fun m hm => (hpool m hm).pos) (g.start n hn)
  have h3 := osum_upd A (fun a => SolNet.kept a x k) n b nets hnd hn
  unfold weight
  rw [List.countP_append, List.countP_append]
  have h4 : (upd T n (T n ++ i) x).countP (isAns x k) = (T x).countP (isAns x k) + (if n = x then i.countP (isAns x k) else 0) := by
    by_cases e1 : n = x
    · subst e1; rw [upd_same', List.countP_append, if_pos rfl]
    · rw [upd_other' _ _ _ _ (fun h => e1 h.symm), if_neg e1, Nat.add_zero]
  rw [h4]
  have h5 : used x (upd A n b x) x k + used n (A n) x k = used x (A x) x k + used n b x k := by
    by_cases e1 : n = x
    · subst e1; rw [upd_same']; omega
    · rw [upd_other' _ _ _ _ (fun h => e1 h.symm)]
      unfold used
      rw [if_neg (fun h : n = x ∧ k ≤ (A n).nsn => e1 h.1), if_neg (fun h : n = x ∧ k ≤ b.nsn => e1 h.1)]
  omega

theorem Inv.move (hnd : nets.Nodup) (g : Inv nets A L (i ++ rest) T) (hn : n ∈ nets) (h : Mv n (A n) i e b) :
    Inv nets (upd A n b) (upd L n (L n ++ e)) (rest ++ msgsOf e) (upd T n (T n ++ i)) := by
  have hx := Ext.upd L n e
  have hout := g.out hn h
  have hmono := h.mono
  have hpool : ∀ m ∈ i, Auth nets L m := fun m hm => g.pool m (List.mem_append_left _ hm)
  refine ⟨fun a ha => ?_, fun a ha m hm hs => ?_, fun a ha m hm => ?_, fun m hm => ?_, fun a ha m hm => ?_, fun a ha x svc sn => ?_, fun x hxn k hk => ?_,
    fun x hxn m0 hm0 hs0 hp0 => ?_⟩
  · have := g.start a ha
    by_cases e1 : a = n
    · subst e1; rw [upd_same']; omega
    · rw [upd_other' _ _ _ _ e1]; exact this
  · by_cases e1 : a = n
    · subst e1
      rw [upd_same'] at hm ⊢
      rw [msgsOf_append] at hm
      rcases List.mem_append.1 hm with hm | hm
      · have := g.num a ha m hm hs; omega
      · exact (hout m hm).2.1 hs
    · rw [upd_other' _ _ _ _ e1] at hm ⊢
      exact g.num a ha m hm hs
  · by_cases e1 : a = n
    · subst e1
      rw [upd_same', msgsOf_append] at hm
      rcases List.mem_append.1 hm with hm | hm
      · exact (g.log a ha m hm).ext hx
      · exact (hout m hm).1
    · rw [upd_other' _ _ _ _ e1] at hm
      exact (g.log a ha m hm).ext hx
  · rcases List.mem_append.1 hm with hm | hm
    · exact (g.pool m (List.mem_append_right _ hm)).ext hx
    · exact (hout m hm).1
  · by_cases e1 : a = n
    · subst e1
      rw [upd_same'] at hm
      rcases List.mem_append.1 hm with hm | hm
      · exact (g.got a ha m hm).ext hx
      · exact (hpool m hm).ext hx
    · rw [upd_other' _ _ _ _ e1] at hm
      exact (g.got a ha m hm).ext hx
  · have hold := g.kept a ha x svc sn
    by_cases e1 : a = n
    · subst e1
      rw [upd_same']
      have keep : owed b (x, svc, sn) = owed (A a) (x, svc, sn) → owed b (x, svc, sn) = 0 ∨
          Kept nets (upd L a (L a ++ e)) a x svc sn (owed b (x, svc, sn)) := by
        intro h
        rw [h]
        rcases hold with h | h
        · exact .inl h
        · exact .inr (h.ext hx)
      cases h with
      | fresh next seq m1 h1 h2 h3' => exact keep rfl
      | answer next seq m1 sn' h1 h2 h3' h4' =>
        by_cases hkey : (m1.dst, m1.svc, sn') = (x, svc, sn)
        · left; rw [owed_set, if_pos hkey]; rfl
        · apply keep
          rw [owed_set, if_neg hkey]
      | store m1 f h1 h2 =>
        by_cases hkey : (m1.src, m1.svc, m1.sn) = (x, svc, sn)
        · right
          rw [owed_set, if_pos hkey]
          have hk1 : m1.src = x := congrArg Prod.fst hkey
          have hk2 : m1.svc = svc := congrArg (fun p => p.2.1) hkey
          have hk3 : m1.sn = sn := congrArg (fun p => p.2.2) hkey
          have hau := hpool m1 (List.mem_singleton.2 rfl)
          have hp := hau.pos h2
          obtain ⟨h5, m01, h6, h7⟩ := hau.req hp
          exact ⟨hp, by rw [← hk1]; exact h5, m01, hx.orig (by rw [← hk1]; exact h6), by rw [← h7.svc]; exact hk2, by rw [← h7.sn]; exact hk3, by omega,
            by rw [← h7.dst]; exact h1⟩
        · apply keep
          rw [owed_set, if_neg hkey]
      | receive m1 h1 h2 => exact keep rfl
      | pass next seq m1 m2 h1 h2 => exact keep rfl
      | back next seq m1 m2 h1 h2 h3' h4' h5' h6 => exact keep rfl
      | giveUp prev seq m1 m' code h1 h2 => exact keep rfl
      | note prev seq m' code => exact keep rfl
      | fall => exact keep rfl
      | forget prev seq key m' code h0 h1 h2 h2' =>
        by_cases hkey : key = (x, svc, sn)
        · left; rw [owed_set, if_pos hkey]; rfl
        · apply keep
          rw [owed_set, if_neg hkey]
    · rw [upd_other' _ _ _ _ e1]
      rcases hold with h | h
      · exact .inl h
      · exact .inr (h.ext hx)
  · have h1 := g.tok x hxn k hk
    have h2 := g.weight_move hnd hn h x k hk
    omega
  · by_cases hnew : m0 ∈ msgsOf (L x)
    · exact g.acc_step hn h x hxn m0 hnew hs0 hp0
    · have e1 : x = n := by
        refine Classical.byContradiction fun e1 => hnew ?_
        rw [upd_other' _ _ _ _ e1] at hm0; exact hm0
      subst e1
      rw [upd_same', msgsOf_append] at hm0
      rcases List.mem_append.1 hm0 with hm0 | hm0
      · exact absurd hm0 hnew
      · rcases (hout m0 hm0).2.2 hp0 with h1 | ⟨m1, h1, h2⟩
        · exact .under m0 (List.mem_append_right _ hm0) h1.1 rfl
        · have hau := hpool m1 h1
          have hp1 : 0 < m1.sn := by have := h2.sn; omega
          obtain ⟨h3, m01, h4, h5⟩ := hau.req (hau.pos hp1)
          have h6 := orig_mem h4
          have h7 : m1.src = x := by rw [← h2.src]; exact hs0
          rw [h7] at h6
          have := g.acc_step hn h x hxn m01 h6.1 h6.2.1 (by have := h5.sn; omega)
          exact this.same (h5.trans h2)

end

/-- A sequence of moves. -/
theorem Inv.moves (hnd : nets.Nodup) {n : String} (hn : n ∈ nets) {a b : Abs} {i : List Msg} {e : List Event} (h : Mvs n a i e b) :
    ∀ {A : String → Abs} {L : String → List Event} {T : String → List Msg} {rest : List Msg}, a = A n → Inv nets A L (i ++ rest) T →
      Inv nets (upd A n b) (upd L n (L n ++ e)) (rest ++ msgsOf e) (upd T n (T n ++ i)) ∧ ∀ x k, 0 < k →
        weight nets (upd A n b) (rest ++ msgsOf e) (upd T n (T n ++ i)) x k + used x (A x) x k ≤ weight nets A (i ++ rest) T x k + used x (upd A n b x) x k := by
  induction h with
  | nil a =>
    intro A L T rest ha g
    have hA : upd A n a = A := by
      funext x; unfold upd; split
      · rename_i h; rw [h]; exact ha
      · rfl
    have hL : upd L n (L n ++ []) = L := by
      funext x; unfold upd; split
      · rename_i h; rw [h, List.append_nil]
      · rfl
    have hT : upd T n (T n ++ []) = T := by
      funext x; unfold upd; split
      · rename_i h; rw [h, List.append_nil]
      · rfl
    rw [hA, hL, hT]
    have hr : rest ++ msgsOf [] = rest := List.append_nil _
    rw [hr]
    exact ⟨g, fun x k _ => Nat.le_refl _⟩
  | @cons a b d i j e f h _ ih =>
    intro A L T rest ha g
    subst ha
    rw [List.append_assoc] at g
    have g1 := g.move hnd hn h
    have w1 := g.weight_move hnd hn h
    rw [List.append_assoc] at g1 w1
    have g2 := ih (A := upd A n b) (L := upd L n (L n ++ e)) (T := upd T n (T n ++ i)) (rest := rest ++ msgsOf e) (by rw [upd_same']) g1
    have huu : ∀ {V : Type} (F : String → V) (u v : V), upd (upd F n u) n v = upd F n v := by
      intro V F u v; funext x; unfold upd; split <;> rfl
    rw [huu, huu, huu, upd_same', upd_same'] at g2
    rw [← List.append_assoc, ← List.append_assoc, msgsOf_append, ← List.append_assoc]
    refine ⟨g2.1, fun x k hk => ?_⟩
    have h3 := g2.2 x k hk
    have h4 := w1 x k hk
    simp only [List.append_assoc] at h3 h4 ⊢
    omega

/-- The invariant of the network. -/
theorem tstep_inv {cfg : String → Cfg} (hnd : nets.Nodup) (hname : ∀ n ∈ nets, (cfg n).net = n) {σ σ' : Sys} {T : String → List Msg} {n : String}
    {D : List Msg} (g : Inv nets (fun a => abs (σ.st a)) (fun a => (σ.st a).log) σ.pool T) (h : TStep cfg nets σ n D σ') :
    Inv nets (fun a => abs (σ'.st a)) (fun a => (σ'.st a).log) σ'.pool (upd T n (T n ++ D)) ∧ ∀ x k, 0 < k →
      weight nets (fun a => abs (σ'.st a)) σ'.pool (upd T n (T n ++ D)) x k + used x (abs (σ.st x)) x k ≤
        weight nets (fun a => abs (σ.st a)) σ.pool T x k + used x (abs (σ'.st x)) x k := by
  obtain ⟨hn, s', evs, rest, hp, rfl, hl, hm⟩ := h.moves hname
  have := Inv.moves hnd hn hm (A := fun a => abs (σ.st a)) (L := fun a => (σ.st a).log) (T := T) (rest := rest) rfl (g.perm hp)
  have e1 : (fun a => abs (upd σ.st n s' a)) = upd (fun a => abs (σ.st a)) n (abs s') := by
    funext x; unfold upd; split <;> rfl
  have e2 : (fun a => (upd σ.st n s' a).log) = upd (fun a => (σ.st a).log) n ((σ.st n).log ++ evs) := by
    funext x; unfold upd; split
    · exact hl
    · rfl
  dsimp only
  rw [e1, e2]
  refine ⟨this.1, fun x k hk => ?_⟩
  have h3 := this.2 x k hk
  have h4 : weight nets (fun a => abs (σ.st a)) σ.pool T x k = weight nets (fun a => abs (σ.st a)) (D ++ rest) T x k := by
    unfold weight; rw [hp.countP_eq]
  have h5 : abs (upd σ.st n s' x) = upd (fun a => abs (σ.st a)) n (abs s') x := congrFun e1 x
  rw [h4, h5]
  exact h3

theorem treach_inv {cfg : String → Cfg} (hnd : nets.Nodup) (hname : ∀ n ∈ nets, (cfg n).net = n) {σ : Sys} {T : String → List Msg}
    (h : TReach cfg nets σ T) : Inv nets (fun a => abs (σ.st a)) (fun a => (σ.st a).log) σ.pool T := by
  induction h with
  | init =>
    refine ⟨fun a _ => Int.le_refl _, fun a _ m hm => (nomatch hm), fun a _ m hm => (nomatch hm), fun m hm => (nomatch hm), fun a _ m hm => (nomatch hm),
      fun a _ x svc sn => .inl rfl, fun n _ k _ => ?_, fun n _ m0 hm => (nomatch hm)⟩
    have : osum nets (fun a => kept (abs SolBmc.init) n k) = 0 := by
      have h1 := osum_congr (fun a => kept (abs SolBmc.init) n k) (fun _ => 0) nets (fun _ _ => rfl)
      have h2 := osum_one "" 0 nets hnd
      simp only [ite_self] at h2
      omega
    unfold weight
    rw [this]
    exact Nat.zero_le _
  | step _ hs ih => exact (tstep_inv hnd hname ih hs).1

end Verif.SolNet
