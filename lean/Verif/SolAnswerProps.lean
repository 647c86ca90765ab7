import Verif.SolAnswerInv
/-!
C158: requests and answers in a network of EVM message centers.

* `TReach cfg nets σ T`: the state `σ` is reached, and each chain `n` has taken the messages `T n` (of relay calls, or dropped by its owner).
* The chain `n` numbers its messages; the answer to message `k` goes to `n` with the number `-k`.
-/
namespace Verif.SolNet
open Verif Verif.SolBmc

section
variable (nets : List String) (cfg : String → Cfg) (hnd : nets.Nodup) (hname : ∀ n ∈ nets, (cfg n).net = n)
include hnd hname

/-- C158: a chain takes at most one answer to each of its messages. -/
theorem C158_once (σ : Sys) (T : String → List Msg) (h : TReach cfg nets σ T) (n : String) (hn : n ∈ nets) (k : Int) (hk : 0 < k) :
    (T n).countP (fun m => decide (m.dst = n ∧ m.nsn = -k)) ≤ 1 := by
  have h1 := (treach_inv hnd hname h).tok n hn k hk
  have h2 : (T n).countP (fun m => decide (m.dst = n ∧ m.nsn = -k)) = (T n).countP (isAns n k) := rfl
  unfold weight used at h1
  split at h1 <;> omega

/-- C158: once the answer is there, neither the message nor another answer is under way, and no chain owes one. -/
theorem C158_done (σ : Sys) (T : String → List Msg) (h : TReach cfg nets σ T) (n : String) (hn : n ∈ nets) (k : Int) (hk : 0 < k)
    (ans : Msg) (ha : ans ∈ T n) (hd : ans.dst = n) (hs : ans.nsn = -k) :
    (∀ m ∈ σ.pool, ¬ (m.src = n ∧ m.nsn = k) ∧ ¬ (m.dst = n ∧ m.nsn = -k)) ∧
    (∀ a ∈ nets, ∀ svc sn, ((σ.st a).resp.get Resp.empty (n, svc, sn)).nsn ≠ k) := by
  have h1 := (treach_inv hnd hname h).tok n hn k hk
  have h2 : 1 ≤ (T n).countP (isAns n k) := List.countP_pos_iff.2 ⟨ans, ha, isAns_iff.2 ⟨hd, hs⟩⟩
  have h3 : osum nets (fun a => kept (abs (σ.st a)) n k) = 0 ∧ σ.pool.countP (isTok n k) = 0 := by
    unfold weight used at h1
    dsimp only at h1
    split at h1 <;> omega
  constructor
  · intro m hm
    have h4 : ¬ isTok n k m = true := fun e => by
      have : 1 ≤ σ.pool.countP (isTok n k) := List.countP_pos_iff.2 ⟨m, hm, e⟩
      omega
    rw [isTok_iff] at h4
    exact ⟨fun e => h4 (.inl e), fun e => h4 (.inr e)⟩
  · intro a hA svc sn e
    have h4 := kept_pos (abs (σ.st a)) n svc sn k hk e
    have h5 := osum_mem (fun a => kept (abs (σ.st a)) n k) a nets hA
    omega

/-- C158: an answer taken by a chain answers a message it sent, in the name of the service that sent it and wanted an answer; it is an
    error, with the number the service gave, or comes from the chain the message was sent to. -/
theorem C158_genuine (σ : Sys) (T : String → List Msg) (h : TReach cfg nets σ T) (n : String) (hn : n ∈ nets)
    (ans : Msg) (ha : ans ∈ T n) (hd : ans.dst = n) (hs : ans.nsn < 0) :
    ∃ m0 ∈ msgsOf (σ.st n).log, m0.src = n ∧ m0.nsn = -ans.nsn ∧ m0.svc = ans.svc ∧ 0 < m0.sn ∧
      (ans.sn = -m0.sn ∨ (ans.sn = 0 ∧ ans.src = m0.dst)) := by
  obtain ⟨-, m0, h1, h2⟩ := ((treach_inv hnd hname h).got n hn ans ha).ans hs
  rw [hd] at h1
  have h3 := orig_mem h1
  exact ⟨m0, h3.1, h3.2.1, h3.2.2, h2⟩

/-- C158: messages of a chain with one number are one message, fees aside, however often it passes through. -/
theorem C158_numbers (σ : Sys) (T : String → List Msg) (h : TReach cfg nets σ T) (n a b : String) (ha : a ∈ nets) (hb : b ∈ nets)
    (m m' : Msg) (h1 : m ∈ msgsOf (σ.st a).log) (h2 : m' ∈ msgsOf (σ.st b).log) (h3 : m.src = n) (h4 : m'.src = n) (h5 : 0 < m.nsn) (h6 : m'.nsn = m.nsn) :
    m'.dst = m.dst ∧ m'.svc = m.svc ∧ m'.sn = m.sn ∧ m'.body = m.body := by
  have g := treach_inv hnd hname h
  obtain ⟨-, m0, e1, e2⟩ := (g.log a ha m h1).req h5
  obtain ⟨-, m1, e3, e4⟩ := (g.log b hb m' h2).req (by omega)
  rw [h3] at e1
  rw [h4, h6, e1] at e3
  obtain rfl := Option.some.inj e3
  have e5 := e2.symm.trans e4
  exact ⟨e5.dst, e5.svc, e5.sn, e5.body⟩

/-- C158: the answer to a request is always somewhere: the request is under way, the chain it went to owes the answer, the answer is
    under way or there, unless the service used the same number again for that chain, or an answer was given up. -/
theorem C158_accounted (σ : Sys) (T : String → List Msg) (h : TReach cfg nets σ T) (n : String) (hn : n ∈ nets)
    (m0 : Msg) (h0 : m0 ∈ msgsOf (σ.st n).log) (hs : m0.src = n) (hp : 0 < m0.sn) :
    (∃ m ∈ σ.pool, m.src = n ∧ m.nsn = m0.nsn) ∨
    (m0.dst ∈ nets ∧ ((σ.st m0.dst).resp.get Resp.empty (n, m0.svc, m0.sn)).nsn = m0.nsn) ∨
    (∃ m ∈ σ.pool, m.dst = n ∧ m.nsn = -m0.nsn) ∨
    (∃ m ∈ T n, m.dst = n ∧ m.nsn = -m0.nsn) ∨
    (∃ m1 ∈ msgsOf (σ.st n).log, m1.src = n ∧ m1.nsn ≠ m0.nsn ∧ m1.dst = m0.dst ∧ m1.svc = m0.svc ∧ m1.sn = m0.sn) ∨
    (∃ a ∈ nets, ∃ p q m' code, Event.dropped p q m' code ∈ (σ.st a).log ∧ m'.nsn = -m0.nsn) := by
  rcases (treach_inv hnd hname h).acc n hn m0 h0 hs hp with ⟨m, h3, h4, h5⟩ | ⟨h3, h4⟩ | ⟨m, h3, h4, h5⟩ | ⟨m, h3, h4, h5⟩ | ⟨m, h3, h4, h5, h6, h7, h8⟩ | ⟨a, p, q, m, c, h3, h4, h5⟩ |
      ⟨a, p, q, m, c, h3, h4, h5, h6, h7⟩
  · exact .inl ⟨m, h3, h4, h5⟩
  · exact .inr (.inl ⟨h3, h4⟩)
  · exact .inr (.inr (.inl ⟨m, h3, h4, h5⟩))
  · exact .inr (.inr (.inr (.inl ⟨m, h3, h4, h5⟩)))
  · exact .inr (.inr (.inr (.inr (.inl ⟨m, h3, h4, h5, h6, h7, h8⟩))))
  · exact .inr (.inr (.inr (.inr (.inr ⟨a, h3, p, q, m, c, h4, h5⟩))))
  · exact nomatch h4

/-- Steps from a state on. -/
inductive TSteps (cfg : String → Cfg) (nets : List String) (σ : Sys) (T : String → List Msg) : Sys → (String → List Msg) → Prop where
  | nil : TSteps cfg nets σ T σ T
  | step {σ1 σ2 : Sys} {T1 : String → List Msg} {n : String} {D : List Msg} : TSteps cfg nets σ T σ1 T1 → TStep cfg nets σ1 n D σ2 →
      TSteps cfg nets σ T σ2 (upd T1 n (T1 n ++ D))

/-- C158: a message whose answer is neither under way nor owed nor there never gets one. -/
theorem C158_never (σ : Sys) (T : String → List Msg) (h : TReach cfg nets σ T) (n : String) (k : Int) (hk : 0 < k)
    (hused : k ≤ (σ.st n).nsn) (h1 : ∀ m ∈ σ.pool, ¬ (m.src = n ∧ m.nsn = k) ∧ ¬ (m.dst = n ∧ m.nsn = -k))
    (h2 : ∀ a ∈ nets, ∀ e ∈ (σ.st a).resp, ¬ (e.1.1 = n ∧ e.2.nsn = k)) (h3 : ∀ m ∈ T n, ¬ (m.dst = n ∧ m.nsn = -k))
    (σ' : Sys) (T' : String → List Msg) (hs : TSteps cfg nets σ T σ' T') : ∀ m ∈ T' n, ¬ (m.dst = n ∧ m.nsn = -k) := by
  have main : TReach cfg nets σ' T' ∧ k ≤ (σ'.st n).nsn ∧ weight nets (fun a => abs (σ'.st a)) σ'.pool T' n k = 0 := by
    induction hs with
    | nil =>
      refine ⟨h, hused, ?_⟩
      have e1 : osum nets (fun a => kept (abs (σ.st a)) n k) = 0 := by
        have : osum nets (fun a => kept (abs (σ.st a)) n k) = osum nets (fun _ => 0) := by
          apply osum_congr
          intro a ha
          have e2 := h2 a ha
          unfold kept FM.total abs
          dsimp only
          generalize (σ.st a).resp = l at e2
          induction l with
          | nil => rfl
          | cons x t ih =>
            rw [List.map_cons, List.sum_cons, ih (fun e he => e2 e (List.mem_cons_of_mem _ he)), if_neg (e2 x (List.mem_cons_self ..))]
        rw [this]
        have h2 := osum_one "" 0 nets hnd
        simp only [ite_self] at h2
        exact h2
      have e2 : σ.pool.countP (isTok n k) = 0 := by
        rw [List.countP_eq_zero]
        intro m hm e
        rw [isTok_iff] at e
        exact e.elim (h1 m hm).1 (h1 m hm).2
      have e3 : (T n).countP (isAns n k) = 0 := by
        rw [List.countP_eq_zero]
        intro m hm e
        rw [isAns_iff] at e
        exact h3 m hm e
      unfold weight
      rw [e1, e2, e3]
    | @step σ1 σ2 T1 a D _ hst ih =>
      obtain ⟨i1, i2, i3⟩ := ih
      have hinv := tstep_inv hnd hname (treach_inv hnd hname i1) hst
      have hw := hinv.2 n k hk
      have hmono : (σ1.st n).nsn ≤ (σ2.st n).nsn := by
        obtain ⟨-, s', evs, rest, -, rfl, -, hm⟩ := hst.moves hname
        dsimp only
        by_cases e : n = a
        · subst e
          rw [upd_same]
          have : ∀ (x y : Abs) i e, Mvs n x i e y → x.nsn ≤ y.nsn := by
            intro x y i e hm
            induction hm with
            | nil => exact Int.le_refl _
            | @cons x y z i j e f hm _ ih =>
              have := Mv.mono (A := fun _ => x) hm
              omega
          exact this _ _ _ _ hm
        · rw [upd_other _ _ _ _ e]; exact Int.le_refl _
      refine ⟨i1.step hst, by omega, ?_⟩
      have e1 : used n (abs (σ1.st n)) n k = 1 := by unfold used; rw [if_pos ⟨rfl, i2⟩]
      have e2 : used n (abs (σ2.st n)) n k ≤ 1 := by unfold used; split <;> omega
      omega
  intro m hm e
  have : 1 ≤ (T' n).countP (isAns n k) := List.countP_pos_iff.2 ⟨m, hm, isAns_iff.2 e⟩
  have h4 := main.2.2
  unfold weight at h4
  omega

end

/-! ### Numbered links -/

/-- All messages a chain has received over its links, or its owner has dropped. -/
def received (addr : String → String) (nets : List String) (σ : String → St) (n : String) : List Msg :=
  nets.flatMap fun p => if p = n then [] else readMsgs addr σ p n

theorem count_received (addr : String → String) (nets : List String) (σ : String → St) (n : String) (m : Msg) :
    (received addr nets σ n).count m = osum nets (fun p => if p = n then 0 else (readMsgs addr σ p n).count m) := by
  unfold received
  induction nets with
  | nil => rfl
  | cons a t ih =>
    unfold osum at ih ⊢
    rw [List.flatMap_cons, List.count_append, ih, List.map_cons, List.sum_cons]
    congr 1
    split <;> rfl

section
variable {addr : String → String} {cfg : String → Cfg} {nets : List String} {dec : Bytes → Option Inner} (hN : Networks nets cfg dec)
  (hinj : ∀ a ∈ nets, ∀ b ∈ nets, addr a = addr b → a = b)
include hN hinj

/-- The network with links, with the messages taken. -/
theorem link_treach {σ : String → St} (h : LReach addr cfg nets σ) :
    ∃ P T, Link addr cfg nets σ P ∧ TReach cfg nets ⟨σ, P⟩ T ∧ ∀ q ∈ nets, (received addr nets σ q).Perm (T q) := by
  have : ∃ P T, Link addr cfg nets σ P ∧ TReach cfg nets ⟨σ, P⟩ T ∧ ∀ q ∈ nets, ∀ m, (received addr nets σ q).count m = (T q).count m := by
    induction h with
    | init =>
      obtain ⟨P, g⟩ := link_reach hN hinj (LReach.init (addr := addr) (cfg := cfg) (nets := nets))
      refine ⟨[], fun _ => [], ⟨.init, fun _ _ _ _ _ => Nat.zero_le _, fun m => ?_⟩, .init, fun q _ m => ?_⟩
      · have : psum nets (fun p q => (unread addr (fun _ => SolBmc.init) p q).count m) = psum nets (fun _ _ => 0) :=
          psum_congr nets _ _ (fun _ _ _ _ _ => rfl)
        rw [this, psum_zero]; exact Nat.zero_le _
      · rw [count_received]
        have h1 : osum nets (fun p => if p = q then 0 else (readMsgs addr (fun _ => SolBmc.init) p q).count m) = osum nets (fun _ => 0) := by
          apply osum_congr
          intro p _
          split <;> rfl
        have h2 := osum_one "" 0 nets hN.nodup
        simp only [ite_self] at h2
        rw [h1, h2]; rfl
    | step _ hs ih =>
      obtain ⟨P, T, g, ht, hc⟩ := ih
      obtain ⟨n, D, P', h1, h2, h3⟩ := link_tstep hN hinj g hs
      refine ⟨P', _, h1, ht.step h2, fun q hq m => ?_⟩
      have h4 := h3 q hq m
      rw [count_received, h4, ← count_received, hc q hq m]
      by_cases e : q = n
      · subst e; rw [if_pos rfl, upd_same', List.count_append]
      · rw [if_neg e, upd_other' _ _ _ _ e]; rfl
  obtain ⟨P, T, h1, h2, h3⟩ := this
  exact ⟨P, T, h1, h2, fun q hq => List.perm_iff_count.2 (h3 q hq)⟩

/-- C158: over numbered links a chain receives at most one answer to each of its messages. -/
theorem C158_link_once (σ : String → St) (h : LReach addr cfg nets σ) (n : String) (hn : n ∈ nets) (k : Int) (hk : 0 < k) :
    (received addr nets σ n).countP (fun m => decide (m.dst = n ∧ m.nsn = -k)) ≤ 1 := by
  obtain ⟨P, T, -, ht, hc⟩ := link_treach hN hinj h
  rw [(hc n hn).countP_eq]
  exact C158_once nets cfg hN.nodup hN.name _ T ht n hn k hk

/-- C158: and it answers a message the chain sent, as in `C158_genuine`. -/
theorem C158_link_genuine (σ : String → St) (h : LReach addr cfg nets σ) (n : String) (hn : n ∈ nets)
    (ans : Msg) (ha : ans ∈ received addr nets σ n) (hd : ans.dst = n) (hs : ans.nsn < 0) :
    ∃ m0 ∈ msgsOf (σ n).log, m0.src = n ∧ m0.nsn = -ans.nsn ∧ m0.svc = ans.svc ∧ 0 < m0.sn ∧
      (ans.sn = -m0.sn ∨ (ans.sn = 0 ∧ ans.src = m0.dst)) := by
  obtain ⟨P, T, -, ht, hc⟩ := link_treach hN hinj h
  exact C158_genuine nets cfg hN.nodup hN.name _ T ht n hn ans ((hc n hn).mem_iff.1 ha) hd hs

/-- C158: once the answer is received, no link carries the message or another answer, and no chain owes one. -/
theorem C158_link_done (σ : String → St) (h : LReach addr cfg nets σ) (n : String) (hn : n ∈ nets) (k : Int) (hk : 0 < k)
    (ans : Msg) (ha : ans ∈ received addr nets σ n) (hd : ans.dst = n) (hs : ans.nsn = -k) :
    (∀ p ∈ nets, ∀ q ∈ nets, p ≠ q → ∀ m ∈ unread addr σ p q, ¬ (m.src = n ∧ m.nsn = k) ∧ ¬ (m.dst = n ∧ m.nsn = -k)) ∧
    (∀ a ∈ nets, ∀ svc sn, ((σ a).resp.get Resp.empty (n, svc, sn)).nsn ≠ k) := by
  obtain ⟨P, T, g, ht, hc⟩ := link_treach hN hinj h
  have h1 := C158_done nets cfg hN.nodup hN.name _ T ht n hn k hk ans ((hc n hn).mem_iff.1 ha) hd hs
  refine ⟨fun p hp q hq hpq m hm => h1.1 m ?_, h1.2⟩
  obtain ⟨rest, hr⟩ := g.take q p hq hp hpq (unread addr σ p q) [] (List.append_nil _).symm
  exact hr.mem_iff.2 (List.mem_append_left _ hm)

end

/-! ### Concrete histories -/

namespace Demo

/-- A call, or the delivery of the first message of the pool to a service that makes calls and may fail. -/
inductive Ask where
  | call (n : String) (o : Op)
  | deliver (n prev : String) (ok : Bool) (acts : Ops)

def Ask.run (x : Sys × (String → List Msg)) : Ask → Sys × (String → List Msg)
  | .call n o => match exec (cfg n) o (x.1.st n) with
    | some s' => (x.1.next n s' x.1.pool, upd x.2 n (x.2 n ++ []))
    | none => x
  | .deliver n prev ok acts => match x.1.pool with
    | [] => x
    | m :: rest => match exec (cfg n) (.relay env 9 prev (.cons m env ok acts .nil)) (x.1.st n) with
      | some s' => (x.1.next n s' rest, upd x.2 n (x.2 n ++ [m]))
      | none => x

def Ask.Fine : Ask → Prop
  | .call n o => n ∈ nets ∧ Quiet (cfg n) o
  | .deliver n _ _ acts => n ∈ nets ∧ QuietOps (cfg n) acts

theorem ask_reach (x : Sys × (String → List Msg)) (a : Ask) (h : TReach cfg nets x.1 x.2) (ha : a.Fine) : TReach cfg nets (a.run x).1 (a.run x).2 := by
  cases a with
  | call n o =>
    cases he : exec (cfg n) o (x.1.st n) with
    | none => simp only [Ask.run, he]; exact h
    | some s' => simp only [Ask.run, he]; exact h.step (.call x.1 n o s' ha.1 ha.2 he)
  | deliver n prev ok acts =>
    cases hp : x.1.pool with
    | nil => simp only [Ask.run, hp]; exact h
    | cons m rest =>
      cases he : exec (cfg n) (.relay env 9 prev (.cons m env ok acts .nil)) (x.1.st n) with
      | none => simp only [Ask.run, hp, he]; exact h
      | some s' =>
        simp only [Ask.run, hp, he]
        exact h.step (.relay x.1 n env 9 prev (.cons m env ok acts .nil) rest s' ha.1 ⟨ha.2, trivial⟩ (by rw [hp]; exact .refl _) he)

theorem asks_reach (l : List Ask) : ∀ x, TReach cfg nets x.1 x.2 → (∀ a ∈ l, a.Fine) → TReach cfg nets (l.foldl Ask.run x).1 (l.foldl Ask.run x).2 := by
  induction l with
  | nil => intro x h _; exact h
  | cons a t ih =>
    intro x h ha
    exact ih _ (ask_reach x a h (ha a (List.mem_cons_self ..))) (fun y hy => ha y (List.mem_cons_of_mem _ hy))

def start2 : Sys × (String → List Msg) := (⟨fun _ => SolBmc.init, []⟩, fun _ => [])

/-- A service of A asks B with the number 5; the service of B answers while it handles the request. -/
def asked : List Ask :=
  [.call "A" (.send env 50 10 "B" "svc" 5 [1]), .deliver "B" "A" true (.cons (.send env 50 0 "A" "svc" (-5) [7]) .nil), .deliver "A" "B" true .nil]

theorem asked_reach : TReach cfg nets (asked.foldl Ask.run start2).1 (asked.foldl Ask.run start2).2 := by
  apply asks_reach _ _ .init
  intro a ha
  simp only [asked, List.mem_cons, List.not_mem_nil, or_false] at ha
  rcases ha with rfl | rfl | rfl <;> simp [Ask.Fine, nets, Quiet, QuietOps, env, cfg]

/-- A has taken the answer to its message 1: from B, in the name of the service, not an error; nothing is under way. -/
example : ((asked.foldl Ask.run start2).2 "A").map (fun m => (m.src, m.dst, m.svc, m.sn, m.nsn)) = [("B", "A", "svc", 0, -1)] ∧
    (asked.foldl Ask.run start2).1.pool = [] := by decide +kernel

/-- The service of B fails instead: A gets an error with its own number. -/
def failed : List Ask := [.call "A" (.send env 50 10 "B" "svc" 5 [1]), .deliver "B" "A" false .nil, .deliver "A" "B" true .nil]

theorem failed_reach : TReach cfg nets (failed.foldl Ask.run start2).1 (failed.foldl Ask.run start2).2 := by
  apply asks_reach _ _ .init
  intro a ha
  simp only [failed, List.mem_cons, List.not_mem_nil, or_false] at ha
  rcases ha with rfl | rfl | rfl <;> simp [Ask.Fine, nets, Quiet, QuietOps, env, cfg]

example : ((failed.foldl Ask.run start2).2 "A").map (fun m => (m.src, m.dst, m.svc, m.sn, m.nsn)) = [("B", "A", "svc", -5, -1)] := by decide +kernel

/-- The service of A uses the number 5 twice before B's service answers. -/
def reused : List Ask :=
  [.call "A" (.send env 50 10 "B" "svc" 5 [1]), .call "A" (.send env 50 10 "B" "svc" 5 [2]), .deliver "B" "A" true .nil, .deliver "B" "A" true .nil,
   .call "B" (.send env 50 0 "A" "svc" (-5) [7])]

theorem reused_reach : TReach cfg nets (reused.foldl Ask.run start2).1 (reused.foldl Ask.run start2).2 := by
  apply asks_reach _ _ .init
  intro a ha
  simp only [reused, List.mem_cons, List.not_mem_nil, or_false] at ha
  rcases ha with rfl | rfl | rfl | rfl | rfl <;> simp [Ask.Fine, nets, Quiet, QuietOps, env, cfg]

/-- C158: not every request is answered or answerable. Of two requests with one number the first is forgotten when the second arrives:
    the one answer B's service can send is to the second, and message 1 of A never gets an answer, whatever happens. -/
theorem C158_reuse_false :
    (reused.foldl Ask.run start2).1.pool.map (fun m => (m.dst, m.nsn)) = [("A", -2)] ∧
    (exec (cfg "B") (.send env 50 0 "A" "svc" (-5) [7]) ((reused.foldl Ask.run start2).1.st "B")).isNone ∧
    ∀ σ' T', TSteps cfg nets (reused.foldl Ask.run start2).1 (reused.foldl Ask.run start2).2 σ' T' →
      ∀ m ∈ T' "A", ¬ (m.dst = "A" ∧ m.nsn = -1) := by
  refine ⟨by decide +kernel, by decide +kernel, fun σ' T' h => ?_⟩
  refine C158_never nets cfg networks.nodup networks.name _ _ reused_reach "A" 1 (by decide) ?_ ?_ ?_ ?_ σ' T' h
  · decide +kernel
  · decide +kernel
  · decide +kernel
  · decide +kernel

end Demo

end Verif.SolNet
