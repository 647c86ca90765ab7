import Verif.JavaMoves
/-!
A network of message centers of EVM chains (SolBmc) and of ICON (JavaBmc): the steps of the network, and the invariant of requests and
answers of SolAnswerInv for it.

* `pool` are the messages emitted and not yet delivered, as ICON reads them; an EVM message center reads them as `tr` (JavaMoves). A relay
  call delivers messages of the pool, each once (C41_in_order_partial, C41_java_exactly_once); which chain gets which message, and when, is
  open.
* While a service handles a message, or the payee of a claim is paid, it may make any calls but relay calls and dropped messages.
* On EVM chains as in SolNet. On ICON everything the owners can do is allowed, adding and removing links among it.
* An owner who drops a message tells its source, service and numbers truly.
-/
namespace Verif.MixNet
open Verif
open Verif.SolBmc (FM FeeInfo upd)
open Verif.SolNet (Abs Mv Mvs SameMsg owed msgsOf Quiet QuietItems Inv weight used kept isTok isAns isTok_iff isAns_iff)
open Verif.JavaBmc (Msg)

/-- What a chain runs. -/
inductive Kind where
  | evm (c : SolBmc.Cfg)
  | icon (c : JavaBmc.Cfg) (creator : Nat)

/-- The state of a message center. -/
inductive Node where
  | evm (s : SolBmc.St)
  | icon (s : JavaBmc.St)

def Kind.net : Kind → String
  | .evm c => c.net
  | .icon c _ => c.net

def Kind.init : Kind → Node
  | .evm _ => .evm SolBmc.init
  | .icon _ creator => .icon (JavaBmc.initSt creator)

/-- The messages sent. -/
def Node.sent : Node → List Msg
  | .evm s => (msgsOf s.log).map emb
  | .icon s => sentBy s.log

/-- The messages given up. -/
def Node.given : Node → List Msg
  | .evm s => s.log.flatMap fun e => match e with | .dropped _ _ m _ => [emb m] | _ => []
  | .icon s => s.log.flatMap fun e => match e with | .dropped _ _ m => [m] | _ => []

/-- The number of the message an answer is owed to, 0 if none is. -/
def Node.owes : Node → String → String → Int → Int
  | .evm s, src, svc, sn => (s.resp.get SolBmc.Resp.empty (src, svc, sn)).nsn
  | .icon s, src, svc, sn => match s.resp.get none (src, svc, sn) with
    | none => 0
    | some r => r.nsn

/-- The number of the last message sent. -/
def Node.last : Node → Int
  | .evm s => s.nsn
  | .icon s => s.nsn

/-- All message centers and the messages under way. -/
structure Sys where
  st : String → Node
  pool : List Msg

/-- The state after the chain `n` went to `x`, the messages `rest` still being under way. -/
def Sys.next (σ : Sys) (n : String) (x : Node) (rest : List Msg) : Sys := ⟨upd σ.st n x, rest ++ x.sent.drop (σ.st n).sent.length⟩

/-- One call on chain `n`, with the messages it takes. -/
inductive Step (cfg : String → Kind) (nets : List String) : Sys → String → List Msg → Sys → Prop where
  | evmCall (σ : Sys) (n : String) (c : SolBmc.Cfg) (s : SolBmc.St) (o : SolBmc.Op) (s' : SolBmc.St) : n ∈ nets → cfg n = .evm c → σ.st n = .evm s →
      Quiet c o → SolBmc.exec c o s = some s' → Step cfg nets σ n [] (σ.next n (.evm s') σ.pool)
  | evmRelay (σ : Sys) (n : String) (c : SolBmc.Cfg) (s : SolBmc.St) (env : SolBmc.Env) (caller : Nat) (prev : String) (items : SolBmc.Items)
      (D rest : List Msg) (s' : SolBmc.St) : n ∈ nets → cfg n = .evm c → σ.st n = .evm s → QuietItems c items → items.msgs = D.map tr →
      σ.pool.Perm (D ++ rest) → SolBmc.exec c (.relay env caller prev items) s = some s' → Step cfg nets σ n D (σ.next n (.evm s') rest)
  | evmDrop (σ : Sys) (n : String) (c : SolBmc.Cfg) (s : SolBmc.St) (env : SolBmc.Env) (seq : Nat) (m : Msg) (rest : List Msg) (s' : SolBmc.St) :
      n ∈ nets → cfg n = .evm c → σ.st n = .evm s → σ.pool.Perm (m :: rest) →
      SolBmc.exec c (.drop env m.src seq m.svc m.sn m.nsn (tr m).fee) s = some s' → Step cfg nets σ n [m] (σ.next n (.evm s') rest)
  | iconCall (σ : Sys) (n : String) (c : JavaBmc.Cfg) (creator : Nat) (s : JavaBmc.St) (o : JavaBmc.Op) (s' : JavaBmc.St) : n ∈ nets →
      cfg n = .icon c creator → σ.st n = .icon s → o.quiet = true → JavaBmc.exec c o s = some s' → Step cfg nets σ n [] (σ.next n (.icon s') σ.pool)
  | iconRelay (σ : Sys) (n : String) (c : JavaBmc.Cfg) (creator : Nat) (s : JavaBmc.St) (caller : Nat) (prev : String) (items : JavaBmc.Items)
      (rest : List Msg) (s' : JavaBmc.St) : n ∈ nets → cfg n = .icon c creator → σ.st n = .icon s → items.flat = true →
      σ.pool.Perm (items.msgs ++ rest) → JavaBmc.exec c (.relay caller prev items) s = some s' → Step cfg nets σ n items.msgs (σ.next n (.icon s') rest)
  | iconDrop (σ : Sys) (n : String) (c : JavaBmc.Cfg) (creator : Nat) (s : JavaBmc.St) (env : JavaBmc.Env) (caller seq : Nat) (m : Msg) (fn : String)
      (fv : List Nat) (rest : List Msg) (s' : JavaBmc.St) : n ∈ nets → cfg n = .icon c creator → σ.st n = .icon s → σ.pool.Perm (m :: rest) →
      JavaBmc.exec c (.drop env caller m.src seq m.svc m.sn m.nsn fn fv) s = some s' → Step cfg nets σ n [m] (σ.next n (.icon s') rest)

/-- The states reached, with the messages each chain has taken. -/
inductive Reach (cfg : String → Kind) (nets : List String) : Sys → (String → List Msg) → Prop where
  | init : Reach cfg nets ⟨fun n => (cfg n).init, []⟩ (fun _ => [])
  | step {σ σ' : Sys} {T : String → List Msg} {n : String} {D : List Msg} : Reach cfg nets σ T → Step cfg nets σ n D σ' →
      Reach cfg nets σ' (upd T n (T n ++ D))

/-- Steps from a state on. -/
inductive Steps (cfg : String → Kind) (nets : List String) (σ : Sys) (T : String → List Msg) : Sys → (String → List Msg) → Prop where
  | nil : Steps cfg nets σ T σ T
  | step {σ1 σ2 : Sys} {T1 : String → List Msg} {n : String} {D : List Msg} : Steps cfg nets σ T σ1 T1 → Step cfg nets σ1 n D σ2 →
      Steps cfg nets σ T σ2 (upd T1 n (T1 n ++ D))

/-! ### The invariant -/

def Node.abs : Node → Abs
  | .evm s => SolNet.abs s
  | .icon s => absJ s

def Node.log : Node → List SolBmc.Event
  | .evm s => s.log
  | .icon s => trLog s.log

theorem sent_tr (x : Node) : x.sent.map tr = msgsOf x.log := by
  cases x with
  | evm s => show ((msgsOf s.log).map emb).map tr = _; rw [List.map_map]; exact List.map_id' _
  | icon s => exact (msgsOf_trLog _).symm

theorem owes_abs (x : Node) (src svc : String) (sn : Int) : x.owes src svc sn = owed x.abs (src, svc, sn) := by
  cases x with
  | evm s => rfl
  | icon s =>
    show (match s.resp.get none (src, svc, sn) with | none => 0 | some r => r.nsn) = owed (absJ s) (src, svc, sn)
    rw [owedJ]
    cases s.resp.get none (src, svc, sn) <;> rfl

theorem last_abs (x : Node) : x.last = x.abs.nsn := by cases x <;> rfl

theorem given_of_log {x : Node} {p : String} {q : Nat} {m : SolBmc.Msg} {code : Nat} (h : SolBmc.Event.dropped p q m code ∈ x.log) :
    ∃ m' ∈ x.given, tr m' = m := by
  cases x with
  | evm s => exact ⟨emb m, List.mem_flatMap.2 ⟨_, h, List.mem_singleton.2 rfl⟩, rfl⟩
  | icon s =>
    obtain ⟨e, he, h2⟩ := List.mem_flatMap.1 (show _ ∈ trLog s.log from h)
    cases e with
    | message a b d => simp [trEv] at h2
    | chain a b d f => simp [trEv] at h2
    | dropped a b d =>
      simp only [trEv, List.mem_singleton, SolBmc.Event.dropped.injEq] at h2
      exact ⟨d, List.mem_flatMap.2 ⟨_, he, List.mem_singleton.2 rfl⟩, h2.2.2.1.symm⟩
    | start a => simp [trEv] at h2
    | bind a b => simp [trEv] at h2

/-- Requests and answers, and what JavaMoves needs. -/
structure MInv (nets : List String) (σ : Sys) (T : String → List Msg) : Prop where
  inv : Inv nets (fun a => (σ.st a).abs) (fun a => (σ.st a).log) (σ.pool.map tr) (fun a => (T a).map tr)
  own : ∀ a s, σ.st a = .icon s → Own s
  fee : ∀ m ∈ σ.pool, 0 < m.sn → m.fee.isSome = true

/-- A step is a sequence of moves. -/
theorem Step.moves {cfg : String → Kind} {nets : List String} (hname : ∀ n ∈ nets, (cfg n).net = n) {σ σ' : Sys} {T : String → List Msg} {n : String} {D : List Msg}
    (g : MInv nets σ T) (h : Step cfg nets σ n D σ') : n ∈ nets ∧ ∃ x rest evs new, σ.pool.Perm (D ++ rest) ∧ σ' = ⟨upd σ.st n x, rest ++ new⟩ ∧
      x.log = (σ.st n).log ++ evs ∧ new.map tr = msgsOf evs ∧ Mvs n (σ.st n).abs (D.map tr) evs x.abs ∧ (∀ s, x = .icon s → Own s) ∧
      (∀ m ∈ new, 0 < m.sn → m.fee.isSome = true) := by
  have evm : ∀ (c : SolBmc.Cfg) (s s' : SolBmc.St) (rest : List Msg), n ∈ nets → cfg n = .evm c → σ.st n = .evm s → SolNet.Go c.net s (D.map tr) s' →
      σ.pool.Perm (D ++ rest) → σ' = σ.next n (.evm s') rest → n ∈ nets ∧ ∃ x rest evs new, σ.pool.Perm (D ++ rest) ∧ σ' = ⟨upd σ.st n x, rest ++ new⟩ ∧
      x.log = (σ.st n).log ++ evs ∧ new.map tr = msgsOf evs ∧ Mvs n (σ.st n).abs (D.map tr) evs x.abs ∧ (∀ s, x = .icon s → Own s) ∧
      (∀ m ∈ new, 0 < m.sn → m.fee.isSome = true) := by
    intro c s s' rest hn hc hs hgo hp he
    obtain ⟨evs, h1, h2⟩ := hgo
    have hnet : c.net = n := by have := hname n hn; rw [hc] at this; exact this
    rw [hnet] at h2
    refine ⟨hn, .evm s', rest, evs, (msgsOf evs).map emb, hp, ?_, ?_, ?_, ?_, (fun s e => nomatch e), ?_⟩
    · rw [he]
      unfold Sys.next
      rw [hs]
      show (⟨_, rest ++ ((msgsOf s'.log).map emb).drop ((msgsOf s.log).map emb).length⟩ : Sys) = _
      rw [h1, SolNet.msgsOf_append, List.map_append, List.drop_left]
    · rw [hs]; exact h1
    · rw [List.map_map]; exact List.map_id' _
    · rw [hs]; exact h2
    · intro m hm _
      obtain ⟨x, -, rfl⟩ := List.mem_map.1 hm
      rfl
  have icon : ∀ (c : JavaBmc.Cfg) (creator : Nat) (s s' : JavaBmc.St) (rest : List Msg), n ∈ nets → cfg n = .icon c creator → σ.st n = .icon s →
      JGo c.net s D s' → σ.pool.Perm (D ++ rest) → σ' = σ.next n (.icon s') rest → n ∈ nets ∧ ∃ x rest evs new, σ.pool.Perm (D ++ rest) ∧
      σ' = ⟨upd σ.st n x, rest ++ new⟩ ∧ x.log = (σ.st n).log ++ evs ∧ new.map tr = msgsOf evs ∧ Mvs n (σ.st n).abs (D.map tr) evs x.abs ∧
      (∀ s, x = .icon s → Own s) ∧ (∀ m ∈ new, 0 < m.sn → m.fee.isSome = true) := by
    intro c creator s s' rest hn hc hs hgo hp he
    have hw : ∀ m ∈ D, Wire m := by
      intro m hm
      have hmp : m ∈ σ.pool := hp.mem_iff.2 (List.mem_append_left _ hm)
      have ha := g.inv.pool (tr m) (List.mem_map_of_mem hmp)
      exact ⟨ha.pos, g.fee m hmp, ha.bmc⟩
    obtain ⟨ho, evs, h1, h2, h3⟩ := hgo (g.own n s hs) hw
    have hnet : c.net = n := by have := hname n hn; rw [hc] at this; exact this
    rw [hnet] at h2
    refine ⟨hn, .icon s', rest, trLog evs, sentBy evs, hp, ?_, ?_, (msgsOf_trLog _).symm, ?_, ?_, h3⟩
    · rw [he]
      unfold Sys.next
      rw [hs]
      show (⟨_, rest ++ (sentBy s'.log).drop (sentBy s.log).length⟩ : Sys) = _
      rw [h1, sentBy_append, List.drop_left]
    · rw [hs]; show trLog s'.log = trLog s.log ++ _; rw [h1, trLog_append]
    · rw [hs]; exact h2
    · intro x e; cases e; exact ho
  cases h with
  | evmCall c s o s' h1 h2 h3 h4 h5 => exact evm c s s' _ h1 h2 h3 (SolNet.quiet_go c o h4 s s' h5) (.refl _) rfl
  | evmRelay c s env caller prev items _ rest s' h1 h2 h3 h4 h5 h6 h7 =>
    exact evm c s s' rest h1 h2 h3 (by rw [← h5]; exact SolNet.relay_go c env caller prev items h4 s s' h7) h6 rfl
  | evmDrop c s env seq m rest s' h1 h2 h3 h4 h5 => exact evm c s s' rest h1 h2 h3 (SolNet.drop_go c env seq (tr m) s s' h5) h4 rfl
  | iconCall c creator s o s' h1 h2 h3 h4 h5 => exact icon c creator s s' _ h1 h2 h3 (quiet_go o s s' h4 h5) (.refl _) rfl
  | iconRelay c creator s caller prev items rest s' h1 h2 h3 h4 h5 h6 => exact icon c creator s s' rest h1 h2 h3 (relay_go h4 h6) h5 rfl
  | iconDrop c creator s env caller seq m fn fv rest s' h1 h2 h3 h4 h5 => exact icon c creator s s' rest h1 h2 h3 (dropMessage_go h5) h4 rfl

theorem Step.inv {cfg : String → Kind} {nets : List String} (hnd : nets.Nodup) (hname : ∀ n ∈ nets, (cfg n).net = n) {σ σ' : Sys} {T : String → List Msg}
    {n : String} {D : List Msg} (g : MInv nets σ T) (h : Step cfg nets σ n D σ') : MInv nets σ' (upd T n (T n ++ D)) ∧
      (∀ x k, 0 < k → weight nets (fun a => (σ'.st a).abs) (σ'.pool.map tr) (fun a => (upd T n (T n ++ D) a).map tr) x k + used x (σ.st x).abs x k ≤
        weight nets (fun a => (σ.st a).abs) (σ.pool.map tr) (fun a => (T a).map tr) x k + used x (σ'.st x).abs x k) ∧
      (∀ x, (σ.st x).last ≤ (σ'.st x).last) := by
  obtain ⟨hn, x, rest, evs, new, hp, rfl, hl, hnew, hm, ho, hf⟩ := h.moves hname g
  have hp' : (σ.pool.map tr).Perm (D.map tr ++ rest.map tr) := by rw [← List.map_append]; exact hp.map tr
  have := Inv.moves hnd hn hm (A := fun a => (σ.st a).abs) (L := fun a => (σ.st a).log) (T := fun a => (T a).map tr) (rest := rest.map tr) rfl (g.inv.perm hp')
  have e1 : (fun a => (upd σ.st n x a).abs) = upd (fun a => (σ.st a).abs) n x.abs := by
    funext y; unfold upd; split <;> rfl
  have e2 : (fun a => (upd σ.st n x a).log) = upd (fun a => (σ.st a).log) n ((σ.st n).log ++ evs) := by
    funext y; unfold upd; split
    · exact hl
    · rfl
  have e3 : (fun a => (upd T n (T n ++ D) a).map tr) = upd (fun a => (T a).map tr) n ((T n).map tr ++ D.map tr) := by
    funext y; unfold upd; split
    · exact List.map_append
    · rfl
  have e4 : (rest ++ new).map tr = rest.map tr ++ msgsOf evs := by rw [List.map_append, hnew]
  dsimp only
  refine ⟨⟨?_, ?_, ?_⟩, fun y k hk => ?_, fun y => ?_⟩
  · dsimp only
    rw [e1, e2, e3, e4]; exact this.1
  · intro a s e
    dsimp only at e
    by_cases ha : a = n
    · subst ha
      rw [SolNet.upd_same'] at e
      exact ho s e
    · rw [SolNet.upd_other' _ _ _ _ ha] at e
      exact g.own a s e
  · intro m hm
    rcases List.mem_append.1 hm with hm | hm
    · exact g.fee m (hp.mem_iff.2 (List.mem_append_right _ hm))
    · exact hf m hm
  · have h3 := this.2 y k hk
    have h4 : weight nets (fun a => (σ.st a).abs) (σ.pool.map tr) (fun a => (T a).map tr) y k =
        weight nets (fun a => (σ.st a).abs) (D.map tr ++ rest.map tr) (fun a => (T a).map tr) y k := by
      unfold weight; rw [hp'.countP_eq]
    have h5 : (upd σ.st n x y).abs = upd (fun a => (σ.st a).abs) n x.abs y := congrFun e1 y
    rw [e1, e3, e4, h4, h5]
    exact h3
  · rw [last_abs, last_abs]
    by_cases e : y = n
    · subst e
      rw [SolNet.upd_same']
      have : ∀ (u v : Abs) i e, Mvs y u i e v → u.nsn ≤ v.nsn := by
        intro u v i e hm
        induction hm with
        | nil => exact Int.le_refl _
        | @cons u v z i j e f hm _ ih =>
          have := Mv.mono (A := fun _ => u) hm
          omega
      exact this _ _ _ _ hm
    · rw [SolNet.upd_other' _ _ _ _ e]; exact Int.le_refl _

theorem reach_inv {cfg : String → Kind} {nets : List String} (hnd : nets.Nodup) (hname : ∀ n ∈ nets, (cfg n).net = n) {σ : Sys} {T : String → List Msg}
    (h : Reach cfg nets σ T) : MInv nets σ T := by
  induction h with
  | init =>
    have hk : ∀ a n k, kept (cfg a).init.abs n k = 0 := by
      intro a n k
      cases cfg a <;> rfl
    have hl : ∀ a, (cfg a).init.log = [] := by intro a; cases cfg a <;> rfl
    refine ⟨⟨fun a _ => ?_, fun a _ m hm => ?_, fun a _ m hm => ?_, fun m hm => (nomatch hm), fun a _ m hm => (nomatch hm),
      fun a _ x svc sn => .inl ?_, fun n _ k _ => ?_, fun n _ m0 hm => ?_⟩, fun a s e => ?_, fun m hm => (nomatch hm)⟩
    · dsimp only
      cases cfg a <;> exact Int.le_refl _
    · rw [hl a] at hm; exact nomatch hm
    · rw [hl a] at hm; exact nomatch hm
    · dsimp only
      cases cfg a <;> rfl
    · have : SolNet.osum nets (fun a => kept (cfg a).init.abs n k) = 0 := by
        have h1 := SolNet.osum_congr (fun a => kept (cfg a).init.abs n k) (fun _ => 0) nets (fun a _ => hk a n k)
        have h2 := SolNet.osum_one "" 0 nets hnd
        simp only [ite_self] at h2
        omega
      unfold weight
      rw [this]
      exact Nat.zero_le _
    · dsimp only at hm; rw [hl n] at hm; exact nomatch hm
    · dsimp only at e
      cases hc : cfg a with
      | evm c => rw [hc] at e; cases e
      | icon c creator =>
        rw [hc] at e
        cases e
        exact ⟨rfl, fun key r h => nomatch h⟩
  | step _ hs ih => exact (hs.inv hnd hname ih).1

end Verif.MixNet
