import Verif.SolNetProps
import Verif.SolBmcSeq
/-!
The network of SolNet with links: messages are not taken from a pool, but read by number from what the other chain emitted.

* `addr n` is the BTP address of the message center of the network `n`; different networks have different addresses.
* A relay call on `n` for the link `p` brings the messages `p` emitted for `n` that follow the number `n` has received from `p`; that
  verifiers release nothing else is C40, C41, C50, C135, C142.
* An owner who drops a message gives its contents as `p` emitted it.
-/
namespace Verif.SolNet
open Verif Verif.SolBmc

/-- Messages emitted for a link, in order. -/
def sentTo (link : String) (l : List Event) : List Msg := l.filterMap fun e => match e with
  | .message next _ m => if next = link then some m else none
  | _ => none

/-- Messages of `p` for `q` that `q` has not received. -/
def unread (addr : String → String) (σ : String → St) (p q : String) : List Msg :=
  (sentTo (addr q) (σ p).log).drop ((σ q).rx (addr p))

/-- Messages of `p` for `q` that `q` has received, or its owner has dropped. -/
def readMsgs (addr : String → String) (σ : String → St) (p q : String) : List Msg :=
  (sentTo (addr q) (σ p).log).take ((σ q).rx (addr p))

/-- One call on one of the chains; the messages of a relay call are the next ones of the link. -/
inductive LStep (addr : String → String) (cfg : String → Cfg) (nets : List String) : (String → St) → (String → St) → Prop where
  | call (σ : String → St) (n : String) (o : Op) (s' : St) : n ∈ nets → Quiet (cfg n) o → exec (cfg n) o (σ n) = some s' →
      LStep addr cfg nets σ (upd σ n s')
  | relay (σ : String → St) (n p : String) (env : Env) (caller : Nat) (items : Items) (later : List Msg) (s' : St) : n ∈ nets → p ∈ nets → p ≠ n →
      QuietItems (cfg n) items → unread addr σ p n = items.msgs ++ later →
      exec (cfg n) (.relay env caller (addr p) items) (σ n) = some s' → LStep addr cfg nets σ (upd σ n s')
  | drop (σ : String → St) (n p : String) (env : Env) (seq : Nat) (m : Msg) (later : List Msg) (s' : St) : n ∈ nets → p ∈ nets → p ≠ n →
      env.resolve m.src = some (addr p) → unread addr σ p n = m :: later →
      exec (cfg n) (.drop env m.src seq m.svc m.sn m.nsn m.fee) (σ n) = some s' → LStep addr cfg nets σ (upd σ n s')

inductive LReach (addr : String → String) (cfg : String → Cfg) (nets : List String) : (String → St) → Prop where
  | init : LReach addr cfg nets (fun _ => SolBmc.init)
  | step {σ σ' : String → St} : LReach addr cfg nets σ → LStep addr cfg nets σ σ' → LReach addr cfg nets σ'

/-! ### Received numbers -/

theorem quiet_rx (c : Cfg) (o : Op) (hq : Quiet c o) (s s' : St) (h : exec c o s = some s') : s'.rx = s.rx := by
  cases o with
  | send env sender value to svc sn body =>
    rw [exec] at h
    split at h
    · cases h
    exact (sendMessage_frame c env s s' sender value to svc sn body h).1
  | claim env sender value net receiver =>
    rw [exec] at h
    split at h
    · cases h
    exact (claim_frame c env s s' sender value net receiver h).1
  | relay env caller prev items => exact hq.elim
  | drop env src seq svc sn nsn f => exact hq.elim
  | clear link => exact hq.elim
  | internal next to body =>
    rw [exec] at h
    simp only [Option.some.injEq] at h
    subst h; rfl

theorem quietOps_rx (c : Cfg) : ∀ (acts : Ops), QuietOps c acts → ∀ s, (execOps c acts s).rx = s.rx
  | .nil, _, s => by rw [execOps]
  | .cons o t, hq, s => by
    rw [execOps, quietOps_rx c t hq.2]
    cases h : exec c o s with
    | none => rfl
    | some s1 => exact quiet_rx c o hq.1 s s1 h

theorem items_rx (c : Cfg) (caller : Nat) (prev : String) : ∀ (items : Items) (seq : Nat) (s s' : St), QuietItems c items →
    execItems c items caller prev seq s = some s' → s'.rx = s.rx
  | .nil, seq, s, s', _, h => by
    rw [execItems] at h
    simp only [Option.some.injEq] at h
    rw [h]
  | .cons m env ok acts t, seq, s, s', hq, h => by
    rw [execItems] at h
    split at h
    · cases h
    rename_i s1 h1
    obtain ⟨s0, hr, -, -, hs⟩ := item_shape c env ok (execOps c acts) caller prev (seq + 1) s m s1 h1
    rw [items_rx c caller prev t (seq + 1) s1 s' hq.2 h]
    rcases hs with hs | hs
    · rw [hs.1, hr]
    · rw [hs, quietOps_rx c acts hq.1, hr]

theorem relay_rx (c : Cfg) (env : Env) (caller : Nat) (prev : String) (items : Items) (hq : QuietItems c items) (s s' : St)
    (h : exec c (.relay env caller prev items) s = some s') : s'.rx = upd s.rx prev (s.rx prev + items.msgs.length) := by
  rw [exec] at h
  split at h
  · split at h
    · cases h
    rename_i s1 h1
    simp only [Option.some.injEq] at h
    subst h
    have := items_rx c caller prev items _ s s1 hq h1
    dsimp only
    rw [this]
  · cases h

/-! ### Counting messages under way -/

/-- Sum over the networks. -/
def osum (nets : List String) (f : String → Nat) : Nat := (nets.map f).sum

theorem osum_congr (f g : String → Nat) : ∀ l : List String, (∀ a ∈ l, f a = g a) → osum l f = osum l g
  | [], _ => rfl
  | a :: t, h => by
    have ih := osum_congr f g t (fun x hx => h x (List.mem_cons_of_mem _ hx))
    unfold osum at ih ⊢
    rw [List.map_cons, List.map_cons, List.sum_cons, List.sum_cons, ih, h a (List.mem_cons_self ..)]

theorem osum_add (f g : String → Nat) : ∀ l : List String, osum l (fun a => f a + g a) = osum l f + osum l g
  | [] => rfl
  | a :: t => by
    have ih := osum_add f g t
    unfold osum at ih ⊢
    rw [List.map_cons, List.map_cons, List.map_cons, List.sum_cons, List.sum_cons, List.sum_cons, ih]
    omega

theorem osum_mem (f : String → Nat) (a : String) (l : List String) (h : a ∈ l) : f a ≤ osum l f := sum_mem f a l h

theorem osum_one (c : String) (v : Nat) : ∀ l : List String, l.Nodup → osum l (fun a => if a = c then v else 0) = if c ∈ l then v else 0
  | [], _ => rfl
  | a :: t, h => by
    rcases List.nodup_cons.1 h with ⟨h1, h2⟩
    have ih := osum_one c v t h2
    unfold osum at ih ⊢
    rw [List.map_cons, List.sum_cons, ih]
    by_cases e : a = c
    · subst e
      rw [if_pos rfl, if_neg h1, if_pos (List.mem_cons_self ..)]
      rfl
    · rw [if_neg e]
      by_cases hc : c ∈ t
      · rw [if_pos hc, if_pos (List.mem_cons_of_mem _ hc)]; omega
      · rw [if_neg hc, if_neg (fun h => by rcases List.mem_cons.1 h with h | h; exact e h.symm; exact hc h)]

/-- Sum over pairs of different networks. -/
def psum (nets : List String) (f : String → String → Nat) : Nat := osum nets fun p => osum nets fun q => if p = q then 0 else f p q

theorem psum_congr (nets : List String) (f g : String → String → Nat) (h : ∀ p ∈ nets, ∀ q ∈ nets, p ≠ q → f p q = g p q) : psum nets f = psum nets g := by
  apply osum_congr
  intro p hp
  apply osum_congr
  intro q hq
  by_cases e : p = q
  · rw [if_pos e, if_pos e]
  · rw [if_neg e, if_neg e, h p hp q hq e]

theorem psum_add (nets : List String) (f g : String → String → Nat) : psum nets (fun p q => f p q + g p q) = psum nets f + psum nets g := by
  unfold psum
  rw [← osum_add]
  apply osum_congr
  intro p _
  rw [← osum_add]
  apply osum_congr
  intro q _
  by_cases e : p = q
  · rw [if_pos e, if_pos e, if_pos e]
  · rw [if_neg e, if_neg e, if_neg e]

theorem psum_one (nets : List String) (hn : nets.Nodup) (a b : String) (ha : a ∈ nets) (hb : b ∈ nets) (hab : a ≠ b) (v : Nat) :
    psum nets (fun p q => if p = a ∧ q = b then v else 0) = v := by
  have : psum nets (fun p q => if p = a ∧ q = b then v else 0) = osum nets (fun p => if p = a then v else 0) := by
    apply osum_congr
    intro p hp
    by_cases e : p = a
    · rw [if_pos e]
      have := osum_one b v nets hn
      rw [if_pos hb] at this
      refine Eq.trans ?_ this
      apply osum_congr
      intro q _
      dsimp only
      by_cases e2 : q = b
      · rw [if_pos e2, if_neg (by rw [e, e2]; exact hab), if_pos ⟨e, e2⟩]
      · rw [if_neg e2]
        split
        · rfl
        · rw [if_neg (fun h => e2 h.2)]
    · rw [if_neg e]
      have : osum nets (fun q => if p = q then 0 else if p = a ∧ q = b then v else 0) = osum nets (fun _ => 0) := by
        apply osum_congr
        intro q _
        split
        · rfl
        · rw [if_neg (fun h => e h.1)]
      rw [this]
      have := osum_one "" 0 nets hn
      simp only [ite_self] at this
      exact this
  rw [this, osum_one a v nets hn, if_pos ha]

theorem osum_le (f g : String → Nat) : ∀ l : List String, (∀ a ∈ l, f a ≤ g a) → osum l f ≤ osum l g
  | [], _ => Nat.le_refl _
  | a :: t, h => by
    have ih := osum_le f g t (fun x hx => h x (List.mem_cons_of_mem _ hx))
    have := h a (List.mem_cons_self ..)
    unfold osum at ih ⊢
    rw [List.map_cons, List.map_cons, List.sum_cons, List.sum_cons]
    omega

/-- A row. -/
theorem psum_row (nets : List String) (hn : nets.Nodup) (a : String) (ha : a ∈ nets) (f : String → Nat) :
    psum nets (fun p q => if p = a then f q else 0) ≤ osum nets f := by
  have h0 : osum nets (fun p => if p = a then osum nets f else 0) = osum nets f := by rw [osum_one a _ nets hn, if_pos ha]
  rw [← h0]
  apply osum_le
  intro p _
  by_cases e : p = a
  · rw [if_pos e]
    apply osum_le
    intro q _
    dsimp only
    rw [if_pos e]
    split
    · exact Nat.zero_le _
    · exact Nat.le_refl _
  · rw [if_neg e]
    have : osum nets (fun q => if p = q then 0 else if p = a then f q else 0) ≤ osum nets (fun _ => 0) := by
      apply osum_le
      intro q _
      rw [if_neg e]
      split <;> exact Nat.le_refl _
    have h1 := osum_one "" 0 nets hn
    simp only [ite_self] at h1
    exact Nat.le_trans this (by omega)

theorem count_le_row (addr : String → String) (nets : List String) (hn : nets.Nodup) (hinj : ∀ a ∈ nets, ∀ b ∈ nets, addr a = addr b → a = b) (m : Msg) :
    ∀ l : List Event, osum nets (fun q => (sentTo (addr q) l).count m) ≤ (msgsOf l).count m
  | [] => by
    have h1 := osum_one "" 0 nets hn
    simp only [ite_self] at h1
    show osum nets (fun _ => 0) ≤ 0
    omega
  | e :: t => by
    have ih := count_le_row addr nets hn hinj m t
    cases e with
    | message next seq x =>
      have e1 : msgsOf (.message next seq x :: t) = x :: msgsOf t := rfl
      have e2 : ∀ q, (sentTo (addr q) (.message next seq x :: t)).count m = (sentTo (addr q) t).count m + (if next = addr q then (if x = m then 1 else 0) else 0) := by
        intro q
        unfold sentTo
        rw [List.filterMap_cons]
        by_cases h : next = addr q
        · simp only [if_pos h, List.count_cons, beq_iff_eq]
        · simp only [if_neg h, Nat.add_zero]
      rw [osum_congr _ _ nets (fun q _ => e2 q), osum_add, e1, List.count_cons]
      have h2 : osum nets (fun q => if next = addr q then (if x = m then 1 else 0) else 0) ≤ (if x = m then 1 else 0) := by
        by_cases h : ∃ q ∈ nets, next = addr q
        · obtain ⟨q0, hq0, h⟩ := h
          have h3 := osum_one q0 (if x = m then 1 else 0) nets hn
          rw [if_pos hq0] at h3
          have h4 : osum nets (fun q => if next = addr q then (if x = m then 1 else 0) else 0) = osum nets (fun q => if q = q0 then (if x = m then 1 else 0) else 0) := by
            apply osum_congr
            intro q hq
            by_cases e : q = q0
            · rw [if_pos e, if_pos (by rw [e]; exact h)]
            · rw [if_neg e, if_neg (fun h' => e (hinj q hq q0 hq0 (h'.symm.trans h)))]
          omega
        · have h4 : osum nets (fun q => if next = addr q then (if x = m then 1 else 0) else 0) = osum nets (fun _ => 0) := by
            apply osum_congr
            intro q hq
            rw [if_neg (fun h' => h ⟨q, hq, h'⟩)]
          have h1 := osum_one "" 0 nets hn
          simp only [ite_self] at h1
          omega
      simp only [beq_iff_eq]
      omega
    | dropped a b d f => exact ih
    | cleared a => exact ih

/-- Messages that are counted can be taken out. -/
theorem perm_of_count : ∀ (d P : List Msg), (∀ m, d.count m ≤ P.count m) → ∃ rest, P.Perm (d ++ rest)
  | [], P, _ => ⟨P, .refl _⟩
  | a :: t, P, h => by
    have h1 := h a
    rw [List.count_cons_self] at h1
    have hm : a ∈ P := List.count_pos_iff.1 (by omega)
    have hp := List.perm_cons_erase hm
    obtain ⟨rest, hr⟩ := perm_of_count t (P.erase a) (fun m => by
      have h2 := h m
      have h3 := hp.count_eq m
      rw [List.count_cons] at h2 h3
      omega)
    exact ⟨rest, hp.trans (hr.cons a)⟩

/-- One call on the chain `n`, which takes the messages `D`. -/
inductive TStep (cfg : String → Cfg) (nets : List String) : Sys → String → List Msg → Sys → Prop where
  | call (σ : Sys) (n : String) (o : Op) (s' : St) : n ∈ nets → Quiet (cfg n) o → exec (cfg n) o (σ.st n) = some s' →
      TStep cfg nets σ n [] (σ.next n s' σ.pool)
  | relay (σ : Sys) (n : String) (env : Env) (caller : Nat) (prev : String) (items : Items) (rest : List Msg) (s' : St) : n ∈ nets →
      QuietItems (cfg n) items → σ.pool.Perm (items.msgs ++ rest) → exec (cfg n) (.relay env caller prev items) (σ.st n) = some s' →
      TStep cfg nets σ n items.msgs (σ.next n s' rest)
  | drop (σ : Sys) (n : String) (env : Env) (seq : Nat) (m : Msg) (rest : List Msg) (s' : St) : n ∈ nets → σ.pool.Perm (m :: rest) →
      exec (cfg n) (.drop env m.src seq m.svc m.sn m.nsn m.fee) (σ.st n) = some s' → TStep cfg nets σ n [m] (σ.next n s' rest)

theorem TStep.step {cfg : String → Cfg} {nets : List String} {σ σ' : Sys} {n : String} {D : List Msg} (h : TStep cfg nets σ n D σ') :
    Step cfg nets σ σ' := by
  cases h with
  | call o s' h1 h2 h3 => exact .call σ n o s' h1 h2 h3
  | relay env caller prev items rest s' h1 h2 h3 h4 => exact .relay σ n env caller prev items rest s' h1 h2 h3 h4
  | drop env seq m rest s' h1 h2 h3 => exact .drop σ n env seq m rest s' h1 h2 h3

/-- The network with links is the network with a pool: what is not received is in the pool. -/
structure Link (addr : String → String) (cfg : String → Cfg) (nets : List String) (σ : String → St) (P : List Msg) : Prop where
  reach : Reach cfg nets ⟨σ, P⟩
  rx : ∀ p ∈ nets, ∀ q ∈ nets, p ≠ q → (σ q).rx (addr p) ≤ (sentTo (addr q) (σ p).log).length
  pool : ∀ m, psum nets (fun p q => (unread addr σ p q).count m) ≤ P.count m

theorem sentTo_append (l : String) (a b : List Event) : sentTo l (a ++ b) = sentTo l a ++ sentTo l b := by
  unfold sentTo; exact List.filterMap_append ..

/-- The chain `n` received `D`, the others nothing. -/
def Took (addr : String → String) (nets : List String) (σ σ' : String → St) (n : String) (D : List Msg) : Prop := ∀ q ∈ nets, ∀ m,
  osum nets (fun p => if p = q then 0 else (readMsgs addr σ' p q).count m) =
    osum nets (fun p => if p = q then 0 else (readMsgs addr σ p q).count m) + if q = n then D.count m else 0

/-- The effect of a step of `n` that receives `del a` from each `a`, together `D`. -/
theorem Link.step {addr : String → String} {cfg : String → Cfg} {nets : List String} {σ : String → St} {P : List Msg}
    (hn : nets.Nodup) (hinj : ∀ a ∈ nets, ∀ b ∈ nets, addr a = addr b → a = b) (g : Link addr cfg nets σ P)
    (n : String) (hnm : n ∈ nets) (D rest : List Msg) (del : String → List Msg) (s' : St) (evs : List Event)
    (hu : ∀ a ∈ nets, a ≠ n → ∃ later, unread addr σ a n = del a ++ later ∧ s'.rx (addr a) = (σ n).rx (addr a) + (del a).length)
    (hdel : ∀ m, psum nets (fun a b => if b = n then (del a).count m else 0) = D.count m)
    (hdel2 : ∀ m, osum nets (fun a => if a = n then 0 else (del a).count m) = D.count m)
    (hP : P.Perm (D ++ rest)) (hlog : s'.log = (σ n).log ++ evs)
    (ht : TStep cfg nets ⟨σ, P⟩ n D (Sys.next ⟨σ, P⟩ n s' rest)) :
    ∃ P', Link addr cfg nets (upd σ n s') P' ∧ TStep cfg nets ⟨σ, P⟩ n D ⟨upd σ n s', P'⟩ ∧ Took addr nets σ (upd σ n s') n D := by
  have hnext : Sys.next ⟨σ, P⟩ n s' rest = ⟨upd σ n s', rest ++ msgsOf evs⟩ := by
    unfold Sys.next; dsimp only; rw [hlog, drop_log]
  rw [hnext] at ht
  refine ⟨rest ++ msgsOf evs, ⟨g.reach.step ht.step, ?_, ?_⟩, ht, ?_⟩
  · intro a ha b hb hab
    have h0 := g.rx a ha b hb hab
    by_cases e1 : a = n
    · subst e1
      rw [upd_other σ a s' b (fun e => hab e.symm), upd_same, hlog, sentTo_append, List.length_append]
      omega
    · by_cases e2 : b = n
      · subst e2
        obtain ⟨later, h1, h2⟩ := hu a ha e1
        rw [upd_same, upd_other σ b s' a e1, h2]
        have : (unread addr σ a b).length = (del a).length + later.length := by rw [h1, List.length_append]
        unfold unread at this
        rw [List.length_drop] at this
        omega
      · rw [upd_other σ n s' b e2, upd_other σ n s' a e1]; exact h0
  · intro m
    have hmain : ∀ a ∈ nets, ∀ b ∈ nets, a ≠ b → (unread addr (upd σ n s') a b).count m + (if b = n then (del a).count m else 0) =
        (unread addr σ a b).count m + (if a = n then (sentTo (addr b) evs).count m else 0) := by
      intro a ha b hb hab
      by_cases e1 : a = n
      · subst e1
        rw [if_neg (fun h => hab h.symm), if_pos rfl]
        unfold unread
        rw [upd_other σ a s' b (fun e => hab e.symm), upd_same, hlog, sentTo_append,
          List.drop_append_of_le_length (g.rx a ha b hb hab), List.count_append, Nat.add_zero]
      · rw [if_neg e1, Nat.add_zero]
        by_cases e2 : b = n
        · subst e2
          rw [if_pos rfl]
          obtain ⟨later, h1, h2⟩ := hu a ha e1
          have h3 : unread addr (upd σ b s') a b = later := by
            unfold unread at h1 ⊢
            rw [upd_same, upd_other σ b s' a e1, h2, ← List.drop_drop, h1, List.drop_append_of_le_length (Nat.le_refl _),
              List.drop_length, List.nil_append]
          rw [h3, h1, List.count_append]; omega
        · rw [if_neg e2]
          unfold unread
          rw [upd_other σ n s' b e2, upd_other σ n s' a e1]
          rfl
    have h1 := psum_congr nets _ _ hmain
    rw [psum_add, psum_add, hdel m] at h1
    have h2 := psum_row nets hn n hnm (fun q => (sentTo (addr q) evs).count m)
    have h3 := count_le_row addr nets hn hinj m evs
    have h4 := g.pool m
    have h5 := hP.count_eq m
    rw [List.count_append] at h5 ⊢
    omega
  · intro q hq m
    by_cases e2 : q = n
    · subst e2
      rw [if_pos rfl, ← hdel2 m, ← osum_add]
      apply osum_congr
      intro p hp
      by_cases e1 : p = q
      · rw [if_pos e1, if_pos e1, if_pos e1]
      · rw [if_neg e1, if_neg e1, if_neg e1]
        obtain ⟨later, h1, h2⟩ := hu p hp e1
        unfold readMsgs
        unfold unread at h1
        rw [upd_same, upd_other σ q s' p e1, h2, List.take_add, h1, List.take_append_of_le_length (Nat.le_refl _), List.take_length, List.count_append]
    · rw [if_neg e2, Nat.add_zero]
      apply osum_congr
      intro p hp
      by_cases e1 : p = q
      · rw [if_pos e1, if_pos e1]
      · rw [if_neg e1, if_neg e1]
        unfold readMsgs
        rw [upd_other σ n s' q e2]
        by_cases e3 : p = n
        · subst e3
          rw [upd_same, hlog, sentTo_append, List.take_append_of_le_length (g.rx p hp q hq e1)]
        · rw [upd_other σ n s' p e3]

theorem psum_zero (nets : List String) : psum nets (fun _ _ => 0) = 0 := by
  have hz : ∀ l : List String, osum l (fun _ => 0) = 0 := by
    intro l
    induction l with
    | nil => rfl
    | cons a t ih => unfold osum at ih ⊢; rw [List.map_cons, List.sum_cons, ih]
  have : psum nets (fun _ _ => 0) = osum nets (fun _ => 0) := by
    apply osum_congr
    intro p _
    simp only [ite_self]
    exact hz nets
  rw [this, hz]

/-- Messages of one link. -/
theorem del_one (nets : List String) (hn : nets.Nodup) (n p : String) (hnm : n ∈ nets) (hpm : p ∈ nets) (hne : p ≠ n) (D : List Msg) (m : Msg) :
    psum nets (fun a b => if b = n then (if a = p then D else []).count m else 0) = D.count m := by
  rw [← psum_one nets hn p n hpm hnm hne (D.count m)]
  apply psum_congr
  intro a _ b _ _
  by_cases e1 : b = n
  · by_cases e2 : a = p
    · rw [if_pos e1, if_pos e2, if_pos ⟨e2, e1⟩]
    · rw [if_pos e1, if_neg e2, if_neg (fun h => e2 h.1)]; rfl
  · rw [if_neg e1, if_neg (fun h => e1 h.2)]

theorem del_one2 (nets : List String) (hn : nets.Nodup) (n p : String) (hpm : p ∈ nets) (hne : p ≠ n) (D : List Msg) (m : Msg) :
    osum nets (fun a => if a = n then 0 else (if a = p then D else []).count m) = D.count m := by
  have := osum_one p (D.count m) nets hn
  rw [if_pos hpm] at this
  rw [← this]
  apply osum_congr
  intro a _
  by_cases e : a = p
  · rw [if_pos e, if_pos e, if_neg (fun h => hne (e.symm.trans h))]
  · rw [if_neg e, if_neg e]; split <;> rfl

/-- What is to be read from a link is in the pool. -/
theorem Link.take {addr : String → String} {cfg : String → Cfg} {nets : List String} {σ : String → St} {P : List Msg}
    (g : Link addr cfg nets σ P) (n p : String) (hnm : n ∈ nets) (hpm : p ∈ nets) (hne : p ≠ n) (D later : List Msg)
    (hu : unread addr σ p n = D ++ later) : ∃ rest, P.Perm (D ++ rest) := by
  apply perm_of_count
  intro m
  have h1 := g.pool m
  have h2 : D.count m ≤ (unread addr σ p n).count m := by rw [hu, List.count_append]; omega
  have h3 : (unread addr σ p n).count m ≤ psum nets (fun p q => (unread addr σ p q).count m) := by
    have h4 := osum_mem (fun p => osum nets fun q => if p = q then 0 else (unread addr σ p q).count m) p nets hpm
    have h5 := osum_mem (fun q => if p = q then 0 else (unread addr σ p q).count m) n nets hnm
    rw [if_neg hne] at h5
    exact Nat.le_trans h5 h4
  omega

/-- The network with links refines the network with a pool. -/
theorem link_tstep {addr : String → String} {cfg : String → Cfg} {nets : List String} {dec : Bytes → Option Inner} (hN : Networks nets cfg dec)
    (hinj : ∀ a ∈ nets, ∀ b ∈ nets, addr a = addr b → a = b) {σ σ' : String → St} {P : List Msg} (g : Link addr cfg nets σ P)
    (h : LStep addr cfg nets σ σ') :
    ∃ n D P', Link addr cfg nets σ' P' ∧ TStep cfg nets ⟨σ, P⟩ n D ⟨σ', P'⟩ ∧ Took addr nets σ σ' n D := by
  have net := net_reach hN g.reach
  have hself : ∀ n ∈ nets, upd σ (cfg n).net (σ n) = σ := fun n hn => by
    have := upd_self σ n
    rw [hN.name n hn]; exact this
  cases h with
  | call n o s' hn hq he =>
    obtain ⟨evs, hl⟩ := quiet_loc (hN.common n hn) σ o hq _ _ he (net.led n).reqs
    refine ⟨n, [], g.step hN.nodup hinj n hn [] P (fun _ => []) s' evs (fun a _ _ => ⟨_, rfl, ?_⟩) (fun m => ?_) (fun m => ?_) (.refl _) hl.log
      (.call ⟨σ, P⟩ n o s' hn hq he)⟩
    · rw [quiet_rx (cfg n) o hq _ _ he]; rfl
    · have := psum_zero nets
      simp only [List.count_nil, ite_self]
      exact this
    · have := osum_one "" 0 nets hN.nodup
      simp only [List.count_nil, ite_self] at this ⊢
      exact this
  | relay n p env caller items later s' hn hp hne hq hu he =>
    obtain ⟨rest, hr⟩ := g.take n p hn hp hne _ _ hu
    have hl : ∃ evs, s'.log = (σ n).log ++ evs := by
      rw [exec] at he
      split at he
      · split at he
        · cases he
        rename_i s1 h1
        simp only [Option.some.injEq] at he
        subst he
        obtain ⟨evs, h2⟩ := items_loc (hN.common n hn) σ caller (addr p) items _ _ s1 hq (fun m hm => by
          rw [hself n hn]; exact net.good m (hr.mem_iff.2 (List.mem_append_left _ hm))) h1 (net.led n).reqs
        exact ⟨evs, h2.log⟩
      · cases he
    obtain ⟨evs, hl⟩ := hl
    have hrx := relay_rx (cfg n) env caller (addr p) items hq _ _ he
    refine ⟨n, items.msgs, g.step hN.nodup hinj n hn items.msgs rest (fun a => if a = p then items.msgs else []) s' evs (fun a ha hna => ?_)
      (del_one nets hN.nodup n p hn hp hne _) (del_one2 nets hN.nodup n p hp hne _) hr hl (.relay ⟨σ, P⟩ n env caller (addr p) items rest s' hn hq hr he)⟩
    by_cases e : a = p
    · subst e
      refine ⟨later, by rw [if_pos rfl]; exact hu, ?_⟩
      rw [if_pos rfl, hrx, upd_same]
    · refine ⟨unread addr σ a n, by rw [if_neg e]; rfl, ?_⟩
      rw [if_neg e, hrx, upd_other _ _ _ _ (fun h => e (hinj a ha p hp h))]
      rfl
  | drop n p env seq m later s' hn hp hne hres hu he =>
    obtain ⟨rest, hr⟩ := g.take n p hn hp hne [m] later hu
    obtain ⟨evs, hl⟩ := drop_loc (nets := nets) (dec := dec) (c := cfg n) σ env seq m _ s' (by rw [exec] at he; exact he) (by
      rw [hself n hn]; exact net.good m (hr.mem_iff.2 (List.mem_cons_self ..)))
    obtain ⟨next, hnext, hrx, -, -, -⟩ := drop_shape (cfg n) env (σ n) s' m.src seq m.svc m.sn m.nsn m.fee (by rw [exec] at he; exact he)
    rw [hres] at hnext
    cases hnext
    refine ⟨n, [m], g.step hN.nodup hinj n hn [m] rest (fun a => if a = p then [m] else []) s' evs (fun a ha hna => ?_)
      (del_one nets hN.nodup n p hn hp hne _) (del_one2 nets hN.nodup n p hp hne _) hr hl.log (.drop ⟨σ, P⟩ n env seq m rest s' hn hr he)⟩
    by_cases e : a = p
    · subst e
      refine ⟨later, by rw [if_pos rfl]; exact hu, ?_⟩
      rw [if_pos rfl, hrx, upd_same]; rfl
    · refine ⟨unread addr σ a n, by rw [if_neg e]; rfl, ?_⟩
      rw [if_neg e, hrx, upd_other _ _ _ _ (fun h => e (hinj a ha p hp h))]
      rfl

theorem link_step {addr : String → String} {cfg : String → Cfg} {nets : List String} {dec : Bytes → Option Inner} (hN : Networks nets cfg dec)
    (hinj : ∀ a ∈ nets, ∀ b ∈ nets, addr a = addr b → a = b) {σ σ' : String → St} {P : List Msg} (g : Link addr cfg nets σ P)
    (h : LStep addr cfg nets σ σ') : ∃ P', Link addr cfg nets σ' P' := by
  obtain ⟨-, -, P', h1, -, -⟩ := link_tstep hN hinj g h
  exact ⟨P', h1⟩

theorem link_reach {addr : String → String} {cfg : String → Cfg} {nets : List String} {dec : Bytes → Option Inner} (hN : Networks nets cfg dec)
    (hinj : ∀ a ∈ nets, ∀ b ∈ nets, addr a = addr b → a = b) {σ : String → St} (h : LReach addr cfg nets σ) :
    ∃ P, Link addr cfg nets σ P := by
  induction h with
  | init => exact ⟨[], .init, fun _ _ _ _ _ => Nat.zero_le _, fun m => by
      have : psum nets (fun p q => (unread addr (fun _ => SolBmc.init) p q).count m) = psum nets (fun _ _ => 0) :=
        psum_congr nets _ _ (fun _ _ _ _ _ => rfl)
      rw [this, psum_zero]; exact Nat.zero_le _⟩
  | step _ hs ih =>
    obtain ⟨P, g⟩ := ih
    exact link_step hN hinj g hs

end Verif.SolNet
