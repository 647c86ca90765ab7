import Verif.LinkLemmas
/-! Theorems on the relay's link, for every receiver: the result handler (C30), the queue (C31), the flow of items
into relay messages (C80), several pending blocks (C81), the size of relay messages (C82), waiting for a header
(C83). -/
namespace Verif.Link
section
variable {ρ β γ : Type}

/-! ### C30: the result handler -/

/-- The mutex, the limits and the random numbers are not touched by building and sending. -/
def SameLock (s t : L ρ β γ) : Prop := t.held = s.held ∧ t.txLimit = s.txLimit ∧ t.limitSize = s.limitSize ∧ t.ids = s.ids

theorem sameLock_closed (R0 : Rcv ρ β γ) : Closed R0 SameLock where
  refl _ := ⟨rfl, rfl, rfl, rfl⟩
  trans s t u h k := ⟨k.1.trans h.1, k.2.1.trans h.2.1, k.2.2.1.trans h.2.2.1, k.2.2.2.trans h.2.2.2⟩
  item _ := ⟨rfl, rfl, rfl, rfl⟩
  push it s := by unfold push; split <;> exact ⟨rfl, rfl, rfl, rfl⟩
  cell _ _ _ := ⟨rfl, rfl, rfl, rfl⟩
  send c s := by unfold sendRelay; split <;> exact ⟨rfl, rfl, rfl, rfl⟩
  rcv _ _ := ⟨rfl, rfl, rfl, rfl⟩

theorem resultBody_held (R0 : Rcv ρ β γ) (n : Nat) (st : Option Bls) (fresh : Nat) (id : Int) (code : Nat)
    (s : L ρ β γ) : ((resultBody R0 n st fresh id code) s).2.held = s.held := by
  have hc := sameLock_closed R0
  unfold resultBody
  split
  · split
    · rfl
    · exact (Pres.bnd hc (fun t => hc.cell _ _ t) (fun _ => Pres.ign (Pres.buildRelayMessage hc _ _)) s).1
  · split
    · unfold removeRelay; split <;> rfl
    · by_cases h28 : code = 28
      · rw [if_pos h28]
        unfold updateBlockProof
        split
        · rfl
        · exact (Pres.bnd hc (Pres.ign (Pres.buildProof hc _ _ _)) (fun _ => Pres.ign (hc.send _)) s).1
      · rw [if_neg h28]
        rfl

/-- C30 is false of the code: the handler of a relay result takes its lock a second time instead of releasing it, so
it blocks on itself. Whatever the receiver, the state, the result's code and the message id, no call ever returns:
not even a panic gets out, because the deferred call blocks the unwinding goroutine. -/
theorem C30_result_never_returns (R0 : Rcv ρ β γ) (n : Nat) (st : Option Bls) (fresh : Nat) (id : Int) (code : Nat)
    (s : L ρ β γ) : (result R0 n st fresh id code s).1 = .stuck := by
  unfold result bnd lock
  cases hh : s.held with
  | true => simp
  | false =>
    simp only [Bool.false_eq_true, if_false]
    have hb := resultBody_held R0 n st fresh id code { s with held := true }
    unfold withDefer
    generalize hx : resultBody R0 n st fresh id code { s with held := true } = x at hb
    obtain ⟨o, t⟩ := x
    dsimp only at hb
    cases o <;> simp [hb]

/-- C30: what is left. Only the result handler touches the mutex: a turn of the receive loop leaves it as it was, so a
link that never sees a relay result does not block on it. -/
theorem C30_receive_unaffected_partial (R0 : Rcv ρ β γ) (n c : Nat) (first : Bool) (rs : RS) (s : L ρ β γ) :
    (receive R0 n c first rs s).2.held = s.held := by
  have hc := sameLock_closed R0
  have h2 : Pres SameLock (addStatus rs : M ρ β γ Unit) := fun t => ⟨rfl, rfl, rfl, rfl⟩
  unfold receive
  refine (Pres.bnd hc ?_ (fun _ => Pres.bnd hc h2 (fun _ => Pres.ign (Pres.buildRelayMessage hc _ _))) s).1
  split
  · exact Pres.ign (Pres.checkStatus hc _ _)
  · exact Pres.ret hc ()

/-! ### C31: the queue -/

theorem lastIndex_absent (id : Int) (l : List (RM β γ)) (h : ∀ rm ∈ l, rm.id ≠ id) (i k : Nat) :
    lastIndex id l i k = k := by
  induction l generalizing i k with
  | nil => rfl
  | cons x xs ih =>
    unfold lastIndex
    rw [if_neg (h x (by simp)), ih (fun y hy => h y (by simp [hy]))]

theorem lastIndex_at (id : Int) (l1 l2 : List (RM β γ)) (rm : RM β γ) (hid : rm.id = id)
    (h : ∀ y ∈ l2, y.id ≠ id) (i k : Nat) : lastIndex id (l1 ++ rm :: l2) i k = i + l1.length := by
  induction l1 generalizing i k with
  | nil => simp only [List.nil_append, lastIndex, if_pos hid, lastIndex_absent id l2 h, List.length_nil, Nat.add_zero]
  | cons x xs ih =>
    simp only [List.cons_append, lastIndex, ih, List.length_cons]
    omega

/-- C31 is false of the code: removing the message with a given id keeps exactly that message and everything behind it
and discards all the messages in front of it, for every queue in which the id occurs. -/
theorem C31_remove_keeps_the_finished (id : Int) (l1 l2 : List (RM β γ)) (rm : RM β γ) (hid : rm.id = id)
    (h2 : ∀ y ∈ l2, y.id ≠ id) (s : L ρ β γ) (hs : s.rms = l1 ++ rm :: l2) :
    removeRelay id s = (.ok (), { s with rms := rm :: l2 }) := by
  unfold removeRelay
  rw [if_neg (by rw [hs]; simp), hs, lastIndex_at id l1 l2 rm hid h2]
  simp

/-- C31: removing an id which is not queued leaves the queue as it is, and panics if the queue is empty. -/
theorem C31_remove_unknown (id : Int) (s : L ρ β γ) (h : ∀ y ∈ s.rms, y.id ≠ id) :
    removeRelay id s = (if s.rms = [] then (.panic, s) else (.ok (), s)) := by
  unfold removeRelay
  rw [lastIndex_absent id _ h]
  simp

/-- C31, the part that holds: no message is reordered, duplicated or invented by `removeRelayMessage`, and the
messages behind the finished one stay. -/
theorem C31_remove_partial (id : Int) (s t : L ρ β γ) (h : removeRelay id s = (.ok (), t)) :
    ∃ front, s.rms = front ++ t.rms := by
  unfold removeRelay at h
  split at h
  · cases h
  · injection h with _ h
    subst h
    exact ⟨_, (List.take_append_drop _ _).symm⟩

theorem dropThrough_none {α : Type} (p : α → Bool) (w l : List α) (h : ∀ x ∈ l, p x = false) : dropThrough p w l = w := by
  induction l with
  | nil => rfl
  | cons x xs ih =>
    unfold dropThrough
    rw [h x (by simp)]
    exact ih (fun y hy => h y (by simp [hy]))

theorem dropThrough_at {α : Type} (p : α → Bool) (w l1 l2 : List α) (x : α) (h1 : ∀ y ∈ l1, p y = false) (hx : p x = true) :
    dropThrough p w (l1 ++ x :: l2) = l2 := by
  induction l1 with
  | nil => simp [dropThrough, hx]
  | cons y ys ih =>
    simp only [List.cons_append, dropThrough, h1 y (by simp), Bool.false_eq_true, if_false]
    exact ih (fun z hz => h1 z (by simp [hz]))

/-- C31: a new destination status clears the queue through the first message whose status it covers, and only that
far: messages behind it stay even if they are covered too. -/
theorem C31_clear_first (b : Bls) (s : L ρ β γ) (l1 l2 : List (RM β γ)) (rm : RM β γ) (hs : s.rms = l1 ++ rm :: l2)
    (h1 : ∀ y ∈ l1, ¬ ((s.cells y.cell).height ≤ b.height ∧ (s.cells y.cell).rx ≤ b.rx))
    (hr : (s.cells rm.cell).height ≤ b.height ∧ (s.cells rm.cell).rx ≤ b.rx) :
    clearRelay b s = (.ok (), { s with rms := l2 }) := by
  unfold clearRelay
  dsimp only
  rw [hs, dropThrough_at _ _ _ _ _ (fun y hy => decide_eq_false (h1 y hy)) (decide_eq_true hr)]

/-- C31: as all messages built from one status object share it, a destination status removes nothing while the
destination is behind the newest message built, and exactly one message, the oldest, once it has caught up. -/
theorem C31_clear_shared (b : Bls) (c : Nat) (s : L ρ β γ) (h : ∀ y ∈ s.rms, y.cell = c) :
    (clearRelay b s).2.rms =
      (if (s.cells c).height ≤ b.height ∧ (s.cells c).rx ≤ b.rx then s.rms.tail else s.rms) := by
  unfold clearRelay
  dsimp only
  split
  · rename_i hc
    cases hr : s.rms with
    | nil => rfl
    | cons x xs =>
      have hx := h x (by simp [hr])
      simp only [dropThrough, hx, decide_eq_true hc, if_true, List.tail_cons]
  · rename_i hc
    refine dropThrough_none _ _ _ (fun x hx => ?_)
    simp only [h x hx]
    exact decide_eq_false hc

/-- C31: the search returns a queued message with the id if there is one. -/
theorem C31_search (id : Int) (rms : List (RM β γ)) :
    (∀ rm, searchRelay id rms = some rm → rm ∈ rms ∧ rm.id = id) ∧
    (searchRelay id rms = none → ∀ rm ∈ rms, rm.id ≠ id) := by
  constructor
  · intro rm h
    exact ⟨List.mem_of_find?_eq_some h, by simpa using List.find?_some h⟩
  · intro h rm hrm
    simpa using (List.find?_eq_none.mp h) rm hrm

/-! ### Histories -/

/-- One action: the receiver's monitor changes the receiver's state, the link takes a status from the receiver, a
destination status arrives, a relay result arrives. -/
inductive Act (ρ : Type) where
  | monitor (f : ρ → ρ)
  | receive (n c : Nat) (first : Bool) (rs : RS)
  | status (b : Bls)
  | result (n : Nat) (st : Option Bls) (fresh : Nat) (id : Int) (code : Nat)

/-- The state after an action (also after one that fails half way). -/
def act (R0 : Rcv ρ β γ) (s : L ρ β γ) : Act ρ → L ρ β γ
  | .monitor f => { s with r := f s.r }
  | .receive n c first rs => (receive R0 n c first rs s).2
  | .status b => (bnd (clearRelay b) (fun _ => clearStatus b) s).2
  | .result n st fresh id code => (result R0 n st fresh id code s).2

def run (R0 : Rcv ρ β γ) (s : L ρ β γ) (as : List (Act ρ)) : L ρ β γ := as.foldl (act R0) s

/-- link.go:81-97 `NewLink`. -/
def start (r : ρ) (limitSize txLimit : Int) (cells : Nat → Bls) (ids : Nat → Int) : L ρ β γ :=
  ⟨r, [], [], [[]], 0, limitSize, txLimit, cells, ids, 0, false, [], []⟩

theorem limit_act (R0 : Rcv ρ β γ) (s : L ρ β γ) (a : Act ρ) : (act R0 s a).limitSize = s.limitSize := by
  have hc : Closed R0 (fun s t : L ρ β γ => t.limitSize = s.limitSize) :=
    { refl := fun _ => rfl
      trans := fun _ _ _ h k => k.trans h
      item := fun _ => rfl
      push := fun it s => by unfold push; split <;> rfl
      cell := fun _ _ _ => rfl
      send := fun c s => by unfold sendRelay; split <;> rfl
      rcv := fun _ _ => rfl }
  cases a with
  | monitor f => rfl
  | receive n c first rs =>
    refine Pres.bnd hc ?_ (fun _ => Pres.bnd hc (fun t => rfl) (fun _ => Pres.ign (Pres.buildRelayMessage hc _ _))) s
    split
    · exact Pres.ign (Pres.checkStatus hc _ _)
    · exact Pres.ret hc ()
  | status b => rfl
  | result n st fresh id code =>
    have hl : Pres (fun s t : L ρ β γ => t.limitSize = s.limitSize) (lock : M ρ β γ Unit) := by
      intro t; unfold lock; split <;> rfl
    refine Pres.bnd hc hl (fun _ => ?_) s
    have hb : Pres (fun s t : L ρ β γ => t.limitSize = s.limitSize) (resultBody R0 n st fresh id code) := by
      unfold resultBody
      split
      · split
        · intro t; rfl
        · exact Pres.bnd hc (fun t => hc.cell _ _ t) (fun _ => Pres.ign (Pres.buildRelayMessage hc _ _))
      · split
        · intro t; unfold removeRelay; split <;> rfl
        · by_cases h28 : code = 28
          · rw [if_pos h28]
            intro t
            unfold updateBlockProof
            split
            · rfl
            · exact Pres.bnd hc (Pres.ign (Pres.buildProof hc _ _ _)) (fun _ => Pres.ign (hc.send _)) t
          · rw [if_neg h28]
            intro t; rfl
    intro t
    have h1 := hb t
    unfold withDefer
    split
    · rename_i heq; rw [heq] at h1; exact h1
    · rename_i heq
      have h3 := hl (resultBody R0 n st fresh id code t).2
      rw [heq] at h3 h1
      split <;> rename_i h4 <;> rw [h4] at h3 <;> exact h3.trans h1

/-! ### C80: flow of items -/

/-- What has been relayed, then what is still collected, is what was taken from the receiver; the relayed bytes are
the receiver's encoding of the relayed items. -/
def Flow (R0 : Rcv ρ β γ) (s : L ρ β γ) : Prop :=
  s.relayed.flatMap (·.items) ++ s.rmis.flatten = s.used ∧ ∀ rm ∈ s.relayed, R0.encode rm.items = .ok rm.msg

theorem snocLast_flatten (l : List (List (Item β))) (it : Item β) (x : List (List (Item β)))
    (h : snocLast l it = some x) : x.flatten = l.flatten ++ [it] := by
  induction l generalizing x with
  | nil => cases h
  | cons a as ih =>
    cases as with
    | nil => simp only [snocLast, Option.some.injEq] at h; subst h; simp
    | cons b bs =>
      simp only [snocLast, Option.map_eq_some_iff] at h
      obtain ⟨y, hy, rfl⟩ := h
      simp [ih y hy]

theorem encodeAll_ok (R0 : Rcv ρ β γ) (r : ρ) (c : Nat) (rx : Int) (ids : Nat → Int) (ps : List (List (Item β))) (k : Nat)
    (ms : List (RM β γ)) (h : encodeAll R0 r c rx ids ps k = .ok ms) :
    ms.map (·.items) = ps ∧ ∀ rm ∈ ms, R0.encode rm.items = .ok rm.msg := by
  induction ps generalizing k ms with
  | nil => simp only [encodeAll, R.ok.injEq] at h; subst h; simp
  | cons p ps ih =>
    unfold encodeAll at h
    split at h
    · rename_i m hm
      split at h
      · rename_i ms' hms
        injection h with h; subst h
        obtain ⟨h1, h2⟩ := ih _ _ hms
        refine ⟨by simp [h1], ?_⟩
        intro rm hrm
        rcases List.mem_cons.mp hrm with rfl | hrm
        · exact hm
        · exact h2 rm hrm
      all_goals cases h
    all_goals cases h

theorem flow_closed (R0 : Rcv ρ β γ) : Closed R0 (fun s t => Flow R0 s → Flow R0 t) where
  refl _ h := h
  trans _ _ _ h k x := k (h x)
  item s h := by
    refine ⟨?_, h.2⟩
    have := h.1
    simpa using this
  push it s h := by
    unfold push
    split
    · exact h
    · rename_i x hx
      refine ⟨?_, h.2⟩
      have h1 := h.1
      simp only [snocLast_flatten _ _ _ hx, ← h1, List.append_assoc]
  cell _ _ _ h := h
  send c s h := by
    unfold sendRelay
    split
    · rename_i ms hms
      obtain ⟨h1, h2⟩ := encodeAll_ok _ _ _ _ _ _ _ _ hms
      refine ⟨?_, ?_⟩
      · have h3 := h.1
        have h4 : ms.flatMap (·.items) = s.rmis.flatten := by rw [List.flatMap_def, h1]
        simp only [List.flatMap_append, h4, List.flatten_nil, List.append_nil]
        exact h3
      · intro rm hrm
        rcases List.mem_append.mp hrm with hrm | hrm
        · exact h.2 rm hrm
        · exact h2 rm hrm
    all_goals exact h
  rcv _ _ h := h

theorem flow_act (R0 : Rcv ρ β γ) (s : L ρ β γ) (h : Flow R0 s) (a : Act ρ) : Flow R0 (act R0 s a) := by
  have hc := flow_closed R0
  cases a with
  | monitor f => exact h
  | receive n c first rs =>
    have h2 : Pres (fun s t => Flow R0 s → Flow R0 t) (addStatus rs : M ρ β γ Unit) := fun t k => k
    refine Pres.bnd hc ?_ (fun _ => Pres.bnd hc h2 (fun _ => Pres.ign (Pres.buildRelayMessage hc _ _))) s h
    split
    · exact Pres.ign (Pres.checkStatus hc _ _)
    · exact Pres.ret hc ()
  | status b => exact h
  | result n st fresh id code =>
    have hl : Pres (fun s t => Flow R0 s → Flow R0 t) (lock : M ρ β γ Unit) := by
      intro t k; unfold lock; split <;> exact k
    refine Pres.bnd hc hl (fun _ => ?_) s h
    have hb : Pres (fun s t => Flow R0 s → Flow R0 t) (resultBody R0 n st fresh id code) := by
      unfold resultBody
      split
      · split
        · intro t k; exact k
        · exact Pres.bnd hc (fun t => hc.cell _ _ t) (fun _ => Pres.ign (Pres.buildRelayMessage hc _ _))
      · split
        · intro t k; unfold removeRelay; split <;> exact k
        · by_cases h28 : code = 28
          · rw [if_pos h28]
            intro t k
            unfold updateBlockProof
            split
            · exact k
            · exact Pres.bnd hc (Pres.ign (Pres.buildProof hc _ _ _)) (fun _ => Pres.ign (hc.send _)) t k
          · rw [if_neg h28]
            intro t k; exact k
    intro t k
    have h1 := hb t k
    unfold withDefer
    split
    · rename_i heq; rw [heq] at h1; exact h1
    · rename_i heq
      have h3 := hl (resultBody R0 n st fresh id code t).2 h1
      rw [heq] at h3
      split <;> rename_i h4 <;> rw [h4] at h3 <;> exact h3

/-- C80: for every receiver and every history, the items inside the relay messages handed to the sender, in order,
followed by the items still being collected, are exactly the items taken from the receiver, in order: none is lost,
duplicated or reordered, also when calls in between fail; and every message's bytes are the receiver's encoding of its
items. -/
theorem C80_items_flow (R0 : Rcv ρ β γ) (r : ρ) (limitSize txLimit : Int) (cells : Nat → Bls) (ids : Nat → Int)
    (as : List (Act ρ)) :
    let s : L ρ β γ := run R0 (start r limitSize txLimit cells ids) as
    s.relayed.flatMap (·.items) ++ s.rmis.flatten = s.used ∧ ∀ rm ∈ s.relayed, R0.encode rm.items = .ok rm.msg := by
  have h0 : Flow R0 (start r limitSize txLimit cells ids : L ρ β γ) := ⟨rfl, fun _ h => by cases h⟩
  suffices h : ∀ s : L ρ β γ, Flow R0 s → Flow R0 (run R0 s as) from h _ h0
  induction as with
  | nil => exact fun s h => h
  | cons a as ih => exact fun s h => ih _ (flow_act R0 s h a)

/-! ### C81: several pending blocks -/

/-- After sending, no part is left to put an item into. -/
theorem sendRelay_ok (R0 : Rcv ρ β γ) (c : Nat) (s t : L ρ β γ) (h : sendRelay R0 c s = (.ok (), t)) : t.rmis = [] := by
  unfold sendRelay at h
  split at h
  · injection h with _ h; subst h; rfl
  all_goals cases h

theorem bnd_ok {α α' : Type} {m : M ρ β γ α} {f : α → M ρ β γ α'} {s t : L ρ β γ} {a' : α'}
    (h : bnd m f s = (.ok a', t)) : ∃ a u, m s = (.ok a, u) ∧ f a u = (.ok a', t) := by
  unfold bnd at h
  split at h
  · rename_i a u heq; exact ⟨a, u, heq, h⟩
  all_goals cases h

/-- C81 is false of the code: whatever the receiver and the state, if the receiver offers two or more block updates,
building never succeeds. -/
theorem C81_two_updates_fail (R0 : Rcv ρ β γ) (n c : Nat) (b1 b2 : Item β) (bus : List (Item β)) (s : L ρ β γ) :
    ∀ t, updates R0 n c (b1 :: b2 :: bus) s ≠ (.ok (), t) := by
  intro t h
  unfold updates at h
  obtain ⟨_, u1, h1, h⟩ := bnd_ok h
  obtain ⟨_, u2, h2, h⟩ := bnd_ok h
  obtain ⟨_, u3, h3, h⟩ := bnd_ok h
  obtain ⟨_, u4, h4, h⟩ := bnd_ok h
  unfold updates at h
  obtain ⟨_, u5, h5, h⟩ := bnd_ok h
  unfold push at h5
  rw [sendRelay_ok R0 c u3 u4 h4] at h5
  simp [snocLast] at h5

/-- C81: it is a crash of the process: if handling the first update succeeds, the second one is put into a part with
index -1. -/
theorem C81_two_updates_panic (R0 : Rcv ρ β γ) (n c : Nat) (b1 b2 : Item β) (bus : List (Item β)) (s t : L ρ β γ)
    (h : updates R0 n c [b1] s = (.ok (), t)) : (updates R0 n c (b1 :: b2 :: bus) s).1 = .panic := by
  unfold updates at h
  obtain ⟨_, u1, h1, h⟩ := bnd_ok h
  obtain ⟨_, u2, h2, h⟩ := bnd_ok h
  obtain ⟨_, u3, h3, h⟩ := bnd_ok h
  obtain ⟨_, u4, h4, h⟩ := bnd_ok h
  unfold updates
  simp only [bnd, h1, h2, h3, h4]
  unfold updates
  simp only [bnd, push, sendRelay_ok R0 c u3 u4 h4, snocLast]

/-- C81 for the whole method: with two or more updates on offer, `BuildRelayMessage` does not return normally, with
any amount of fuel. -/
theorem C81_build_two_fails (R0 : Rcv ρ β γ) (n c : Nat) (b1 b2 : Item β) (bus : List (Item β)) (s : L ρ β γ) (r' : ρ)
    (hu : R0.update s.r (s.cells c) (s.limitSize - (if s.rmis = [] then 0 else s.size)) = (.ok (b1 :: b2 :: bus), r')) :
    ∀ t, buildRelayMessage R0 n c s ≠ (.ok (), t) := by
  intro t h
  unfold buildRelayMessage at h
  obtain ⟨_, u1, h1, h⟩ := bnd_ok h
  obtain ⟨bs, u2, h2, h⟩ := bnd_ok h
  obtain ⟨_, u3, h3, h⟩ := bnd_ok h
  have e1 : u1.r = s.r ∧ u1.cells = s.cells ∧ u1.limitSize = s.limitSize ∧
      u1.size = (if s.rmis = [] then 0 else s.size) := by
    split at h1
    · rename_i he; injection h1 with _ h1; subst h1; simp [he]
    · rename_i he; injection h1 with _ h1; subst h1; simp [he]
  cases n with
  | zero => cases h2
  | succ n =>
    unfold getHeader at h2
    rw [e1.1, e1.2.1, e1.2.2.1, e1.2.2.2, hu] at h2
    simp only [List.length_cons, ne_eq, Nat.add_eq_zero_iff, Nat.succ_ne_self, and_false, not_false_eq_true, if_true] at h2
    injection h2 with h2 _
    injection h2 with h2
    subst h2
    exact C81_two_updates_fail R0 _ c b1 b2 bus u2 u3 h3

/-! ### C82: the size of relay messages -/

/-- The receiver honours the limit it is given. -/
structure Honest (R0 : Rcv ρ β γ) : Prop where
  update : ∀ r b lim bus r', R0.update r b lim = (.ok bus, r') → ∀ it ∈ bus, it.len ≤ lim
  msgProof : ∀ r b lim mp, R0.msgProof r b lim = .ok (some mp) → mp.len ≤ lim

def sumLen (l : List (Item β)) : Int := (l.map (·.len)).sum

theorem sumLen_snoc (l : List (Item β)) (it : Item β) : sumLen (l ++ [it]) = sumLen l + it.len := by
  simp [sumLen]

/-- At most one part is being collected, its size is known and within the limit, and so is every relayed message. -/
structure Fits (s : L ρ β γ) : Prop where
  lim : s.limitSize ≤ s.txLimit
  pos : 0 ≤ s.limitSize
  one : s.rmis = [] ∨ ∃ p, s.rmis = [p]
  size : s.size = sumLen s.rmis.flatten
  le : s.size ≤ s.limitSize
  sent : ∀ rm ∈ s.relayed, sumLen rm.items ≤ s.limitSize

/-- The method keeps `I`. -/
def Keep {α : Type} (I : L ρ β γ → Prop) (m : M ρ β γ α) : Prop := ∀ s, I s → I (m s).2

theorem Keep.bnd {α α' : Type} {I : L ρ β γ → Prop} {m : M ρ β γ α} {f : α → M ρ β γ α'} (hm : Keep I m)
    (hf : ∀ a, Keep I (f a)) : Keep I (bnd m f) := by
  intro s h
  have h1 := hm s h
  unfold Link.bnd
  split <;> rename_i heq <;> rw [heq] at h1
  · exact hf _ _ h1
  all_goals exact h1

theorem keep_bnd_at {α α' : Type} {I : L ρ β γ → Prop} {m : M ρ β γ α} {f : α → M ρ β γ α'} {s : L ρ β γ}
    (h1 : I (m s).2) (hf : ∀ a t, m s = (.ok a, t) → I t → I (f a t).2) : I (bnd m f s).2 := by
  unfold Link.bnd
  split <;> rename_i heq <;> rw [heq] at h1
  · exact hf _ _ heq h1
  all_goals exact h1

theorem Keep.ign {I : L ρ β γ → Prop} {m : M ρ β γ Unit} (hm : Keep I m) : Keep I (ign m) := by
  intro s h
  have h1 := hm s h
  unfold Link.ign
  split
  · rename_i heq; rw [heq] at h1; exact h1
  · exact h1

theorem Fits.push (s : L ρ β γ) (h : Fits s) (it : Item β) (hl : it.len ≤ s.limitSize - s.size) :
    Fits (push it s).2 := by
  unfold Link.push
  rcases h.one with h1 | ⟨p, h1⟩ <;> rw [h1]
  · exact h
  · have hs := h.size
    have hle := h.le
    rw [h1] at hs
    refine ⟨h.lim, h.pos, .inr ⟨p ++ [it], rfl⟩, ?_, ?_, h.sent⟩
    · show s.size + it.len = sumLen [p ++ [it]].flatten
      simp only [List.flatten_cons, List.flatten_nil, List.append_nil, sumLen_snoc] at hs ⊢
      omega
    · show s.size + it.len ≤ s.limitSize
      omega

theorem Fits.send (R0 : Rcv ρ β γ) (c : Nat) : Keep Fits (sendRelay R0 c) := by
  intro s h
  unfold sendRelay
  split
  · rename_i ms hms
    obtain ⟨h1, _⟩ := encodeAll_ok _ _ _ _ _ _ _ _ hms
    refine ⟨h.lim, h.pos, .inl rfl, rfl, h.pos, ?_⟩
    intro rm hrm
    rcases List.mem_append.mp hrm with hrm | hrm
    · exact h.sent rm hrm
    · have hm : rm.items ∈ s.rmis := by rw [← h1]; exact List.mem_map_of_mem hrm
      have hs := h.size
      have hle := h.le
      rcases h.one with h2 | ⟨p, h2⟩
      · rw [h2] at hm; cases hm
      · rw [h2] at hm hs
        simp only [List.mem_singleton] at hm
        simp only [List.flatten_cons, List.flatten_nil, List.append_nil] at hs
        rw [hm]
        show sumLen p ≤ s.limitSize
        omega
  all_goals exact h

theorem Fits.cell (c : Nat) (b : Bls) (s : L ρ β γ) (h : Fits s) : Fits { s with cells := setCell s.cells c b } :=
  ⟨h.lim, h.pos, h.one, h.size, h.le, h.sent⟩

theorem Fits.updBls (c : Nat) (it : Item β) : Keep Fits (updBls c it : M ρ β γ Unit) := fun s h => Fits.cell c _ s h

theorem push_updBls (c : Nat) (it : Item β) (s : L ρ β γ) (h : Fits (push it s).2) :
    Fits (bnd (push it) (fun _ => updBls c it) s).2 := by
  unfold Link.bnd
  split <;> rename_i heq <;> rw [heq] at h
  · exact Fits.updBls _ _ _ h
  all_goals exact h

theorem Fits.buildMessageProof (R0 : Rcv ρ β γ) (hR : Honest R0) (c : Nat) : Keep Fits (buildMessageProof R0 c) := by
  intro s h
  unfold Link.buildMessageProof
  split
  · exact h
  · rename_i mp hmp
    exact push_updBls c mp s (Fits.push s h mp (hR.msgProof _ _ _ _ hmp))
  all_goals exact h

theorem Fits.over (s : L ρ β γ) (h : Fits s) : (isOverLimit s.size : M ρ β γ Bool) s = (.ok false, s) := by
  have hl := h.lim
  have hs := h.le
  have c1 : ¬ s.txLimit < s.size := by omega
  unfold isOverLimit
  simp only [if_neg c1]

theorem Fits.proofLoop (R0 : Rcv ρ β γ) (hR : Honest R0) (c : Nat) (bu : Option (Item β)) (rs : RS) (n : Nat) :
    Keep Fits (proofLoop R0 c bu rs n) := by
  induction n with
  | zero => intro s h; exact h
  | succ n ih =>
    intro s h
    unfold Link.proofLoop
    split
    · exact h
    · have h1 : Link.bnd (isOverLimit s.size) (fun over =>
          if over then Link.bnd (Link.ign (sendRelay R0 c)) (fun _ => Link.bnd (overLimitProof R0 c bu)
            (fun _ => Link.buildMessageProof R0 c))
          else Link.buildMessageProof R0 c) s = Link.buildMessageProof R0 c s := by
        conv => lhs; unfold Link.bnd
        rw [Fits.over s h]
        rfl
      have h2 := Fits.buildMessageProof R0 hR c s h
      exact keep_bnd_at (by rw [h1]; exact h2) (fun _ t _ ht => ih t ht)

theorem Fits.buildProof (R0 : Rcv ρ β γ) (hR : Honest R0) (n c : Nat) (bu : Option (Item β)) :
    Keep Fits (buildProof R0 n c bu) := by
  intro s h
  unfold Link.buildProof
  split
  · exact h
  · exact Fits.proofLoop R0 hR _ _ _ _ s h

/-- An update is put into the message only if nothing was sent since the limit was computed. -/
theorem Fits.updates (R0 : Rcv ρ β γ) (hR : Honest R0) (n c : Nat) (bus : List (Item β)) (s : L ρ β γ) (h : Fits s)
    (hb : s.rmis = [] ∨ ∀ it ∈ bus, it.len ≤ s.limitSize - s.size) : Fits (updates R0 n c bus s).2 := by
  induction bus generalizing s with
  | nil => exact h
  | cons b bs ih =>
    have hp : Fits (Link.push b s).2 := by
      rcases hb with hb | hb
      · unfold Link.push; rw [hb]; exact h
      · exact Fits.push s h b (hb b (by simp))
    have hk : Keep Fits (Link.bnd (Link.updBls c b) fun _ => Link.bnd (Link.buildProof R0 n c (some b)) fun _ =>
        Link.bnd (sendRelay R0 c) fun _ => Link.updates R0 n c bs) := by
      refine Keep.bnd (Fits.updBls c b) (fun _ => Keep.bnd (Fits.buildProof R0 hR n c _) (fun _ => ?_))
      intro t ht
      have h1 := Fits.send R0 c t ht
      unfold Link.bnd
      split <;> rename_i heq <;> rw [heq] at h1
      · exact ih _ h1 (.inl (sendRelay_ok R0 c _ _ heq))
      all_goals exact h1
    unfold Link.updates
    exact keep_bnd_at hp (fun _ t _ ht => hk t ht)

theorem Fits.getHeader (R0 : Rcv ρ β γ) (hR : Honest R0) (c n : Nat) (s : L ρ β γ) (h : Fits s) :
    Fits (getHeader R0 c n s).2 ∧ ∀ bus t, getHeader R0 c n s = (.ok bus, t) →
      ∀ it ∈ bus, it.len ≤ t.limitSize - t.size := by
  have hr : ∀ r : ρ, Fits { s with r := r } := fun r => ⟨h.lim, h.pos, h.one, h.size, h.le, h.sent⟩
  induction n generalizing s with
  | zero => exact ⟨h, fun _ _ h2 => by cases h2⟩
  | succ n ih =>
    unfold Link.getHeader
    split
    · rename_i bus r' hu
      split
      · refine ⟨hr _, ?_⟩
        intro bus' t ht
        injection ht with h1 h2
        injection h1 with h1
        subst h1 h2
        exact hR.update _ _ _ _ _ hu
      · exact ih _ (hr _) (fun _ => ⟨h.lim, h.pos, h.one, h.size, h.le, h.sent⟩)
    all_goals exact ⟨hr _, fun _ _ h2 => by cases h2⟩

theorem Fits.tailCheck (R0 : Rcv ρ β γ) (c : Nat) : Keep Fits (fun s' : L ρ β γ =>
    bnd (isOverLimit s'.size) (fun over => if over then ign (sendRelay R0 c) else ret ()) s') := by
  intro s h
  unfold Link.bnd
  dsimp only
  rw [Fits.over s h]
  exact h

theorem Fits.buildRelayMessage (R0 : Rcv ρ β γ) (hR : Honest R0) (n c : Nat) : Keep Fits (buildRelayMessage R0 n c) := by
  intro s h
  unfold Link.buildRelayMessage
  have h0 : Keep Fits (Link.bnd (Link.getHeader R0 c n) fun bus => Link.bnd (Link.updates R0 n c bus) fun _ =>
      fun s' : L ρ β γ => Link.bnd (isOverLimit s'.size)
        (fun over => if over then Link.ign (sendRelay R0 c) else Link.ret ()) s') := by
    intro t ht
    obtain ⟨h1, h2⟩ := Fits.getHeader R0 hR c n t ht
    exact keep_bnd_at h1 (fun bus u hu hfu => keep_bnd_at (Fits.updates R0 hR n c bus u hfu (.inr (h2 bus u hu)))
      (fun _ v _ hv => Fits.tailCheck R0 c v hv))
  split
  · rename_i he
    refine h0 { s with rmis := s.rmis ++ [[]], size := 0 } ?_
    refine ⟨h.lim, h.pos, .inr ⟨[], by simp [he]⟩, by simp [he, sumLen], h.pos, h.sent⟩
  · exact h0 s h

theorem Fits.checkLoop (R0 : Rcv ρ β γ) (hR : Honest R0) (n c : Nat) (q : Int) (k : Nat) :
    Keep Fits (checkLoop R0 n c q k) := by
  induction k with
  | zero => intro s h; exact h
  | succ k ih =>
    intro s h
    unfold Link.checkLoop
    dsimp only
    split
    · exact h
    · split
      · split
        · exact h
        · rename_i mp hmp
          split
          · exact Fits.push s h mp (hR.msgProof _ _ _ _ hmp)
          · exact h
        all_goals exact h
      · split
        · exact Keep.bnd (Fits.buildProof R0 hR _ _ _) (fun _ => ih) s h
        · exact h

theorem Fits.checkStatus (R0 : Rcv ρ β γ) (hR : Honest R0) (n c : Nat) : Keep Fits (checkStatus R0 n c) := by
  intro s h
  unfold Link.checkStatus
  refine Keep.bnd (Fits.checkLoop R0 hR _ _ _ _) (fun _ => ?_) s h
  intro t ht
  dsimp only
  split
  · exact Keep.ign (Fits.send R0 c) t ht
  · exact ht

theorem Fits.withRms (s : L ρ β γ) (h : Fits s) (x : List (RM β γ)) (y : List RS) (hd : Bool) :
    Fits { s with rms := x, rss := y, held := hd } := ⟨h.lim, h.pos, h.one, h.size, h.le, h.sent⟩

theorem Fits.act (R0 : Rcv ρ β γ) (hR : Honest R0) (s : L ρ β γ) (h : Fits s) (a : Act ρ) : Fits (act R0 s a) := by
  cases a with
  | monitor f => exact ⟨h.lim, h.pos, h.one, h.size, h.le, h.sent⟩
  | receive n c first rs =>
    refine Keep.bnd ?_ (fun _ => Keep.bnd (fun t ht => Fits.withRms t ht _ _ _)
      (fun _ => Keep.ign (Fits.buildRelayMessage R0 hR _ _))) s h
    split
    · exact Keep.ign (Fits.checkStatus R0 hR _ _)
    · exact fun t ht => ht
  | status b => exact Fits.withRms s h _ _ _
  | result n st fresh id code =>
    have hl : Keep Fits (lock : M ρ β γ Unit) := by
      intro t k; unfold lock; split
      · exact k
      · exact Fits.withRms t k _ _ _
    refine Keep.bnd hl (fun _ => ?_) s h
    have hb : Keep Fits (resultBody R0 n st fresh id code) := by
      unfold resultBody
      split
      · split
        · intro t k; exact k
        · exact Keep.bnd (fun t ht => Fits.cell _ _ t ht) (fun _ => Keep.ign (Fits.buildRelayMessage R0 hR _ _))
      · split
        · intro t k; unfold removeRelay; split
          · exact k
          · exact Fits.withRms t k _ _ _
        · by_cases h28 : code = 28
          · rw [if_pos h28]
            intro t k
            unfold updateBlockProof
            split
            · exact k
            · exact Keep.bnd (Keep.ign (Fits.buildProof R0 hR _ _ _)) (fun _ => Keep.ign (Fits.send R0 _)) t k
          · rw [if_neg h28]
            intro t k; exact k
    intro t k
    have h1 := hb t k
    unfold withDefer
    split
    · rename_i heq; rw [heq] at h1; exact h1
    · rename_i heq
      have h3 := hl (resultBody R0 n st fresh id code t).2 h1
      rw [heq] at h3
      split <;> rename_i h4 <;> rw [h4] at h3 <;> exact h3

/-- C82: if the receiver honours the limit it is given and the sender's margin is not negative, then in every history
the items of every relay message handed to the sender add up to at most the limit. Missing: the receivers in the
repository do not honour the limit (`C82_btp2_ignores_limit` and its neighbours), and the framing bytes of the message
are not counted by the link. -/
theorem C82_size_partial (R0 : Rcv ρ β γ) (hR : Honest R0) (r : ρ) (limitSize txLimit : Int) (h0 : 0 ≤ limitSize)
    (hm : limitSize ≤ txLimit) (cells : Nat → Bls) (ids : Nat → Int) (as : List (Act ρ)) :
    ∀ rm ∈ (run R0 (start r limitSize txLimit cells ids : L ρ β γ) as).relayed,
      (rm.items.map (·.len)).sum ≤ limitSize := by
  have h1 : Fits (start r limitSize txLimit cells ids : L ρ β γ) :=
    ⟨hm, h0, .inr ⟨[], rfl⟩, rfl, h0, fun _ h => by cases h⟩
  have hk : ∀ (s : L ρ β γ), Fits s → Fits (run R0 s as) := by
    induction as with
    | nil => exact fun s h => h
    | cons a as ih => exact fun s h => ih _ (Fits.act R0 hR s h a)
  have hlim : ∀ (s : L ρ β γ), (run R0 s as).limitSize = s.limitSize := by
    have hact : ∀ (s : L ρ β γ) (a : Act ρ), (act R0 s a).limitSize = s.limitSize := by
      intro s a
      exact limit_act R0 s a
    clear hk h1
    induction as with
    | nil => exact fun s => rfl
    | cons a as ih => exact fun s => (ih _).trans (hact s a)
  intro rm hrm
  have h2 := (hk _ h1).sent rm hrm
  rw [hlim] at h2
  exact h2

/-! ### C83: waiting for a header -/

/-- C83 is false of the code: while the receiver's answer is "no update" and leaves the receiver as it is, `getHeader`
goes round for ever. -/
theorem C83_getHeader_spins (R0 : Rcv ρ β γ) (c : Nat) (s : L ρ β γ)
    (h : R0.update s.r (s.cells c) (s.limitSize - s.size) = (.ok [], s.r)) (n : Nat) : (getHeader R0 c n s).1 = .stuck := by
  induction n with
  | zero => rfl
  | succ n ih =>
    unfold getHeader
    rw [h]
    simpa using ih

/-- C83: if the receiver answers with updates, `getHeader` returns them at the first call. -/
theorem C83_getHeader_partial (R0 : Rcv ρ β γ) (c : Nat) (s : L ρ β γ) (bus : List (Item β)) (r' : ρ) (hne : bus ≠ [])
    (h : R0.update s.r (s.cells c) (s.limitSize - s.size) = (.ok bus, r')) (n : Nat) :
    getHeader R0 c (n + 1) s = (.ok bus, { s with r := r' }) := by
  unfold getHeader
  rw [h]
  simp [hne]

/-- C83: the proof loop goes round for ever when the receiver has nothing to prove although the block's last sequence
number has not been reached and nothing is over the limit. -/
theorem C83_proofLoop_spins (R0 : Rcv ρ β γ) (c : Nat) (bu : Option (Item β)) (rs : RS) (s : L ρ β γ)
    (hseq : (s.cells c).rx < rs.seq) (hlim : s.size ≤ s.txLimit)
    (h : R0.msgProof s.r (s.cells c) (s.limitSize - s.size) = .ok none) (n : Nat) :
    (proofLoop R0 c bu rs n s).1 = .stuck := by
  induction n with
  | zero => rfl
  | succ n ih =>
    have c1 : ¬ rs.seq ≤ (s.cells c).rx := by omega
    have c2 : ¬ s.txLimit < s.size := by omega
    unfold proofLoop
    simp only [if_neg c1, bnd, isOverLimit, if_neg c2, Bool.false_eq_true, if_false, buildMessageProof, h]
    exact ih

/-- C83: the status check at start-up goes round for ever when the last delivered sequence number ends a block below
the verifier's height that is still known, and the proof step changes nothing. -/
theorem C83_checkStatus_spins (R0 : Rcv ρ β γ) (n c : Nat) (s : L ρ β γ)
    (h0 : R0.heightForSeq s.r (s.cells c).rx ≠ 0) (h1 : R0.heightForSeq s.r (s.cells c).rx < (s.cells c).height)
    (h2 : statusAt s.rss (s.cells c).height = none) : (checkStatus R0 n c s).1 = .stuck := by
  have hk : ∀ k, (checkLoop R0 n c (s.cells c).rx k s).1 = .stuck ∧ (checkLoop R0 n c (s.cells c).rx k s).2 = s := by
    intro k
    induction k with
    | zero => exact ⟨rfl, rfl⟩
    | succ k ih =>
      have c1 : ¬ R0.heightForSeq s.r (s.cells c).rx = (s.cells c).height := by omega
      unfold checkLoop
      simp only [if_neg h0, if_neg c1, if_pos h1, bnd, buildProof, h2]
      exact ih
  have hn := hk n
  unfold checkStatus bnd
  generalize checkLoop R0 n c (s.cells c).rx n s = x at hn
  obtain ⟨o, t⟩ := x
  obtain ⟨h3, h4⟩ := hn
  dsimp only at h3 h4
  subst h3 h4
  rfl

end

/-! ### Examples -/
section Examples

/-- A receiver whose state is the list of block heights it has; every block carries one message of length 3, numbered
like its height, and its update has length 2. -/
def exR : Rcv (List Int) Int (List Int) where
  update r b _ := (.ok (((r.filter (fun h => decide (b.height < h))).take 1).map (fun h => ⟨.update, 2, ⟨b.rx, h⟩, h, none⟩)), r)
  blockProof _ _ _ := .ok none
  msgProof r b lim :=
    if r.contains b.height ∧ b.rx < b.height ∧ 3 ≤ lim then .ok (some ⟨.message, 3, ⟨b.height, b.height⟩, 0, some b.height⟩) else .ok none
  heightForSeq _ _ := 0
  encode l := .ok (l.map (fun it => it.next.height))

/-- The same with all pending updates at once. -/
def exR2 : Rcv (List Int) Int (List Int) :=
  { exR with update := fun r b _ => (.ok ((r.filter (fun h => decide (b.height < h))).map (fun h => ⟨.update, 2, ⟨b.rx, h⟩, h, none⟩)), r) }

def exRm (id : Int) (c : Nat) : RM Int (List Int) := ⟨id, c, 0, [id], []⟩
def exS : L (List Int) Int (List Int) := start [1] 10 10 (fun _ => ⟨0, 0⟩) (fun k => 100 + k)

-- C80, C82: two blocks arrive one after the other; each goes out as one message of length 5
def exActs : List (Act (List Int)) :=
  [.receive 9 0 true ⟨1, 1⟩, .monitor (fun r => r ++ [2]), .status ⟨1, 1⟩, .receive 9 0 false ⟨2, 2⟩]
example : (run exR exS exActs).relayed.map (fun rm => (rm.id, rm.items.map (fun it => (it.kind, it.next)))) =
    [(100, [(.update, ⟨0, 1⟩), (.message, ⟨1, 1⟩)]), (101, [(.update, ⟨1, 2⟩), (.message, ⟨2, 2⟩)])] := by decide +kernel
example : (run exR exS exActs).used.length = 4 := by decide +kernel
example : (run exR exS exActs).relayed.map (fun rm => (rm.items.map (·.len)).sum) = [5, 5] := by decide +kernel
-- the receiver `exR` takes no notice of a small limit for its updates, a limit-keeping version is Honest
example : Honest ({ exR with update := fun r b lim => if 2 ≤ lim then exR.update r b lim else (.ok [], r) } : Rcv (List Int) Int (List Int)) where
  update r b lim bus r' h it hit := by
    simp only at h
    split at h
    · rename_i hl
      simp only [exR, Prod.mk.injEq, R.ok.injEq] at h
      rw [← h.1] at hit
      simp only [List.mem_map] at hit
      obtain ⟨_, _, rfl⟩ := hit
      exact hl
    · simp only [Prod.mk.injEq, R.ok.injEq] at h
      rw [← h.1] at hit; cases hit
  msgProof r b lim mp h := by
    simp only [exR] at h
    split at h
    · rename_i hl
      simp only [R.ok.injEq, Option.some.injEq] at h
      subst h
      exact hl.2.2
    · cases h

-- C30: the handler is stuck, and the relay results that come after it as well
example : (result exR 9 none 1 100 27 { exS with rms := [exRm 100 0, exRm 101 0] }).1 = .stuck := by decide +kernel
example : (act exR exS (.result 9 none 1 100 27)).held = true := by decide +kernel
example : (receive exR 9 0 true ⟨1, 1⟩ exS).2.held = false := by decide +kernel

-- C31: "remove 101" keeps it and loses 100; clearing
def exQ : L (List Int) Int (List Int) := { exS with rms := [exRm 100 0, exRm 101 1, exRm 102 2], cells := fun c => ⟨c, c⟩ }
example : (removeRelay 101 exQ).2.rms.map (·.id) = [101, 102] := by decide +kernel
example : (removeRelay 7 exQ).2.rms.map (·.id) = [100, 101, 102] := by decide +kernel
example : (removeRelay 7 exS).1 = .panic := by decide +kernel
example : (clearRelay ⟨1, 1⟩ exQ).2.rms.map (·.id) = [101, 102] := by decide +kernel
example : (clearRelay ⟨2, 2⟩ { exQ with cells := fun _ => ⟨2, 2⟩ }).2.rms.map (·.id) = [101, 102] := by decide +kernel
example : (searchRelay 101 exQ.rms).map (·.cell) = some 1 ∧ searchRelay 5 exQ.rms = none := by decide +kernel

-- C81: two blocks pending: one message is sent, then the panic
example : (receive exR2 9 0 true ⟨1, 1⟩ { exS with r := [1, 2] }).1 = .panic := by decide +kernel
example : (receive exR2 9 0 true ⟨1, 1⟩ { exS with r := [1, 2] }).2.relayed.map (·.id) = [100] := by decide +kernel
example : (receive exR2 9 0 true ⟨1, 1⟩ exS).1 = .ok () := by decide +kernel

-- C83: nothing to update; nothing to prove; a status check below the verifier's height
example : (getHeader exR 0 9 { exS with r := [] }).1 = .stuck ∧ (getHeader exR 0 9 exS).1 ≠ .stuck := by decide +kernel
example : (proofLoop exR 0 none ⟨5, 3⟩ 9 exS).1 = .stuck := by decide +kernel
example : (checkStatus { exR with heightForSeq := fun _ _ => 3 } 9 0 { exS with cells := fun _ => ⟨1, 4⟩ }).1 = .stuck := by
  decide +kernel

end Examples
end Verif.Link
