import Verif.MonitorProps
/-!
Model of the websocket subscriptions of the ICON client, /repo/chain/icon/client/client.go:316-515: `MonitorBTP`, `MonitorBlock`,
`MonitorEvent`, `Monitor`, `CloseMonitor`, `CloseAllMonitor`, `wsConnect`, `wsRequest`, `wsClose`, `wsRead`, `wsReadJSONLoop` and the
table of connections.

A client may have several monitors; each runs in its own goroutine. A history is any interleaving of their steps: dialling, the node's
reply to the request, the look at the table at the head of the loop, and the return of a blocked read. What the node and the network do
is given with the events. A step between two of these touches only what belongs to the monitor, or holds the lock; the look at the
table (client.go:502) does not hold the lock and is taken as atomic here. The loop makes a new value for every frame (client.go:500), so
a notification is what its frame decodes to. Logging is left out.
-/
namespace Verif.WsMonitor
open Verif

/-- What a read of the connection gives: a frame and what it decodes to (`none`: not JSON of the type), the node's close frame with its
code, or another failure. `NextReader` of the websocket library returns a close frame as `*CloseError`, never as a message type: the
case of client.go:491-493 does not occur. -/
inductive Frame (V : Type) where
  | data (v : Option V)
  | close (code : Nat)
  | fail
deriving DecidableEq

/-- The errors of `wsRead` (client.go:486-495). -/
inductive Err where
  | json
  | closed (code : Nat)
  | net
deriving DecidableEq

/-- What `Monitor` returns (client.go:380-397): `nil`, `ErrConnectFail`, the error of `wsRequest`, or that of the loop. -/
inductive Ret where
  | nil
  | connect
  | request
  | read (e : Err)
deriving DecidableEq

/-- What the callback of `Monitor` is given (client.go:395, 509, 513). -/
inductive Cb (V : Type) where
  | init
  | value (v : V)
  | error (e : Err)
deriving DecidableEq

/-- Where a monitor is: waiting for the reply in `wsRequest`, at the head of the loop, blocked in `wsRead`, or returned. -/
inductive Pc where
  | asking
  | head
  | reading
  | done (r : Ret)
deriving DecidableEq

def Pc.isDone : Pc → Bool
  | .done _ => true
  | _ => false

/-- A call of `Monitor`: the local address of its connection (none if the dial failed), where it is, whether its connection was closed from
this side, and what its callback was given so far. -/
structure Mon (V : Type) where
  la : Option Nat
  pc : Pc
  closed : Bool
  heard : List (Cb V)
deriving DecidableEq

/-- The client: the table of connections (local address and number of the monitor), and the monitors in the order of their dials. -/
structure St (V : Type) where
  conns : List (Nat × Nat)
  mons : List (Mon V)
deriving DecidableEq

def St.init {V : Type} : St V := ⟨[], []⟩

/-- client.go:421-430 `_removeWsConn`: by the local address, whosever connection that is. -/
def del (la : Nat) (c : List (Nat × Nat)) : List (Nat × Nat) := c.filter (fun x => x.1 ≠ la)

/-- client.go:413-419 `_addWsConn`. -/
def add (la i : Nat) (c : List (Nat × Nat)) : List (Nat × Nat) := (la, i) :: del la c

/-- client.go:502 the look at the table. -/
def has (la : Nat) (c : List (Nat × Nat)) : Bool := c.any (fun x => x.1 == la)

/-- client.go:476-484 `wsClose` on the table. -/
def drop (la : Option Nat) (c : List (Nat × Nat)) : List (Nat × Nat) :=
  match la with
  | some a => del a c
  | none => c

/-- What the node answers to the request (client.go:454-474): sending fails, reading fails, or a response with a code. -/
inductive Reply where
  | noWrite
  | noRead
  | code (c : Int)
deriving DecidableEq

/-- `dial none`: it failed. -/
inductive Ev (V : Type) where
  | dial (la : Option Nat)
  | reply (i : Nat) (r : Reply)
  | check (i : Nat)
  | frame (i : Nat) (f : Frame V)
  | close (i : Nat)
  | closeAll
deriving DecidableEq

/-- client.go:486-495: the error of a read. -/
def errOf {V : Type} : Frame V → Option Err
  | .data (some _) => none
  | .data none => some .json
  | .close c => some (.closed c)
  | .fail => some .net

/-- client.go:506-511: the callback is not told of a normal closure (1000). -/
def told {V : Type} (e : Err) : List (Cb V) := if e = .closed 1000 then [] else [.error e]

/-- client.go:388-391: the deferred `wsClose`; then `Monitor` returns `r`. -/
def leave {V : Type} (s : St V) (i : Nat) (m : Mon V) (r : Ret) : St V :=
  ⟨drop m.la s.conns, s.mons.set i { m with pc := .done r, closed := true }⟩

/-- One event; `none` if the monitor is not where the event happens. -/
def step {V : Type} (s : St V) : Ev V → Option (St V)
  | .dial none => some ⟨s.conns, s.mons ++ [⟨none, .done .connect, false, []⟩]⟩
  | .dial (some la) => some ⟨add la s.mons.length s.conns, s.mons ++ [⟨some la, .asking, false, []⟩]⟩
  | .reply i r =>
    match s.mons[i]? with
    | none => none
    | some m =>
      if m.pc = .asking then
        if r = .code 0 then some ⟨s.conns, s.mons.set i { m with pc := .head, heard := m.heard ++ [.init] }⟩
        else some (leave s i m .request)
      else none
  | .check i =>
    match s.mons[i]? with
    | none => none
    | some m =>
      if m.pc = .head then
        match m.la with
        | none => none
        | some la =>
          if has la s.conns then some ⟨s.conns, s.mons.set i { m with pc := .reading }⟩
          else some (leave s i m .nil)
      else none
  | .frame i f =>
    match s.mons[i]? with
    | none => none
    | some m =>
      if m.pc = .reading then
        match f with
        | .data (some v) => some ⟨s.conns, s.mons.set i { m with pc := .head, heard := m.heard ++ [.value v] }⟩
        | .data none => some (leave s i { m with heard := m.heard ++ told .json } (.read .json))
        | .close c => some (leave s i { m with heard := m.heard ++ told (.closed c) } (.read (.closed c)))
        | .fail => some (leave s i { m with heard := m.heard ++ told .net } (.read .net))
      else none
  | .close i =>
    match s.mons[i]? with
    | none => none
    | some m => some ⟨drop m.la s.conns, s.mons.set i { m with closed := true }⟩
  | .closeAll => some ⟨[], s.mons.mapIdx (fun i m => { m with closed := m.closed || s.conns.any (fun x => x.2 == i) })⟩

def run {V : Type} : St V → List (Ev V) → Option (St V)
  | s, [] => some s
  | s, e :: l =>
    match step s e with
    | none => none
    | some s' => run s' l

/-- What the callback of monitor `i` was given. -/
def heardOf {V : Type} (s : St V) (i : Nat) : List (Cb V) :=
  match s.mons[i]? with
  | none => []
  | some m => m.heard

/-- The three functions that call `Monitor`. -/
inductive Kind where
  | btp
  | block
  | event
deriving DecidableEq

/-- What the caller of these functions sees: the start callback, a notification, or the error callback, `none` standing for "not
supported type". -/
inductive User (V : Type) where
  | start
  | value (v : V)
  | error (e : Option Err)
deriving DecidableEq

/-- client.go:316-338 `MonitorBTP`, 340-362 `MonitorBlock`, 364-378 `MonitorEvent`, whose switch has no case for a `WSEvent`; `scb`: a start
callback was given. -/
def dispatch {V : Type} (k : Kind) (scb : Bool) : Cb V → List (User V)
  | .init =>
    match k with
    | .event => [.error none]
    | _ => if scb then [.start] else []
  | .value v => [.value v]
  | .error e => [.error (some e)]

def calls {V : Type} (k : Kind) (scb : Bool) (l : List (Cb V)) : List (User V) := l.flatMap (dispatch k scb)

/-- A callback with a state, its errors only logged (client.go:321-323). -/
def feed {V σ : Type} (cb : σ → V → σ) : σ → List (User V) → σ
  | s, [] => s
  | s, .value v :: l => feed cb (cb s v) l
  | s, .start :: l => feed cb s l
  | s, .error _ :: l => feed cb s l

/-- `strings.Replace(s, old, new, 1)` for a nonempty `old`. -/
def replaceFirst (old new : List Char) : List Char → List Char
  | [] => []
  | c :: l => if old.isPrefixOf (c :: l) then new ++ (c :: l).drop old.length else c :: replaceFirst old new l

/-- client.go:438 `wsEndpoint`. -/
def wsEndpoint (e : List Char) : List Char := replaceFirst ['h', 't', 't', 'p'] ['w', 's'] e

/-! ### What is said about histories -/

/-- The frames that the reads of monitor `i` gave, in order. -/
def framesOf {V : Type} (i : Nat) (h : List (Ev V)) : List (Frame V) :=
  h.filterMap (fun e => match e with | .frame j f => if j = i then some f else none | _ => none)

/-- The notifications in them. -/
def valsOf {V : Type} (i : Nat) (h : List (Ev V)) : List V :=
  (framesOf i h).filterMap (fun f => match f with | .data v => v | _ => none)

/-- The node accepted the request of monitor `i`. -/
def acceptedIn {V : Type} (i : Nat) (h : List (Ev V)) : Bool :=
  h.any (fun e => match e with | .reply j r => j == i && r == .code 0 | _ => false)

/-- No connection gets the local address of a monitor that has not returned, and nobody closes a monitor that has returned. -/
def Orderly {V : Type} : St V → List (Ev V) → Prop
  | _, [] => True
  | s, e :: l =>
    (match e with
      | .dial (some la) => ∀ m ∈ s.mons, m.la = some la → m.pc.isDone = true
      | .close i => ∀ m, s.mons[i]? = some m → m.pc.isDone = false
      | _ => True) ∧
    ∀ s', step s e = some s' → Orderly s' l

/-! ### Single steps -/

theorem getElem?_set_eq {α : Type} (l : List α) (i j : Nat) (x y : α) (h : l[i]? = some y) :
    (l.set i x)[j]? = if j = i then some x else l[j]? := by
  rw [List.getElem?_set]
  by_cases e : i = j
  · subst e
    have : i < l.length := by
      rcases Nat.lt_or_ge i l.length with g | g
      · exact g
      · rw [List.getElem?_eq_none_iff.mpr g] at h; cases h
    simp [this]
  · rw [if_neg e, if_neg (fun h : j = i => e h.symm)]

/-- What monitor `i` and an event add to what its callback was given. -/
def saidBy {V : Type} (i : Nat) : Ev V → List (Cb V)
  | .reply j r => if j = i ∧ r = .code 0 then [.init] else []
  | .frame j f =>
    if j = i then
      match f with
      | .data (some v) => [.value v]
      | .data none => [.error .json]
      | .close c => told (.closed c)
      | .fail => [.error .net]
    else []
  | _ => []

theorem heard_step {V : Type} (s s' : St V) (e : Ev V) (i : Nat) (h : step s e = some s') :
    heardOf s' i = heardOf s i ++ saidBy i e := by
  unfold step at h
  cases e with
  | dial la =>
    cases la with
    | none =>
      cases h
      simp only [heardOf, saidBy, List.append_nil, List.getElem?_append]
      by_cases g : i < s.mons.length
      · rw [if_pos g]
      · rw [if_neg g, List.getElem?_eq_none_iff.mpr (by omega : s.mons.length ≤ i)]
        cases k : i - s.mons.length <;> simp
    | some la =>
      cases h
      simp only [heardOf, saidBy, List.append_nil, List.getElem?_append]
      by_cases g : i < s.mons.length
      · rw [if_pos g]
      · rw [if_neg g, List.getElem?_eq_none_iff.mpr (by omega : s.mons.length ≤ i)]
        cases k : i - s.mons.length <;> simp
  | reply j r =>
    dsimp only at h
    cases hm : s.mons[j]? with
    | none => rw [hm] at h; cases h
    | some m =>
      rw [hm] at h
      dsimp only at h
      split at h
      · split at h
        · rename_i hr
          cases h
          simp only [heardOf, saidBy, getElem?_set_eq _ _ _ _ _ hm, hr]
          by_cases e : i = j
          · subst e; simp [hm]
          · simp [e, show ¬ j = i from fun h => e h.symm]
        · rename_i hr
          cases h
          simp only [heardOf, saidBy, leave, getElem?_set_eq _ _ _ _ _ hm, hr]
          by_cases e : i = j
          · subst e; simp [hm]
          · simp [e]
      · cases h
  | check j =>
    dsimp only at h
    cases hm : s.mons[j]? with
    | none => rw [hm] at h; cases h
    | some m =>
      rw [hm] at h
      dsimp only at h
      split at h
      · split at h
        · cases h
        · split at h
          · cases h
            simp only [heardOf, saidBy, getElem?_set_eq _ _ _ _ _ hm]
            by_cases e : i = j
            · subst e; simp [hm]
            · simp [e]
          · cases h
            simp only [heardOf, saidBy, leave, getElem?_set_eq _ _ _ _ _ hm]
            by_cases e : i = j
            · subst e; simp [hm]
            · simp [e]
      · cases h
  | frame j f =>
    dsimp only at h
    cases hm : s.mons[j]? with
    | none => rw [hm] at h; cases h
    | some m =>
      rw [hm] at h
      dsimp only at h
      split at h
      · split at h <;> cases h <;>
        · simp only [heardOf, saidBy, leave, getElem?_set_eq _ _ _ _ _ hm]
          by_cases e : i = j
          · subst e; simp [hm, told]
          · simp [e, show ¬ j = i from fun h => e h.symm]
      · cases h
  | close j =>
    dsimp only at h
    cases hm : s.mons[j]? with
    | none => rw [hm] at h; cases h
    | some m =>
      rw [hm] at h
      cases h
      simp only [heardOf, saidBy, getElem?_set_eq _ _ _ _ _ hm]
      by_cases e : i = j
      · subst e; simp [hm]
      · simp [e]
  | closeAll =>
    cases h
    simp only [heardOf, saidBy, List.getElem?_mapIdx]
    cases s.mons[i]? <;> simp

theorem heard_run {V : Type} (h : List (Ev V)) (s s' : St V) (i : Nat) (hr : run s h = some s') :
    heardOf s' i = heardOf s i ++ h.flatMap (saidBy i) := by
  induction h generalizing s with
  | nil => cases hr; simp
  | cons e l ih =>
    simp only [run] at hr
    cases hs : step s e with
    | none => rw [hs] at hr; cases hr
    | some s1 =>
      rw [hs] at hr
      rw [ih s1 hr, heard_step s s1 e i hs]
      simp

/-- What a monitor's callback was given, by where it is. -/
def Shape {V : Type} (m : Mon V) : Prop :=
  match m.pc with
  | .asking => m.heard = []
  | .head => ∃ vs : List V, m.heard = .init :: vs.map .value
  | .reading => ∃ vs : List V, m.heard = .init :: vs.map .value
  | .done .nil => ∃ vs : List V, m.heard = .init :: vs.map .value
  | .done .connect => m.heard = []
  | .done .request => m.heard = []
  | .done (.read e) => ∃ vs : List V, m.heard = .init :: (vs.map .value ++ told e)

theorem all_set {α : Type} (P : α → Prop) (l : List α) (i : Nat) (x : α) (h : ∀ m ∈ l, P m) (hx : P x) : ∀ m ∈ l.set i x, P m := by
  intro m hm
  rcases List.mem_or_eq_of_mem_set hm with g | g
  · exact h m g
  · exact g ▸ hx

theorem shape_step {V : Type} (s s' : St V) (e : Ev V) (hi : ∀ m ∈ s.mons, Shape m) (h : step s e = some s') :
    ∀ m ∈ s'.mons, Shape m := by
  unfold step at h
  cases e with
  | dial la =>
    cases la with
    | none =>
      cases h
      intro m hm
      rcases List.mem_append.mp hm with g | g
      · exact hi m g
      · rw [List.mem_singleton.mp g]; rfl
    | some la =>
      cases h
      intro m hm
      rcases List.mem_append.mp hm with g | g
      · exact hi m g
      · rw [List.mem_singleton.mp g]; rfl
  | reply j r =>
    dsimp only at h
    cases hm : s.mons[j]? with
    | none => rw [hm] at h; cases h
    | some m =>
      have sm := hi m (List.mem_of_getElem? hm)
      rw [hm] at h
      dsimp only at h
      split at h
      · rename_i hp
        have he : m.heard = [] := by simpa [Shape, hp] using sm
        split at h
        · cases h
          refine all_set _ _ _ _ hi ?_
          simp only [Shape]
          exact ⟨[], by simp [he]⟩
        · cases h
          refine all_set _ _ _ _ hi ?_
          simpa only [Shape] using he
      · cases h
  | check j =>
    dsimp only at h
    cases hm : s.mons[j]? with
    | none => rw [hm] at h; cases h
    | some m =>
      have sm := hi m (List.mem_of_getElem? hm)
      rw [hm] at h
      dsimp only at h
      split at h
      · rename_i hp
        have he : ∃ vs : List V, m.heard = .init :: vs.map .value := by simpa only [Shape, hp] using sm
        split at h
        · cases h
        · split at h
          · cases h
            exact all_set _ _ _ _ hi (by simpa only [Shape] using he)
          · cases h
            exact all_set _ _ _ _ hi (by simpa only [Shape] using he)
      · cases h
  | frame j f =>
    dsimp only at h
    cases hm : s.mons[j]? with
    | none => rw [hm] at h; cases h
    | some m =>
      have sm := hi m (List.mem_of_getElem? hm)
      rw [hm] at h
      dsimp only at h
      split at h
      · rename_i hp
        have he : ∃ vs : List V, m.heard = .init :: vs.map .value := by simpa only [Shape, hp] using sm
        obtain ⟨vs, he⟩ := he
        split at h
        · rename_i v
          cases h
          refine all_set _ _ _ _ hi ?_
          simp only [Shape]
          exact ⟨vs ++ [v], by simp [he]⟩
        all_goals
          cases h
          refine all_set _ _ _ _ hi ?_
          simp only [Shape]
          exact ⟨vs, by simp [he]⟩
      · cases h
  | close j =>
    dsimp only at h
    cases hm : s.mons[j]? with
    | none => rw [hm] at h; cases h
    | some m =>
      have sm := hi m (List.mem_of_getElem? hm)
      rw [hm] at h
      cases h
      exact all_set _ _ _ _ hi (by simpa only [Shape] using sm)
  | closeAll =>
    cases h
    intro m hm
    obtain ⟨k, hk⟩ := List.getElem?_of_mem hm
    rw [List.getElem?_mapIdx] at hk
    cases hj : s.mons[k]? with
    | none => rw [hj] at hk; cases hk
    | some x =>
      rw [hj] at hk
      cases hk
      have := hi x (List.mem_of_getElem? hj)
      simpa only [Shape] using this

theorem shape_run {V : Type} (h : List (Ev V)) (s s' : St V) (hi : ∀ m ∈ s.mons, Shape m) (hr : run s h = some s') :
    ∀ m ∈ s'.mons, Shape m := by
  induction h generalizing s with
  | nil => cases hr; exact hi
  | cons e l ih =>
    simp only [run] at hr
    cases hs : step s e with
    | none => rw [hs] at hr; cases hr
    | some s1 => rw [hs] at hr; exact ih s1 (shape_step s s1 e hi hs) hr

end Verif.WsMonitor
