/-
C170: what the relay logs and where it goes.

Modelled: /repo/common/log/log.go:28-68 (texts of levels), 271-282 (`getPackageName`), 330-338 (`New`);
/repo/common/log/filter.go:9-76 (the filter in front of console and file); /repo/common/log/formatter.go:13-53 (the line);
/repo/common/log/forwarder.go:44-168 (the forwarder) and 171-228 (creation of the hooks); /repo/cmd/relay/main.go:317-369 (`setLogger`).

Texts are byte strings, one `Char` for each byte. logrus is not part of the repository: an entry above the level of the logger is not made; the hooks
whose levels contain the level of the entry are fired; what the formatter returns is written to standard error. `strings.ToLower` and `url.Parse` are
parameters. The time of an entry is a text. Field values are texts, marked with whether they are of type string.
-/
namespace Verif.RelayLog

abbrev Str := List Char

/-- logrus levels: panic 0, fatal 1, error 2, warn 3, info 4, debug 5, trace 6; log.go:16-26 takes the numbers over. -/
local notation "Level" => Int

/-- log.go:28-47 `String`. -/
def levelString (l : Level) : Str :=
  if l = 6 then "trace".toList else if l = 5 then "debug".toList else if l = 4 then "info".toList else if l = 3 then "warn".toList
  else if l = 2 then "error".toList else if l = 1 then "fatal".toList else if l = 0 then "panic".toList else "unknown".toList

/-- log.go:49-68 `ParseLevel`; `lower` is `strings.ToLower`. -/
def parseLevel (lower : Str → Str) (s : Str) : Option Level :=
  let t := lower s
  if t = "panic".toList then some 0 else if t = "fatal".toList then some 1 else if t = "error".toList then some 2
  else if t = "warn".toList then some 3 else if t = "info".toList then some 4 else if t = "debug".toList then some 5
  else if t = "trace".toList then some 6 else none

/-- What follows the last '/', log.go:272-275. -/
def afterSlash : Str → Str
  | [] => []
  | x :: xs => if '/' ∈ xs then afterSlash xs else if x = '/' then xs else x :: xs

/-- log.go:271-282 `getPackageName`: a '.' in front is no end. -/
def packageName (f : Str) : Str :=
  match afterSlash f with
  | [] => []
  | x :: xs => if x = '.' then x :: xs else x :: xs.takeWhile (· ≠ '.')

/-! ### Entries and the filter -/

/-- A field value: as printed, and whether it is of type string. -/
structure Val where
  text : Str
  isStr : Bool
deriving DecidableEq, Repr

/-- The caller of an entry. -/
structure Caller where
  fn : Str
  base : Str
  line : Str
deriving DecidableEq, Repr

structure Entry where
  level : Level
  time : Str
  message : Str
  data : List (Str × Val)
  caller : Option Caller
deriving DecidableEq, Repr

def kWallet : Str := "wallet".toList
def kChain : Str := "chain".toList
def kModule : Str := "module".toList
def kPrefix : Str := "prefix".toList

/-- The logger with its filter: log.go:330-338, filter.go:9-25. `file`: whether there is a file; `hooks`: levels of each. -/
structure Logger where
  level : Level
  console : Level
  mods : List (Str × Level)
  file : Bool
  hooks : List (List Level)
deriving DecidableEq, Repr

/-- log.go:330-338 `New`, filter.go:18-25 `newLogFilter`. -/
def newLogger : Logger := ⟨5, 6, [], false, []⟩

/-- filter.go:30-37: the module of an entry; `none` is the panic of the type assertion. -/
def moduleOf (e : Entry) : Option Str :=
  match e.data.lookup kModule with
  | none => match e.caller with
    | some c => some (packageName c.fn)
    | none => some []
  | some v => if v.isStr then some v.text else none

/-- filter.go:27-43: the level that counts for the console. -/
def consoleLevel (L : Logger) (m : Str) : Level :=
  if m ≠ [] then (L.mods.lookup m).getD L.console else L.console

/-- filter.go:62-68 `GetModuleLevel`. -/
def getModuleLevel (L : Logger) (m : Str) : Level := (L.mods.lookup m).getD L.console

/-- filter.go:58-60 `SetModuleLevel`. -/
def setModuleLevel (L : Logger) (m : Str) (lv : Level) : Logger := { L with mods := (m, lv) :: L.mods.filter (·.1 ≠ m) }

/-- formatter.go:13. -/
def levelNames : List Str := ["P".toList, "F".toList, "E".toList, "W".toList, "I".toList, "D".toList, "T".toList]

/-- strings.TrimRight(s, "\n"). -/
def trimNl (s : Str) : Str := (s.reverse.dropWhile (· = '\n')).reverse

/-- formatter.go:47-52: the other fields, in the order of the list (Go takes any order). -/
def fields : List (Str × Val) → Str
  | [] => []
  | (k, v) :: r => (if k ∈ [kWallet, kChain, kModule, kPrefix] then [] else ' ' :: k ++ '=' :: v.text) ++ fields r

/-- formatter.go:18-37: level, time, wallet, chain and module. -/
def head (e : Entry) : Str :=
  e.time ++ '|' ::
    (match e.data.lookup kWallet with
      | some v => (v.text ++ "----".toList).take 4
      | none => "----".toList) ++ '|' ::
    (match e.data.lookup kChain with
      | some v => v.text
      | none => ['-']) ++ '|' ::
    (match e.data.lookup kModule with
      | some v => v.text
      | none => match e.caller with
        | some c => packageName c.fn
        | none => "--".toList) ++ ['|']

/-- formatter.go:38-43: prefix and position. -/
def place (e : Entry) : Str :=
  (match e.data.lookup kPrefix with
    | some v => v.text
    | none => []) ++
  (match e.caller with
    | some c => c.base ++ ':' :: c.line ++ [' ']
    | none => [])

/-- formatter.go:15-53 `Format`; `none` is the panic of an index out of range. -/
def formatLine (e : Entry) : Option Str :=
  if e.level < 0 then none
  else match levelNames[e.level.toNat]? with
    | none => none
    | some n => some (n ++ '|' :: head e ++ place e ++ trimNl e.message ++ fields e.data ++ ['\n'])

/-- What is written for an entry. -/
structure Output where
  console : Option Str
  file : Option Str
deriving DecidableEq, Repr

/-- filter.go:27-56 `Format`. -/
def format (L : Logger) (e : Entry) : Option Output :=
  match moduleOf e with
  | none => none
  | some m =>
    let level := consoleLevel L m
    if e.level > level ∧ L.file = false then some ⟨none, none⟩
    else match formatLine e with
      | none => none
      | some b => some ⟨if e.level > level then none else some b, if L.file = true ∧ 0 < b.length then some b else none⟩

/-- logrus: an entry of the logger; which hooks fire and what is written. `none` is a panic. -/
def log (L : Logger) (e : Entry) : Option (List Bool × Output) :=
  if e.level > L.level then some (L.hooks.map fun _ => false, ⟨none, none⟩)
  else (format L e).map fun o => (L.hooks.map fun h => decide (e.level ∈ h), o)

/-! ### The forwarder -/

/-- forwarder.go:22-29, without the options. -/
structure FwdCfg where
  vendor : Str
  address : Str
  level : Str
  name : Str
deriving DecidableEq, Repr

/-- forwarder.go:77-110 `HookLevels`: the cases fall through. -/
def hookLevels (lower : Str → Str) (c : FwdCfg) : Option (List Level) :=
  match parseLevel lower c.level with
  | none => none
  | some lv =>
    if lv = 6 then some [6, 5, 4, 3, 2, 1, 0] else if lv = 5 then some [5, 4, 3, 2, 1, 0] else if lv = 4 then some [4, 3, 2, 1, 0]
    else if lv = 3 then some [3, 2, 1, 0] else if lv = 2 then some [2, 1, 0] else if lv = 1 then some [1, 0]
    else if lv = 0 then some [0] else some []

/-- strings.Index(s, "://") >= 0. -/
def hasScheme : Str → Bool
  | ':' :: '/' :: '/' :: _ => true
  | _ :: r => hasScheme r
  | [] => false

/-- forwarder.go:44-66 `NetworkAndHostPort`; `url` is `url.Parse`: scheme and host. -/
def networkAndHostPort (url : Str → Option (Str × Str)) (c : FwdCfg) (defaultNet : Str) : Option (Str × Str) :=
  match url (if hasScheme c.address then c.address else defaultNet ++ "://".toList ++ c.address) with
  | none => none
  | some (scheme, host) => if host = [] then none else if scheme = "unix".toList then none else some (scheme, host)

def digit (c : Char) : Option Nat := if '0' ≤ c ∧ c ≤ '9' then some (c.toNat - 48) else none

def digits : Nat → Str → Option Nat
  | n, [] => some n
  | n, c :: r => match digit c with
    | none => none
    | some d => digits (10 * n + d) r

/-- The number returned by strconv.Atoi when the error is dropped: 0 for what is no number, the nearest number for one out of range. -/
def atoi (s : Str) : Int :=
  match s with
  | [] => 0
  | '+' :: c :: r => (((digits 0 (c :: r)).getD 0 : Nat) : Int) |> fun n => if n ≥ 2 ^ 63 then 2 ^ 63 - 1 else n
  | '-' :: c :: r => (((digits 0 (c :: r)).getD 0 : Nat) : Int) |> fun n => if n > 2 ^ 63 then -2 ^ 63 else -n
  | s => (((digits 0 s).getD 0 : Nat) : Int) |> fun n => if n ≥ 2 ^ 63 then 2 ^ 63 - 1 else n

/-- forwarder.go:68-75 `parseHostPort`. -/
def parseHostPort (s : Str) : Str × Int :=
  match s with
  | [] => ([], 0)
  | ':' :: _ => (s, 0)
  | s => match s.dropWhile (· ≠ ':') with
    | [] => (s, 0)
    | _ :: port => (s.takeWhile (· ≠ ':'), atoi port)

/-- What a hook is made for. -/
inductive Sink where
  /-- forwarder.go:186-215: network, host, port, tag -/
  | fluentd (net host : Str) (port : Int) (tag : Str)
  /-- forwarder.go:217-228 -/
  | logstash (net hostPort : Str) (tag : Str)
deriving DecidableEq, Repr

/-- forwarder.go:144-152: what is not given. -/
def withDefaults (c : FwdCfg) : FwdCfg :=
  { c with level := if c.level = [] then "info".toList else c.level, name := if c.name = [] then "btp".toList else c.name }

/-- forwarder.go:171-183 `newHook` with the first lines of the functions that create the hooks (186-190 and 217-221). -/
def newHook (lower : Str → Str) (url : Str → Option (Str × Str)) (c : FwdCfg) (f : Str × Str → Sink) : Option (Sink × List Level) :=
  match hookLevels lower c with
  | none => none
  | some lvs => match networkAndHostPort url c "tcp".toList with
    | none => none
    | some nh => some (f nh, lvs)

/-- forwarder.go:143-168 `AddForwarder`, 186-215 `fluentHookCreater`, 217-228 `logstashHookCreater`: the sink and the levels of the hook.
The connection and the options are not modelled. -/
def addForwarder (lower : Str → Str) (url : Str → Option (Str × Str)) (c : FwdCfg) : Option (Sink × List Level) :=
  let c := withDefaults c
  if c.vendor = "fluentd".toList then newHook lower url c fun nh => .fluentd nh.1 (parseHostPort nh.2).1 (parseHostPort nh.2).2 c.name
  else if c.vendor = "logstash".toList then newHook lower url c fun nh => .logstash nh.1 nh.2 c.name
  else none

def put (d : List (Str × Val)) (k : Str) (v : Val) : List (Str × Val) := (k, v) :: d.filter (·.1 ≠ k)

def kLogtime : Str := "logtime".toList
def kSrc : Str := "src".toList

/-- forwarder.go:118-137 `Fire`: the fields the hook inside sees; `nano` is the time. The fields of the entry are restored. -/
def fire (nano : Str) (e : Entry) : List (Str × Val) :=
  let d := put e.data kLogtime ⟨nano, false⟩
  match e.caller with
  | none => d
  | some c =>
    let d := match d.lookup kModule with
      | some _ => d
      | none => put d kModule ⟨packageName c.fn, true⟩
    put d kSrc ⟨c.base ++ ':' :: c.line, true⟩

/-! ### The relay -/

/-- The part of the configuration of the relay that concerns logging. -/
structure Cfg where
  logLevel : Str
  consoleLevel : Str
  fileName : Str
  forwarder : Option FwdCfg
deriving DecidableEq, Repr

/-- main.go:350-356: levels of modules. -/
def setMods (lower : Str → Str) : List (Str × Str) → Logger → Option Logger
  | [], L => some L
  | (m, s) :: r, L => match parseLevel lower s with
    | none => none
    | some lv => setMods lower r (setModuleLevel L m lv)

/-- main.go:317-369 `setLogger`; `none` is a panic or the end of the program. -/
def setLogger (lower : Str → Str) (url : Str → Option (Str × Str)) (cfg : Cfg) (mods : List (Str × Str)) : Option (Logger × Option Sink) :=
  let L := { newLogger with file := decide (cfg.fileName ≠ []) }
  match parseLevel lower cfg.logLevel with
  | none => none
  | some a => match parseLevel lower cfg.consoleLevel with
    | none => none
    | some b => match setMods lower mods { L with level := a, console := b } with
      | none => none
      | some L => match cfg.forwarder with
        | none => some (L, none)
        | some f =>
          if f.vendor = [] ∧ f.address = [] then some (L, none)
          else match addForwarder lower url f with
            | none => none
            | some (s, lvs) => some ({ L with hooks := L.hooks ++ [lvs] }, some s)

/-! ### Levels -/

section
variable {lower : Str → Str} {url : Str → Option (Str × Str)}

/-- **C170**: the text of a level is read as that level, by every `lower` that leaves the seven names as they are; other numbers have the text
"unknown", which is no level. -/
theorem C170_levels (hl : ∀ l : Level, lower (levelString l) = levelString l) (l : Level) :
    parseLevel lower (levelString l) = if 0 ≤ l ∧ l ≤ 6 then some l else none := by
  by_cases h : 0 ≤ l ∧ l ≤ 6
  · obtain ⟨h0, h1⟩ := h
    have : l = 0 ∨ l = 1 ∨ l = 2 ∨ l = 3 ∨ l = 4 ∨ l = 5 ∨ l = 6 := by omega
    rcases this with rfl | rfl | rfl | rfl | rfl | rfl | rfl <;> (simp only [parseLevel, hl]; decide +kernel)
  · have e : levelString l = "unknown".toList := by
      unfold levelString
      repeat' (first | rw [if_neg (by omega)])
    rw [if_neg h]
    have hu := hl l
    simp only [parseLevel, hu]
    rw [e]; decide +kernel

theorem parse_some {s : Str} {l : Level} (h : parseLevel lower s = some l) : 0 ≤ l ∧ l ≤ 6 ∧ lower s = levelString l := by
  unfold parseLevel at h
  dsimp only at h
  repeat' split at h
  all_goals first
    | (cases h; rename_i hs; refine ⟨by decide, by decide, by rw [hs]; decide +kernel⟩)
    | cases h

/-- **C170**: what is read as a level is the text of one of the seven levels, up to case. -/
theorem C170_parse {s : Str} {l : Level} (h : parseLevel lower s = some l) : 0 ≤ l ∧ l ≤ 6 ∧ lower s = levelString l := parse_some h

theorem hook_levels {c : FwdCfg} {lvs : List Level} (h : hookLevels lower c = some lvs) :
    ∃ lv, parseLevel lower c.level = some lv ∧ ∀ l : Level, l ∈ lvs ↔ 0 ≤ l ∧ l ≤ lv := by
  unfold hookLevels at h
  cases hp : parseLevel lower c.level with
  | none => rw [hp] at h; cases h
  | some lv =>
    rw [hp] at h
    dsimp only at h
    refine ⟨lv, rfl, fun l => ?_⟩
    obtain ⟨h0, h1, -⟩ := parse_some hp
    have : lv = 0 ∨ lv = 1 ∨ lv = 2 ∨ lv = 3 ∨ lv = 4 ∨ lv = 5 ∨ lv = 6 := by omega
    rcases this with rfl | rfl | rfl | rfl | rfl | rfl | rfl <;>
      (simp only [show ¬ ((0 : Int) = 6) by decide, show ¬ ((0 : Int) = 5) by decide, show ¬ ((0 : Int) = 4) by decide, show ¬ ((0 : Int) = 3) by decide,
        show ¬ ((0 : Int) = 2) by decide, show ¬ ((0 : Int) = 1) by decide, show ¬ ((1 : Int) = 6) by decide, show ¬ ((1 : Int) = 5) by decide,
        show ¬ ((1 : Int) = 4) by decide, show ¬ ((1 : Int) = 3) by decide, show ¬ ((1 : Int) = 2) by decide, show ¬ ((2 : Int) = 6) by decide,
        show ¬ ((2 : Int) = 5) by decide, show ¬ ((2 : Int) = 4) by decide, show ¬ ((2 : Int) = 3) by decide, show ¬ ((3 : Int) = 6) by decide,
        show ¬ ((3 : Int) = 5) by decide, show ¬ ((3 : Int) = 4) by decide, show ¬ ((4 : Int) = 6) by decide, show ¬ ((4 : Int) = 5) by decide,
        show ¬ ((5 : Int) = 6) by decide, if_true, if_false] at h
       cases h
       simp only [List.mem_cons, List.not_mem_nil, or_false]
       omega)

/-! ### Where an entry goes -/

/-- The level given to a module on the command line. -/
def given (lower : Str → Str) (mods : List (Str × Str)) (m : Str) : Option Level := (mods.lookup m).bind (parseLevel lower)

theorem lookup_filter {V : Type} (d : List (Str × V)) (k m : Str) (h : m ≠ k) : (d.filter (·.1 ≠ k)).lookup m = d.lookup m := by
  induction d with
  | nil => rfl
  | cons x xs ih =>
    obtain ⟨a, b⟩ := x
    by_cases ha : a = k
    · subst ha
      rw [List.filter_cons_of_neg (by simp), ih, List.lookup_cons]
      rw [show (m == a) = false by simpa using h]
    · rw [List.filter_cons_of_pos (by simpa using ha), List.lookup_cons, List.lookup_cons, ih]

theorem setMods_some {mods : List (Str × Str)} (nd : (mods.map (·.1)).Nodup) {L L' : Logger} (h : setMods lower mods L = some L') :
    L'.level = L.level ∧ L'.console = L.console ∧ L'.file = L.file ∧ L'.hooks = L.hooks ∧
    (∀ m, m ∉ mods.map (·.1) → L'.mods.lookup m = L.mods.lookup m) ∧
    ∀ m s, (m, s) ∈ mods → ∃ lv, parseLevel lower s = some lv ∧ L'.mods.lookup m = some lv := by
  induction mods generalizing L with
  | nil => cases h; exact ⟨rfl, rfl, rfl, rfl, fun _ _ => rfl, fun _ _ h => by cases h⟩
  | cons x xs ih =>
    obtain ⟨k, t⟩ := x
    rw [setMods] at h
    cases hp : parseLevel lower t with
    | none => rw [hp] at h; cases h
    | some lv =>
      rw [hp] at h
      have nd' := List.nodup_cons.1 (show (k :: xs.map (·.1)).Nodup from nd)
      obtain ⟨h1, h2, h3, h4, h5, h6⟩ := ih nd'.2 h
      refine ⟨h1, h2, h3, h4, fun m hm => ?_, fun m s hm => ?_⟩
      · have hm1 : m ≠ k := fun hc => hm (by rw [hc]; exact List.mem_cons_self ..)
        rw [h5 m fun hc => hm (List.mem_cons_of_mem _ hc), setModuleLevel, List.lookup_cons, show (m == k) = false by simpa using hm1]
        exact lookup_filter _ _ _ hm1
      · rcases List.mem_cons.1 hm with hm | hm
        · cases hm
          refine ⟨lv, hp, ?_⟩
          rw [h5 _ nd'.1, setModuleLevel, List.lookup_cons, beq_self_eq_true]
        · exact h6 m s hm

theorem lookup_none {V : Type} {d : List (Str × V)} {m : Str} (h : d.lookup m = none) : m ∉ d.map (·.1) := by
  induction d with
  | nil => simp
  | cons x xs ih =>
    obtain ⟨a, b⟩ := x
    rw [List.lookup_cons] at h
    by_cases ha : m = a
    · subst ha; rw [beq_self_eq_true] at h; cases h
    · rw [show (m == a) = false by simpa using ha] at h
      simp only [List.map_cons, List.mem_cons, not_or]
      exact ⟨ha, ih h⟩

theorem lookup_mem {V : Type} {d : List (Str × V)} {m : Str} {v : V} (h : d.lookup m = some v) : (m, v) ∈ d := by
  induction d with
  | nil => cases h
  | cons x xs ih =>
    obtain ⟨a, b⟩ := x
    rw [List.lookup_cons] at h
    by_cases ha : m = a
    · subst ha; rw [beq_self_eq_true] at h; cases h; exact List.mem_cons_self ..
    · rw [show (m == a) = false by simpa using ha] at h
      exact List.mem_cons_of_mem _ (ih h)

theorem setLogger_some {cfg : Cfg} {mods : List (Str × Str)} (nd : (mods.map (·.1)).Nodup) {L : Logger} {k : Option Sink}
    (h : setLogger lower url cfg mods = some (L, k)) :
    parseLevel lower cfg.logLevel = some L.level ∧ parseLevel lower cfg.consoleLevel = some L.console ∧ L.file = decide (cfg.fileName ≠ []) ∧
    (∀ m, L.mods.lookup m = given lower mods m) ∧ (∀ m s, (m, s) ∈ mods → ∃ lv, parseLevel lower s = some lv) ∧
    ((k = none ∧ L.hooks = [] ∧ ∀ f, cfg.forwarder = some f → f.vendor = [] ∧ f.address = []) ∨
      ∃ f s lvs, cfg.forwarder = some f ∧ addForwarder lower url f = some (s, lvs) ∧ k = some s ∧ L.hooks = [lvs]) := by
  unfold setLogger at h
  dsimp only at h
  cases ha : parseLevel lower cfg.logLevel with
  | none => rw [ha] at h; cases h
  | some a =>
    cases hb : parseLevel lower cfg.consoleLevel with
    | none => rw [ha, hb] at h; cases h
    | some b =>
      rw [ha, hb] at h
      dsimp only at h
      cases hm : setMods lower mods { newLogger with file := decide (cfg.fileName ≠ []), level := a, console := b } with
      | none => rw [hm] at h; cases h
      | some L1 =>
        rw [hm] at h
        dsimp only at h
        obtain ⟨h1, h2, h3, h4, h5, h6⟩ := setMods_some nd hm
        have look : ∀ m, L1.mods.lookup m = given lower mods m := by
          intro m
          unfold given
          cases hl : mods.lookup m with
          | none => rw [h5 m (lookup_none hl)]; rfl
          | some s =>
            obtain ⟨lv, p1, p2⟩ := h6 m s (lookup_mem hl)
            rw [p2]; exact p1.symm
        have all : ∀ m s, (m, s) ∈ mods → ∃ lv, parseLevel lower s = some lv := fun m s hms => by
          obtain ⟨lv, p1, -⟩ := h6 m s hms
          exact ⟨lv, p1⟩
        cases hf : cfg.forwarder with
        | none =>
          rw [hf] at h
          cases h
          exact ⟨congrArg some h1.symm, congrArg some h2.symm, h3, look, all, .inl ⟨rfl, h4, fun f hc => by cases hc⟩⟩
        | some f =>
          rw [hf] at h
          dsimp only at h
          split at h
          · rename_i he
            cases h
            exact ⟨congrArg some h1.symm, congrArg some h2.symm, h3, look, all, .inl ⟨rfl, h4, fun g hc => by cases hc; exact he⟩⟩
          · cases hw : addForwarder lower url f with
            | none => rw [hw] at h; cases h
            | some r =>
              obtain ⟨s, lvs⟩ := r
              rw [hw] at h
              cases h
              exact ⟨congrArg some h1.symm, congrArg some h2.symm, h3, look, all, .inr ⟨f, s, lvs, rfl, hw, rfl, by dsimp only; rw [h4]; rfl⟩⟩

/-- **C170**: a relay starts only with levels that are levels; then an entry is written to the file just if there is a file and its level is within
`log_level`, and to the console just if its level is within `log_level` and within the level of its module if one was given, within `console_level`
otherwise. Both get the same line. -/
theorem C170_where {cfg : Cfg} {mods : List (Str × Str)} (nd : (mods.map (·.1)).Nodup) {L : Logger} {k : Option Sink}
    (h : setLogger lower url cfg mods = some (L, k)) (e : Entry) (he : 0 ≤ e.level ∧ e.level ≤ 6) {m : Str} (hm : moduleOf e = some m) :
    ∃ a b line hs o, parseLevel lower cfg.logLevel = some a ∧ parseLevel lower cfg.consoleLevel = some b ∧ formatLine e = some line ∧
      log L e = some (hs, o) ∧
      o.file = (if cfg.fileName ≠ [] ∧ e.level ≤ a then some line else none) ∧
      o.console = (if e.level ≤ a ∧ e.level ≤ (if m = [] then b else (given lower mods m).getD b) then some line else none) := by
  obtain ⟨h1, h2, h3, h4, -, -⟩ := setLogger_some nd h
  have hline : ∃ line, formatLine e = some line ∧ 0 < line.length := by
    unfold formatLine
    rw [if_neg (by omega)]
    have : e.level.toNat < levelNames.length := by
      show e.level.toNat < 7
      omega
    rw [List.getElem?_eq_getElem this]
    exact ⟨_, rfl, by simp only [List.length_append, List.length_cons]; omega⟩
  obtain ⟨line, hline, hpos⟩ := hline
  have hc : consoleLevel L m = if m = [] then L.console else (given lower mods m).getD L.console := by
    unfold consoleLevel
    by_cases hm0 : m = []
    · rw [if_neg (by simp [hm0]), if_pos hm0]
    · rw [if_pos hm0, if_neg hm0, h4]
  by_cases hl : e.level > L.level
  · refine ⟨_, _, line, _, _, h1, h2, hline, by unfold log; rw [if_pos hl], ?_, ?_⟩
    · rw [if_neg (by omega)]
    · rw [if_neg (by omega)]
  · refine ⟨_, _, line, L.hooks.map fun h => decide (e.level ∈ h),
      ⟨if e.level > consoleLevel L m then none else some line, if L.file = true then some line else none⟩, h1, h2, hline, ?_, ?_, ?_⟩
    · unfold log
      rw [if_neg hl]
      unfold format
      rw [hm]
      dsimp only
      by_cases hx : e.level > consoleLevel L m ∧ L.file = false
      · rw [if_pos hx, if_pos hx.1, hx.2]; rfl
      · rw [if_neg hx, hline]
        simp only [hpos, and_true, Option.map_some]
    · dsimp only
      rw [h3]
      by_cases hf : cfg.fileName = []
      · simp [hf]
      · simp [hf, show e.level ≤ L.level by omega]
    · dsimp only
      rw [hc]
      generalize (if m = [] then L.console else (given lower mods m).getD L.console) = lv
      by_cases hx : e.level > lv
      · rw [if_pos hx, if_neg (by omega)]
      · rw [if_neg hx, if_pos ⟨by omega, by omega⟩]

/-- **C170**: the level asked for with `GetModuleLevel` is the level that counts for entries of the module. -/
theorem C170_module_level (L : Logger) (m : Str) (h : m ≠ []) : getModuleLevel L m = consoleLevel L m := by
  unfold getModuleLevel consoleLevel
  rw [if_pos h]

theorem newHook_some {c : FwdCfg} {f : Str × Str → Sink} {s : Sink} {lvs : List Level} (h : newHook lower url c f = some (s, lvs)) :
    hookLevels lower c = some lvs ∧ ∃ nh, networkAndHostPort url c "tcp".toList = some nh ∧ s = f nh := by
  unfold newHook at h
  cases hk : hookLevels lower c with
  | none => rw [hk] at h; cases h
  | some l =>
    cases hn : networkAndHostPort url c "tcp".toList with
    | none => rw [hk, hn] at h; cases h
    | some nh => rw [hk, hn] at h; cases h; exact ⟨rfl, nh, rfl, rfl⟩

theorem addForwarder_some {c : FwdCfg} {s : Sink} {lvs : List Level} (h : addForwarder lower url c = some (s, lvs)) :
    hookLevels lower (withDefaults c) = some lvs ∧ ∃ net host, networkAndHostPort url c "tcp".toList = some (net, host) ∧
      ((c.vendor = "fluentd".toList ∧ s = .fluentd net (parseHostPort host).1 (parseHostPort host).2 (withDefaults c).name) ∨
       (c.vendor = "logstash".toList ∧ s = .logstash net host (withDefaults c).name)) := by
  unfold addForwarder at h
  dsimp only at h
  split at h
  · rename_i hv
    obtain ⟨h1, ⟨n, h⟩, h2, h3⟩ := newHook_some h
    exact ⟨h1, n, h, h2, .inl ⟨hv, h3⟩⟩
  · split at h
    · rename_i hv
      obtain ⟨h1, ⟨n, h⟩, h2, h3⟩ := newHook_some h
      exact ⟨h1, n, h, h2, .inr ⟨hv, h3⟩⟩
    · cases h

/-- **C170**: an entry is forwarded just if its level is within `log_level` and within the level of the forwarder, which is info if none is given. -/
theorem C170_forwarded {cfg : Cfg} {mods : List (Str × Str)} (nd : (mods.map (·.1)).Nodup) {L : Logger} {s : Sink}
    (h : setLogger lower url cfg mods = some (L, some s)) (e : Entry) (he : 0 ≤ e.level) {hs : List Bool} {o : Output} (hl : log L e = some (hs, o)) :
    ∃ a f c, parseLevel lower cfg.logLevel = some a ∧ cfg.forwarder = some f ∧
      parseLevel lower (if f.level = [] then "info".toList else f.level) = some c ∧ hs = [decide (e.level ≤ a ∧ e.level ≤ c)] := by
  obtain ⟨h1, -, -, -, -, h5⟩ := setLogger_some nd h
  rcases h5 with ⟨hn, -⟩ | ⟨f, s', lvs, hf, ha, -, hh⟩
  · cases hn
  · have key : ∃ c, parseLevel lower (if f.level = [] then "info".toList else f.level) = some c ∧ ∀ l : Level, l ∈ lvs ↔ 0 ≤ l ∧ l ≤ c := by
      obtain ⟨lv, p1, p2⟩ := hook_levels (addForwarder_some ha).1
      exact ⟨lv, p1, p2⟩
    obtain ⟨c, p1, p2⟩ := key
    refine ⟨_, f, c, h1, hf, p1, ?_⟩
    unfold log at hl
    rw [hh] at hl
    by_cases hx : e.level > L.level
    · rw [if_pos hx] at hl
      cases hl
      simp [show ¬ e.level ≤ L.level by omega]
    · rw [if_neg hx] at hl
      cases hfm : format L e with
      | none => rw [hfm] at hl; cases hl
      | some o' =>
        rw [hfm] at hl
        cases hl
        simp [p2, he, show e.level ≤ L.level by omega]

/-! ### Where entries are forwarded to -/

theorem drop_take (h p : Str) (hh : ':' ∉ h) : (h ++ ':' :: p).dropWhile (· ≠ ':') = ':' :: p ∧ (h ++ ':' :: p).takeWhile (· ≠ ':') = h := by
  induction h with
  | nil => simp
  | cons x xs ih =>
    have hx : x ≠ ':' := fun hc => hh (by rw [hc]; exact List.mem_cons_self ..)
    have hxs := ih fun hc => hh (List.mem_cons_of_mem _ hc)
    simp only [List.cons_append, List.dropWhile_cons, List.takeWhile_cons]
    simp only [ne_eq, hx, not_false_eq_true, decide_true, if_true]
    exact ⟨hxs.1, by rw [show List.takeWhile (fun y => decide ¬ y = ':') (xs ++ ':' :: p) = xs from hxs.2]⟩

/-- **C170**: fluentd is called at the host and port of the address, if the host is a name or an IPv4 address; logstash at what the address says. The tag
is the name given, "btp" if none is. -/
theorem C170_forwarder_partial {c : FwdCfg} {s : Sink} {lvs : List Level} (h : addForwarder lower url c = some (s, lvs)) :
    ∃ net host, url (if hasScheme c.address then c.address else "tcp://".toList ++ c.address) = some (net, host) ∧ host ≠ [] ∧ net ≠ "unix".toList ∧
      (∀ n p, host = n ++ ':' :: p → n ≠ [] → ':' ∉ n → c.vendor = "fluentd".toList →
        s = .fluentd net n (atoi p) (if c.name = [] then "btp".toList else c.name)) ∧
      (c.vendor = "logstash".toList → s = .logstash net host (if c.name = [] then "btp".toList else c.name)) := by
  obtain ⟨-, net, host, hn, hs⟩ := addForwarder_some h
  unfold networkAndHostPort at hn
  have happ : "tcp".toList ++ "://".toList ++ c.address = "tcp://".toList ++ c.address := rfl
  rw [happ] at hn
  cases hu : url (if hasScheme c.address then c.address else "tcp://".toList ++ c.address) with
  | none => rw [hu] at hn; cases hn
  | some r =>
    obtain ⟨x, y⟩ := r
    rw [hu] at hn
    dsimp only at hn
    split at hn
    · cases hn
    · rename_i hy
      split at hn
      · cases hn
      · rename_i hx
        cases hn
        refine ⟨net, host, rfl, hy, hx, fun n p hh hn0 hc hv => ?_, fun hv => ?_⟩
        · rcases hs with ⟨-, hs⟩ | ⟨hv', -⟩
          · rw [hs, hh]
            have : parseHostPort (n ++ ':' :: p) = (n, atoi p) := by
              cases n with
              | nil => exact absurd rfl hn0
              | cons a n =>
                have ha : a ≠ ':' := fun e => hc (by rw [e]; exact List.mem_cons_self ..)
                unfold parseHostPort
                have d := drop_take (a :: n) p hc
                split
                · rename_i he; cases he
                · rename_i he; cases he; exact absurd rfl ha
                · rw [d.1, d.2]
            rw [this]; rfl
          · rw [hv] at hv'; exact absurd hv' (by decide +kernel)
        · rcases hs with ⟨hv', -⟩ | ⟨-, hs⟩
          · rw [hv] at hv'; exact absurd hv' (by decide +kernel)
          · exact hs

/-- **C170**: false for IPv6 addresses: of `[a…:…]:port` with an address that begins otherwise than with a colon, the text up to the first colon of
the address is taken for the host, and port 0. -/
theorem C170_ipv6 (a rest port : Str) (ha : ':' ∉ a) :
    parseHostPort ('[' :: a ++ ':' :: rest ++ ']' :: ':' :: port) = ('[' :: a, 0) := by
  have e : '[' :: a ++ ':' :: rest ++ ']' :: ':' :: port = ('[' :: a) ++ ':' :: (rest ++ ']' :: ':' :: port) := by simp
  have hc : ':' ∉ '[' :: a := by simp [ha]
  have d := drop_take ('[' :: a) (rest ++ ']' :: ':' :: port) hc
  rw [e]
  unfold parseHostPort
  split
  · rename_i he; cases he
  · rename_i he; rw [List.cons_append] at he; cases he
  · rw [d.1, d.2]
    have bad : ∀ (x : Str) (n : Nat), digits n (x ++ ']' :: ':' :: port) = none := by
      intro x
      induction x with
      | nil => intro n; rfl
      | cons c r ih =>
        intro n
        rw [List.cons_append, digits]
        cases digit c with
        | none => rfl
        | some d => exact ih _
    refine Prod.ext rfl ?_
    show atoi (rest ++ ']' :: ':' :: port) = 0
    unfold atoi
    split
    · rfl
    · rename_i c r he
      cases rest with
      | nil => cases he
      | cons x xs =>
        rw [List.cons_append] at he
        injection he with _ he
        rw [← he, bad xs]; rfl
    · rename_i c r he
      cases rest with
      | nil => cases he
      | cons x xs =>
        rw [List.cons_append] at he
        injection he with _ he
        rw [← he, bad xs]; rfl
    · rw [bad rest]; rfl

theorem lookup_put (d : List (Str × Val)) (k m : Str) (v : Val) : (put d k v).lookup m = if m = k then some v else d.lookup m := by
  unfold put
  rw [List.lookup_cons]
  by_cases h : m = k
  · subst h; rw [beq_self_eq_true, if_pos rfl]
  · rw [show (m == k) = false by simpa using h, if_neg h]
    exact lookup_filter _ _ _ h

/-- **C170**: what is forwarded has all fields of the entry but `logtime` and, if the caller is known, `src`, which are set by the forwarder; and the
module the console shows. -/
theorem C170_fields (nano : Str) (e : Entry) :
    (fire nano e).lookup kLogtime = some ⟨nano, false⟩ ∧
    (∀ k, k ≠ kLogtime → k ≠ kSrc → k ≠ kModule → (fire nano e).lookup k = e.data.lookup k) ∧
    (∀ v, e.data.lookup kModule = some v → (fire nano e).lookup kModule = some v) ∧
    ∀ c, e.caller = some c → (fire nano e).lookup kSrc = some ⟨c.base ++ ':' :: c.line, true⟩ ∧
      (e.data.lookup kModule = none → ((fire nano e).lookup kModule).map (·.text) = moduleOf e) := by
  have n1 : kLogtime ≠ kSrc := by decide +kernel
  have n2 : kLogtime ≠ kModule := by decide +kernel
  have n3 : kModule ≠ kSrc := by decide +kernel
  have hm : (put e.data kLogtime ⟨nano, false⟩).lookup kModule = e.data.lookup kModule := by rw [lookup_put, if_neg n2.symm]
  cases hc : e.caller with
  | none =>
    have hf : fire nano e = put e.data kLogtime ⟨nano, false⟩ := by unfold fire; rw [hc]
    rw [hf]
    refine ⟨by rw [lookup_put, if_pos rfl], fun k h1 _ _ => by rw [lookup_put, if_neg h1], fun v hv => by rw [hm, hv], fun c hcc => by cases hcc⟩
  | some c =>
    cases hd : e.data.lookup kModule with
    | some v =>
      have hf : fire nano e = put (put e.data kLogtime ⟨nano, false⟩) kSrc ⟨c.base ++ ':' :: c.line, true⟩ := by
        unfold fire; rw [hc]; dsimp only; rw [hm, hd]
      rw [hf]
      refine ⟨by rw [lookup_put, if_neg n1, lookup_put, if_pos rfl], fun k h1 h2 _ => by rw [lookup_put, if_neg h2, lookup_put, if_neg h1],
        fun w hw => by rw [lookup_put, if_neg n3, hm, hd, hw], fun c' hc' => ?_⟩
      cases hc'
      exact ⟨by rw [lookup_put, if_pos rfl], fun h => by cases h⟩
    | none =>
      have hf : fire nano e = put (put (put e.data kLogtime ⟨nano, false⟩) kModule ⟨packageName c.fn, true⟩) kSrc ⟨c.base ++ ':' :: c.line, true⟩ := by
        unfold fire; rw [hc]; dsimp only; rw [hm, hd]
      rw [hf]
      refine ⟨by rw [lookup_put, if_neg n1, lookup_put, if_neg n2, lookup_put, if_pos rfl],
        fun k h1 h2 h3 => by rw [lookup_put, if_neg h2, lookup_put, if_neg h3, lookup_put, if_neg h1], fun w hw => (by cases hw), fun c' hc' => ?_⟩
      cases hc'
      refine ⟨by rw [lookup_put, if_pos rfl], fun _ => ?_⟩
      rw [lookup_put, if_neg n3, lookup_put, if_pos rfl]
      unfold moduleOf
      rw [hd, hc]; rfl

/-! ### Modules -/

theorem afterSlash_none (s : Str) (h : '/' ∉ s) : afterSlash s = s := by
  cases s with
  | nil => rfl
  | cons x xs =>
    rw [afterSlash, if_neg fun hc => h (List.mem_cons_of_mem _ hc), if_neg fun hc => h (by rw [hc]; exact List.mem_cons_self ..)]

theorem afterSlash_append (p s : Str) (h : '/' ∉ s) : afterSlash (p ++ '/' :: s) = s := by
  induction p with
  | nil => rw [List.nil_append, afterSlash, if_neg h, if_pos rfl]
  | cons x xs ih => rw [List.cons_append, afterSlash, if_pos (by simp), ih]

/-- **C170**: the module of an entry without that field is the package of the function it was made in. -/
theorem C170_package (path name fn : Str) (hn : name ≠ []) (h1 : '/' ∉ name) (h2 : '.' ∉ name) (h3 : '/' ∉ fn) :
    packageName (path ++ '/' :: name ++ '.' :: fn) = name ∧ packageName (name ++ '.' :: fn) = name := by
  have hs : '/' ∉ name ++ '.' :: fn := by simp [h1, h3]
  have key : ∀ t, afterSlash t = name ++ '.' :: fn → packageName t = name := by
    intro t ht
    unfold packageName
    rw [ht]
    cases name with
    | nil => exact absurd rfl hn
    | cons x xs =>
      rw [List.cons_append]
      dsimp only
      rw [if_neg fun hc => h2 (by rw [hc]; exact List.mem_cons_self ..)]
      congr 1
      have h2' : '.' ∉ xs := fun hc => h2 (List.mem_cons_of_mem _ hc)
      clear hs hn h1 ht h2
      induction xs with
      | nil => simp
      | cons y ys ih =>
        have hy : y ≠ '.' := fun hc => h2' (by rw [hc]; exact List.mem_cons_self ..)
        rw [List.cons_append, List.takeWhile_cons, if_pos (by simpa using hy), ih fun hc => h2' (List.mem_cons_of_mem _ hc)]
  constructor
  · apply key
    rw [List.append_assoc]
    exact afterSlash_append _ _ hs
  · exact key _ (afterSlash_none _ hs)

/-! ### Lines -/

/-- No text of the entry but the end of its message has a line break. -/
structure Flat (e : Entry) : Prop where
  message : '\n' ∉ trimNl e.message
  time : '\n' ∉ e.time
  data : ∀ k v, (k, v) ∈ e.data → '\n' ∉ k ∧ '\n' ∉ v.text
  caller : ∀ c, e.caller = some c → '\n' ∉ c.fn ∧ '\n' ∉ c.base ∧ '\n' ∉ c.line

theorem fields_flat (d : List (Str × Val)) (h : ∀ k v, (k, v) ∈ d → '\n' ∉ k ∧ '\n' ∉ v.text) : '\n' ∉ fields d := by
  induction d with
  | nil => simp [fields]
  | cons x xs ih =>
    obtain ⟨k, v⟩ := x
    have hk := h k v (List.mem_cons_self ..)
    have hx := ih fun k v hm => h k v (List.mem_cons_of_mem _ hm)
    rw [fields]
    split
    · simpa using hx
    · simp [hk.1, hk.2, hx]

theorem afterSlash_sub (s : Str) (c : Char) (h : c ∈ afterSlash s) : c ∈ s := by
  induction s with
  | nil => exact h
  | cons x xs ih =>
    rw [afterSlash] at h
    split at h
    · exact List.mem_cons_of_mem _ (ih h)
    · split at h
      · exact List.mem_cons_of_mem _ h
      · exact h

theorem package_sub (s : Str) (c : Char) (h : c ∈ packageName s) : c ∈ s := by
  unfold packageName at h
  apply afterSlash_sub
  generalize afterSlash s = t at h
  cases t with
  | nil => exact h
  | cons x xs =>
    dsimp only at h
    split at h
    · exact h
    · rcases List.mem_cons.1 h with h | h
      · rw [h]; exact List.mem_cons_self ..
      · exact List.mem_cons_of_mem _ ((List.takeWhile_sublist _).subset h)

theorem data_flat {e : Entry} (hf : Flat e) {k : Str} {v : Val} (h : e.data.lookup k = some v) : '\n' ∉ v.text := (hf.data k v (lookup_mem h)).2

theorem head_flat {e : Entry} (hf : Flat e) : '\n' ∉ head e := by
  unfold head
  simp only [List.mem_append, List.mem_cons, List.not_mem_nil, or_false, not_or]
  have hw : '\n' ∉ (match e.data.lookup kWallet with
      | some v => (v.text ++ "----".toList).take 4
      | none => "----".toList) := by
    cases hd : e.data.lookup kWallet with
    | none => dsimp only; decide +kernel
    | some v =>
      intro hc
      have := List.mem_of_mem_take hc
      rcases List.mem_append.1 this with h | h
      · exact data_flat hf hd h
      · exact absurd h (by decide +kernel)
  have hc : '\n' ∉ (match e.data.lookup kChain with
      | some v => v.text
      | none => ['-']) := by
    cases hd : e.data.lookup kChain with
    | none => dsimp only; decide +kernel
    | some v => exact data_flat hf hd
  have hm : '\n' ∉ (match e.data.lookup kModule with
      | some v => v.text
      | none => match e.caller with
        | some c => packageName c.fn
        | none => "--".toList) := by
    cases hd : e.data.lookup kModule with
    | some v => exact data_flat hf hd
    | none =>
      dsimp only
      cases hcl : e.caller with
      | none => dsimp only; decide +kernel
      | some c => exact fun h => (hf.caller c hcl).1 (package_sub _ _ h)
  exact ⟨⟨⟨⟨hf.time, by decide, hw⟩, by decide, hc⟩, by decide, hm⟩, by decide⟩

theorem place_flat {e : Entry} (hf : Flat e) : '\n' ∉ place e := by
  unfold place
  rw [List.mem_append, not_or]
  constructor
  · cases hd : e.data.lookup kPrefix with
    | none => simp
    | some v => exact data_flat hf hd
  · cases hc : e.caller with
    | none => simp
    | some c =>
      have := hf.caller c hc
      simp [this.2.1, this.2.2]

theorem names_flat : ∀ n ∈ levelNames, '\n' ∉ n := by decide +kernel

/-- **C170**: an entry whose texts have no line break inside makes exactly one line. -/
theorem C170_one_line_partial {e : Entry} (hf : Flat e) {b : Str} (h : formatLine e = some b) : ∃ l, b = l ++ ['\n'] ∧ '\n' ∉ l := by
  unfold formatLine at h
  split at h
  · cases h
  · split at h
    · cases h
    · rename_i n hn
      cases h
      refine ⟨_, rfl, ?_⟩
      simp only [List.mem_append, List.mem_cons, not_or]
      exact ⟨⟨⟨⟨names_flat n (List.mem_of_getElem? hn), by decide, head_flat hf⟩, place_flat hf⟩, hf.message⟩, fields_flat _ hf.data⟩

theorem trim_end (s : Str) (h : ∀ c, s.getLast? = some c → c ≠ '\n') : trimNl s = s := by
  unfold trimNl
  cases hr : s.reverse with
  | nil => rw [List.reverse_eq_nil_iff.1 hr]; rfl
  | cons x xs =>
    have : s.getLast? = some x := by rw [List.getLast?_eq_head?_reverse, hr]; rfl
    rw [List.dropWhile_cons_of_neg (by simpa using h x this), ← hr, List.reverse_reverse]

/-- **C170**: in general false, and more than that: whatever two entries are written, the second flat and without further fields, one entry whose
message has a line break makes the same text; so a text of another chain in a message can pose as lines of the relay. -/
theorem C170_forged (e f : Entry) (hd : e.data = []) (hf : Flat f) {a b : Str} (ha : formatLine e = some a) (hb : formatLine f = some b) :
    ∃ m, formatLine { e with message := m } = some (a ++ b) := by
  obtain ⟨l, rfl, hl⟩ := C170_one_line_partial hf hb
  refine ⟨trimNl e.message ++ '\n' :: l, ?_⟩
  have hne : l ≠ [] := by
    rintro rfl
    unfold formatLine at hb
    split at hb
    · cases hb
    · split at hb
      · cases hb
      · rename_i n hn
        have := congrArg (List.length ·) (Option.some.inj hb)
        simp only [List.length_append, List.length_cons, List.length_nil] at this
        omega
  have ht : trimNl (trimNl e.message ++ '\n' :: l) = trimNl e.message ++ '\n' :: l := by
    apply trim_end
    intro c hc
    rw [List.getLast?_append, List.getLast?_cons, Option.some_or, Option.some.injEq] at hc
    subst hc
    cases hg : l.getLast? with
    | none => exact absurd (List.getLast?_eq_none_iff.1 hg) hne
    | some x => exact fun h => hl (by have := List.mem_of_getLast? hg; rw [show x = '\n' from h] at this; exact this)
  unfold formatLine at ha ⊢
  split at ha
  · cases ha
  · rename_i hneg
    split at ha
    · cases ha
    · rename_i n hn
      cases ha
      rw [if_neg hneg]
      dsimp only
      rw [hn]
      dsimp only
      rw [ht, hd]
      simp only [fields, head, place, hd, List.append_assoc, List.cons_append, List.nil_append, List.append_nil]

/-- **C170**: a field `module` that is not of type string makes the logger panic for every entry within the level. -/
theorem C170_module_panics (L : Logger) (e : Entry) (v : Val) (h : e.data.lookup kModule = some v) (hv : v.isStr = false) (hl : e.level ≤ L.level) :
    log L e = none := by
  unfold log format moduleOf
  rw [if_neg (by omega), h]
  simp [hv]

end

/-! ### Examples -/
namespace Ex

def low (s : Str) : Str := s.map Char.toLower
/-- Scheme and host of texts `scheme://host`. -/
def parse (s : Str) : Option (Str × Str) := some (s.takeWhile (· ≠ ':'), (s.dropWhile (· ≠ ':')).drop 3)
def cfg : Cfg := ⟨"Debug".toList, "info".toList, "relay.log".toList, some ⟨"fluentd".toList, "logs:24224".toList, "warn".toList, []⟩⟩
def mods : List (Str × Str) := [("link".toList, "trace".toList), ("btp2".toList, "error".toList)]
def L : Logger := ((setLogger low parse cfg mods).map (·.1)).getD newLogger
def entry (l : Int) (fn : String) : Entry := ⟨l, "12:00".toList, "hello\n".toList, [], some ⟨fn.toList, "x.go".toList, "7".toList⟩⟩

example : setLogger low parse cfg mods = some (L, some (.fluentd "tcp".toList "logs".toList 24224 "btp".toList)) := by decide +kernel
example : (mods.map (·.1)).Nodup := by decide +kernel
example : moduleOf (entry 5 "github.com/x/common/link.(*Link).Start") = some "link".toList := by decide +kernel
example : log L (entry 5 "github.com/x/common/link.(*Link).Start") =
    some ([false], ⟨some "D|12:00|----|-|link|x.go:7 hello\n".toList, some "D|12:00|----|-|link|x.go:7 hello\n".toList⟩) := by decide +kernel
example : log L (entry 4 "github.com/x/btp2.f") = some ([false], ⟨none, some "I|12:00|----|-|btp2|x.go:7 hello\n".toList⟩) := by decide +kernel
example : log L (entry 6 "github.com/x/common/link.f") = some ([false], ⟨none, none⟩) := by decide +kernel
example : (log L (entry 2 "main.f")).map (·.1) = some [true] := by decide +kernel
example : ∀ l ∈ [(0 : Int), 1, 2, 3, 4, 5, 6], low (levelString l) = levelString l := by decide +kernel
example : setLogger low parse { cfg with logLevel := "warning".toList } mods = none := by decide +kernel
/-- The level asked for the module without a name is not the one that counts. -/
example : getModuleLevel (setModuleLevel L [] 0) [] = 0 ∧ consoleLevel (setModuleLevel L [] 0) [] = 4 := by decide +kernel
example : parseHostPort "[fe80::1]:24224".toList = ("[fe80".toList, 0) := by decide +kernel
example : Flat (entry 2 "main.f") := by
  refine ⟨by decide +kernel, by decide +kernel, (by intro k v h; cases h), ?_⟩
  intro c h; cases h; decide +kernel
example : formatLine { entry 2 "main.f" with message := "hello\nE|12:00|----|-|main|x.go:7 hello".toList } =
    (formatLine (entry 2 "main.f")).bind fun a => (formatLine (entry 2 "main.f")).map (a ++ ·) := by decide +kernel

end Ex

end Verif.RelayLog
