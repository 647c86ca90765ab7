import Verif.IntText
/-!
Model of the configuration of the relay: /repo/common/config/fileconfig.go:11-42, the path functions of Go it uses, the commands
`save` and `start` of /repo/cmd/relay/main.go:144-168, 211-257, 317-328 and the links that
/repo/cmd/relay/linkfatory.go:18-146 builds, with the options of /repo/chain/icon/sender.go:59-79.

Simplifications: paths are those of Unix (one separator, no volume names), without symbolic links; the working directory is an
absolute path; of the configuration only the fields named here are kept. An option given on the command line or in the environment
is a non-empty text, `""` if it was not given; it goes before the value of the file (viper). `LogWriter` is never nil after
`Unmarshal`, since the flags `log_writer.*` have defaults. The key stores are in Wallet, the fate of a link's error in Monitor.
-/
namespace Verif.RelayConfig
open Verif Verif.IntText

/-! ### Paths of Go -/

/-- A path as its list of names, and whether it begins at the root. -/
structure Path where
  rooted : Bool
  names : List Str
deriving DecidableEq, Repr

/-- The text between the separators. -/
def pieces : Str → List Str
  | [] => [[]]
  | c :: t =>
    if c = '/' then [] :: pieces t
    else
      match pieces t with
      | [] => [[c]]
      | p :: ps => (c :: p) :: ps

def dot : Str := ['.']
def dotdot : Str := ['.', '.']

/-- One name of `filepath.Clean`, on the names before it in reverse order: empty names and `.` are dropped, `..` takes back the
name before it, stays at the front of a path that is not rooted, and is dropped at the root. -/
def push (rooted : Bool) (acc : List Str) (n : Str) : List Str :=
  if n = [] ∨ n = dot then acc
  else if n = dotdot then
    match acc with
    | [] => if rooted then [] else [dotdot]
    | m :: t => if m = dotdot then dotdot :: acc else t
  else n :: acc

/-- The names of `filepath.Clean`. -/
def cleanNames (rooted : Bool) (ns : List Str) : List Str := (ns.foldl (push rooted) []).reverse

/-- `filepath.IsAbs`. -/
def isAbs (s : Str) : Bool := match s with | '/' :: _ => true | _ => false

def parse (s : Str) : Path := ⟨isAbs s, cleanNames (isAbs s) (pieces s)⟩

/-- The names with separators between them. -/
def joinNames : List Str → Str
  | [] => []
  | [n] => n
  | n :: t => n ++ '/' :: joinNames t

def render (p : Path) : Str :=
  if p.rooted then '/' :: joinNames p.names
  else if p.names = [] then dot
  else joinNames p.names

/-- `filepath.Clean` and `path.Clean`. -/
def clean (s : Str) : Str := render (parse s)

/-- `filepath.Join`, `path.Join` of two elements: empty elements are left out. -/
def join (a b : Str) : Str :=
  if a = [] then (if b = [] then [] else clean b)
  else if b = [] then clean a
  else clean (a ++ '/' :: b)

/-- `filepath.Abs` in the working directory `cwd`. -/
def abs (cwd s : Str) : Str := if isAbs s then clean s else join cwd s

/-- The text up to and with the last separator. -/
def upToSlash (s : Str) : Str := (s.reverse.dropWhile (· ≠ '/')).reverse

/-- `filepath.Dir`. -/
def dir (s : Str) : Str := clean (upToSlash s)

/-- The names of `filepath.Rel` for two rooted paths: past the common names, one `..` for each name left of the base, then the
names left of the target. -/
def relNames : List Str → List Str → List Str
  | b :: bs, t :: ts => if b = t then relNames bs ts else List.replicate (bs.length + 1) dotdot ++ t :: ts
  | bs, ts => List.replicate bs.length dotdot ++ ts

/-- `filepath.Rel` for two absolute paths, which is how fileconfig.go:27-33 calls it. -/
def rel (base targ : Str) : Str := render ⟨false, relNames (parse base).names (parse targ).names⟩

/-! ### common/config/fileconfig.go -/

/-- fileconfig.go:16-25 `ResolveAbsolute`. -/
def resolveAbsolute (cwd filePath s : Str) : Str :=
  if isAbs s then s
  else if filePath = [] then abs cwd s
  else clean (join (dir filePath) s)

/-- fileconfig.go:27-33 `ResolveRelative`. -/
def resolveRelative (cwd filePath s : Str) : Str := rel (abs cwd (dir filePath)) (abs cwd s)

/-! ### cmd/relay/main.go -/

/-- What a configuration file holds: `base_dir` and `log_writer.filename`, `""` if absent. -/
structure File where
  baseDir : Str
  logFile : Str
deriving DecidableEq, Repr

/-- What is given on the command line or in the environment. `config` is the configuration file. -/
structure Args where
  config : Str
  baseDir : Str
  logFile : Str
deriving DecidableEq, Repr

structure Cfg where
  filePath : Str
  baseDir : Str
  logFile : Str
deriving DecidableEq, Repr

/-- main.go:144-168 `PersistentPreRunE`, with the contents of the configuration file (looked at if one is given). -/
def preRun (cwd : Str) (a : Args) (f : File) : Cfg :=
  let fp := if a.config ≠ [] then abs cwd a.config else []
  let f := if a.config ≠ [] then f else ⟨[], []⟩
  ⟨fp, if a.baseDir ≠ [] then resolveRelative cwd fp a.baseDir else f.baseDir,
    if a.logFile ≠ [] then resolveRelative cwd fp a.logFile else f.logFile⟩

/-- main.go:224-240 `save`: where the file is written and what it holds. -/
def save (cwd : Str) (c : Cfg) (target : Str) : Str × File :=
  let fp := abs cwd target
  (fp, ⟨resolveRelative cwd fp c.baseDir, resolveRelative cwd fp c.logFile⟩)

/-- main.go:321-328 `setLogger`: the log file, if there is one. -/
def logTarget (cwd : Str) (c : Cfg) : Option Str :=
  if c.logFile = [] then none else some (resolveAbsolute cwd c.filePath c.logFile)

/-- fileconfig.go:35-37 `AbsBaseDir`, for a configuration with a base directory. -/
def baseTarget (cwd : Str) (c : Cfg) : Option Str :=
  if c.baseDir = [] then none else some (resolveAbsolute cwd c.filePath c.baseDir)

/-- main.go:258: the flag of `save` beside those of the root command (none of which names a key store file to write). -/
def saveFlags : List Str := ["save_key_store".toList]

/-- pflag `GetString` of a flag set, the error dropped: the value if the flag is defined and given. -/
def getString (defined : List Str) (given : List (Str × Str)) (n : Str) : Str :=
  if n ∈ defined then (given.lookup n).getD [] else []

/-- The flags of `save` on the command line are refused if one of them is not defined (cobra). -/
def flagsOk (defined : List Str) (given : List (Str × Str)) : Bool := given.all (fun g => g.1 ∈ defined)

/-- main.go:242-254: the key store files written, with the key store of each (`true`: source). -/
def keyStoreFiles (given : List (Str × Str)) : List (Str × Bool) :=
  let s := getString saveFlags given "save_src_key_store".toList
  let d := getString saveFlags given "save_dst_key_store".toList
  (if s ≠ [] then [(s, true)] else []) ++ (if d ≠ [] then [(d, false)] else [])

/-! ### cmd/relay/linkfatory.go -/

/-- chain/config.go:26-34 `BaseConfig`, for the links. `step` is the option `StepLimit`. -/
structure Side where
  address : Str
  chain : Str
  endpoint : Str
  bridge : Bool
  step : Option Int
deriving DecidableEq, Repr

inductive Recv where
  | bridge
  | btp2
  | eth
deriving DecidableEq, Repr

/-- One link: its receiver, its sender and the wallet of the sender (`true`: the one of the source side of the configuration). -/
structure LinkSpec where
  recv : Recv
  recvAddr : Str
  recvEndpoint : Str
  iconSender : Bool
  sendAddr : Str
  sendEndpoint : Str
  step : Option Int
  srcWallet : Bool
deriving DecidableEq, Repr

inductive Err where
  | direction
  | chain
deriving DecidableEq, Repr

def icon : Str := "icon".toList
def eth : Str := "eth".toList
def hardhat : Str := "hardhat".toList

/-- linkfatory.go:101-120 `newReceiver`. -/
def newReceiver (s : Str) (src : Side) : Except Err Recv :=
  if s = icon then .ok (if src.bridge then .bridge else .btp2)
  else if s = eth ∨ s = hardhat then .ok .eth
  else .error .chain

/-- chain/icon/sender.go:39 `DefaultStepLimit`. -/
def defaultStep : Int := 2500000000

/-- chain/icon/sender.go:67-76. -/
def stepLimit (o : Option Int) : Int := if o.getD 0 ≤ 0 then defaultStep else o.getD 0

/-- linkfatory.go:122-139 `newSender`: the ICON sender is given the options of the source (line 127), the other one none: whether
it is the ICON sender, and its step limit. -/
def newSender (s : Str) (src _dst : Side) : Except Err (Bool × Option Int) :=
  if s = icon then .ok (true, some (stepLimit src.step))
  else if s = eth ∨ s = hardhat then .ok (false, none)
  else .error .chain

/-- linkfatory.go:84-99 `newLink`. -/
def newLink (src dst : Side) (srcWallet : Bool) : Except Err LinkSpec := do
  let r ← newReceiver src.chain src
  let s ← newSender dst.chain src dst
  return ⟨r, src.address, src.endpoint, s.1, dst.address, dst.endpoint, s.2, srcWallet⟩

/-- linkfatory.go:18-72 `NewLink`: the links started. -/
def newLinks (direction : Str) (src dst : Side) : Except Err (List LinkSpec) :=
  if direction = "front".toList then do
    let l ← newLink src dst false
    return [l]
  else if direction = "reverse".toList then do
    let l ← newLink dst src true
    return [l]
  else if direction = "both".toList then do
    let l ← newLink src dst false
    let m ← newLink dst src true
    return [l, m]
  else .error .direction

end Verif.RelayConfig
