import Verif.Bytes
/-!
Model of error codes: /repo/common/errors/errors.go, /repo/chain/icon/client/error.go (the same text as
/repo/chain/ethbr/client/error.go from line 25 on), and on the contract side
/repo/javascore/lib/src/main/java/foundation/icon/btp/lib/BTPException.java.

An `error` interface value is a tree; the texts are left out except where a name is chosen from a code. Every node has
an address, so that `==` on errors (pointers) can be compared. Values outside the package are either `plain` (neither
coder nor wrapper: `fmt.Errorf`, `*jsonrpc.Error`, `*common.HttpError`, `pkg/errors` `fundamental`) or `stack`
(`pkg/errors` `withStack`, which has `Cause`).
-/
namespace Verif.Errors

/-- errors.go:83-239: the error values. `nil` is the nil interface. -/
inductive Err where
  | nil
  | plain (addr : Nat)
  | base (addr : Nat) (code : Int)
  | coded (addr : Nat) (code : Int) (inner : Err)
  | msg (addr : Nat) (origin : Err)
  | wrapped (addr : Nat) (code : Int) (origin : Err)
  | stack (addr : Nat) (inner : Err)
deriving DecidableEq

/-- The dynamic value of the interface for `==`: no address for nil. -/
def Err.ptr : Err → Option Nat
  | .nil => none
  | .plain a | .base a _ | .coded a _ _ | .msg a _ | .wrapped a _ _ | .stack a _ => some a

/-- errors.go:300-331 `AsValue` on an `ErrorCoder` and 254-260 `CoderOf`: `none` is the panic of
`reflect.ValueOf(nil).Type()`; `some none` is `nil, false`; otherwise the coder found. -/
def coderOf : Err → Option (Option Err)
  | .nil => none
  | .plain _ => some none
  | .base a c => some (some (.base a c))
  | .coded a c i => some (some (.coded a c i))
  | .msg _ o => coderOf o
  | .wrapped a c o => some (some (.wrapped a c o))
  | .stack _ i => coderOf i

/-- `ErrorCode()` of a coder (errors.go:92-94, 136-138, 229-231). -/
def Err.errorCode : Err → Int
  | .base _ c | .coded _ c _ | .wrapped _ c _ => c
  | _ => 0

/-- errors.go:262-267 `CodeOf`; `none` is a panic. -/
def codeOf (e : Err) : Option Int :=
  match coderOf e with
  | none => none
  | some (some c) => some c.errorCode
  | some none => some 0

/-- errors.go:191-203 `Wrap`, `Wrapf`. -/
def wrap (addr : Nat) (e : Err) : Err := .msg addr e

/-- errors.go:233-247 `Wrapc`, `Wrapcf` (also `Code.Wrap`, 44-50). -/
def wrapc (addr : Nat) (e : Err) (c : Int) : Err := .wrapped addr c e

/-- errors.go:73-75 `WithStack`: `pkg/errors` returns nil for nil. -/
def withStack (addr : Nat) : Err → Err
  | .nil => .nil
  | e => .stack addr e

/-- errors.go:144-156 `Errorc`, `Errorcf`: a code around a fresh `fundamental`. -/
def errorc (addr : Nat) (c : Int) : Err := .coded addr c (.plain (addr + 1))

/-- errors.go:158-166 `WithCode`; `none` is a panic. -/
def withCode (addr : Nat) (e : Err) (c : Int) : Option Err :=
  match coderOf e with
  | none => none
  | some (some _) => some (wrapc addr e c)
  | some none => some (.coded addr c e)

/-- errors.go:275-296 `Is`. -/
def is (target : Err) : Err → Bool
  | .nil => decide (target.ptr = none)
  | .plain a => decide (target.ptr = some a)
  | .base a _ => decide (target.ptr = some a)
  | .coded a _ i => decide (target.ptr = some a) || is target i
  | .msg a o => decide (target.ptr = some a) || is target o
  | .wrapped a _ o => decide (target.ptr = some a) || is target o
  | .stack a i => decide (target.ptr = some a) || is target i

/-- errors.go:52-57, 103-108 `Code.Equals`, `baseError.Equals`; `none` is a panic. -/
def equals (c : Int) (e : Err) : Option Bool :=
  match e with
  | .nil => some false
  | e => (codeOf e).map (fun x => decide (x = c))

/-! ### chain/icon/client/error.go -/

/-- The class of a revert code. -/
inductive Class where
  | btp | bmc | bmv | bsh | reserved
deriving DecidableEq

/-- error.go:85-108, the message: a class with the number, or a name from a table (with its class). -/
inductive Name where
  | number (k : Class) (c : Int)
  | named (k : Class) (s : String)
deriving DecidableEq

def Name.cls : Name → Class
  | .number k _ => k
  | .named k _ => k

/-- error.go:41-69 `BMCRevertCodeNames`. -/
def bmcNames : List (Int × String) :=
  [(10, "BMCRevert"), (11, "BMCRevertUnauthorized"), (12, "BMCRevertInvalidSN"), (13, "BMCRevertAlreadyExistsBMV"),
   (14, "BMCRevertNotExistsBMV"), (15, "BMCRevertAlreadyExistsBSH"), (16, "BMCRevertNotExistsBSH"),
   (17, "BMCRevertAlreadyExistsLink"), (18, "BMCRevertNotExistsLink"), (19, "BMCRevertUnreachable"),
   (20, "BMCRevertNotExistsPermission")]

/-- error.go:71-83 `BMVRevertCodeNames`. -/
def bmvNames : List (Int × String) := [(25, "BMVUnknown"), (26, "BMVNotVerifiable"), (27, "BMVAlreadyVerified")]

/-- A Go map lookup with default. -/
def nameIn (t : List (Int × String)) (k : Class) (c : Int) : Name :=
  match t.find? (fun x => x.1 = c) with
  | some x => .named k x.2
  | none => .number k c

/-- error.go:85-108 `NewRevertError`: the code and the message; `none` is the nil error. -/
def newRevertError (c : Int) : Option (Int × Name) :=
  if c ≥ 0 then
    some (c,
      if c ≤ 10 then .number .btp c
      else if c ≤ 25 then nameIn bmcNames .bmc c
      else if c ≤ 40 then nameIn bmvNames .bmv c
      else if c ≤ 55 then .number .bsh c
      else .number .reserved c)
  else none

/-- The error value `NewRevertError` returns. -/
def revertErr (addr : Nat) (c : Int) : Err :=
  match newRevertError c with
  | some p => .base addr p.1
  | none => .nil

/-! ### BTPException.java -/

/-- BTPException.java:30-34 `Type`. -/
inductive Type' where
  | btp | bmc | bmv | bsh
deriving DecidableEq

/-- BTPException.java:31-34 `offset`. -/
def Type'.offset : Type' → Int
  | .btp => 0
  | .bmc => 10
  | .bmv => 25
  | .bsh => 40

/-- BTPException.java:45 `values()[ordinal() + 1]`. -/
def Type'.next : Type' → Option Type'
  | .btp => some .bmc
  | .bmc => some .bmv
  | .bmv => some .bsh
  | .bsh => none

/-- BTPException.java:40-49 `apply`; `none` is the `IllegalArgumentException`. Java `int` overflow is left out: a
contract's revert codes are small. -/
def Type'.apply (t : Type') (code : Int) : Option Int :=
  if code < 0 then none
  else match t.next with
    | none => some (t.offset + code)
    | some n => if t.offset + code ≥ n.offset then none else some (t.offset + code)

/-- BTPException.java:50-55 `recover`. -/
def Type'.recover (t : Type') (code : Int) : Option Int := if code < 0 then none else some (code - t.offset)

/-- BTPException.java:60-67: the loop over `values()`, `prev` trailing. -/
def valueOfLoop (code : Int) : Option Type' → List Type' → Option Type'
  | prev, [] => prev
  | none, v :: vs => valueOfLoop code (some v) vs
  | some p, v :: vs => if code < p.offset then some v else valueOfLoop code (some v) vs

/-- BTPException.java:56-68 `valueOf`. -/
def valueOf (code : Int) : Option Type' := if code < 0 then none else valueOfLoop code none [.btp, .bmc, .bmv, .bsh]

/-- A `BTPException`: its type and code (the code a transaction reverts with). -/
structure Exc where
  type : Type'
  code : Int
deriving DecidableEq

/-- What a `catch` block may see: a `BTPException` of this contract, the revert of a called contract with its code,
anything else. -/
inductive Thrown where
  | btp (e : Exc)
  | reverted (code : Int)
  | other
deriving DecidableEq

/-- BTPException.java:82-86, 94-98: the constructors with a type. -/
def mk (t : Type') (code : Int) : Option Exc := (t.apply code).map (fun c => ⟨t, c⟩)

/-- BTPException.java:88-92: the constructor without one. -/
def mkOf (code : Int) : Option Exc := (valueOf code).map (fun t => ⟨t, code⟩)

/-- BTPException.java:100-108 `of(cause)`. -/
def of : Thrown → Option Exc
  | .btp e => some e
  | .reverted c => mkOf c
  | .other => mkOf 0

/-- BTPException.java:110-118 `of(cause, defaultType)`. -/
def ofType (t : Type') : Thrown → Option Exc
  | .btp e => some e
  | .reverted c => mk t c
  | .other => mk t 0

/-- BTPException.java:130-132 `getCodeOfType`. -/
def Exc.codeOfType (e : Exc) : Option Int := e.type.recover e.code

end Verif.Errors
