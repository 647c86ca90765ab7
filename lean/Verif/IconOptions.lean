import Verif.Sender
/-!
Model of `IconOptions` in /repo/chain/icon/client/client.go:568-636. Strings are lists of characters. A Go map is the list of its
entries with distinct keys; the order of the list is the order in which `range` walks it. A nil map is `none`. The transport of the
header by net/http is not modelled.
-/
namespace Verif.IconOptions
open Verif Verif.IntText

abbrev Opts := List (Str × Str)

def lookup (k : Str) : Opts → Option Str
  | [] => none
  | (a, v) :: l => if a = k then some v else lookup k l

/-- `m[k] = v`; client.go:576-578 `Set`. -/
def set (k v : Str) : Opts → Opts
  | [] => [(k, v)]
  | (a, w) :: l => if a = k then (a, v) :: l else (a, w) :: set k v l

/-- client.go:579-588 `Get`. -/
def get (m : Option Opts) (k : Str) : Str := (lookup k (m.getD [])).getD []

/-- client.go:592-594 `SetBool`. -/
def formatBool (b : Bool) : Str := if b then "true".toList else "false".toList

/-- strconv.ParseBool, client.go:595-597 `GetBool`. -/
def parseBool (s : Str) : Option Bool :=
  if s ∈ ["1", "t", "T", "true", "TRUE", "True"].map String.toList then some true
  else if s ∈ ["0", "f", "F", "false", "FALSE", "False"].map String.toList then some false
  else none

/-- strconv.FormatInt(v, 10), client.go:598-600 `SetInt`; `GetInt` (601-603) is `Sender.atoi`. -/
def formatDec (v : Int) : Str := if v < 0 then '-' :: Nat.toDigits 10 v.natAbs else Nat.toDigits 10 v.natAbs

/-- strings.Join(l, ","). -/
def join : List Str → Str
  | [] => []
  | [s] => s
  | s :: t :: l => s ++ ',' :: join (t :: l)

/-- client.go:604-615 `ToHeaderValue`. -/
def toHeader (m : Option Opts) : Str :=
  match m with
  | none => []
  | some l => join (l.map (fun p => p.1 ++ '=' :: p.2))

/-- strings.Split(s, ","). -/
def split : Str → List Str
  | [] => [[]]
  | c :: cs =>
    if c = ',' then [] :: split cs
    else match split cs with
      | [] => [[c]]
      | p :: ps => (c :: p) :: ps

/-- strings.Index(s, "="). -/
def indexEq : Str → Option Nat
  | [] => none
  | c :: cs => if c = '=' then some 0 else (indexEq cs).map (· + 1)

/-- client.go:622-630: one piece. -/
def addPiece (m : Opts) (kv : Str) : Opts :=
  if kv = [] then m
  else
    match indexEq kv with
    | some (i + 1) => set (kv.take (i + 1)) (kv.drop (i + 2)) m
    | _ => set kv [] m

/-- client.go:617-636 `NewIconOptionsByHeader`. -/
def ofHeader (s : Str) : Option Opts := if s ≠ [] then some ((split s).foldl addPiece []) else none

end Verif.IconOptions
