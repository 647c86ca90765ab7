import Verif.IntText
/-!
Models of the three parsers of BTP addresses ("btp://NETWORK/ACCOUNT"):
/repo/common/types/btpaddress.go, /repo/solidity/bmc/contracts/libraries/BTPAddress.sol and
/repo/javascore/lib/src/main/java/foundation/icon/btp/lib/BTPAddress.java.

Strings are lists of characters. Go and Solidity work on bytes and Java on UTF-16 units; all the bytes they look for are
ASCII, which in UTF-8 and UTF-16 only occur as those characters.
-/
namespace Verif.BtpAddress
open Verif

abbrev Str := List Char

/-- Go `strings.Split(s, c)` for a one byte separator: never empty. -/
def split (c : Char) : Str → List Str
  | [] => [[]]
  | a :: t => match split c t with
    | [] => [[]]
    | h :: r => if a = c then [] :: h :: r else (a :: h) :: r

/-- Go `strings.Index`, Java `indexOf`: first position at which `p` occurs. -/
def indexOf (p : Str) : Str → Option Nat
  | [] => if p = [] then some 0 else none
  | a :: t => if p.isPrefixOf (a :: t) then some 0 else (indexOf p t).map (· + 1)

def sep : Str := [':', '/', '/']

/-- btpaddress.go:26-32 `Protocol`. -/
def protocol (s : Str) : Str :=
  match indexOf sep s with
  | some i => if i > 0 then s.take i else []
  | none => []

/-- btpaddress.go:33-41 `NetworkAddress`. -/
def networkAddress (s : Str) : Str :=
  if protocol s ≠ [] then
    let ss := split '/' s
    if ss.length > 2 then ss.getD 2 [] else []
  else []

/-- btpaddress.go:42-52 `network`: (id, blockchain). -/
def network (s : Str) : Str × Str :=
  let n := networkAddress s
  if n ≠ [] then
    let ss := split '.' n
    if ss.length > 1 then (ss.getD 0 [], ss.getD 1 []) else ([], ss.getD 0 [])
  else ([], [])

/-- btpaddress.go:53-56 `BlockChain`. -/
def blockChain (s : Str) : Str := (network s).2
/-- btpaddress.go:57-60 `NetworkID`. -/
def networkID (s : Str) : Str := (network s).1

/-- btpaddress.go:61-69 `Account`. -/
def account (s : Str) : Str :=
  if protocol s ≠ [] then
    let ss := split '/' s
    if ss.length > 3 then ss.getD 3 [] else []
  else []

/-- btpaddress.go:71-79 `ContractAddress`. -/
def contractAddress (s : Str) : Str :=
  if protocol s ≠ [] then
    let ss := split '/' s
    if ss.length > 3 then ss.getD 3 [] else []
  else []

def pIcon : Str := ['i', 'c', 'o', 'n']
def pIconee : Str := ['i', 'c', 'o', 'n', 'e', 'e']
def pBtp : Str := ['b', 't', 'p']

/-- btpaddress.go:94-110 `ValidateBtpAddress`; `true` is a nil error. -/
def validate (s : Str) : Bool :=
  if protocol s = pBtp then
    if blockChain s = pIcon ∨ blockChain s = pIconee then
      if (account s).length < 1 then false else true
    else false
  else false

/-! ### Solidity -/

/-- BTPAddress.sol:8 `PREFIX`. -/
def prefix6 : Str := ['b', 't', 'p', ':', '/', '/']

/-- BTPAddress.sol:50-54: the loop over the prefix; `none` is a revert (also for the index out of bounds). -/
def prefixLoop : Str → Str → Option Unit
  | [], _ => some ()
  | _ :: _, [] => none
  | p :: ps, b :: bs => if b ≠ p then none else prefixLoop ps bs

/-- BTPAddress.sol:55-61: the loop from `i` over the rest of the string of total length `len`. -/
def delimLoop (len : Nat) : Nat → Str → Option Nat
  | _, [] => none
  | i, b :: t =>
    if b = '/' then if i > 6 ∧ i < len - 1 then some i else none
    else delimLoop len (i + 1) t

/-- BTPAddress.sol:42-62 `_validate`. -/
def solValidate (s : Str) : Option Nat :=
  match prefixLoop prefix6 s with
  | none => none
  | some _ => delimLoop s.length 6 (s.drop 6)

/-- BTPAddress.sol:64-80 `_slice` (the copy loop written as a sublist). -/
def slice (s : Str) (frm to : Nat) : Str := (s.drop frm).take (to - frm)

/-- BTPAddress.sol:18-27 `parseBTPAddress`. -/
def solParse (s : Str) : Option (Str × Str) :=
  match solValidate s with
  | none => none
  | some off => some (slice s 6 off, slice s (off + 1) s.length)

/-- BTPAddress.sol:88-95 `btpAddress`. -/
def solCompose (net addr : Str) : Str := prefix6 ++ net ++ ['/'] ++ addr

/-! ### Java -/

structure JAddr where
  protocol : Str
  net : Str
  account : Str
deriving DecidableEq

/-- BTPAddress.java:55-57 `toString`. -/
def JAddr.toStr (a : JAddr) : Str := a.protocol ++ sep ++ a.net ++ ['/'] ++ a.account

/-- BTPAddress.java:68-72 `isValid`. -/
def JAddr.isValid (a : JAddr) : Bool := !a.protocol.isEmpty && !a.net.isEmpty && !a.account.isEmpty

/-- BTPAddress.java:74-94 `parse` of a non-null string. -/
def jParse (s : Str) : JAddr :=
  let (proto, s1) := match indexOf sep s with
    | some i => (s.take i, s.drop (i + 3))
    | none => ([], s)
  match indexOf ['/'] s1 with
  | some j => ⟨proto, s1.take j, s1.drop (j + 1)⟩
  | none => ⟨proto, [], s1⟩

/-- BTPAddress.java:96-102 `valueOf`; `none` is the exception. -/
def jValueOf (s : Str) : Option JAddr :=
  let a := jParse s
  if !a.isValid then none else some a

end Verif.BtpAddress
