import Verif.BtpAddress
/-!
Model of /repo/pyscore/lib/btp_address.py.

Strings are lists of characters as in `Verif.BtpAddress`. `none` is an exception (also the `IndexError` of a missing "://").
-/
namespace Verif.PyAddr
open Verif Verif.BtpAddress

/-- Python `str.rfind` of one character: the last position. -/
def rfind (c : Char) : Str → Option Nat
  | [] => none
  | a :: t => match rfind c t with
    | some i => some (i + 1)
    | none => if a = c then some 0 else none

/-- The fields of the class, btp_address.py:26-43. -/
structure Addr where
  protocol : Str
  nid : Str
  chain : Str
  contract : Str
deriving DecidableEq

/-- btp_address.py:28-39: the network address cut at the last dot. -/
def cut (net : Str) : Option (Str × Str) :=
  match rfind '.' net with
  | none => some ([], net)
  | some i => if i = 0 then none else some (net.take i, net.drop (i + 1))

/-- btp_address.py:23-43 `__init__`. -/
def new (protocol net contract : Str) : Option Addr :=
  (cut net).map fun x => ⟨protocol, x.1, x.2, contract⟩

/-- btp_address.py:97-102 `net`. -/
def Addr.net (a : Addr) : Str := if a.nid.length = 0 then a.chain else a.nid ++ ['.'] ++ a.chain

/-- btp_address.py:61-66 `__str__`. -/
def Addr.toStr (a : Addr) : Str := a.protocol ++ sep ++ a.net ++ ['/'] ++ a.contract

/-- btp_address.py:107-108 `is_valid`. -/
def Addr.isValid (a : Addr) : Bool := !(a.protocol.length = 0 || a.net.length = 0 || a.contract.length = 0)

/-- btp_address.py:118 `split("://")`: what is before the first separator and what is between it and the next; `none` without one. -/
def pieces (s : Str) : Option (Str × Str) :=
  (indexOf sep s).map fun i =>
    (s.take i, match indexOf sep (s.drop (i + 3)) with
      | some j => (s.drop (i + 3)).take j
      | none => s.drop (i + 3))

/-- btp_address.py:114-125 `from_string`. -/
def fromString (s : Str) : Option Addr :=
  (pieces s).bind fun x => new x.1 ((split '/' x.2).getD 0 []) ((split '/' x.2).getD 1 [])

/-- btp_address.py:127-132 `from_string_with_validation`. -/
def fromStringValid (s : Str) : Option Addr :=
  (fromString s).bind fun a => if a.isValid then some a else none

/-- btp_address.py:104-105 `replace_contract`. -/
def Addr.replaceContract (a : Addr) (c : Str) : Option Addr := new a.protocol a.net c

end Verif.PyAddr
