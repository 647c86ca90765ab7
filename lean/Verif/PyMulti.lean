import Verif.PyRlpProps
/-!
The sample tokens in Python: the multi-token (javascore/fee-aggregation/SampleMultiToken: multi_token.py, token/irc31_basic.py,
token/irc31_mintburn.py, util/__init__.py, util/rlp.py) that fees are paid in, and the IRC2 token
(pyscore/token/sample/irc2/irc2_token.py).

Addresses are numbers, 0 is `ZERO_ADDRESS`; `isc` tells which are contracts. A call into a receiving contract is the last thing a method
does (in IRC2: the last but the event), so what the receiver does by calling back is a later operation of the history; whether it takes the
tokens comes with the operation. `none` is a revert. Unset entries of a `DictDB` of ints read as 0, of bools as False, of addresses as None.
Left out: the data handed to the receiver, `balanceOfBatch` and the other methods that only read, and the limit on the size of integers.
-/
namespace Verif.PyMulti
open Verif

/-! ### util/rlp.py -/

/-- The nearest number with 53 significant bits, ties to even: the rounding of a Python float. -/
def round53 (n : Nat) : Nat :=
  let e := Nat.log2 n - 52
  let q := n / 2 ^ e
  let r := n % 2 ^ e
  if 2 * r < 2 ^ e ∨ (2 * r = 2 ^ e ∧ q % 2 = 0) then q * 2 ^ e else (q + 1) * 2 ^ e

/-- rlp.py:46 `int(x / 256)`: `/` gives the float nearest to the quotient (OverflowError at 2^1024), `int` cuts off towards zero. Division by
256 only changes the exponent, so the quotient is rounded as `x` is. -/
def div256 (x : Int) : Option Int :=
  let m := round53 x.natAbs
  if 2 ^ 1032 ≤ m then none
  else some (if x < 0 then - ((m / 256 : Nat) : Int) else ((m / 256 : Nat) : Int))

/-- rlp.py:42-46 `int_to_bytes`; the fuel is at least the number of bytes. `x % 256` is never negative in Python. -/
def intToBytes : Nat → Int → Option Bytes
  | 0, _ => none
  | f + 1, x =>
    if x = 0 then some []
    else (div256 x).bind fun y => (intToBytes f y).map fun b => b ++ [UInt8.ofNat (x % 256).toNat]

/-- A call of `int_to_bytes`. -/
def toBytes (x : Int) : Option Bytes := intToBytes (x.natAbs + 1) x

/-- rlp.py:35-39 `rlp_encode_length`; `bytes([...])` raises above 255. -/
def encLength (size offset : Nat) : Option Bytes :=
  if size ≤ 55 then some [UInt8.ofNat (size + offset)]
  else (toBytes size).bind fun l => if l.length + offset + 55 < 256 then some (UInt8.ofNat (l.length + offset + 55) :: l) else none

/-- rlp.py:28-32 `rlp_encode_bytes`. -/
def encBytes (b : Bytes) : Option Bytes :=
  if b.length = 1 ∧ (b.getD 0 0).toNat < 0x80 then some b
  else (encLength b.length 0x80).map (· ++ b)

/-- rlp.py:22-24: the loop of `rlp_encode_list`. -/
def encItems : List Int → Option Bytes
  | [] => some []
  | e :: l => (toBytes e).bind fun b => (encBytes b).bind fun x => (encItems l).map fun y => x ++ y

/-- rlp.py:18-25 `rlp_encode_list`. -/
def encList (l : List Int) : Option Bytes :=
  (encItems l).bind fun bs => (encLength bs.length 0xc0).map (· ++ bs)

/-! ### The multi-token -/

/-- irc31_basic.py:181-224: the events of moved tokens; those of a batch carry bytes. -/
inductive Ev where
  | single (op frm to : Nat) (id value : Int)
  | batch (op frm to : Nat) (ids values : Bytes)
deriving DecidableEq

/-- irc31_basic.py:26-31 and irc31_mintburn.py:25; `log` are the events of moved tokens, the oldest first. -/
structure S where
  bal : Int → Nat → Int
  appr : Nat → Nat → Bool
  creator : Int → Option Nat
  uri : Int → Bytes
  log : List Ev

/-- After installation. -/
def start : S := ⟨fun _ _ => 0, fun _ _ => false, fun _ => none, fun _ => [], []⟩

/-- `self._balances[_id][_owner] = v`. -/
def put (b : Int → Nat → Int) (id : Int) (a : Nat) (v : Int) : Int → Nat → Int :=
  fun i x => if i = id ∧ x = a then v else b i x

/-- irc31_basic.py:105-109 and 150-154: check and transfer. -/
def move (b : Int → Nat → Int) (frm to : Nat) (id v : Int) : Option (Int → Nat → Int) :=
  if 0 ≤ v ∧ v ≤ b id frm then
    let b1 := put b id frm (b id frm - v)
    some (put b1 id to (b1 id to + v))
  else none

/-- irc31_basic.py:147-154: the loop of `transferFromBatch`. -/
def moves (b : Int → Nat → Int) (frm to : Nat) : List Int → List Int → Option (Int → Nat → Int)
  | i :: is, v :: vs => (move b frm to i v).bind fun b1 => moves b1 frm to is vs
  | _, _ => some b

/-- irc31_basic.py:103-104: `_from == self.msg.sender or self.isApprovedForAll(_from, self.msg.sender)`. -/
def mayMove (s : S) (caller frm : Nat) : Bool := frm == caller || s.appr frm caller

/-- The external methods; `ok`: a receiving contract takes the tokens. -/
inductive Op where
  | transfer (frm to : Nat) (id value : Int) (ok : Bool)
  | batch (frm to : Nat) (ids values : List Int) (ok : Bool)
  | approve (operator : Nat) (yes : Bool)
  | mint (id supply : Int) (uri : Bytes)
  | burn (id amount : Int)
  | setUri (id : Int) (uri : Bytes)
deriving DecidableEq

/-- irc31_basic.py:80-178 and irc31_mintburn.py:27-58. -/
def exec (isc : Nat → Bool) (s : S) (caller : Nat) : Op → Option S
  | .transfer frm to id v ok =>
    if to ≠ 0 ∧ mayMove s caller frm then
      (move s.bal frm to id v).bind fun b =>
        if isc to ∧ ok = false then none else some { s with bal := b, log := s.log ++ [.single caller frm to id v] }
    else none
  | .batch frm to ids vs ok =>
    if to ≠ 0 ∧ ids.length = vs.length ∧ mayMove s caller frm then
      (moves s.bal frm to ids vs).bind fun b => (encList ids).bind fun x => (encList vs).bind fun y =>
        if isc to ∧ ok = false then none else some { s with bal := b, log := s.log ++ [.batch caller frm to x y] }
    else none
  | .approve operator yes => some { s with appr := fun a b => if a = caller ∧ b = operator then yes else s.appr a b }
  | .mint id supply uri =>
    if s.creator id = none ∧ supply > 0 ∧ uri.length > 0 then
      some { s with creator := fun i => if i = id then some caller else s.creator i, bal := put s.bal id caller supply,
                    uri := fun i => if i = id then uri else s.uri i, log := s.log ++ [.single caller 0 caller id supply] }
    else none
  | .burn id amount =>
    if s.creator id ≠ none ∧ amount > 0 ∧ 0 ≤ amount ∧ amount ≤ s.bal id caller then
      some { s with bal := put s.bal id caller (s.bal id caller - amount), log := s.log ++ [.single caller caller 0 id amount] }
    else none
  | .setUri id uri =>
    if s.creator id = some caller ∧ uri.length > 0 then some { s with uri := fun i => if i = id then uri else s.uri i } else none

/-- A call by `c.1`: a refused one changes nothing. -/
def step (isc : Nat → Bool) (s : S) (c : Nat × Op) : S := (exec isc s c.1 c.2).getD s

def run (isc : Nat → Bool) (s : S) : List (Nat × Op) → S
  | [] => s
  | c :: l => run isc (step isc s c) l

/-- The calls of a history that were not refused. -/
def accepted (isc : Nat → Bool) (s : S) : List (Nat × Op) → List (Nat × Op)
  | [] => []
  | c :: l => (if (exec isc s c.1 c.2).isSome then [c] else []) ++ accepted isc (step isc s c) l

/-! ### The IRC2 token -/
namespace Irc2

/-- irc2_token.py:52-57. -/
structure S where
  bal : Nat → Int
  total : Int

/-- irc2_token.py:59-77 `on_install` by `deployer`. -/
def install (deployer : Nat) (decimals supply : Int) (owner : Option Nat) : Option S :=
  if supply < 0 then none
  else if decimals < 0 then none
  else if decimals > 21 then none
  else
    let t := supply * 10 ^ decimals.toNat
    some ⟨fun a => if a = owner.getD deployer then t else 0, t⟩

/-- `self._balances[a] = v`. -/
def put (b : Nat → Int) (a : Nat) (v : Int) : Nat → Int := fun x => if x = a then v else b x

/-- irc2_token.py:104-129 `transfer` by `frm`. -/
def transfer (isc : Nat → Bool) (s : S) (frm to : Nat) (v : Int) (ok : Bool) : Option S :=
  if v < 0 then none
  else if s.bal frm < v then none
  else
    let b1 := put s.bal frm (s.bal frm - v)
    let b2 := put b1 to (b1 to + v)
    if isc to ∧ ok = false then none else some { s with bal := b2 }

/-- A history of transfers: sender, receiver, value, whether a receiving contract takes it. -/
def run (isc : Nat → Bool) (s : S) : List (Nat × Nat × Int × Bool) → S
  | [] => s
  | (f, t, v, ok) :: l => run isc ((transfer isc s f t v ok).getD s) l

end Irc2
end Verif.PyMulti
