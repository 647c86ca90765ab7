import Verif.Bytes
/-!
The fund that auctions of fees pay into (javascore/fee-aggregation/CPFTreasury/cpf_treasury.py) and the price reference they ask
(javascore/fee-aggregation/bandProtocol/std_reference_basic.py).

Addresses are numbers. The value of a payment is in the balance before the method runs. The system contract burns what it is sent; a burn or
a payment of a negative amount, or of more than the balance, fails. The calls to the CPS treasury come last in their methods, so what it does
by calling back is a later operation of the history; whether it takes the payment comes with the operation. `none` is a revert. `recv`,
`burned` and `sent` count coins (they are not in the code). Left out: events, the sponsor and contributor addresses and the number of
instalments, which are only handed on.
-/
namespace Verif.PyCpf
open Verif

/-- cpf_treasury.py:48-56. -/
structure S where
  bal : Int
  cap : Int
  keys : List Bytes
  budget : Bytes → Int
  cps : Option Nat
  treasury : Option Nat
  recv : Int
  burned : Int
  sent : Int

/-- cpf_treasury.py:58-60 `on_install`. -/
def start (amount : Int) : S := ⟨0, amount, [], fun _ => 0, none, none, 0, 0, 0⟩

/-- cpf_treasury.py:193, 236: `x * 2 // 100`, rounded down. -/
def reward (x : Int) : Int := (x * 2) / 100

/-- The coins of a call with value `v` arrive. -/
def receive (s : S) (v : Int) : S := { s with bal := s.bal + v, recv := s.recv + v }

/-- cpf_treasury.py:142-152 and 285-292 `_burn_extra_fund`. -/
def burnExtra (s : S) : Option S :=
  let extra := s.bal - s.cap
  if extra > 0 then
    if extra ≤ s.bal then some { s with bal := s.bal - extra, burned := s.burned + extra } else none
  else some s

/-- cpf_treasury.py:211-218, 243-249: the payment to the CPS treasury; none is set, it refuses, or the amount is negative. -/
def pay (s : S) (v : Int) (ok : Bool) : Option S :=
  if s.treasury ≠ none ∧ 0 ≤ v ∧ ok = true then some { s with bal := s.bal - v, sent := s.sent + v } else none

/-- The external methods; `v` the coins of a call. -/
inductive Op where
  | setMax (value : Int)
  | setCps (score : Nat)
  | setTreasury (score : Nat)
  | returnFund (v : Nat)
  | transfer (key : Bytes) (budget : Int) (ok : Bool)
  | update (key : Bytes) (added : Int) (ok : Bool)
  | disqualify (key : Bytes) (v : Nat)
  | addFund (v : Nat)
  | fallback (v : Nat)
deriving DecidableEq

/-- The owner, and which addresses are contracts. -/
structure Cfg where
  owner : Nat
  isc : Nat → Bool

/-- `self._proposal_budgets[k] = v`. -/
def setBudget (s : S) (k : Bytes) (v : Int) : S := { s with budget := fun x => if x = k then v else s.budget x }

/-- cpf_treasury.py:86-283. -/
def exec (c : Cfg) (s : S) (caller : Nat) : Op → Option S
  | .setMax v => if caller = c.owner then some { s with cap := v } else none
  | .setCps a => if caller = c.owner ∧ c.isc a then some { s with cps := some a } else none
  | .setTreasury a => if caller = c.owner ∧ c.isc a then some { s with treasury := some a } else none
  | .returnFund v => if some caller = s.cps then burnExtra (receive s v) else none
  | .transfer k b ok =>
    if some caller = s.cps then
      let t := b + reward b
      if s.bal < t then none
      else if k ∈ s.keys then none
      else pay (setBudget { s with keys := s.keys ++ [k] } k t) t ok
    else none
  | .update k b ok =>
    if some caller = s.cps then
      let t := b + reward b
      if s.bal < t then none
      else if k ∈ s.keys then pay (setBudget s k (s.budget k + t)) t ok
      else none
    else none
  | .disqualify k v =>
    if some caller = s.treasury then
      if k ∈ s.keys then burnExtra (setBudget (receive s v) k (s.budget k - v)) else none
    else none
  | .addFund v => burnExtra (receive s v)
  | .fallback _ => none

def step (c : Cfg) (s : S) (o : Nat × Op) : S := (exec c s o.1 o.2).getD s

def run (c : Cfg) (s : S) : List (Nat × Op) → S
  | [] => s
  | o :: l => run c (step c s o) l

/-- The calls that were not refused. -/
def accepted (c : Cfg) (s : S) : List (Nat × Op) → List (Nat × Op)
  | [] => []
  | o :: l => (if (exec c s o.1 o.2).isSome then [o] else []) ++ accepted c (step c s o) l

/-- Python `range(a, b)` over the keys with their budgets (cpf_treasury.py:308-314); an index beyond the array would raise (`none`). -/
def pageFrom (s : S) : Nat → Int → Option (List (Bytes × Int))
  | 0, _ => some []
  | n + 1, a =>
    match s.keys[a.toNat]? with
    | some k => (pageFrom s n (a + 1)).map fun l => (k, s.budget k) :: l
    | none => none

/-- cpf_treasury.py:295-317 `get_proposals_details`: too long a page, or the entries and the count. -/
def details (s : S) (a b : Int) : Option (Option (List (Bytes × Int)) × Nat) :=
  if b - a > 50 then some (none, 0)
  else
    let a' := if a < 0 then 0 else a
    let count := s.keys.length
    let b' := if b > count then (count : Int) else b
    (pageFrom s (b' - a').toNat a').map fun l => (some l, count)

/-! ### The price reference -/
namespace Ref

/-- What is stored for a symbol: rate, time of the last update, id of the request (std_reference_basic.py:60-63; the JSON text of the
three is read back as they were). -/
structure Entry where
  rate : Int
  time : Int
  req : Int
deriving DecidableEq

/-- std_reference_basic.py:17-18. -/
abbrev R := Bytes → Option Entry

/-- "USD". -/
def usd : Bytes := [85, 83, 68]
/-- std_reference_basic.py:8 `ONE`. -/
def one : Int := 1000000000
/-- std_reference_basic.py:9 `MICRO_SEC`. -/
def micro : Int := 1000000

/-- std_reference_basic.py:26-33 `_get_ref_data` at block time `now`. -/
def refData (r : R) (now : Int) (sym : Bytes) : Option Entry := if sym = usd then some ⟨one, now, 0⟩ else r sym

/-- std_reference_basic.py:35-42 `_get_reference_data`: rate and the two times; `//` by 0 raises. -/
def reference (r : R) (now : Int) (b q : Bytes) : Option (Int × Int × Int) :=
  (refData r now b).bind fun x => (refData r now q).bind fun y =>
    if y.rate = 0 then none else some ((x.rate * one * one).fdiv y.rate, x.time, y.time)

/-- std_reference_basic.py:53-58 `get_reference_data_bulk`. -/
def bulk (r : R) (now : Int) (bs qs : List Bytes) : Option (List (Int × Int × Int)) :=
  if bs.length ≠ qs.length then none else (bs.zip qs).mapM fun p => reference r now p.1 p.2

/-- std_reference_basic.py:60-63 `_set_refs`. -/
def setRef (r : R) (sym : Bytes) (rate time req : Int) : R := fun x => if x = sym then some ⟨rate, time * micro, req⟩ else r x

/-- std_reference_basic.py:84-86: the loop over the zipped lists. -/
def setAll (r : R) : List (Bytes × Int × Int × Int) → R
  | [] => r
  | (s, v, t, q) :: l => setAll (setRef r s v t q) l

/-- Python `zip` of four lists. -/
def zip4 (a : List Bytes) (b c d : List Int) : List (Bytes × Int × Int × Int) := a.zip (b.zip (c.zip d))

/-- std_reference_basic.py:66-89 `relay`. -/
def relay (owner : Nat) (r : R) (caller : Nat) (syms : List Bytes) (rates times reqs : List Int) : Option R :=
  if caller ≠ owner then none
  else if syms.length ≠ rates.length then none
  else if syms.length ≠ times.length then none
  else if syms.length ≠ reqs.length then none
  else some (setAll r (zip4 syms rates times reqs))

/-- Calls of `relay`: caller and lists. -/
abbrev Call := Nat × List Bytes × List Int × List Int × List Int

def run (owner : Nat) (r : R) : List Call → R
  | [] => r
  | (c, a, b, d, e) :: l => run owner ((relay owner r c a b d e).getD r) l

end Ref
end Verif.PyCpf
