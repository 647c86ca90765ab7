import Verif.Ncs
/-!
The contract that sells the fees gathered: javascore/fee-aggregation, FeeAggregationSCORE.java with Syndication.java and Token.java.

Time, the price told by the oracle, and whether the fund and the receiver take what they are sent are given with each call (`Env`).
The token contracts are modelled by what this contract holds of each asset. `withdrawn` and `funded` count coins paid out (they are not
in the code). Left out: events, read-only methods, the list `supportedTokens` which only they use, the stored form of objects, calls back
into the contract while it pays, and `intValue` on decimals above 2^31.
-/
namespace Verif.FeeAgg
open Verif
open Verif.Ncs (at0 add)

/-- Token.java:12-19: contract and id (0 for IRC2 tokens), decimals if given at registration. -/
structure Token where
  addr : Bytes
  id : Int
  dec : Option Int
deriving DecidableEq

/-- The asset meant: `balanceOf(owner)` or `balanceOf(owner, id)`, FeeAggregationSCORE.java:103-109. -/
def Token.key (t : Token) : Bytes × Int := (t.addr, t.id)

/-- Syndication.java:12-29. -/
structure Synd where
  id : Int
  tokenAmount : Int
  total : Int
  startTime : Int
  endTime : Int
deriving DecidableEq

/-- The owner; which addresses are contracts; decimals of IRC2 tokens. -/
structure Cfg where
  owner : Bytes
  isContract : Bytes → Bool
  decimals : Bytes → Int

/-- FeeAggregationSCORE.java:13-67: `depAmt` is `syndicationDepositorAmount`, `depList` is `syndicationDepositorList`; `held` the tokens
and `coins` the coins of the contract. -/
structure S where
  count : Int
  duration : Int
  tokens : Tab Bytes Token
  synd : Tab Bytes Synd
  depAmt : Tab (Int × Bytes) Int
  depList : Tab Int (List Bytes)
  locked : Tab Bytes Int
  tokBal : Tab (Bytes × Bytes) Int
  refund : Tab Bytes Int
  held : Tab (Bytes × Int) Int
  coins : Int
  withdrawn : Int
  funded : Int
deriving DecidableEq

/-- What a call meets: block time, rate of the oracle, whether the fund takes coins, whether the caller takes what it is sent. -/
structure Env where
  now : Int
  price : Option Int
  cps : Bool
  accepts : Bool
deriving DecidableEq

/-- Addition of Java `long`s. -/
def wrap64 (x : Int) : Int := (x + 9223372036854775808) % 18446744073709551616 - 9223372036854775808

/-- Token.java:42-48 `getUnit`: a one with as many zeros as there are decimals. -/
def unitOf (cfg : Cfg) (t : Token) : Int := 10 ^ (t.dec.getD (cfg.decimals t.addr)).toNat

/-- FeeAggregationSCORE.java:124-137, 148-164 `registerIRC2` (id 0, no decimals) and `registerIRC31` (id above 0). -/
def register (cfg : Cfg) (s : S) (caller name : Bytes) (t : Token) : Option S :=
  if caller = cfg.owner ∧ s.tokens.get? name = none ∧ cfg.isContract t.addr = true ∧ (0 < t.id ∨ t.id = 0 ∧ t.dec = none) then
    some { s with tokens := s.tokens.put name t }
  else none

/-- FeeAggregationSCORE.java:173-182 `setDurationTime`; `longValueExact` refuses what is no `long`. -/
def setDuration (cfg : Cfg) (s : S) (caller : Bytes) (d : Int) : Option S :=
  if caller = cfg.owner ∧ d ≠ 0 ∧ -9223372036854775808 ≤ d ∧ d < 9223372036854775808 then some { s with duration := d } else none

/-- Syndication.java:81-89 `deposit`, but for the total. -/
def record (s : S) (id : Int) (u : Bytes) (v : Int) : S :=
  { s with depList := if at0 s.depAmt (id, u) = 0 then s.depList.put id (s.depList.getD id [] ++ [u]) else s.depList, depAmt := add s.depAmt (id, u) v }

/-- Syndication.java:31-39 and FeeAggregationSCORE.java:303-304, 320-321: a new auction. -/
def start (s : S) (name : Bytes) (amount : Int) (u : Bytes) (v now : Int) : S :=
  record { s with count := s.count + 1, synd := s.synd.put name ⟨s.count + 1, amount, v, now, wrap64 (now + s.duration)⟩ } (s.count + 1) u v

/-- FeeAggregationSCORE.java:463: the price less the discount of 10 percent (line 78; nothing changes it). -/
def discounted (price : Int) : Int := (price * (100 - 10)).tdiv 100

/-- FeeAggregationSCORE.java:473-478: the tokens and the coins left for a deposit; `none` if it divides by zero. `T` tokens are sold at
`p` a unit for deposits of `total`. -/
def share (T unit p total amt : Int) : Option (Int × Int) :=
  if (T * p).tdiv unit > total then
    if p = 0 then none else some ((amt * unit).tdiv p, 0)
  else
    if total = 0 then none
    else
      let x := (amt * T).tdiv total
      some (x, amt - (x * p).tdiv unit)

/-- FeeAggregationSCORE.java:479-484: tokens and coins left are credited. -/
def credit (name : Bytes) (s : S) (u : Bytes) (x : Int × Int) : S :=
  { s with tokBal := add s.tokBal (u, name) x.1, refund := if 0 < x.2 then add s.refund u x.2 else s.refund }

/-- FeeAggregationSCORE.java:468-485: the loop over the depositors, with the tokens distributed. -/
def distLoop (name : Bytes) (y : Synd) (unit p : Int) : S → Int → List Bytes → Option (S × Int)
  | s, acc, [] => some (s, acc)
  | s, acc, u :: l =>
    match share y.tokenAmount unit p y.total (at0 s.depAmt (y.id, u)) with
    | none => none
    | some x => distLoop name y unit p (credit name s u x) (acc + x.1) l

/-- FeeAggregationSCORE.java:458-487 `distributeTokenShare`. -/
def distribute (cfg : Cfg) (s : S) (e : Env) (t : Token) (name : Bytes) (y : Synd) : Option S :=
  match e.price with
  | none => none
  | some p =>
    (distLoop name y (unitOf cfg t) (discounted p) s 0 (s.depList.getD y.id [])).map fun r => { r.1 with locked := add r.1.locked name r.2 }

/-- FeeAggregationSCORE.java:440-456 `endAuction`. -/
def endAuction (cfg : Cfg) (s : S) (e : Env) (t : Token) (name : Bytes) (y : Synd) : Option S :=
  if at0 s.held t.key < y.tokenAmount then none
  else if y.total = 0 then distribute cfg s e t name y
  else if e.cps = true ∧ y.total ≤ s.coins then
    distribute cfg { s with coins := s.coins - y.total, funded := s.funded + y.total } e t name y
  else none

/-- FeeAggregationSCORE.java:278-338 `deposit`; the coins come with the call. -/
def deposit (cfg : Cfg) (s : S) (e : Env) (caller name : Bytes) (v : Int) : Option S :=
  match s.tokens.get? name with
  | none => none
  | some t =>
    if at0 s.held t.key = 0 then none
    else
      let s := { s with coins := s.coins + v }
      match s.synd.get? name with
      | none =>
        if at0 s.held t.key - at0 s.locked name ≤ 0 then none
        else some (start s name (at0 s.held t.key - at0 s.locked name) caller v e.now)
      | some y =>
        if y.endTime ≤ e.now then
          if at0 s.held t.key - at0 s.locked name - y.tokenAmount ≤ 0 then none
          else endAuction cfg (start s name (at0 s.held t.key - at0 s.locked name - y.tokenAmount) caller v e.now) e t name y
        else some (record { s with synd := s.synd.put name { y with total := y.total + v } } y.id caller v)

/-- FeeAggregationSCORE.java:345-362 `withdrawal`: a payment that fails is caught. -/
def withdrawal (s : S) (e : Env) (caller : Bytes) : Option S :=
  if at0 s.refund caller ≤ 0 then none
  else if e.accepts = true ∧ at0 s.refund caller ≤ s.coins then
    some { s with refund := s.refund.put caller 0, coins := s.coins - at0 s.refund caller, withdrawn := s.withdrawn + at0 s.refund caller }
  else some s

/-- FeeAggregationSCORE.java:381-400: the tokens of the caller are sent; a transfer that fails is caught. -/
def payTokens (s : S) (e : Env) (t : Token) (caller name : Bytes) : S :=
  if e.accepts = true ∧ at0 s.tokBal (caller, name) ≤ at0 s.held t.key then
    { s with locked := add s.locked name (-at0 s.tokBal (caller, name)), tokBal := s.tokBal.put (caller, name) 0,
             held := add s.held t.key (-at0 s.tokBal (caller, name)) }
  else s

/-- FeeAggregationSCORE.java:369-408 `claim`. -/
def claim (cfg : Cfg) (s : S) (e : Env) (caller name : Bytes) : Option S :=
  match s.tokens.get? name with
  | none => none
  | some t =>
    if at0 s.tokBal (caller, name) ≤ 0 then none
    else
      let s := payTokens s e t caller name
      match s.synd.get? name with
      | none => some s
      | some y => if y.endTime ≤ e.now then endAuction cfg { s with synd := s.synd.del name } e t name y else some s

/-- Calls of the contract; `fees` are tokens sent to it (line 267 and IRC31Receiver.java accept them all), `coins` is a plain payment. -/
inductive Op where
  | register (caller name : Bytes) (t : Token)
  | setDuration (caller : Bytes) (d : Int)
  | fees (key : Bytes × Int) (v : Nat)
  | coins (v : Nat)
  | deposit (caller name : Bytes) (v : Nat)
  | withdrawal (caller : Bytes)
  | claim (caller name : Bytes)
deriving DecidableEq

/-- A call; `none` if it is reverted. Coins paid plainly go to the fund (lines 258-264). -/
def step (cfg : Cfg) (s : S) (e : Env) : Op → Option S
  | .register c n t => register cfg s c n t
  | .setDuration c d => setDuration cfg s c d
  | .fees k v => some { s with held := add s.held k v }
  | .coins v => if 0 < v ∧ e.cps = true then some { s with funded := s.funded + v } else none
  | .deposit c n v => deposit cfg s e c n v
  | .withdrawal c => withdrawal s e c
  | .claim c n => claim cfg s e c n

/-- FeeAggregationSCORE.java:69-81: a new contract. -/
def init : S := ⟨0, 43200000000, [], [], [], [], [], [], [], [], 0, 0, 0⟩

/-- A history: calls that fail change nothing. -/
def run (cfg : Cfg) : S → List (Env × Op) → S
  | s, [] => s
  | s, o :: l =>
    match step cfg s o.1 o.2 with
    | some s' => run cfg s' l
    | none => run cfg s l

end Verif.FeeAgg
