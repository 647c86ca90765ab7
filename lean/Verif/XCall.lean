import Verif.BtpAddress
import Verif.SolText
/-!
Model of the call service in both contract languages:
/repo/javascore/xcall/src/main/java/foundation/icon/btp/xcall/CallServiceImpl.java (J below) and
/repo/solidity/xcall/contracts/CallService.sol (S below). The two agree up to the points in which the functions below take
the language as an argument.

Messages between services are given decoded; their encoding is in `SolRlp` (C59). The message center is outside: what it
answers to `getFee` and `sendMessage` is part of an operation (`none` is a revert). The contract called by `executeCall` and
`executeRollback` is outside too: an operation says what it does, namely which operations of this service it calls while it
runs (those that revert it can catch), and how it ends; if it ends with a revert, its effects are undone. The protocol fee
handler does not call back (so the comments in the code). A revert of an operation is `none` and changes nothing. The events
of the contract, its messages and its calls are a log, kept in the state so that a revert undoes it too.
-/
namespace Verif.XCall
open Verif Verif.BtpAddress

inductive Lang where
  | java
  | sol
deriving DecidableEq

/-- J 39-40, 54-58, S 33-34, 42, 64-69. -/
structure Cfg where
  lang : Lang
  bmc : Str
  owner : Str

/-- CSMessageRequest.java:28-32, Types.sol:26-32. -/
structure Req where
  src : Str
  dst : Str
  sn : Int
  rb : Bool
  data : Bytes
deriving DecidableEq

/-- CSMessage.java, CSMessageResponse.java, Types.sol:21-42, decoded; the text of a response is left out. -/
inductive Msg where
  | req (r : Req)
  | res (sn code : Int)
  | unknown
deriving DecidableEq

/-- CallRequest.java:25-28, Types.sol:14-19. -/
structure Call where
  src : Str
  dst : Str
  rollback : Option Bytes
  enabled : Bool
deriving DecidableEq

/-- What is logged: the events of the contract and its calls of other contracts. -/
inductive Ev where
  /-- `CallMessageSent` with what was sent -/
  | sent (sn : Nat) (caller net acct : Str) (data : Bytes) (rollback : Option Bytes)
  /-- `CallMessage`; `net` is the network the message center names -/
  | received (id : Nat) (net : Str) (r : Req)
  /-- call of `handleCallMessage` by `executeCall` -/
  | call (id : Int) (r : Req)
  /-- `CallExecuted` -/
  | executed (id : Int) (code : Int)
  /-- `ResponseMessage` -/
  | response (sn code : Int)
  /-- call of `handleCallMessage` by `executeRollback` -/
  | undo (sn : Int) (dst : Str) (data : Option Bytes)
  /-- `RollbackExecuted` -/
  | undone (sn : Int) (code : Int)
  /-- `sendMessage` of the message center -/
  | out (net : Str) (sn : Int) (m : Msg) (value : Nat)
  /-- transfer of coins to the protocol fee handler -/
  | paid (who : Str) (value : Nat)
deriving DecidableEq

/-- J 41-50, S 35-44, and the balance of the contract. -/
structure St where
  sn : Nat
  reqId : Nat
  reqs : Int → Option Call
  proxy : Int → Option Req
  fee : Nat
  handler : Option Str
  admin : Option Str
  bal : Nat
  log : List Ev

/-- How the called contract ends: J 152-165, S 161-172. -/
inductive Outcome where
  | ok
  | userReverted (code : Int)
  | failed

mutual
/-- The external functions; `nsn` is the answer of `sendMessage`. -/
inductive Op where
  | send (caller : Str) (isContract : Bool) (to : Str) (data : Bytes) (rollback : Option Bytes) (value : Nat)
      (relayFee : Option Nat) (nsn : Option Int)
  | exec (id : Int) (inner : Ops) (out : Outcome) (nsn : Option Int)
  | undo (sn : Int) (inner : Ops) (out : Outcome)
  | message (caller net svc : Str) (sn : Int) (m : Msg)
  | error (caller net svc : Str) (sn : Int) (code : Int)
  | setAdmin (caller : Str) (a : Option Str)
  | setHandler (caller : Str) (a : Option Str)
  | setFee (caller : Str) (v : Nat)
inductive Ops where
  | nil
  | cons (op : Op) (t : Ops)
end

/-- `NAME`. -/
def name : Str := ['x', 'c', 'a', 'l', 'l']

/-- J 36-37, S 31-32. -/
def maxData : Nat := 2048
def maxRollback : Nat := 1024

/-- J 114 `_rollback != null`, S 124 `_rollback.length > 0`. -/
def present (l : Lang) (rb : Option Bytes) : Bool :=
  match l with
  | .java => rb.isSome
  | .sol => !(rb.getD []).isEmpty

/-- BTPAddress.valueOf, parseBTPAddress: network and account. -/
def parse (l : Lang) (a : Str) : Option (Str × Str) :=
  match l with
  | .java => (jValueOf a).map (fun x => (x.net, x.account))
  | .sol => solParse a

/-- J 84-96, S 86-96: the next number; additions are checked on the EVM. -/
def next (l : Lang) (n : Nat) : Option Nat :=
  match l with
  | .java => some (n + 1)
  | .sol => if n + 1 < 2 ^ 256 then some (n + 1) else none

/-- `int256(x)` of a uint256. -/
def toInt256 (x : Int) : Int := if x < 2 ^ 255 then x else x - 2 ^ 256

/-- J 137 and S 140: the serial number given to the message center. -/
def posSn (l : Lang) (sn : Nat) : Int :=
  match l with
  | .java => sn
  | .sol => toInt256 sn

/-- J 169 and S 177: `sn.negate()`, `int256(sn) * -1`. -/
def negSn (l : Lang) (sn : Int) : Option Int :=
  match l with
  | .java => some (-sn)
  | .sol => if toInt256 sn = -2 ^ 255 then none else some (-(toInt256 sn))

/-- J 155-164, S 167-172: the code of the response. -/
def respCode (l : Lang) : Outcome → Int
  | .ok => 0
  | .failed => -1
  | .userReverted c => match l with
    | .java => if c = 0 then -1 else c
    | .sol => -1

/-- J 120-127, S 129-134: the protocol fee goes to the handler, or stays if there is none. -/
def payFee (s : St) : Option St :=
  match s.handler with
  | none => some s
  | some h =>
    if s.fee = 0 then some s
    else if s.bal < s.fee then none
    else some { s with bal := s.bal - s.fee, log := s.log ++ [.paid h s.fee] }

/-- J 258-262, S 263-281 `sendBTPMessage`. -/
def sendBTP (s : St) (value : Nat) (net : Str) (sn : Int) (m : Msg) (nsn : Option Int) : Option St :=
  match nsn with
  | none => none
  | some _ => if s.bal < value then none else some { s with bal := s.bal - value, log := s.log ++ [.out net sn m value] }

/-- J 131-134, S 138-141: the request kept for a response. -/
def keep (l : Lang) (s : St) (sn : Nat) (caller to : Str) (rb : Option Bytes) : St :=
  if present l rb = true then { s with reqs := fun k => if k = (sn : Int) then some ⟨caller, to, rb, false⟩ else s.reqs k } else s

/-- J 130-139, S 136-147: the part after the fee. -/
def sendTail (C : Cfg) (s : St) (caller to net acct : Str) (data : Bytes) (rb : Option Bytes) (value : Nat) (nsn : Option Int) :
    Option St :=
  match next C.lang s.sn with
  | none => none
  | some sn =>
    let s1 := keep C.lang { s with sn := sn } sn caller to rb
    if value < s.fee then none
    else
      (sendBTP s1 (value - s.fee) net (if present C.lang rb = true then posSn C.lang sn else 0)
        (.req ⟨caller, acct, sn, present C.lang rb, data⟩) nsn).map
        (fun s2 => { s2 with log := s2.log ++ [.sent sn caller net acct data (if present C.lang rb = true then rb else none)] })

/-- J 342-350 `getFee` rejects networks with a colon (and '/', empty ones, which `parse` never gives); S 385-392 does not. -/
def badNet (l : Lang) (net : Str) : Bool :=
  match l with
  | .java => decide (':' ∈ net)
  | .sol => false

/-- J 105-140, S 110-148 `sendCallMessage`. -/
def send (C : Cfg) (s : St) (caller : Str) (isContract : Bool) (to : Str) (data : Bytes) (rb : Option Bytes) (value : Nat)
    (relayFee : Option Nat) (nsn : Option Int) : Option St :=
  if isContract = false ∧ present C.lang rb = true then none
  else if maxData < data.length then none
  else if maxRollback < (rb.getD []).length then none
  else
    match parse C.lang to, relayFee with
    | some (net, acct), some f =>
      if badNet C.lang net = true then none
      else if value < s.fee + f then none
      else (payFee { s with bal := s.bal + value }).bind (fun s1 => sendTail C s1 caller to net acct data rb value nsn)
    | _, _ => none

/-- J 264-275, S 283-300 `handleRequest`. -/
def handleRequest (C : Cfg) (s : St) (net : Str) (r : Req) : Option St :=
  (next C.lang s.reqId).map (fun id =>
    { s with
      reqId := id
      proxy := fun k => if k = (id : Int) then some { r with src := solCompose net r.src } else s.proxy k
      log := s.log ++ [.received id net r] })

/-- J 277-300, S 302-318 `handleResponse`. -/
def handleResponse (C : Cfg) (s : St) (sn code : Int) : Option St :=
  match s.reqs sn with
  | none => some s
  | some r =>
    if code = 0 then
      some { s with reqs := fun k => if k = sn then none else s.reqs k, log := s.log ++ [.response sn code] }
    else if present C.lang r.rollback = false then none
    else
      some { s with
        reqs := fun k => if k = sn then some { r with enabled := true } else s.reqs k
        log := s.log ++ [.response sn code] }

/-- J 229-244, S 221-240 `handleBTPMessage`; numbers are not negative on the EVM. -/
def message (C : Cfg) (s : St) (caller net svc : Str) (m : Msg) : Option St :=
  if caller ≠ C.bmc then none
  else if svc ≠ name then none
  else
    match m with
    | .req r => if C.lang = .sol ∧ r.sn < 0 then none else handleRequest C s net r
    | .res sn code => if C.lang = .sol ∧ sn < 0 then none else handleResponse C s sn code
    | .unknown => none

/-- J 247-255, S 242-260 `handleBTPError`; S 251: the code is written with Integers.sol `toString`, which can revert. -/
def error (C : Cfg) (s : St) (caller svc : Str) (sn code : Int) : Option St :=
  if caller ≠ C.bmc then none
  else if svc ≠ name then none
  else if C.lang = .sol ∧ SolText.toString code.toNat = none then none
  else handleResponse C s sn (-2)

/-- J 302-305, S 320-328 `admin`. -/
def adminOf (C : Cfg) (s : St) : Str := s.admin.getD C.owner

/-- J 313-323, S 352-362 `setProtocolFeeHandler`. -/
def setHandler (C : Cfg) (s : St) (caller : Str) (a : Option Str) : Option St :=
  if caller ≠ adminOf C s then none
  else
    match a with
    | none => some { s with handler := none }
    | some h =>
      if s.bal = 0 then some { s with handler := some h }
      else some { s with handler := some h, bal := 0, log := s.log ++ [.paid h s.bal] }

/-- J 145-151, S 153-159: `executeCall` up to the call. -/
def execStart (C : Cfg) (s : St) (id : Int) : Option (Req × Str × St) :=
  match s.proxy id with
  | none => none
  | some r =>
    match parse C.lang r.src with
    | none => none
    | some (net, _) =>
      some (r, net, { s with proxy := fun k => if k = id then none else s.proxy k, log := s.log ++ [.call id r] })

/-- J 166-171, S 173-178: `executeCall` after the call. -/
def execEnd (C : Cfg) (s : St) (id : Int) (r : Req) (net : Str) (out : Outcome) (nsn : Option Int) : Option St :=
  let s1 := { s with log := s.log ++ [.executed id (respCode C.lang out)] }
  if r.rb = true then
    (negSn C.lang r.sn).bind (fun n => sendBTP s1 0 net n (.res r.sn (respCode C.lang out)) nsn)
  else some s1

/-- J 178-182, S 198-203: `executeRollback` up to the call. -/
def undoStart (s : St) (sn : Int) : Option St :=
  match s.reqs sn with
  | none => none
  | some r =>
    if r.enabled = false then none
    else some { s with reqs := fun k => if k = sn then none else s.reqs k, log := s.log ++ [.undo sn r.src r.rollback] }

/-- The called contract reverted: nothing of what it did is left. -/
def committed (out : Outcome) : Bool := match out with | .ok => true | _ => false

mutual
/-- One call of the service. J 142-173, S 150-179 `executeCall`; J 175-200, S 195-218 `executeRollback`; J 307-311, S 346-350
`setAdmin`; J 330-335, S 371-376 `setProtocolFee`. -/
def step (C : Cfg) : Op → St → Option St
  | .send caller isC to data rb value fee nsn, s => send C s caller isC to data rb value fee nsn
  | .exec id inner out nsn, s =>
    match execStart C s id with
    | none => none
    | some (r, net, s1) => execEnd C (if committed out = true then run C inner s1 else s1) id r net out nsn
  | .undo sn inner out, s =>
    match undoStart s sn with
    | none => none
    | some s1 =>
      let s2 := if committed out = true then run C inner s1 else s1
      some { s2 with log := s2.log ++ [.undone sn (respCode C.lang out)] }
  | .message caller net svc _ m, s => message C s caller net svc m
  | .error caller _ svc sn code, s => error C s caller svc sn code
  | .setAdmin caller a, s => if caller ≠ C.owner then none else some { s with admin := a }
  | .setHandler caller a, s => setHandler C s caller a
  | .setFee caller v, s => if caller ≠ adminOf C s then none else some { s with fee := v }
/-- A list of calls; those that revert change nothing. -/
def run (C : Cfg) : Ops → St → St
  | .nil, s => s
  | .cons op t, s =>
    match step C op s with
    | none => run C t s
    | some s' => run C t s'
end

/-- The state after deployment, with a balance sent before. -/
def init (bal : Nat) : St := ⟨0, 0, fun _ => none, fun _ => none, 0, none, none, bal, []⟩

end Verif.XCall
