import Verif.SolAnswerProps
import Verif.XCallSys
/-!
The call service of XCall on the network of EVM message centers of SolNet: one model of both contracts on every chain.

* A chain has a message center (SolBmc) and a call service (XCall), registered under the name `xcall`. What the call service gives to
  `sendMessage` (its `out` events) goes to the message center in the same transaction, and if the message center reverts, so does the call
  of the service. What the message center hands over under that name goes to the call service, and if the service reverts, the message
  center sends an error back or drops the message.
* Other services, and the contracts the call service calls, may call the message center and the call service as often as they like, but
  make no relay calls while they run (C41).
* `enc` and `dec` are the encoding of messages between call services (C59, C139).
-/
namespace Verif.XNet
open Verif Verif.SolBmc Verif.SolNet

/-- One chain: its message center, its call service and the address of that. -/
structure Node where
  bmc : SolBmc.Cfg
  x : XCall.Cfg
  addr : Nat
  enc : XCall.Msg → Bytes
  dec : Bytes → XCall.Msg

/-- The name of the service. -/
abbrev X : String := "xcall"

/-- The states of both contracts. -/
structure J where
  b : SolBmc.St
  x : XCall.St

mutual
/-- A call by anyone. -/
inductive JOp where
  /-- of the message center -/
  | bmc (o : SolBmc.Op)
  /-- of `sendCallMessage`; `fee` is what the message center answers to `getFee` -/
  | send (env : Env) (caller : BtpAddress.Str) (isContract : Bool) (to : BtpAddress.Str) (data : Bytes) (rollback : Option Bytes) (value : Nat)
      (fee : Option Nat)
  | exec (env : Env) (id : Int) (inner : JOps) (out : XCall.Outcome)
  | undo (sn : Int) (inner : JOps) (out : XCall.Outcome)
  /-- of the other functions of the call service -/
  | other (op : XCall.Op)
inductive JOps where
  | nil
  | cons (o : JOp) (t : JOps)
end

section
variable (nd : Node)

/-- CallService.sol:263-281 `sendBTPMessage`: the call of the message center. -/
def sendOut (env : Env) (s : SolBmc.St) : XCall.Ev → Option SolBmc.St
  | .out net sn m v => SolBmc.exec nd.bmc (.send env nd.addr v (String.ofList net) X sn (nd.enc m)) s
  | _ => some s

def sendOuts (env : Env) : List XCall.Ev → SolBmc.St → Option SolBmc.St
  | [], s => some s
  | e :: t, s => (sendOut nd env s e).bind (sendOuts env t)

/-- Calls of the service that call no other contract but the fee handler. -/
def leaf : XCall.Op → Bool
  | .send .. => false
  | .exec .. => false
  | .undo .. => false
  | _ => true

mutual
/-- One call; `none` is a revert. `executeCall`: CallService.sol:150-179, `executeRollback`: 195-218. -/
def jexec : JOp → J → Option J
  | .bmc o, j => (SolBmc.exec nd.bmc o j.b).map (⟨·, j.x⟩)
  | .send env caller isC to data rb value fee, j =>
    match XCall.step nd.x (.send caller isC to data rb value fee (some 0)) j.x with
    | none => none
    | some x' => (sendOuts nd env (x'.log.drop j.x.log.length) j.b).map (⟨·, x'⟩)
  | .exec env id inner out, j =>
    match XCall.execStart nd.x j.x id with
    | none => none
    | some (r, net, x1) =>
      let j2 := if XCall.committed out = true then jrun inner ⟨j.b, x1⟩ else ⟨j.b, x1⟩
      match XCall.execEnd nd.x j2.x id r net out (some 0) with
      | none => none
      | some x3 => (sendOuts nd env (x3.log.drop j2.x.log.length) j2.b).map (⟨·, x3⟩)
  | .undo sn inner out, j =>
    match XCall.undoStart j.x sn with
    | none => none
    | some x1 =>
      let j2 := if XCall.committed out = true then jrun inner ⟨j.b, x1⟩ else ⟨j.b, x1⟩
      some ⟨j2.b, { j2.x with log := j2.x.log ++ [.undone sn (XCall.respCode nd.x.lang out)] }⟩
  | .other op, j => if leaf op = true then (XCall.step nd.x op j.x).map (⟨j.b, ·⟩) else none
/-- Calls one after the other; those that revert change nothing. -/
def jrun : JOps → J → J
  | .nil, j => j
  | .cons o t, j => jrun t ((jexec o j).getD j)
end

/-- BMCPeriphery.sol:134-196: the message center calls a service with this message. -/
def reached (env : Env) (m : Msg) : Bool :=
  decide (m.dst = nd.bmc.net) && decide (m.svc ≠ "bmc") && (env.service m.svc).isSome && (decide (0 ≤ m.sn) || (nd.bmc.decResp m.body).isSome)

/-- The message center when it calls the service (see SolBmc `item`). -/
def before (caller : Nat) (prev : String) (s : SolBmc.St) (m0 : Msg) : SolBmc.St :=
  let s := addIn s m0.fee.network m0.fee.values.sum
  let s := { s with disp := upd s.disp prev (s.disp prev ++ [some m0]) }
  (handleFee nd.bmc s caller m0).1

/-- BMCPeriphery.sol:164-190: the call of the call service with a message. -/
def handle (m : Msg) : XCall.Op :=
  if 0 ≤ m.sn then .message nd.x.bmc m.src.toList XCall.name m.sn (nd.dec m.body)
  else .error nd.x.bmc m.src.toList XCall.name (-m.sn) (((nd.bmc.decResp m.body).getD 0 : Nat) : Int)

/-- One message of a relay call; `ok` and `acts` are the behaviour of the service called, if it is not the call service. -/
def jitem (env : Env) (ok : Bool) (acts : JOps) (caller : Nat) (prev : String) (seq : Nat) (j : J) (m : Msg) : Option J :=
  if reached nd env m = true then
    if m.svc = X then
      match XCall.step nd.x (handle nd m) j.x with
      | some x' => (item nd.bmc env true id caller prev seq j.b m).map (⟨·, x'⟩)
      | none => (item nd.bmc env false id caller prev seq j.b m).map (⟨·, j.x⟩)
    else
      let j1 := jrun nd acts ⟨before nd caller prev j.b m, j.x⟩
      (item nd.bmc env ok (fun _ => j1.b) caller prev seq j.b m).map (⟨·, if ok = true then j1.x else j.x⟩)
  else (item nd.bmc env ok id caller prev seq j.b m).map (⟨·, j.x⟩)

/-- Messages of a relay call, with the management's answers and the behaviour of the services called. -/
inductive JItems where
  | nil
  | cons (m : Msg) (env : Env) (ok : Bool) (acts : JOps) (t : JItems)

def JItems.msgs : JItems → List Msg
  | .nil => []
  | .cons m _ _ _ t => m :: t.msgs

def jitems : JItems → Nat → String → Nat → J → Option J
  | .nil, _, _, _, j => some j
  | .cons m env ok acts t, caller, prev, seq, j =>
    match jitem nd env ok acts caller prev (seq + 1) j m with
    | none => none
    | some j' => jitems t caller prev (seq + 1) j'

/-- A relay call (see SolBmc `exec`). -/
def jrelay (env : Env) (caller : Nat) (prev : String) (items : JItems) (j : J) : Option J :=
  if nd.bmc.verify prev (j.b.rx prev) items.msgs ∧ env.isRelay prev caller then
    match jitems nd items caller prev (j.b.rx prev) j with
    | none => none
    | some j' => some ⟨{ j'.b with rx := upd j'.b.rx prev (j'.b.rx prev + items.msgs.length) }, j'.x⟩
  else none

/-- The management contract knows no other contract under the name of the call service. -/
def Honest (env : Env) : Prop := ∀ a, env.service X = some a → a = nd.addr

mutual
/-- What the callers of a chain can do: the call service's address calls the message center only as the service's code does; only the
    message center calls the functions of the service meant for it; nobody makes relay calls or drops messages on the way. -/
def Fine : JOp → Prop
  | .bmc o => Quiet nd.bmc o ∧ (∀ env sender value to svc sn body, o = .send env sender value to svc sn body → sender ≠ nd.addr ∧ Honest nd env)
  | .send env _ _ _ _ _ _ _ => env.service "bmc" = some nd.bmc.service
  | .exec env _ inner _ => env.service "bmc" = some nd.bmc.service ∧ FineAll inner
  | .undo _ inner _ => FineAll inner
  | .other op => XCall.By (· ≠ nd.x.bmc) (fun _ => True) op
def FineAll : JOps → Prop
  | .nil => True
  | .cons o t => Fine o ∧ FineAll t
end

def FineItems : JItems → Prop
  | .nil => True
  | .cons _ _ _ acts t => FineAll nd acts ∧ FineItems t
end

/-- The network: the message centers with the messages under way, and the call services. -/
structure Net where
  sys : SolNet.Sys
  x : String → XCall.St

/-- The state after the chain `n` went to `j`, the messages `rest` still being under way. -/
def Net.next (S : Net) (n : String) (j : J) (rest : List Msg) : Net := ⟨S.sys.next n j.b rest, upd S.x n j.x⟩

/-- One call on one of the chains. -/
inductive JStep (nd : String → Node) (nets : List String) (S : Net) : String → List Msg → Net → Prop where
  | call (n : String) (o : JOp) (j : J) : n ∈ nets → Fine (nd n) o → jexec (nd n) o ⟨S.sys.st n, S.x n⟩ = some j →
      JStep nd nets S n [] (S.next n j S.sys.pool)
  | relay (n : String) (env : Env) (caller : Nat) (prev : String) (items : JItems) (rest : List Msg) (j : J) : n ∈ nets → FineItems (nd n) items →
      S.sys.pool.Perm (items.msgs ++ rest) → jrelay (nd n) env caller prev items ⟨S.sys.st n, S.x n⟩ = some j →
      JStep nd nets S n items.msgs (S.next n j rest)
  | drop (n : String) (env : Env) (seq : Nat) (m : Msg) (rest : List Msg) (s' : SolBmc.St) : n ∈ nets → S.sys.pool.Perm (m :: rest) →
      SolBmc.exec (nd n).bmc (.drop env m.src seq m.svc m.sn m.nsn m.fee) (S.sys.st n) = some s' →
      JStep nd nets S n [m] (S.next n ⟨s', S.x n⟩ rest)

/-- No service sent 2^255 calls, and what the services sent can be read. -/
structure Sane (nd : String → Node) (S : Net) : Prop where
  small : ∀ n, (S.x n).sn < 2 ^ 255
  legible : ∀ (n n' : String) (net : BtpAddress.Str) (sn : Int) (m : XCall.Msg) (v : Nat), XCall.Ev.out net sn m v ∈ (S.x n).log → (nd n').dec ((nd n).enc m) = m

/-- The states reached, with the messages each chain has taken; `bal` are the coins the call services start with. -/
inductive JReach (nd : String → Node) (nets : List String) (bal : String → Nat) : Net → (String → List Msg) → Prop where
  | init : JReach nd nets bal ⟨⟨fun _ => SolBmc.init, []⟩, fun n => XCall.init (bal n)⟩ (fun _ => [])
  | step {S S' : Net} {T : String → List Msg} {n : String} {D : List Msg} : JReach nd nets bal S T → JStep nd nets S n D S' → Sane nd S' →
      JReach nd nets bal S' (upd T n (T n ++ D))

end Verif.XNet
