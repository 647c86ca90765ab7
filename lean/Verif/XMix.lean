import Verif.XCallNet
import Verif.MixNet
/-!
The call service of XCall on the network of EVM and ICON message centers of MixNet: one model of both contracts on every chain.

* An EVM chain is a `Node` of XCallNet. A chain of ICON has a message center (JavaBmc) and a call service (XCall), registered under the name
  `xcall`. What the call service gives to `sendMessage` (its `out` events) goes to the message center in the same transaction, and if the
  message center throws, so does the call of the service. What the message center hands over under that name goes to the call service, and if
  the service throws, the message center sends an error back or drops the message.
* Other services, the payees of claims, and the contracts the call service calls, may call the message center and the call service as often
  as they like, but make no relay calls while they run.
* The owners of an ICON message center may do everything, but register no other contract as `xcall`.
-/
namespace Verif.XMix
open Verif
open Verif.JavaBmc
open Verif.MixNet (tr emb sentBy)
open Verif.XNet (X leaf)

/-- One chain of ICON: its message center, its call service and the address of that. -/
structure INode where
  c : Cfg
  creator : Nat
  x : XCall.Cfg
  addr : Nat
  enc : XCall.Msg → Bytes
  dec : Bytes → XCall.Msg

/-- The states of both contracts. -/
structure IJ where
  b : St
  x : XCall.St

mutual
/-- A call by anyone. -/
inductive IOp where
  /-- of the message center: `sendMessage` -/
  | post (env : Env) (caller value : Nat) (to svc : String) (sn : Int) (body : Bytes)
  /-- of the message center: `claimReward`; `inner` is what the payee does -/
  | claim (env : Env) (inner : IOps) (caller value : Nat) (net receiver : String)
  /-- of the message center: the owners' methods -/
  | conf (env : Env) (caller : Nat) (k : Conf)
  /-- of `sendCallMessage`; `fee` is what the message center answers to `getFee` -/
  | send (env : Env) (caller : BtpAddress.Str) (isContract : Bool) (to : BtpAddress.Str) (data : Bytes) (rollback : Option Bytes) (value : Nat)
      (fee : Option Nat)
  | exec (env : Env) (id : Int) (inner : IOps) (out : XCall.Outcome)
  | undo (sn : Int) (inner : IOps) (out : XCall.Outcome)
  /-- of the other functions of the call service -/
  | other (op : XCall.Op)
inductive IOps where
  | nil
  | cons (o : IOp) (t : IOps)
end

section
variable (nd : INode)

/-- CallServiceImpl.java:258-262 `sendBTPMessage`: the call of the message center. -/
def sendOut (env : Env) (s : St) : XCall.Ev → Option St
  | .out net sn m v => JavaBmc.exec nd.c (.send env nd.addr v (String.ofList net) X sn (nd.enc m)) s
  | _ => some s

def sendOuts (env : Env) : List XCall.Ev → St → Option St
  | [], s => some s
  | e :: t, s => (sendOut nd env s e).bind (sendOuts env t)

mutual
/-- One call; `none` is a throw. `executeCall`: CallServiceImpl.java:142-173, `executeRollback`: 175-200. -/
def iexec : IOp → IJ → Option IJ
  | .post env caller value to svc sn body, j => (JavaBmc.exec nd.c (.send env caller value to svc sn body) j.b).map (⟨·, j.x⟩)
  -- BTPMessageCenter.java:429-452: the payee is called last
  | .claim env inner caller value net receiver, j =>
    (claimReward nd.c env id j.b caller value net receiver).map fun s => if net = nd.c.net then irun inner ⟨s, j.x⟩ else ⟨s, j.x⟩
  | .conf env caller k, j => (JavaBmc.exec nd.c (.conf env caller k) j.b).map (⟨·, j.x⟩)
  | .send env caller isC to data rb value fee, j =>
    match XCall.step nd.x (.send caller isC to data rb value fee (some 0)) j.x with
    | none => none
    | some x' => (sendOuts nd env (x'.log.drop j.x.log.length) j.b).map (⟨·, x'⟩)
  | .exec env id inner out, j =>
    match XCall.execStart nd.x j.x id with
    | none => none
    | some (r, net, x1) =>
      let j2 := if XCall.committed out = true then irun inner ⟨j.b, x1⟩ else ⟨j.b, x1⟩
      match XCall.execEnd nd.x j2.x id r net out (some 0) with
      | none => none
      | some x3 => (sendOuts nd env (x3.log.drop j2.x.log.length) j2.b).map (⟨·, x3⟩)
  | .undo sn inner out, j =>
    match XCall.undoStart j.x sn with
    | none => none
    | some x1 =>
      let j2 := if XCall.committed out = true then irun inner ⟨j.b, x1⟩ else ⟨j.b, x1⟩
      some ⟨j2.b, { j2.x with log := j2.x.log ++ [.undone sn (XCall.respCode nd.x.lang out)] }⟩
  | .other op, j => if leaf op = true then (XCall.step nd.x op j.x).map (⟨j.b, ·⟩) else none
/-- Calls one after the other; those that throw change nothing. -/
def irun : IOps → IJ → IJ
  | .nil, j => j
  | .cons o t, j => irun t ((iexec o j).getD j)
end

/-- BTPMessageCenter.java:560-637: the message center calls a service with this message. -/
def ireached (s : St) (m : Msg) : Bool :=
  decide (m.dst = nd.c.net) && decide (m.svc ≠ "bmc") && (s.services m.svc).isSome && (decide (0 ≤ m.sn) || (nd.c.decResp m.body).isSome)

/-- The message center when it calls the service (see JavaBmc `item`, `handleMessage`). -/
def ibefore (caller gen seq : Nat) (s : St) (m0 : Msg) : St :=
  let s := inFee s m0.fee
  let s := { s with disp := s.disp ++ [(gen, seq, some m0)] }
  let p := accumulate s caller m0.fee
  if m0.sn ≥ 0 then storeFee nd.c p.1 { m0 with fee := p.2 } else collect nd.c p.1 p.2

/-- BTPMessageCenter.java:585-637: the call of the call service with a message. -/
def ihandle (m : Msg) : XCall.Op :=
  if 0 ≤ m.sn then .message nd.x.bmc m.src.toList XCall.name m.sn (nd.dec m.body)
  else .error nd.x.bmc m.src.toList XCall.name (-m.sn) (((nd.c.decResp m.body).getD 0 : Nat) : Int)

/-- One message of a relay call; `out` and `acts` are the behaviour of the service called, if it is not the call service. The code of an
    exception of the call service is open. -/
def iitem (env : Env) (out : Out) (acts : IOps) (caller : Nat) (prev : String) (gen seq : Nat) (j : IJ) (m : Msg) : IJ :=
  if ireached nd j.b m = true then
    if m.svc = X then
      match XCall.step nd.x (ihandle nd m) j.x with
      | some x' => ⟨item nd.c env none id caller prev gen seq j.b m, x'⟩
      | none => ⟨item nd.c env (some (out.getD 0)) id caller prev gen seq j.b m, j.x⟩
    else
      let j1 := irun nd acts ⟨ibefore nd caller gen seq j.b m, j.x⟩
      ⟨item nd.c env out (fun _ => j1.b) caller prev gen seq j.b m, if out = none then j1.x else j.x⟩
  else ⟨item nd.c env out id caller prev gen seq j.b m, j.x⟩

/-- Messages of a relay call, with the platform's answers and the behaviour of the services called. -/
inductive IItems where
  | nil
  | cons (m : Msg) (env : Env) (out : Out) (acts : IOps) (t : IItems)

def IItems.msgs : IItems → List Msg
  | .nil => []
  | .cons m _ _ _ t => m :: t.msgs

def iitems : IItems → Nat → String → Nat → Nat → IJ → IJ
  | .nil, _, _, _, _, j => j
  | .cons m env out acts t, caller, prev, gen, seq, j => iitems t caller prev gen (seq + 1) (iitem nd env out acts caller prev gen seq j m)

/-- A relay call (see JavaBmc `exec`). -/
def irelay (caller : Nat) (prev : String) (items : IItems) (j : IJ) : Option IJ :=
  match openRelay nd.c j.b caller prev items.msgs with
  | none => none
  | some (l, s1) => some (iitems nd items caller prev l.gen (l.rx + 1) ⟨s1, j.x⟩)

mutual
/-- What the callers of a chain can do: the call service's address calls the message center only as the service's code does; only the
    message center calls the functions of the service meant for it; the owners register no other contract as `xcall`. -/
def IFine : IOp → Prop
  | .post _ caller _ _ _ _ _ => caller ≠ nd.addr
  | .claim _ inner _ _ _ _ => IFineAll inner
  | .conf _ _ k => ∀ a, k = .addService X a → a = nd.addr
  | .send .. => True
  | .exec _ _ inner _ => IFineAll inner
  | .undo _ inner _ => IFineAll inner
  | .other op => XCall.By (· ≠ nd.x.bmc) (fun _ => True) op
def IFineAll : IOps → Prop
  | .nil => True
  | .cons o t => IFine o ∧ IFineAll t
end

def IFineItems : IItems → Prop
  | .nil => True
  | .cons _ _ _ acts t => IFineAll nd acts ∧ IFineItems t
end

/-- What a chain runs. -/
inductive Chain where
  | evm (nd : XNet.Node)
  | icon (nd : INode)

/-- Its message center. -/
def Chain.kind : Chain → MixNet.Kind
  | .evm nd => .evm nd.bmc
  | .icon nd => .icon nd.c nd.creator

def Chain.enc : Chain → XCall.Msg → Bytes
  | .evm nd => nd.enc
  | .icon nd => nd.enc

def Chain.dec : Chain → Bytes → XCall.Msg
  | .evm nd => nd.dec
  | .icon nd => nd.dec

/-- Its call service. -/
def Chain.x : Chain → XCall.Cfg
  | .evm nd => nd.x
  | .icon nd => nd.x

/-- The network: the message centers with the messages under way, and the call services. -/
structure Net where
  sys : MixNet.Sys
  x : String → XCall.St

/-- The state after the chain `n` went to `b` and `x`, the messages `rest` still being under way. -/
def Net.next (S : Net) (n : String) (b : MixNet.Node) (x : XCall.St) (rest : List Msg) : Net := ⟨S.sys.next n b rest, SolBmc.upd S.x n x⟩

/-- One call on one of the chains, with the messages it takes. -/
inductive Step (nd : String → Chain) (nets : List String) (S : Net) : String → List Msg → Net → Prop where
  | evmCall (n : String) (v : XNet.Node) (s : SolBmc.St) (o : XNet.JOp) (j : XNet.J) : n ∈ nets → nd n = .evm v → S.sys.st n = .evm s →
      XNet.Fine v o → XNet.jexec v o ⟨s, S.x n⟩ = some j → Step nd nets S n [] (S.next n (.evm j.b) j.x S.sys.pool)
  | evmRelay (n : String) (v : XNet.Node) (s : SolBmc.St) (env : SolBmc.Env) (caller : Nat) (prev : String) (items : XNet.JItems) (D rest : List Msg)
      (j : XNet.J) : n ∈ nets → nd n = .evm v → S.sys.st n = .evm s → XNet.FineItems v items → items.msgs = D.map tr → S.sys.pool.Perm (D ++ rest) →
      XNet.jrelay v env caller prev items ⟨s, S.x n⟩ = some j → Step nd nets S n D (S.next n (.evm j.b) j.x rest)
  | evmDrop (n : String) (v : XNet.Node) (s : SolBmc.St) (env : SolBmc.Env) (seq : Nat) (m : Msg) (rest : List Msg) (s' : SolBmc.St) : n ∈ nets →
      nd n = .evm v → S.sys.st n = .evm s → S.sys.pool.Perm (m :: rest) →
      SolBmc.exec v.bmc (.drop env m.src seq m.svc m.sn m.nsn (tr m).fee) s = some s' → Step nd nets S n [m] (S.next n (.evm s') (S.x n) rest)
  | iconCall (n : String) (v : INode) (s : St) (o : IOp) (j : IJ) : n ∈ nets → nd n = .icon v → S.sys.st n = .icon s →
      IFine v o → iexec v o ⟨s, S.x n⟩ = some j → Step nd nets S n [] (S.next n (.icon j.b) j.x S.sys.pool)
  | iconRelay (n : String) (v : INode) (s : St) (caller : Nat) (prev : String) (items : IItems) (rest : List Msg) (j : IJ) : n ∈ nets →
      nd n = .icon v → S.sys.st n = .icon s → IFineItems v items → S.sys.pool.Perm (items.msgs ++ rest) →
      irelay v caller prev items ⟨s, S.x n⟩ = some j → Step nd nets S n items.msgs (S.next n (.icon j.b) j.x rest)
  | iconDrop (n : String) (v : INode) (s : St) (env : Env) (caller seq : Nat) (m : Msg) (fn : String) (fv : List Nat) (rest : List Msg) (s' : St) :
      n ∈ nets → nd n = .icon v → S.sys.st n = .icon s → S.sys.pool.Perm (m :: rest) →
      JavaBmc.exec v.c (.drop env caller m.src seq m.svc m.sn m.nsn fn fv) s = some s' → Step nd nets S n [m] (S.next n (.icon s') (S.x n) rest)

/-- No service sent 2^255 calls, and what the services sent can be read. -/
structure Sane (nd : String → Chain) (S : Net) : Prop where
  small : ∀ n, (S.x n).sn < 2 ^ 255
  legible : ∀ (n n' : String) (net : BtpAddress.Str) (sn : Int) (m : XCall.Msg) (v : Nat), XCall.Ev.out net sn m v ∈ (S.x n).log →
    (nd n').dec ((nd n).enc m) = m

/-- The states reached, with the messages each chain has taken; `bal` are the coins the call services start with. -/
inductive Reach (nd : String → Chain) (nets : List String) (bal : String → Nat) : Net → (String → List Msg) → Prop where
  | init : Reach nd nets bal ⟨⟨fun n => (nd n).kind.init, []⟩, fun n => XCall.init (bal n)⟩ (fun _ => [])
  | step {S S' : Net} {T : String → List Msg} {n : String} {D : List Msg} : Reach nd nets bal S T → Step nd nets S n D S' → Sane nd S' →
      Reach nd nets bal S' (SolBmc.upd T n (T n ++ D))

end Verif.XMix
