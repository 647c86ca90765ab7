import Verif.Bytes
/-!
Model of the message path of the Solidity BMC: /repo/solidity/bmc/contracts/BMCPeriphery.sol and BMCService.sol.

* The management contract's answers (routes, fees, services, relays, fee handler) are an arbitrary `Env` given with every
  external call and with every relayed message, so that they may change between any two of them (BMCManagement.sol itself is
  modelled in `SolRoutes`).
* A verifier is an arbitrary relation `verify prev rxSeq msgs`: the lists of messages it may return for a link and sequence number.
* Messages are decoded structures: a message that does not decode makes the whole relay call revert, which is the same as no call.
  Bodies are decoded by the parameters `decInner`, `decResp`.
* A service contract (BSH) called back with a message may do anything with the BMC it is allowed to do: its behaviour is a list
  of calls (`Ops`, nested without bound) and whether it reverts in the end. A nested call that reverts is taken as caught by the
  service (if it is not caught, the service reverts too).
* Amounts are unbounded: an overflow of uint256 would revert the call.
* `inflow`, `settled`, `lost`, `paid`, `disp`, `log`, `settle`, `coins` and `credited` are ghost fields: nothing reads them.
-/
namespace Verif.SolBmc
open Verif

/-- Finite map as an association list; the first entry counts. -/
abbrev FM (K V : Type) := List (K × V)

def FM.get {K V : Type} [DecidableEq K] (d : V) : FM K V → K → V
  | [], _ => d
  | (k', v) :: t, k => if k' = k then v else FM.get d t k

def FM.set {K V : Type} [DecidableEq K] : FM K V → K → V → FM K V
  | [], k, v => [(k, v)]
  | (k', v') :: t, k, v => if k' = k then (k, v) :: t else (k', v') :: FM.set t k v

/-- Types.sol:67-70. -/
structure FeeInfo where
  network : String
  values : List Nat
deriving DecidableEq

/-- Types.sol:72-80. -/
structure Msg where
  src : String
  dst : String
  svc : String
  sn : Int
  body : Bytes
  nsn : Int
  fee : FeeInfo
deriving DecidableEq

/-- Types.sol:104-107; the default is the empty storage slot. -/
structure Resp where
  nsn : Int
  fee : FeeInfo
deriving DecidableEq

def Resp.empty : Resp := ⟨0, ⟨"", []⟩⟩

/-- Types.sol:92-97. -/
structure Req where
  nsn : Int
  dst : String
  caller : Nat
  amount : Nat
deriving DecidableEq

def Req.empty : Req := ⟨0, "", 0, 0⟩

/-- Types.sol:87-90 with the payloads: messages to the BMC's own service. -/
inductive Inner where
  | claim (amount : Nat) (receiver : String)
  | response (code : Nat)
  /-- Link, Unlink, Init: handled by the management contract -/
  | mgmt
  | unknown
deriving DecidableEq

/-- Emitted events (BTPEvent and ClaimReward carry no state and are left out). -/
inductive Event where
  | message (next : String) (seq : Nat) (m : Msg)
  | dropped (prev : String) (seq : Nat) (m : Msg) (code : Nat)
  /-- ghost: the numbers of a link start again -/
  | cleared (link : String)
deriving DecidableEq

/-- Storage of both contracts and ghost fields. -/
structure St where
  rx : String → Nat
  tx : String → Nat
  nsn : Int
  reward : FM (Nat × String) Nat
  resp : FM (String × String × Int) Resp
  req : FM Int Req
  /-- events emitted since the beginning -/
  log : List Event
  /-- per link, messages handled since the numbers were last cleared; `none` is a message given up by the owner -/
  disp : String → List (Option Msg)
  inflow : String → Nat
  settled : String → Nat
  paid : String → Nat
  lost : String → Nat
  /-- settled claims: request number and result -/
  settle : List (Int × Nat)
  /-- coins received with calls -/
  coins : Nat
  /-- amounts of claims of other networks that were credited -/
  credited : Nat

/-- Fixed parameters: own network, contract addresses, verifier, body codecs, address parser. -/
structure Cfg where
  net : String
  periphery : Nat
  service : Nat
  verify : String → Nat → List Msg → Bool
  decInner : Bytes → Option Inner
  decResp : Bytes → Option Nat
  encInner : Inner → Bytes
  encResp : Nat → Bytes
  parseAddr : String → Option Nat

/-- Answers of the management contract at one moment. -/
structure Env where
  resolve : String → Option String
  fees : String → List Nat
  service : String → Option Nat
  isRelay : String → Nat → Bool
  feeHandler : Nat

/-- Function update. -/
def upd {K V : Type} [DecidableEq K] (f : K → V) (k : K) (v : V) : K → V := fun x => if x = k then v else f x

def init : St where
  rx := fun _ => 0
  tx := fun _ => 0
  nsn := 0
  reward := []
  resp := []
  req := []
  log := []
  disp := fun _ => []
  inflow := fun _ => 0
  settled := fun _ => 0
  paid := fun _ => 0
  lost := fun _ => 0
  settle := []
  coins := 0
  credited := 0

variable (c : Cfg)

/-- Ghost: value of `amount` in the currency of network `n` comes in. -/
def addIn (s : St) (n : String) (amount : Nat) : St := { s with inflow := upd s.inflow n (s.inflow n + amount) }

/-- BMCService.sol:93-101 `_addReward`. -/
def addReward (s : St) (net : String) (addr amount : Nat) : St :=
  if amount > 0 then { s with reward := s.reward.set (addr, net) (s.reward.get 0 (addr, net) + amount) } else s

/-- BMCService.sol:103-111 `_collectRemainFee`. -/
def collectRemain (s : St) (f : FeeInfo) : St × FeeInfo :=
  (addReward s f.network c.periphery f.values.sum, { f with values := [] })

/-- BMCService.sol:131-147 `_accumulateFee`. -/
def accumulate (s : St) (addr : Nat) (f : FeeInfo) : St × FeeInfo :=
  match f.values with
  | [] => (s, f)
  | v :: t => (addReward s f.network addr v, { f with values := t })

/-- BMCService.sol:149-169 `handleFee` of the decoded message. -/
def handleFee (s : St) (addr : Nat) (m : Msg) : St × Msg :=
  let (s1, f) := accumulate s addr m.fee
  let m1 := { m with fee := f }
  if m.dst = c.net then
    if m.sn > 0 then
      let old := s1.resp.get Resp.empty (m.src, m.svc, m.sn)
      let (s2, _) := collectRemain c s1 old.fee
      ({ s2 with resp := s2.resp.set (m.src, m.svc, m.sn) ⟨m.nsn, f⟩ }, m1)
    else
      let (s2, f2) := collectRemain c s1 f
      (s2, { m1 with fee := f2 })
  else (s1, m1)

/-- BMCService.sol:171-196 `handleErrorFee`; `hop` is BMCManagement.sol:632-638 `getHop`. -/
def handleErrorFee (env : Env) (s : St) (src : String) (sn : Int) (f : FeeInfo) : St × FeeInfo :=
  if sn > 0 then
    let hop := (env.fees src).length / 2
    if hop > 0 ∧ f.values.length > hop then
      let remain := f.values.length - hop
      (s, { f with values := f.values.drop remain ++ f.values.take remain })
    else (s, f)
  else collectRemain c s f

/-- BMCService.sol:227-239 `removeResponse`; `none` is a revert. -/
def removeResponse (s : St) (to svc : String) (sn : Int) : Option (St × Resp) :=
  let r := s.resp.get Resp.empty (to, svc, sn)
  if r.nsn > 0 then some ({ s with resp := s.resp.set (to, svc, sn) Resp.empty }, r) else none

/-- BMCPeriphery.sol:200-208 `_sendMessage`. -/
def sendMsg (s : St) (next : String) (m : Msg) : St :=
  { s with
    tx := upd s.tx next (s.tx next + 1)
    log := s.log ++ [.message next (s.tx next + 1) m] }

/-- BMCPeriphery.sol:210-238 `_sendError`. -/
def sendError (env : Env) (s : St) (prev : String) (seq : Nat) (m : Msg) (code : Nat) : St :=
  let (s1, f) := handleErrorFee c env s m.src m.sn m.fee
  if m.sn > 0 then sendMsg s1 prev ⟨c.net, m.src, m.svc, -m.sn, c.encResp code, -m.nsn, f⟩
  else { s1 with log := s1.log ++ [.dropped prev seq { m with fee := f } code] }

/-- BMCManagement.sol:460-480 `getFee`: the values. -/
def getFee (env : Env) (to : String) (response : Bool) : List Nat :=
  let l := env.fees to
  l.take (if response then l.length else l.length / 2)

/-- BMCPeriphery.sol:283-326 `sendMessageWithFee`; `none` is a revert. The value sent with the call is ghost inflow. -/
def sendWithFee (env : Env) (s : St) (sender value : Nat) (to svc : String) (sn : Int) (body : Bytes) (isResponse fill : Bool) :
    Option (St × Int) :=
  match env.resolve to with
  | none => none
  | some next =>
    let s := addIn { s with coins := s.coins + value } c.net value
    if isResponse then
      match removeResponse s to svc sn with
      | none => none
      | some (s1, r) =>
        let s2 := addReward s1 c.net c.periphery value
        let nsn := -r.nsn
        some (sendMsg s2 next ⟨c.net, to, svc, 0, body, nsn, r.fee⟩, nsn)
    else
      let nsn := s.nsn + 1
      let s1 := { s with nsn := nsn }
      let sn' := if fill then nsn else sn
      if sender ≠ c.service then
        let values := getFee env to (decide (sn > 0))
        if value ≥ values.sum then
          let s2 := addReward s1 c.net c.periphery (value - values.sum)
          some (sendMsg s2 next ⟨c.net, to, svc, sn', body, nsn, ⟨c.net, values⟩⟩, nsn)
        else none
      else some (sendMsg s1 next ⟨c.net, to, svc, sn', body, nsn, ⟨c.net, []⟩⟩, nsn)

/-- BMCPeriphery.sol:240-258 `sendMessage`; `none` is a revert. -/
def sendMessage (env : Env) (s : St) (sender value : Nat) (to svc : String) (sn : Int) (body : Bytes) : Option St :=
  if sender ≠ c.service ∧ env.service svc ≠ some sender then none
  else
    let isResponse := decide (sn < 0)
    let sn' := if sn < 0 then -sn else sn
    (sendWithFee c env s sender value to svc sn' body isResponse false).map (·.1)

/-- BMCService.sol:241-253 `_handleResponse`; `none` is a revert. -/
def handleResponse (s : St) (nsn : Int) (result : Nat) : Option St :=
  let r := s.req.get Req.empty nsn
  if r.nsn > 0 then
    let s1 := { s with req := s.req.set r.nsn Req.empty }
    let s2 := if result ≠ 0 then addReward s1 r.dst r.caller r.amount
      else { s1 with settled := upd s1.settled r.dst (s1.settled r.dst + r.amount) }
    some { s2 with settle := s2.settle ++ [(r.nsn, result)] }
  else none

/-- BMCService.sol:255-294 `handleBTPMessage` of the BMC's own service. `ok` is whether the management contract accepts a
    Link/Unlink/Init message. An incoming claim is ghost inflow in the own currency. -/
def ownService (env : Env) (ok : Bool) (s : St) (from_ : String) (sn : Int) (body : Bytes) : Option St :=
  match c.decInner body with
  | none => none
  | some (.claim amount receiver) =>
    match c.parseAddr receiver with
    | none => none
    | some a =>
      let s1 := addReward (addIn { s with credited := s.credited + amount } c.net amount) c.net a amount
      sendMessage c env s1 c.service 0 from_ "bmc" (-sn) (c.encInner (.response 0))
  | some (.response code) => handleResponse s sn code
  | some .mgmt => if ok then some s else none
  | some .unknown => none

/-- BMCPeriphery.sol:134-198 `handleMessage`: error code and state. `ok` and `call` are the service's behaviour: `call` is its
    effect when it does not revert. -/
def handleMessage (env : Env) (ok : Bool) (call : St → St) (s : St) (m : Msg) : Nat × St :=
  if m.svc = "bmc" then
    let sn := if m.sn ≥ 0 ∧ m.nsn < 0 then -m.nsn else m.nsn
    if m.sn ≥ 0 then
      match ownService c env ok s m.src sn m.body with
      | some s' => (0, s')
      | none => (1, s)
    else
      match c.decResp m.body with
      | none => (1, s)
      | some code =>
        match handleResponse s (-sn) code with
        | some s' => (0, s')
        | none => (1, s)
  else
    match env.service m.svc with
    | none => (3, s)
    | some _ =>
      if m.sn ≥ 0 then if ok then (0, call s) else (4, s)
      else
        match c.decResp m.body with
        | none => (1, s)
        | some _ => if ok then (0, call s) else (4, s)

/-- BMCPeriphery.sol:100-129: one message of a relay call; `none` is a revert. -/
def item (env : Env) (ok : Bool) (call : St → St) (caller : Nat) (prev : String) (seq : Nat) (s : St) (m0 : Msg) : Option St :=
  let s := addIn s m0.fee.network m0.fee.values.sum
  let s := { s with disp := upd s.disp prev (s.disp prev ++ [some m0]) }
  let (s1, m) := handleFee c s caller m0
  if m.dst = c.net then
    let (ecode, s2) := handleMessage c env ok call s1 m
    if ecode = 0 then some s2
    else if m.sn > 0 then
      match removeResponse s2 m.src m.svc m.sn with
      | none => none
      | some (s3, _) => some (sendError c env s3 prev seq m ecode)
    else some (sendError c env s2 prev seq m ecode)
  else
    match env.resolve m.dst with
    | some next => some (sendMsg s1 next m)
    | none => some (sendError c env s1 prev seq m 2)

/-- BMCPeriphery.sol:430-459 `claimReward`; `none` is a revert. -/
def claimReward (env : Env) (s : St) (sender value : Nat) (net receiver : String) : Option St :=
  let who := if sender = env.feeHandler then c.periphery else sender
  let r := s.reward.get 0 (who, net)
  if r > 0 then
    let s1 := { s with reward := s.reward.set (who, net) 0 }
    if c.net = net then
      match c.parseAddr receiver with
      | none => none
      | some _ =>
        let s2 := addIn { s1 with coins := s1.coins + value } c.net value
        some { s2 with paid := upd s2.paid net (s2.paid net + r), lost := upd s2.lost c.net (s2.lost c.net + value) }
    else
      match sendWithFee c env s1 sender value net "bmc" 0 (c.encInner (.claim r receiver)) false true with
      | none => none
      | some (s2, nsn) => some { s2 with req := s2.req.set nsn ⟨nsn, net, who, r⟩ }
  else none

/-- BMCManagement.sol:496-525 and BMCPeriphery.sol:383-399 `dropMessage` by an owner; `none` is a revert. -/
def dropMessage (env : Env) (s : St) (src : String) (seq : Nat) (svc : String) (sn nsn : Int) (f : FeeInfo) : Option St :=
  match env.resolve src, env.service svc with
  | some next, some _ =>
    if nsn = 0 ∨ (nsn > 0 ∧ sn < 0) ∨ (nsn < 0 ∧ sn > 0) then none
    else
      let s := addIn s f.network f.values.sum
      let (s1, f1) := accumulate s c.periphery f
      if seq = s1.rx next + 1 then
        let s2 := { s1 with rx := upd s1.rx next (s1.rx next + 1), disp := upd s1.disp next (s1.disp next ++ [none]) }
        some (sendError c env s2 next seq ⟨src, "", svc, sn, [], nsn, f1⟩ 1)
      else none
  | _, _ => none

/-- BMCPeriphery.sol:401-407 `clearSeq` (by the management contract, on removal of a link). -/
def clearSeq (s : St) (link : String) : St :=
  { s with rx := upd s.rx link 0, tx := upd s.tx link 0, disp := upd s.disp link [], log := s.log ++ [.cleared link] }

/-- BMCPeriphery.sol:365-381 `sendInternal` (by the management contract); `to` is the link's network. -/
def sendInternal (s : St) (next to : String) (body : Bytes) : St :=
  sendMsg { s with nsn := s.nsn + 1 } next ⟨c.net, to, "bmc", 0, body, s.nsn + 1, ⟨c.net, []⟩⟩

mutual
/-- One call from outside, with everything its callees decide. -/
inductive Op where
  | send (env : Env) (sender value : Nat) (to svc : String) (sn : Int) (body : Bytes)
  | claim (env : Env) (sender value : Nat) (net receiver : String)
  | relay (env : Env) (caller : Nat) (prev : String) (items : Items)
  | drop (env : Env) (src : String) (seq : Nat) (svc : String) (sn nsn : Int) (f : FeeInfo)
  | clear (link : String)
  | internal (next to : String) (body : Bytes)
/-- Messages of a relay call, each with the management's answers and the called service's behaviour. -/
inductive Items where
  | nil
  | cons (m : Msg) (env : Env) (ok : Bool) (acts : Ops) (t : Items)
/-- Calls a service makes while it handles a message. -/
inductive Ops where
  | nil
  | cons (o : Op) (t : Ops)
end

def Items.msgs : Items → List Msg
  | .nil => []
  | .cons m _ _ _ t => m :: t.msgs

mutual
/-- A call; `none` is a revert (no change). The service contract (BMCService) makes no calls of its own accord, so it is not a
    sender here. -/
def exec : Op → St → Option St
  | .send env sender value to svc sn body, s =>
    if sender = c.service then none else sendMessage c env s sender value to svc sn body
  | .claim env sender value net receiver, s => if sender = c.service then none else claimReward c env s sender value net receiver
  | .relay env caller prev items, s =>
    -- BMCPeriphery.sol:80-96: the verifier's answer and the relay check, then the loop and line 131
    if c.verify prev (s.rx prev) items.msgs ∧ env.isRelay prev caller then
      match execItems items caller prev (s.rx prev) s with
      | none => none
      | some s' => some { s' with rx := upd s'.rx prev (s'.rx prev + items.msgs.length) }
    else none
  | .drop env src seq svc sn nsn f, s => dropMessage c env s src seq svc sn nsn f
  | .clear link, s => some (clearSeq s link)
  | .internal next to body, s => some (sendInternal c s next to body)
/-- BMCPeriphery.sol:99-130: the loop; `seq` is the local rxSeq before the message. -/
def execItems : Items → Nat → String → Nat → St → Option St
  | .nil, _, _, _, s => some s
  | .cons m env ok acts t, caller, prev, seq, s =>
    match item c env ok (execOps acts) caller prev (seq + 1) s m with
    | none => none
    | some s' => execItems t caller prev (seq + 1) s'
/-- The calls of a service, reverted ones without effect. -/
def execOps : Ops → St → St
  | .nil, s => s
  | .cons o t, s => execOps t ((exec o s).getD s)
end

/-- A history of calls. -/
def run (ops : List Op) : St := ops.foldl (fun s o => (exec c o s).getD s) init

end Verif.SolBmc
