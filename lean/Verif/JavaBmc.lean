import Verif.SolBmc
import Verif.JavaOwners
/-!
Model of the ICON BMC: /repo/javascore/bmc/src/main/java/foundation/icon/btp/bmc/BTPMessageCenter.java (whole contract except
the read-only queries and `handleFragment`, which is modelled in `Fragment` and ends in the relay call modelled here).

* A `BTPAddress` that came from `BTPAddress.valueOf` is its text: `toString` of the parsed address is the text it was parsed from
  (C26_java_parse). `Cfg.netOf` gives its network part, `none` where `valueOf` throws. `Cfg.reachNet` is the network part of an
  address in a Link/Unlink/Init message (those are parsed without a check).
* The enumerable dictionaries `links` and `routes` are lists of key and value in enumeration order (`EnumDict` models the
  dictionary itself: C46).
* An exception thrown and caught inside the contract does not undo what was stored before it: functions that can throw return
  the state they leave behind together with the exception. A failed call of another contract undoes what happened inside it. An
  exception that leaves an external method undoes the whole call.
* A verifier is an arbitrary relation: the lists of messages it may return for a link, a sequence number. It does not call back.
* Messages are decoded structures (a message that does not decode makes the relay call throw). Bodies are decoded by the
  parameters `decInner`, `decResp`.
* `Env` given with every call and every relayed message tells which `sendBTPMessage` calls the chain accepts and whether the
  transfer of a claim succeeds. A service or payee called by the contract may do any calls (`Ops`, nested without bound).
* Amounts are natural numbers. `addReward` ignores negative amounts; a negative fee value or claim in a message of another chain's
  BMC is outside the model.
* BTPEvent, ClaimReward and ClaimRewardResult events carry no state and are left out.
* `log`, `disp`, `names`, `taken`, `inflow`, `settled`, `paid`, `lost`, `twice`, `settle`, `coins`, `credited`, `doubled` and `Link.gen` are ghost: nothing reads them.
-/
namespace Verif.JavaBmc
open Verif
open Verif.SolBmc (FM upd FeeInfo)

/-! ### Dictionary in enumeration order -/
namespace Dict
variable {V : Type}

/-- EnumerableDictDB.java:117-121 `get`. -/
def get : List (String × V) → String → Option V
  | [], _ => none
  | (k', v) :: t, k => if k' = k then some v else get t k

/-- EnumerableDictDB.java:123-132 `put`: in place, or at the end. -/
def put : List (String × V) → String → V → List (String × V)
  | [], k, v => [(k, v)]
  | (k', v') :: t, k, v => if k' = k then (k, v) :: t else (k', v') :: put t k v

/-- EnumerableDictDB.java:134-151 `remove`: the last entry takes the place of the removed one. -/
def del : List (String × V) → String → List (String × V)
  | [], _ => []
  | (k', v) :: t, k =>
    if k' = k then
      match t.getLast? with
      | none => []
      | some x => x :: t.dropLast
    else (k', v) :: del t k
end Dict

/-! ### Data -/

/-- BTPMessage.java:28-35. -/
structure Msg where
  src : String
  dst : String
  svc : String
  sn : Int
  body : Bytes
  nsn : Int
  fee : Option FeeInfo
deriving DecidableEq

/-- ResponseInfo.java:27-28. -/
structure Resp where
  nsn : Int
  fee : FeeInfo
deriving DecidableEq

/-- BMCRequest.java:26-28; the message is always a claim: amount. -/
structure Req where
  dst : String
  caller : Nat
  amount : Nat
deriving DecidableEq

/-- BMCMessage.java with its payloads. -/
inductive Inner where
  | claim (amount : Nat) (receiver : String)
  | response (code : Nat)
  | link (a : String)
  | unlink (a : String)
  | initial (l : List String)
deriving DecidableEq

/-- BTPException.java: type (only whether it is BSH) and code within the type. -/
structure Ex where
  bsh : Bool
  code : Nat
deriving DecidableEq

/-- BMCException.java:75-88: Unknown, NotExistsBSH, NotExistsLink, Unreachable, Drop. -/
def exUnknown : Ex := ⟨false, 0⟩
def exNoBSH : Ex := ⟨false, 6⟩
def exNoLink : Ex := ⟨false, 8⟩
def exUnreachable : Ex := ⟨false, 11⟩
def exDrop : Ex := ⟨false, 12⟩
/-- BTPException.java `of(e, Type.BSH)` of an exception that is not a BTPException. -/
def exOther : Ex := ⟨true, 0⟩

/-- Link.java:30-35; `gen` tells the links apart that were added one after the other under the same name. -/
structure Link where
  addr : String
  rx : Nat
  tx : Nat
  reach : List String
  gen : Nat
deriving DecidableEq

inductive Event where
  /-- event log `Message` -/
  | message (next : String) (seq : Nat) (m : Msg)
  /-- `sendBTPMessage` accepted by the chain for a BTP network; `seq` is the number of the message on the link -/
  | chain (id : Nat) (next : String) (seq : Nat) (m : Msg)
  | dropped (prev : String) (seq : Nat) (m : Msg)
  /-- ghost: a link is added: its numbers start at 0 -/
  | start (link : String)
  /-- ghost: a BTP network is bound to a link -/
  | bind (id : Nat) (link : String)
deriving DecidableEq

structure St where
  own : JavaOwners.St
  verifiers : String → Option Nat
  services : String → Option Nat
  routes : List (String × String)
  links : List (String × Link)
  /-- by link text -/
  relays : String → List Nat
  netIds : String → Option Nat
  offsets : Nat → Option Nat
  nsn : Int
  fees : String → Option (List Nat)
  resp : FM (String × String × Int) (Option Resp)
  reward : FM (Nat × String) Nat
  feeHandler : Option Nat
  req : FM Int (Option Req)
  log : List Event
  /-- messages handled: generation of the link, number, message; `none` is a message given up by the owner -/
  disp : List (Nat × Nat × Option Msg)
  /-- texts of the links ever added, by generation -/
  names : List String
  /-- numbers taken so far per generation -/
  taken : Nat → Nat
  inflow : String → Nat
  settled : String → Nat
  paid : String → Nat
  lost : String → Nat
  twice : String → Nat
  settle : List (Int × Nat)
  /-- coins received with calls -/
  coins : Nat
  /-- amounts of claims of other networks that were credited and answered -/
  credited : Nat
  /-- amounts of claims of other networks that were credited although handling the claim failed afterwards -/
  doubled : Nat

structure Cfg where
  net : String
  addr : Nat
  netOf : String → Option String
  reachNet : String → String
  verify : Nat → String → Nat → List Msg → Bool
  decInner : Bytes → Option Inner
  decResp : Bytes → Option Nat
  encInner : Inner → Bytes
  encResp : Nat → Bytes
  parseAddr : String → Option Nat
  alnum : String → Bool

structure Env where
  /-- whether the chain accepts the message for the network -/
  chainOk : Nat → Msg → Bool
  /-- whether a transfer succeeds -/
  payOk : Bool

def initSt (creator : Nat) : St where
  own := ⟨creator, []⟩
  verifiers := fun _ => none
  services := fun _ => none
  routes := []
  links := []
  relays := fun _ => []
  netIds := fun _ => none
  offsets := fun _ => none
  nsn := 0
  fees := fun _ => none
  resp := []
  reward := []
  feeHandler := none
  req := []
  log := []
  disp := []
  names := []
  taken := fun _ => 0
  inflow := fun _ => 0
  settled := fun _ => 0
  paid := fun _ => 0
  lost := fun _ => 0
  twice := fun _ => 0
  settle := []
  coins := 0
  credited := 0
  doubled := 0

variable (c : Cfg)

/-! ### Ghost accounts -/

def addIn (s : St) (n : String) (v : Nat) : St := { s with inflow := upd s.inflow n (s.inflow n + v) }
def addLost (s : St) (n : String) (v : Nat) : St := { s with lost := upd s.lost n (s.lost n + v) }
def addTwice (s : St) (n : String) (v : Nat) : St := { s with twice := upd s.twice n (s.twice n + v) }

def inFee (s : St) : Option FeeInfo → St
  | none => s
  | some f => addIn s f.network f.values.sum
def lostFee (s : St) : Option FeeInfo → St
  | none => s
  | some f => addLost s f.network f.values.sum
def twiceFee (s : St) : Option FeeInfo → St
  | none => s
  | some f => addTwice s f.network f.values.sum

/-! ### Links and routes -/

/-- BTPMessageCenter.java:186-191, 202-208 `getLink(BTPAddress)`, `requireLink(BTPAddress)`; `none` is NotExistsLink. -/
def getLinkA (s : St) (a : String) : Option Link :=
  match c.netOf a with
  | none => none
  | some net =>
    match Dict.get s.links net with
    | none => none
    | some l => if l.addr = a then some l else none

/-- BTPMessageCenter.java:210-212 `putLink`. -/
def putLink (s : St) (l : Link) : St :=
  match c.netOf l.addr with
  | none => s
  | some net => { s with links := Dict.put s.links net l }

/-- BTPMessageCenter.java:478-489 `resolveNextFromReachable`. -/
def fromReach (net : String) : List (String × Link) → Option String
  | [] => none
  | (_, l) :: t => if l.reach.any (fun r => c.reachNet r = net) then some l.addr else fromReach net t

/-- BTPMessageCenter.java:491-506 `resolveNext`. -/
def resolve (s : St) (net : String) : Except Ex String :=
  match Dict.get s.links net with
  | some l => .ok l.addr
  | none =>
    match Dict.get s.routes net with
    | some next =>
      match Dict.get s.links next with
      | some l => .ok l.addr
      | none => .error exNoLink
    | none =>
      match fromReach c net s.links with
      | some a => .ok a
      | none => .error exUnreachable

/-! ### Fees -/

/-- BTPMessageCenter.java:361-368 `getFeeList`. -/
def feeList (s : St) (net : String) (back : Bool) : List Nat :=
  match s.fees net with
  | none => []
  | some v => if back then v else v.take (v.length / 2)

/-- BTPMessageCenter.java:413-419 `addReward`. -/
def addReward (s : St) (a : Nat) (net : String) (amount : Nat) : St :=
  if amount > 0 then { s with reward := s.reward.set (a, net) (amount + s.reward.get 0 (a, net)) } else s

/-- BTPMessageCenter.java:386-394 `accumulateFee`. -/
def accumulate (s : St) (a : Nat) : Option FeeInfo → St × Option FeeInfo
  | none => (s, none)
  | some f =>
    match f.values with
    | [] => (s, some f)
    | v :: t => (addReward s a f.network v, some { f with values := t })

/-- BTPMessageCenter.java:396-411 `collectRemainFee`. -/
def collect (s : St) : Option FeeInfo → St
  | none => s
  | some f => addReward s c.addr f.network f.values.sum

/-! ### Sending -/

/-- BTPMessageCenter.java:840-856 `sendMessage`: exception (`none` if none) and state. -/
def sendMsg (env : Env) (s : St) (next : String) (m : Msg) : Option Ex × St :=
  match getLinkA c s next with
  | none => (some exNoLink, s)
  | some l =>
    let s1 := putLink c s { l with tx := l.tx + 1 }
    match s.netIds next with
    | none => (none, { s1 with log := s1.log ++ [.message next (l.tx + 1) m] })
    | some id =>
      if env.chainOk id m then (none, { s1 with log := s1.log ++ [.chain id next (l.tx + 1) m] })
      else (some exUnknown, putLink c s1 l)

/-- BTPMessageCenter.java:763-772, 789: a response. Ghost: the value comes in; the fee of a response that is not sent is lost. -/
def sendReply (env : Env) (s : St) (next : String) (value : Nat) (to svc : String) (sn : Int) (body : Bytes) : Except Ex Int × St :=
  match s.resp.get none (to, svc, sn) with
  | none => (.error exUnknown, s)
  | some r =>
    let s1 := { s with resp := s.resp.set (to, svc, sn) none }
    let s2 := addReward (addIn { s1 with coins := s1.coins + value } c.net value) c.addr c.net value
    match sendMsg c env s2 next ⟨c.net, to, svc, 0, body, -r.nsn, some r.fee⟩ with
    | (some e, s3) => (.error e, lostFee s3 (some r.fee))
    | (none, s3) => (.ok (-r.nsn), s3)

/-- BTPMessageCenter.java:774-789: any other message; `sn` is already filled in. Ghost as above. -/
def sendRequest (env : Env) (s : St) (next : String) (value : Nat) (to svc : String) (sn : Int) (body : Bytes) : Except Ex Int × St :=
  let nsn := s.nsn + 1
  let s1 := { s with nsn := nsn }
  let values := feeList s1 to (decide (sn > 0))
  if value < values.sum then (.error exUnknown, s1)
  else
    let s2 := addReward (addIn { s1 with coins := s1.coins + value } c.net value) c.addr c.net (value - values.sum)
    match sendMsg c env s2 next ⟨c.net, to, svc, sn, body, nsn, some ⟨c.net, values⟩⟩ with
    | (some e, s3) => (.error e, lostFee s3 (some ⟨c.net, values⟩))
    | (none, s3) => (.ok nsn, s3)

/-- BTPMessageCenter.java:752-792 `sendMessageWithFee`; `value` is `Context.getValue()`. -/
def sendWithFee (env : Env) (s : St) (value : Nat) (to svc : String) (sn : Int) (body : Bytes) (isResponse fill : Bool) :
    Except Ex Int × St :=
  match resolve c s to with
  | .error e => (.error e, s)
  | .ok next =>
    if isResponse then sendReply c env s next value to svc sn body
    else sendRequest c env s next value to svc (if fill then s.nsn + 1 else sn) body

/-- BTPMessageCenter.java:730-746 `sendMessage`, external; `none` is a throw. -/
def sendMessage (env : Env) (s : St) (caller value : Nat) (to svc : String) (sn : Int) (body : Bytes) : Option St :=
  match s.services svc with
  | none => none
  | some a =>
    if caller ≠ a then none
    else
      match sendWithFee c env s value to svc (if sn < 0 then -sn else sn) body (decide (sn < 0)) false with
      | (.error _, _) => none
      | (.ok _, s') => some s'

/-- BTPMessageCenter.java:794-807 `toResponseMessage` of an exception: the code. -/
def toResp (e : Ex) : Nat := if e.code = 11 then 2 else if e.code = 6 then 3 else if e.bsh then 4 else 1

/-- BTPMessageCenter.java:810-827: the fee list of an error response. -/
def swapFee (s : St) (src : String) : Option FeeInfo → Option FeeInfo
  | none => none
  | some f =>
    let hop := (feeList s src false).length
    if hop > 0 ∧ f.values.length > hop then
      let remain := f.values.length - hop
      some { f with values := f.values.drop remain ++ f.values.take remain }
    else some f

/-- BTPMessageCenter.java:809-838 `sendError`. -/
def sendError (env : Env) (s : St) (prev : String) (m : Msg) (e : Ex) : Option Ex × St :=
  sendMsg c env s prev ⟨c.net, m.src, m.svc, -m.sn, c.encResp (toResp e), -m.nsn, swapFee s m.src m.fee⟩

/-- BTPMessageCenter.java:865-875 `sendInternal`. -/
def sendInternal (env : Env) (s : St) (next to : String) (body : Bytes) : Option Ex × St :=
  sendMsg c env { s with nsn := s.nsn + 1 } next ⟨c.net, to, "bmc", 0, body, s.nsn + 1, none⟩

/-- BTPMessageCenter.java:877-886 `propagateInternal` over the links as they were at the start; `none` is a throw. -/
def propagate (env : Env) (body : Bytes) : List (String × Link) → St → Option St
  | [], s => some s
  | (_, l) :: t, s =>
    match sendInternal c env s l.addr ((c.netOf l.addr).getD "") body with
    | (some _, _) => none
    | (none, s') => propagate env body t s'

/-! ### Receiving -/

/-- BTPMessageCenter.java:694-710 `handleResponse`. -/
def handleResponse (s : St) (nsn : Int) (result : Nat) : Option Ex × St :=
  match s.req.get none nsn with
  | none => (some exUnknown, s)
  | some r =>
    let s1 := { s with req := s.req.set nsn none }
    let s2 := if result ≠ 0 then addReward s1 r.caller r.dst r.amount
      else { s1 with settled := upd s1.settled r.dst (s1.settled r.dst + r.amount) }
    (none, { s2 with settle := s2.settle ++ [(nsn, result)] })

/-- BTPMessageCenter.java:677-686 `addReachable`. -/
def addReach (s : St) (net : String) (rs : List String) : Option Ex × St :=
  match Dict.get s.links net with
  | none => (some exNoLink, s)
  | some l => (none, putLink c s { l with reach := rs.foldl (fun acc r => if r ∈ acc then acc else acc ++ [r]) l.reach })

/-- BTPMessageCenter.java:688-692 `removeReachable`. -/
def removeReach (s : St) (net r : String) : Option Ex × St :=
  match Dict.get s.links net with
  | none => (some exNoLink, s)
  | some l => (none, putLink c s { l with reach := l.reach.erase r })

/-- BTPMessageCenter.java:639-675 `internalHandleBTPMessage`. An incoming claim is ghost inflow in the own currency. Line 652 adds
    a negative reward, which `addReward` ignores. -/
def internalHandle (env : Env) (s : St) (src : String) (nsn : Int) (body : Bytes) : Option Ex × St :=
  match c.decInner body with
  | none => (some exOther, s)
  | some (.claim amount receiver) =>
    match c.parseAddr receiver with
    | none => (some exUnknown, s)
    | some a =>
      let s1 := addReward (addIn s c.net amount) a c.net amount
      match sendWithFee c env s1 0 src "bmc" nsn (c.encInner (.response 0)) true false with
      | (.error e, s2) => (some e, { s2 with doubled := s2.doubled + amount })
      | (.ok _, s2) => (none, { s2 with credited := s2.credited + amount })
  | some (.response code) => handleResponse s (-nsn) code
  | some (.link r) => addReach c s src [r]
  | some (.unlink r) => removeReach c s src r
  | some (.initial l) => addReach c s src l

/-- BTPMessageCenter.java:594-605: fee of a message to this network with sn ≥ 0. -/
def storeFee (s : St) (m : Msg) : St :=
  match m.fee with
  | none => s
  | some f =>
    if m.sn > 0 then
      let s1 := collect c s ((s.resp.get none (m.src, m.svc, m.sn)).map (·.fee))
      { s1 with resp := s1.resp.set (m.src, m.svc, m.sn) (some ⟨m.nsn, f⟩) }
    else collect c s (some f)

/-- BTPMessageCenter.java:614-617: the response information is taken back. Ghost: if it is not (or no longer) the fee of this
    message, what was there is lost and the fee of the message is used twice. -/
def unstoreFee (s : St) (m : Msg) : St :=
  match m.fee with
  | none => s
  | some f =>
    if m.sn > 0 then
      let old := (s.resp.get none (m.src, m.svc, m.sn)).map (·.fee)
      let s1 := { s with resp := s.resp.set (m.src, m.svc, m.sn) none }
      if old = some f then s1 else twiceFee (lostFee s1 old) (some f)
    else s

/-- Behaviour of the called service: `none` if it returns, the code of the exception if it throws. -/
abbrev Out := Option Nat

/-- BTPMessageCenter.java:585-637 `handleMessage`; `call` is the effect of the service when it returns. -/
def handleMessage (env : Env) (out : Out) (call : St → St) (s : St) (m : Msg) : Option Ex × St :=
  if m.sn ≥ 0 then
    let s1 := storeFee c s m
    let r :=
      if m.svc = "bmc" then internalHandle c env s1 m.src m.nsn m.body
      else
        match s1.services m.svc with
        | none => (some exNoBSH, s1)
        | some _ =>
          match out with
          | none => (none, call s1)
          | some code => (some ⟨true, code⟩, s1)
    match r with
    | (none, s2) => (none, s2)
    | (some e, s2) => (some e, unstoreFee s2 m)
  else
    let s1 := collect c s m.fee
    match c.decResp m.body with
    | none => (some exOther, s1)
    | some code =>
      if m.svc = "bmc" then handleResponse s1 (-m.nsn) code
      else
        match s1.services m.svc with
        | none => (some exNoBSH, s1)
        | some _ =>
          match out with
          | none => (none, call s1)
          | some code => (some ⟨true, code⟩, s1)

/-- BTPMessageCenter.java:560-567: deliver or forward. -/
def deliver (env : Env) (out : Out) (call : St → St) (s : St) (m : Msg) : Option Ex × St :=
  if m.dst = c.net then handleMessage c env out call s m
  else
    match resolve c s m.dst with
    | .error e => (some e, s)
    | .ok next => sendMsg c env s next m

/-- BTPMessageCenter.java:568-581: after an exception. Ghost: the fee of a message with sn ≤ 0 that was for this network was
    collected already. -/
def failed (env : Env) (prev : String) (seq : Nat) (s : St) (m : Msg) (e : Ex) : St :=
  if m.sn > 0 then
    match sendError c env s prev m e with
    | (none, s') => s'
    | (some _, s') =>
      let s2 := collect c s' (swapFee s m.src m.fee)
      { s2 with log := s2.log ++ [.dropped prev seq { m with fee := swapFee s m.src m.fee }] }
  else
    let s2 := collect c s m.fee
    let s3 := if m.dst = c.net then twiceFee s2 m.fee else s2
    { s3 with log := s3.log ++ [.dropped prev seq m] }

/-- BTPMessageCenter.java:540-582: one message of a relay call; it does not throw. `gen` is ghost. -/
def item (env : Env) (out : Out) (call : St → St) (caller : Nat) (prev : String) (gen seq : Nat) (s : St) (m0 : Msg) : St :=
  let s := inFee s m0.fee
  let s := { s with disp := s.disp ++ [(gen, seq, some m0)] }
  let (s1, f) := accumulate s caller m0.fee
  let m := { m0 with fee := f }
  match deliver c env out call s1 m with
  | (none, s2) => s2
  | (some e, s2) => failed c env prev seq s2 m e

/-- BTPMessageCenter.java:514-537: the part of a relay call before the messages are dispatched; `none` is a throw. The result is
    the link as it was. -/
def openRelay (s : St) (caller : Nat) (prev : String) (msgs : List Msg) : Option (Link × St) :=
  match getLinkA c s prev with
  | none => none
  | some l =>
    match s.verifiers ((c.netOf prev).getD "") with
    | none => none
    | some v =>
      if c.verify v prev l.rx msgs ∧ caller ∈ s.relays prev then
        let s1 := putLink c s { l with rx := l.rx + msgs.length }
        some (l, { s1 with taken := upd s1.taken l.gen (l.rx + msgs.length) })
      else none

/-! ### Claims and dropped messages -/

/-- BTPMessageCenter.java:432-436: the account claimed from. -/
def claimer (s : St) (sender : Nat) : Nat := if s.feeHandler = some sender then c.addr else sender

/-- BTPMessageCenter.java:429-452 `claimReward`; `call` is the effect of the payee. Value sent along with a claim of the own
    currency is in no account: ghost `lost`. -/
def claimReward (env : Env) (call : St → St) (s : St) (sender value : Nat) (net receiver : String) : Option St :=
  let who := claimer c s sender
  let r := s.reward.get 0 (who, net)
  if r = 0 then none
  else
    let s1 := { s with reward := s.reward.set (who, net) 0 }
    if net = c.net then
      match c.parseAddr receiver with
      | none => none
      | some _ =>
        if env.payOk then
          let s2 := addLost (addIn { s1 with coins := s1.coins + value } c.net value) c.net value
          some (call { s2 with paid := upd s2.paid net (s2.paid net + r) })
        else none
    else
      match sendWithFee c env s1 value net "bmc" 0 (c.encInner (.claim r receiver)) false true with
      | (.error _, _) => none
      | (.ok nsn, s2) => some { s2 with req := s2.req.set nsn (some ⟨net, who, r⟩) }

/-- BTPMessageCenter.java:965-969 `isInvalidSn`. -/
def invalidSn (sn nsn : Int) : Bool := decide (nsn = 0 ∨ (nsn > 0 ∧ sn < 0) ∨ (nsn < 0 ∧ sn > 0))

/-- BTPMessageCenter.java:998-999: the fee named with a dropped message. -/
def dropFee (feeNet : String) (feeValues : List Nat) : Option FeeInfo := if feeNet = "" then none else some ⟨feeNet, feeValues⟩

/-- BTPMessageCenter.java:971-1008 `dropMessage`; `none` is a throw. The fees named by the owner are ghost inflow; what is left of
    them for a message with sn ≤ 0 goes nowhere. -/
def dropMessage (env : Env) (s : St) (caller : Nat) (src : String) (seq : Nat) (svc : String) (sn nsn : Int) (feeNet : String)
    (feeValues : List Nat) : Option St :=
  if ¬ JavaOwners.isOwner s.own caller then none
  else
    match resolve c s src with
    | .error _ => none
    | .ok prev =>
      match Dict.get s.links ((c.netOf prev).getD "") with
      | none => none
      | some l =>
        if l.rx + 1 ≠ seq then none
        else if s.services svc = none then none
        else if invalidSn sn nsn then none
        else
          let s1 := putLink c s { l with rx := seq }
          let s1 := { s1 with taken := upd s1.taken l.gen seq, disp := s1.disp ++ [(l.gen, seq, none)] }
          let fee := dropFee feeNet feeValues
          let (s2, fee') := accumulate (inFee s1 fee) c.addr fee
          let m : Msg := ⟨src, "", svc, sn, [], nsn, fee'⟩
          if sn > 0 then
            match sendError c env s2 prev m exDrop with
            | (none, s3) => some s3
            | (some _, _) => none
          else
            let s3 := lostFee s2 fee'
            some { s3 with log := s3.log ++ [.dropped prev seq m] }

/-! ### Management -/

inductive Conf where
  | addVerifier (net : String) (a : Nat)
  | removeVerifier (net : String)
  | addService (svc : String) (a : Nat)
  | removeService (svc : String)
  | addLink (link : String)
  | removeLink (link : String)
  | addRoute (dst link : String)
  | removeRoute (dst : String)
  | setFees (l : List (String × List Nat))
  | setFeeHandler (a : Option Nat)
  | addRelay (link : String) (a : Nat)
  | removeRelay (link : String) (a : Nat)
  | addOwner (a : Nat)
  | removeOwner (a : Nat)
  | setScoreOwner (a : Nat)
  | addBTPLink (link : String) (id : Nat)
  | setBTPLinkNetworkId (link : String) (id : Nat)

/-- BTPMessageCenter.java:214-239 `addLink` without the owner check. -/
def addLink (env : Env) (s : St) (link : String) : Option St :=
  match c.netOf link with
  | none => none
  | some net =>
    if s.verifiers net = none then none
    else if (Dict.get s.links net).isSome then none
    else
      match propagate c env (c.encInner (.link link)) s.links s with
      | none => none
      | some s1 =>
        let s2 := { s1 with
          links := Dict.put s1.links net ⟨link, 0, 0, [], s1.names.length⟩
          names := s1.names ++ [link]
          log := s1.log ++ [.start link] }
        match sendInternal c env s2 link net (c.encInner (.initial (s.links.map (fun p => p.2.addr)))) with
        | (some _, _) => none
        | (none, s3) => some s3

/-- BTPMessageCenter.java:254-256: `for (i = 0; i < size; i++) removeLast()` with the size read again every time; `n` is what is
    left in the array, `i` the counter. -/
def clearRelays (l : List Nat) : Nat → Nat → List Nat
  | 0, _ => l
  | fuel + 1, i => if i < l.length then clearRelays l.dropLast fuel (i + 1) else l

/-- BTPMessageCenter.java:257-261. -/
def unbind (s : St) (link : String) : St :=
  match s.netIds link with
  | none => s
  | some id => { s with netIds := upd s.netIds link none, offsets := upd s.offsets id none }

/-- BTPMessageCenter.java:241-267 `removeLink` without the owner check. -/
def removeLink (env : Env) (s : St) (link : String) : Option St :=
  match c.netOf link with
  | none => none
  | some net =>
    match Dict.get s.links net with
    | none => none
    | some l =>
      if l.addr ≠ link then none
      else if s.routes.any (fun p => p.2 = net) then none
      else
        let s1 := unbind { s with links := Dict.del s.links net } link
        let s2 := { s1 with
          relays := upd s1.relays link (clearRelays (s1.relays link) ((s1.relays link).length + 1) 0)
          fees := upd s1.fees net none }
        propagate c env (c.encInner (.unlink link)) s2.links s2

/-- BTPMessageCenter.java:1134-1144 `setBTPLink`. -/
def setBTPLink (s : St) (link : String) (id offset : Nat) : Option St :=
  if id < 1 then none
  else if s.offsets id ≠ none then none
  else some { s with netIds := upd s.netIds link (some id), offsets := upd s.offsets id (some offset), log := s.log ++ [.bind id link] }

/-- Whether `resolveNext` returns. -/
def reachable (s : St) (net : String) : Bool :=
  match resolve c s net with
  | .error _ => false
  | .ok _ => true

/-- BTPMessageCenter.java:336-358: the loop of `setFeeTable`. -/
def setFees (s : St) : List (String × List Nat) → Option St
  | [] => some s
  | (dst, values) :: t =>
    if values = [] then setFees { s with fees := upd s.fees dst none } t
    else if values.length % 2 ≠ 0 then none
    else if values.length / 2 = 1 ∧ Dict.get s.links dst = none then none
    else if values.length / 2 ≠ 1 ∧ reachable c s dst = false then none
    else setFees { s with fees := upd s.fees dst (some values) } t

/-- BTPMessageCenter.java:1043-1061 `removeRelay` without the checks: the array after it. -/
def eraseRelay (l : List Nat) (a : Nat) : Option (List Nat) :=
  match l.getLast? with
  | none => none
  | some last =>
    if last = a then some l.dropLast
    else
      match JavaOwners.indexOf l.dropLast a with
      | none => none
      | some i => some (l.dropLast.set i last)

/-- The owners' methods; `none` is a throw. `setScoreOwner` is the platform changing the contract's owner. -/
def conf (env : Env) (s : St) (caller : Nat) : Conf → Option St
  | .setScoreOwner a => (JavaOwners.step s.own (.setScoreOwner a)).map fun o => { s with own := o }
  | .addOwner a => (JavaOwners.step s.own (.addOwner caller a)).map fun o => { s with own := o }
  | .removeOwner a => (JavaOwners.step s.own (.removeOwner caller a)).map fun o => { s with own := o }
  | k =>
    if ¬ JavaOwners.isOwner s.own caller then none
    else match k with
      -- BTPMessageCenter.java:112-122
      | .addVerifier net a =>
        if c.net = net ∨ s.verifiers net ≠ none then none else some { s with verifiers := upd s.verifiers net (some a) }
      -- BTPMessageCenter.java:124-131
      | .removeVerifier net => if s.verifiers net = none then none else some { s with verifiers := upd s.verifiers net none }
      -- BTPMessageCenter.java:146-156
      | .addService svc a =>
        if c.alnum svc = false ∨ s.services svc ≠ none ∨ svc = "bmc" then none
        else some { s with services := upd s.services svc (some a) }
      -- BTPMessageCenter.java:158-165
      | .removeService svc => if s.services svc = none then none else some { s with services := upd s.services svc none }
      | .addLink link => addLink c env s link
      | .removeLink link => removeLink c env s link
      -- BTPMessageCenter.java:293-305
      | .addRoute dst link =>
        if dst = link ∨ (Dict.get s.routes dst).isSome ∨ Dict.get s.links link = none then none
        else some { s with routes := Dict.put s.routes dst link }
      -- BTPMessageCenter.java:307-314
      | .removeRoute dst =>
        if Dict.get s.routes dst = none then none
        else some { s with routes := Dict.del s.routes dst, fees := upd s.fees dst none }
      | .setFees l => setFees c s l
      -- BTPMessageCenter.java:467-471
      | .setFeeHandler a => some { s with feeHandler := a }
      -- BTPMessageCenter.java:1033-1041
      | .addRelay link a =>
        if getLinkA c s link = none ∨ a ∈ s.relays link then none
        else some { s with relays := upd s.relays link (s.relays link ++ [a]) }
      | .removeRelay link a =>
        if getLinkA c s link = none then none
        else (eraseRelay (s.relays link) a).map fun l => { s with relays := upd s.relays link l }
      -- BTPMessageCenter.java:1118-1124
      | .addBTPLink link id =>
        match setBTPLink s link id 0 with
        | none => none
        | some s1 => addLink c env s1 link
      -- BTPMessageCenter.java:1126-1132
      | .setBTPLinkNetworkId link id =>
        match getLinkA c s link with
        | none => none
        | some l => setBTPLink s link id l.tx
      | _ => none

/-! ### Calls -/

mutual
/-- External calls. -/
inductive Op where
  | relay (caller : Nat) (prev : String) (items : Items)
  | send (env : Env) (caller value : Nat) (to svc : String) (sn : Int) (body : Bytes)
  | claim (env : Env) (acts : Ops) (caller value : Nat) (net receiver : String)
  | drop (env : Env) (caller : Nat) (src : String) (seq : Nat) (svc : String) (sn nsn : Int) (feeNet : String) (feeValues : List Nat)
  | conf (env : Env) (caller : Nat) (k : Conf)
/-- Messages of a relay call with what happens while each is handled. -/
inductive Items where
  | nil
  | cons (m : Msg) (env : Env) (out : Out) (acts : Ops) (rest : Items)
/-- Calls made by a called contract, one after the other. -/
inductive Ops where
  | nil
  | cons (o : Op) (rest : Ops)
end

def Items.msgs : Items → List Msg
  | .nil => []
  | .cons m _ _ _ t => m :: t.msgs

mutual
/-- One external call; `none` is a throw (nothing changes). -/
def exec : Op → St → Option St
  | .relay caller prev items, s =>
    match openRelay c s caller prev items.msgs with
    | none => none
    | some (l, s1) => some (execItems items caller prev l.gen (l.rx + 1) s1)
  | .send env caller value to svc sn body, s => sendMessage c env s caller value to svc sn body
  | .claim env acts caller value net receiver, s => claimReward c env (fun x => execOps acts x) s caller value net receiver
  | .drop env caller src seq svc sn nsn feeNet feeValues, s => dropMessage c env s caller src seq svc sn nsn feeNet feeValues
  | .conf env caller k, s => conf c env s caller k
/-- The dispatch loop. -/
def execItems : Items → Nat → String → Nat → Nat → St → St
  | .nil, _, _, _, _, s => s
  | .cons m env out acts t, caller, prev, gen, seq, s =>
    execItems t caller prev gen (seq + 1) (item c env out (fun x => execOps acts x) caller prev gen seq s m)
/-- Calls one after the other; one that throws changes nothing (if the caller does not catch it, it throws itself). -/
def execOps : Ops → St → St
  | .nil, s => s
  | .cons o t, s => execOps t ((exec o s).getD s)
end

/-- A history of transactions. -/
def run (creator : Nat) (ops : List Op) : St := ops.foldl (fun s o => (exec c o s).getD s) (initSt creator)

end Verif.JavaBmc
