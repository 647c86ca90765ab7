import Verif.Ncs
/-!
The token service of the Java contracts: javascore/bsh, ServiceHandler.java, with the tokens it takes, irc2/IRC2Basic.java.

Registered tokens are taken to be IRC2Basic contracts, so `tokenFallback` is only called by their `transfer`. Texts of addresses,
BTP addresses and messages are read by parameters; `settled` and `paid` count what was promised to and paid for other networks (they
are not in the code). Events and `fromAddr`, which serves for events alone, are left out. The stray `readerTasset.end()` of
`handleBTPError` (line 328) is taken to do nothing.
-/
namespace Verif.TokenBsh
open Verif
open Verif.Ncs (at0 add)

/-- types/Balance.java:9-18. -/
structure Bal where
  usable : Int
  locked : Int
  refundable : Int
deriving DecidableEq

/-- types/Asset.java:8-17. -/
structure Asset where
  name : Bytes
  value : Int
  fee : Int
deriving DecidableEq

/-- types/TransferAsset.java:9-19. -/
structure TA where
  frm : Bytes
  to : Bytes
  assets : List Asset
deriving DecidableEq

/-- types/Token.java: the name and the fee numerator. -/
structure Token where
  name : Bytes
  feeNum : Int
deriving DecidableEq

/-- A message as `handleBTPMessage` reads it, ServiceHandler.java:208-214: by its type; `bad` cannot be read. -/
inductive Msg where
  | request (ta : TA)
  | response (code : Int)
  | unknown
  | other
  | bad
deriving DecidableEq

/-- A call of `sendMessage` of the message center. -/
structure Out where
  net : Bytes
  svc : Bytes
  sn : Int
  msg : Msg
deriving DecidableEq

/-- What does not change: the addresses of the message center, of the contract and of its deployer; `Address.fromString` and
`toString`; `BTPAddress.fromString` (network and account); which accounts take tokens; to which networks the message center sends. -/
structure Cfg where
  bmc : Bytes
  self : Bytes
  deployer : Bytes
  svc : Bytes
  parse : Bytes → Option Bytes
  text : Bytes → Bytes
  btp : Bytes → Option (Bytes × Bytes)
  accepts : Bytes → Bool
  sends : Bytes → Bool

/-- ServiceHandler.java:41-52; the balances of the token contracts by contract and holder; the two counters by name. -/
structure S where
  serialNo : Int
  owners : Tab Bytes Bool
  count : Int
  addrOf : Tab Bytes Bytes
  names : List Bytes
  tokens : Tab Bytes Token
  bals : Tab (Bytes × Bytes) Bal
  pending : Tab Int TA
  pendingFees : Tab Int TA
  fees : Tab Bytes Int
  tok : Tab (Bytes × Bytes) Int
  settled : Tab Bytes Int
  paid : Tab Bytes Int
deriving DecidableEq

/-- ServiceHandler.java:385-388 `getBalance`. -/
def balance (s : S) (user name : Bytes) : Bal := s.bals.getD (user, name) ⟨0, 0, 0⟩

/-- ServiceHandler.java:390-395 `setBalance`. -/
def setBalance (s : S) (user name : Bytes) (u l r : Int) : S :=
  { s with bals := s.bals.put (user, name) ⟨(balance s user name).usable + u, (balance s user name).locked + l, (balance s user name).refundable + r⟩ }

/-- ServiceHandler.java:83-88, 101-106 `onlyOwner`, `isAnOwner`. -/
def isOwner (cfg : Cfg) (s : S) (caller : Bytes) : Bool := decide (cfg.deployer = caller) || s.owners.getD caller false

/-- ServiceHandler.java:65-70 `addOwner`. -/
def addOwner (cfg : Cfg) (s : S) (caller a : Bytes) : Option S :=
  if isOwner cfg s caller = true then some { s with owners := s.owners.put a true, count := s.count + 1 } else none

/-- ServiceHandler.java:75-81, 97-99 `removeOwner`, `checkMinOwners`. -/
def removeOwner (cfg : Cfg) (s : S) (caller a : Bytes) : Option S :=
  if isOwner cfg s caller = true ∧ 1 < s.count then some { s with owners := s.owners.put a false, count := s.count - 1 } else none

/-- ServiceHandler.java:112-122 `register`; symbol and decimals are not used anywhere. -/
def register (cfg : Cfg) (s : S) (caller name : Bytes) (feeNum : Int) (a : Bytes) : Option S :=
  if isOwner cfg s caller = true ∧ s.addrOf.get? name = none then
    some { s with addrOf := s.addrOf.put name a, names := s.names ++ [name], tokens := s.tokens.put a ⟨name, feeNum⟩ }
  else none

/-- ServiceHandler.java:141-156 `tokenFallback`, called by the token contract `t`. -/
def tokenFallback (s : S) (t frm : Bytes) (v : Int) : Option S :=
  if v = 0 then none
  else
    match s.tokens.get? t with
    | none => none
    | some k => if k.name = [] then none else some (setBalance s frm k.name v 0 0)

/-- IRC2Basic.java:76-97 `transfer` of the token contract `t`, called by `frm`. -/
def irc2 (cfg : Cfg) (s : S) (t frm to : Bytes) (v : Int) : Option S :=
  if 0 ≤ v ∧ v ≤ at0 s.tok (t, frm) then
    let s := { s with tok := add (add s.tok (t, frm) (-v)) (t, to) v }
    if to = cfg.self then tokenFallback s t frm v
    else if cfg.accepts to = true then some s
    else none
  else none

/-- ServiceHandler.java:180: `value.multiply(feeNumerator).divide(FEE_DENOMINATOR)`. -/
def feeOf (v feeNum : Int) : Int := (v * feeNum).tdiv 10000

/-- ServiceHandler.java:179-191: the rest of `transfer`. -/
def send (cfg : Cfg) (s : S) (caller name : Bytes) (v : Int) (to : Bytes × Bytes) (feeNum : Int) : Option (S × List Out) :=
  let s := setBalance s caller name (-v) v 0
  let sn := s.serialNo + 1
  let ta : TA := ⟨cfg.text caller, to.2, [⟨name, v - feeOf v feeNum, feeOf v feeNum⟩]⟩
  if cfg.sends to.1 = true then
    some ({ s with serialNo := sn, pending := s.pending.put sn ta }, [⟨to.1, cfg.svc, sn, .request ta⟩])
  else none

/-- ServiceHandler.java:163-191 `transfer`. -/
def transfer (cfg : Cfg) (s : S) (caller name : Bytes) (v : Int) (to : Bytes) : Option (S × List Out) :=
  match s.addrOf.get? name with
  | none => none
  | some t =>
    if v = 0 then none
    else if (balance s caller name).usable < v then none
    else
      (cfg.btp to).bind fun x => (s.tokens.get? t).bind fun k => send cfg s caller name v x k.feeNum

/-- ServiceHandler.java:215-238: a request; the first asset alone is paid. -/
def handleRequest (cfg : Cfg) (s : S) (frm svc : Bytes) (sn : Int) (ta : TA) : Option (S × List Out) :=
  match cfg.parse ta.to, ta.assets with
  | some to, a :: _ =>
    match s.addrOf.get? a.name with
    | none => none
    | some t =>
      (irc2 cfg s t cfg.self to a.value).bind fun s =>
        if cfg.sends frm = true then some ({ s with paid := add s.paid a.name a.value }, [⟨frm, svc, sn, .response 0⟩]) else none
  | _, _ => none

/-- ServiceHandler.java:259-271: the loop over the assets of a pending transfer. -/
def settle (code : Int) (user : Bytes) : S → List Asset → S
  | s, [] => s
  | s, a :: l =>
    if code = 0 then
      let s := setBalance s user a.name 0 (-(a.value + a.fee)) 0
      settle code user { s with fees := add s.fees a.name a.fee, settled := add s.settled a.name a.value } l
    else settle code user (setBalance s user a.name (a.value + a.fee) (-(a.value + a.fee)) 0) l

/-- ServiceHandler.java:277-284: the loop over the assets of a pending fee transfer that failed. -/
def recredit : S → List Asset → S
  | s, [] => s
  | s, a :: l => recredit { s with fees := add s.fees a.name a.value, settled := add s.settled a.name (-a.value) } l

/-- ServiceHandler.java:239-289: a response. -/
def handleResponse (cfg : Cfg) (s : S) (sn code : Int) : Option S :=
  match s.pendingFees.get? sn with
  | some ta =>
    let s := if code = 1 then recredit s ta.assets else s
    (cfg.parse ta.frm).map fun _ => { s with pendingFees := s.pendingFees.del sn }
  | none =>
    match s.pending.get? sn with
    | none => none
    | some ta =>
      (cfg.parse ta.frm).map fun u => { settle code u s ta.assets with pending := s.pending.del sn }

/-- ServiceHandler.java:202-296 `handleBTPMessage`. -/
def handleMessage (cfg : Cfg) (s : S) (caller frm svc : Bytes) (sn : Int) (m : Msg) : Option (S × List Out) :=
  if caller = cfg.bmc ∧ svc = cfg.svc then
    match m with
    | .request ta => handleRequest cfg s frm svc sn ta
    | .response code => (handleResponse cfg s sn code).map fun s => (s, [])
    | .unknown => some (s, [])
    | .other => if cfg.sends frm = true then some (s, [⟨frm, cfg.svc, s.serialNo, .unknown⟩]) else none
    | .bad => none
  else none

/-- ServiceHandler.java:305-334 `handleBTPError`: the receiver's address is read as one of this chain; the fee is not given back. -/
def handleError (cfg : Cfg) (s : S) (caller svc : Bytes) (sn : Int) : Option S :=
  if caller = cfg.bmc ∧ svc = cfg.svc then
    match s.pending.get? sn with
    | none => none
    | some ta =>
      match cfg.parse ta.frm, cfg.parse ta.to, ta.assets with
      | some u, some _, a :: _ => some { setBalance s u a.name a.value (-a.value) 0 with pending := s.pending.del sn }
      | _, _, _ => none
  else none

/-- ServiceHandler.java:366-374: the loop of `handleFeeGathering` with the list of assets so far. -/
def gather (cfg : Cfg) (caller fa : Bytes) : S → List Asset → List Bytes → S × List Asset
  | s, acc, [] => (s, acc)
  | s, acc, n :: l =>
    if at0 s.fees n = 0 then gather cfg caller fa s acc l
    else
      let acc := acc ++ [⟨n, at0 s.fees n, 0⟩]
      let ta : TA := ⟨cfg.text caller, fa, acc⟩
      let s := { s with serialNo := s.serialNo + 1, pendingFees := s.pendingFees.put (s.serialNo + 1) ta,
                        fees := s.fees.put n 0, settled := add s.settled n (at0 s.fees n) }
      gather cfg caller fa s acc l

/-- ServiceHandler.java:360-382 `handleFeeGathering`. -/
def feeGathering (cfg : Cfg) (s : S) (caller fa svc : Bytes) : Option (S × List Out) :=
  if caller = cfg.bmc then
    (cfg.btp fa).bind fun x =>
      let r := gather cfg caller fa s [] s.names
      if r.2 = [] then some (r.1, [])
      else if cfg.sends x.1 = true then some (r.1, [⟨x.1, svc, r.1.serialNo, .request ⟨cfg.text caller, x.2, r.2⟩⟩])
      else none
  else none

/-- Calls of the contract, and transfers of tokens by others. -/
inductive Op where
  | addOwner (caller a : Bytes)
  | removeOwner (caller a : Bytes)
  | register (caller name : Bytes) (feeNum : Int) (a : Bytes)
  | tokenSend (t frm to : Bytes) (v : Int)
  | transfer (caller name : Bytes) (v : Int) (to : Bytes)
  | setBalance (caller user name : Bytes) (u l r : Int)
  | message (caller frm svc : Bytes) (sn : Int) (m : Msg)
  | error (caller svc : Bytes) (sn : Int)
  | gather (caller fa svc : Bytes)
deriving DecidableEq

def silent (o : Option S) : Option (S × List Out) := o.map fun s => (s, [])

/-- A call: the new state and the messages sent; `none` if it is reverted. The contract calls none of its own methods and moves
tokens only in answer to requests. -/
def step (cfg : Cfg) (s : S) : Op → Option (S × List Out)
  | .addOwner c a => silent (addOwner cfg s c a)
  | .removeOwner c a => silent (removeOwner cfg s c a)
  | .register c n f a => silent (register cfg s c n f a)
  | .tokenSend t frm to v => if frm = cfg.self then none else silent (irc2 cfg s t frm to v)
  | .transfer c n v to => transfer cfg s c n v to
  | .setBalance _ user n u l r => silent (some (setBalance s user n u l r))
  | .message c frm svc sn m => handleMessage cfg s c frm svc sn m
  | .error c svc sn => silent (handleError cfg s c svc sn)
  | .gather c fa svc => feeGathering cfg s c fa svc

/-- ServiceHandler.java:54-60: a new contract, with the tokens that others hold. -/
def init (cfg : Cfg) (tok : Tab (Bytes × Bytes) Int) : S :=
  ⟨0, [(cfg.deployer, true)], 1, [], [], [], [], [], [], [], tok, [], []⟩

/-- A history: calls that fail change nothing. -/
def run (cfg : Cfg) : S → List Op → S
  | s, [] => s
  | s, o :: l =>
    match step cfg s o with
    | some x => run cfg x.1 l
    | none => run cfg s l

end Verif.TokenBsh
