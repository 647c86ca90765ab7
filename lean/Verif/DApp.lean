import Verif.XCallProps
/-!
Model of the sample application over the call service:
/repo/e2edemo/dapp-sample/src/main/java/foundation/icon/btp/xcall/sample/DAppProxySample.java (J below) with RollbackData.java, and
/repo/e2edemo/solidity/contracts/dapp-sample/DAppProxySample.sol (S below), deployed on one chain together with the call service (`XCall`)
it uses. Other contracts and accounts do what they like: a call of another contract by the call service says which operations it performs
while it runs and how it ends. The text of events, `println` and error texts are left out; the contract's failures all have the same effect
(the call service answers with code -1), so they are one outcome. Comparison of hashes (S 34-45) is comparison of the texts.
-/
namespace Verif.DApp
open Verif Verif.BtpAddress Verif.XCall

/-- What the contract is deployed with, and the form of its rollback data: J RollbackData.java:55-87 (`toBytes`, `fromBytes`, by the runtime's
`ObjectWriter` and `ObjectReader`), S 54 and 88 (`abi.encode`, `abi.decode`). -/
structure Cfg where
  /-- the call service on this chain -/
  X : XCall.Cfg
  /-- this contract's address as text -/
  self : Str
  /-- the texts that other chains can use for this contract's address -/
  isSelf : Str → Bool
  /-- network of this chain, address of the call service -/
  net : Str
  svc : Str
  enc : Nat → Bytes → Bytes
  dec : Bytes → Option (Nat × Bytes)

/-- J 36, 38-41, S 28-32: the call service's BTP address as text. -/
def own (C : Cfg) : Str := solCompose C.net C.svc

/-- The events of the contract, and the call of `sendCallMessage` with what is stored after it. -/
inductive Ev where
  | sent (id : Nat) (rollback : Bytes) (ssn : Nat)
  | message (src : Str) (data : Bytes)
  | rollback (src : Str) (ssn : Nat) (rollback : Bytes)
deriving DecidableEq

/-- J 35-36, S 13-20: the last id and the stored rollback data with the call's serial number; the call service beside it. -/
structure St where
  x : XCall.St
  lastId : Nat
  rbs : Nat → Option (Bytes × Nat)
  log : List Ev

mutual
/-- What happens on the chain. `base` are calls of the call service that run no other contract. -/
inductive Op where
  | base (op : XCall.Op)
  | send (to : Str) (data : Bytes) (rollback : Option Bytes) (value : Nat) (relayFee : Option Nat) (nsn : Option Int)
  | handle (caller src : Str) (data : Bytes)
  | exec (id : Int) (inner : Ops) (out : Outcome) (nsn : Option Int)
  | undo (sn : Int) (inner : Ops) (out : Outcome)
inductive Ops where
  | nil
  | cons (op : Op) (t : Ops)
end

/-- Calls of the service by others that run no contract. -/
def plain (C : Cfg) : XCall.Op → Bool
  | .send caller _ _ _ _ _ _ _ => decide (caller ≠ C.self)
  | .exec _ _ _ _ => false
  | .undo _ _ _ => false
  | _ => true

/-- J 56-72, S 47-69 `sendMessage`. The numbers are checked on the EVM (S 53). -/
def sendMessage (C : Cfg) (s : St) (to : Str) (data : Bytes) (rb : Option Bytes) (value : Nat) (fee : Option Nat) (nsn : Option Int) :
    Option St :=
  if present C.X.lang rb = true then
    (next C.X.lang s.lastId).bind (fun id =>
      (XCall.send C.X s.x C.self true to data (some (C.enc id (rb.getD []))) value fee nsn).map (fun x =>
        { x := x, lastId := id, rbs := fun k => if k = id then some (rb.getD [], x.sn) else s.rbs k,
          log := s.log ++ [.sent id (rb.getD []) x.sn] }))
  else (XCall.send C.X s.x C.self true to data none value fee nsn).map (fun x => { s with x := x })

/-- "revertMessage" -/
def revertText : Bytes := [0x72, 0x65, 0x76, 0x65, 0x72, 0x74, 0x4d, 0x65, 0x73, 0x73, 0x61, 0x67, 0x65]

/-- J 95, S 89: what is stored under an id; an id that is not stored fails on ICON and is empty data with number 0 on the EVM. -/
def stored (l : Lang) (o : Option (Bytes × Nat)) : Option (Bytes × Nat) :=
  match l with
  | .java => o
  | .sol => some (o.getD ([], 0))

/-- J 84-113, S 77-102 `handleCallMessage`; `none` is a revert. J RollbackData.java:89-112 compares the data only. -/
def handle (C : Cfg) (caller src : Str) (data : Bytes) (s : St) : Option St :=
  if caller ≠ C.svc then none
  else if src = own C then
    match C.dec data with
    | none => none
    | some (id, r) =>
      match stored C.X.lang (s.rbs id) with
      | none => none
      | some (b, ssn) =>
        if r = b then some { s with rbs := fun k => if k = id then none else s.rbs k, log := s.log ++ [.rollback src ssn r] } else none
  else if data = revertText then none
  else some { s with log := s.log ++ [.message src data] }

/-- A contract called by the call service: this one, or another one. `none` is a revert. -/
def call (C : Cfg) (mine : Bool) (src : Str) (data : Bytes) (out : Outcome) (other : St → St) (s : St) : Option St :=
  if mine = true then handle C C.svc src data s
  else if committed out = true then some (other s) else none

/-- How the call ended, for the call service. -/
def outcome (mine : Bool) (out : Outcome) (o : Option St) : Outcome :=
  match mine, o with
  | true, some _ => .ok
  | true, none => .failed
  | false, _ => out

mutual
/-- One transaction; `none` is a revert. -/
def step (C : Cfg) : Op → St → Option St
  | .base op, s => if plain C op = true then (XCall.step C.X op s.x).map (fun x => { s with x := x }) else none
  | .send to data rb value fee nsn, s => sendMessage C s to data rb value fee nsn
  | .handle caller src data, s => if caller = C.svc then none else handle C caller src data s
  | .exec id inner out nsn, s =>
    match execStart C.X s.x id with
    | none => none
    | some (r, net, x1) =>
      let o := call C (C.isSelf r.dst) r.src r.data out (run C inner) { s with x := x1 }
      let s2 := o.getD { s with x := x1 }
      (execEnd C.X s2.x id r net (outcome (C.isSelf r.dst) out o) nsn).map (fun x => { s2 with x := x })
  | .undo sn inner out, s =>
    match s.x.reqs sn, undoStart s.x sn with
    | some q, some x1 =>
      let mine := decide (q.src = C.self)
      let o := call C mine (own C) (q.rollback.getD []) out (run C inner) { s with x := x1 }
      let s2 := o.getD { s with x := x1 }
      some { s2 with x := { s2.x with log := s2.x.log ++ [.undone sn (respCode C.X.lang (outcome mine out o))] } }
    | _, _ => none
/-- A history; reverted transactions change nothing. -/
def run (C : Cfg) : Ops → St → St
  | .nil, s => s
  | .cons op t, s =>
    match step C op s with
    | none => run C t s
    | some s' => run C t s'
end

/-- The contracts after deployment. -/
def init (bal : Nat) : St := ⟨XCall.init bal, 0, fun _ => none, []⟩

/-! ### the form of the data on the EVM -/

/-- A uint256 as 32 bytes. -/
def word (n : Nat) : Bytes := (List.range 32).map (fun i => UInt8.ofNat (n / 256 ^ (31 - i)))

/-- `abi.encode(id, rollback)` (S 54): id, offset 64, length, the bytes filled up to a multiple of 32. -/
def abiEncode (id : Nat) (b : Bytes) : Bytes :=
  word id ++ word 64 ++ word b.length ++ b ++ List.replicate ((32 - b.length % 32) % 32) 0

def wordAt (d : Bytes) (i : Nat) : Nat := ((d.drop i).take 32).foldl (fun a c => a * 256 + c.toNat) 0

/-- `abi.decode(data, (uint256, bytes))` (S 88), with the compiler's checks. -/
def abiDecode (d : Bytes) : Option (Nat × Bytes) :=
  if d.length < 64 then none
  else
    let o := wordAt d 32
    if 2 ^ 64 ≤ o ∨ d.length ≤ o + 31 then none
    else
      let n := wordAt d o
      if 2 ^ 64 ≤ n ∨ d.length < o + 32 + n then none else some (wordAt d 0, (d.drop (o + 32)).take n)

end Verif.DApp
