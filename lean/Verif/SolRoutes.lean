import Verif.SolBmc
/-!
Model of the Solidity BMC's management contract: /repo/solidity/bmc/contracts/BMCManagement.sol with libraries/Utils.sol.

* Strings and addresses are compared by value; the zero address is 0. `na` is `BTPAddress.networkAddress` (modelled in
  `BtpAddress`), `none` for its revert.
* Storage mappings are functions with the default value for absent keys.
* Fee values are unsigned, so the check `_value[i][j] >= 0` (line 431) is always true and left out.
* Calls to the periphery (`sendInternal`, `clearSeq`) are appended to the ghost list `out`; they are taken not to revert (they
  do not for link addresses that parse). `added` is a ghost field: relays added to a link since it was last removed.
* `dropMessage` is part of `SolBmc`.
-/
namespace Verif.SolRoutes
open Verif
open Verif.SolBmc (upd)

/-- Utils.sol:9-21, 34-45: the loop: the first occurrence is overwritten with the last element and the last element dropped. -/
def swapRemove {α : Type} [DecidableEq α] : List α → α → List α
  | [], _ => []
  | a :: t, x =>
    if a = x then
      match t.getLast? with
      | none => []
      | some z => z :: t.dropLast
    else a :: swapRemove t x

/-- Utils.sol:9-21 `removeFromStrings`, 34-45 `removeFromAddresses`; `none` is the revert of `arr.length - 1` on an empty array. -/
def remove {α : Type} [DecidableEq α] (l : List α) (x : α) : Option (List α) := if l = [] then none else some (swapRemove l x)

/-- Types.sol:21-24. -/
inductive RT where
  | none
  | link
  | reachable
  | manual
deriving DecidableEq, Repr

/-- Types.sol:48-53 (`dst` repeats the key and is left out). -/
structure RI where
  next : String
  reachable : Nat
  type : RT
deriving DecidableEq, Repr

def RI.empty : RI := ⟨"", 0, .none⟩

/-- Messages to the message center at the other end of a link (BMCManagement.sol:224-229, 264-266; types `BMC_INTERNAL_INIT`, `_LINK`, `_UNLINK`);
    their encoding is in `SolRlp`. -/
inductive Ann where
  | init (links : List String)
  | link (l : String)
  | unlink (l : String)
deriving DecidableEq, Repr

/-- Calls to the periphery. -/
inductive Out where
  | internal (link : String) (a : Ann)
  | clear (link : String)
deriving DecidableEq, Repr

/-- BMCManagement.sol:31-45. `isLink l` is whether `linkMap[l].btpAddress` is not empty, `reach l` is `linkMap[l].reachable`. -/
structure St where
  owners : Nat → Bool
  numOwner : Nat
  bmv : String → Nat
  bsh : String → Nat
  bmvKeys : List String
  bshKeys : List String
  isLink : String → Bool
  reach : String → List String
  links : List String
  relays : String → List Nat
  route : String → RI
  routes : List String
  fee : String → List Nat
  out : List Out
  added : String → List Nat

/-- BMCManagement.sol:59-63 `initialize`. -/
def init (creator : Nat) : St where
  owners := fun a => decide (a = creator)
  numOwner := 1
  bmv := fun _ => 0
  bsh := fun _ => 0
  bmvKeys := []
  bshKeys := []
  isLink := fun _ => false
  reach := fun _ => []
  links := []
  relays := fun _ => []
  route := fun _ => RI.empty
  routes := []
  fee := fun _ => []
  out := []
  added := fun _ => []

variable (na : String → Option String)

/-- BMCManagement.sol:120-128 `addOwner`. -/
def addOwner (s : St) (a : Nat) : Option St :=
  if a = 0 then none
  else if s.owners a then none
  else some { s with owners := upd s.owners a true, numOwner := s.numOwner + 1 }

/-- BMCManagement.sol:130-138 `removeOwner`. -/
def removeOwner (s : St) (a : Nat) : Option St :=
  if ¬ s.owners a then none
  else if s.numOwner > 1 then some { s with owners := upd s.owners a false, numOwner := s.numOwner - 1 }
  else none

/-- BMCManagement.sol:146-157 `addService`. -/
def addService (s : St) (svc : String) (a : Nat) : Option St :=
  if a = 0 then none
  else if s.bsh svc ≠ 0 then none
  else some { s with bsh := upd s.bsh svc a, bshKeys := s.bshKeys ++ [svc] }

/-- BMCManagement.sol:159-166 `removeService`. -/
def removeService (s : St) (svc : String) : Option St :=
  if s.bsh svc = 0 then none
  else match remove s.bshKeys svc with
    | none => none
    | some k => some { s with bsh := upd s.bsh svc 0, bshKeys := k }

/-- BMCManagement.sol:182-191 `addVerifier`. -/
def addVerifier (s : St) (net : String) (a : Nat) : Option St :=
  if a = 0 then none
  else if s.bmv net ≠ 0 then none
  else some { s with bmv := upd s.bmv net a, bmvKeys := s.bmvKeys ++ [net] }

/-- BMCManagement.sol:193-200 `removeVerifier`. -/
def removeVerifier (s : St) (net : String) : Option St :=
  if s.bmv net = 0 then none
  else match remove s.bmvKeys net with
    | none => none
    | some k => some { s with bmv := upd s.bmv net 0, bmvKeys := k }

/-- BMCManagement.sol:325-340 `_addRouteInfo`. -/
def addRouteInfo (s : St) (dst link : String) (t : RT) : St :=
  let s1 := if (s.route dst).type = .none then { s with route := upd s.route dst ⟨link, 0, t⟩, routes := s.routes ++ [dst] } else s
  if t = .reachable then
    { s1 with route := upd s1.route dst { s1.route dst with reachable := (s1.route dst).reachable + 1 } }
  else if t = .manual then
    { s1 with route := upd s1.route dst { s1.route dst with type := .manual, next := link } }
  else s1

/-- BMCManagement.sol:362-366: the inner loop; `none` is the revert of `networkAddress`. -/
def findNet (dst : String) : List String → Option Bool
  | [] => some false
  | r :: t => match na r with
    | none => none
    | some n => if n = dst then some true else findNet dst t

/-- BMCManagement.sol:356-369 `_resolveNextInReachable`; `none` is a revert. -/
def resolveReach (reach : String → List String) (dst : String) : List String → Option String
  | [] => none
  | l :: t => match findNet na dst (reach l) with
    | none => none
    | some true => some l
    | some false => resolveReach reach dst t

/-- BMCManagement.sol:371-391 `_removeRouteInfo`; `none` is a revert (`reachable--` below zero, no other link, empty list). -/
def removeRouteInfo (s : St) (dst : String) (reachable : Bool) (link : String) : Option St :=
  if reachable ∧ (s.route dst).reachable = 0 then none
  else
    let s1 := if reachable then { s with route := upd s.route dst { s.route dst with reachable := (s.route dst).reachable - 1 } } else s
    if (s1.route dst).reachable > 0 then
      let s2? := if ¬ reachable ∨ (s1.route dst).next = link then
          (resolveReach na s1.reach dst s1.links).map (fun n => { s1 with route := upd s1.route dst { s1.route dst with next := n } })
        else some s1
      match s2? with
      | none => none
      | some s2 =>
        if ¬ reachable then some { s2 with route := upd s2.route dst { s2.route dst with type := .reachable } } else some s2
    else
      match remove s1.routes dst with
      | none => none
      | some r => some { s1 with routes := r, route := upd s1.route dst RI.empty, fee := upd s1.fee dst [] }

/-- BMCManagement.sol:277-283 `propagateInternal`. -/
def propagate (s : St) (a : Ann) : St := { s with out := s.out ++ s.links.map (Out.internal · a) }

/-- BMCManagement.sol:216-236 `addLink`. -/
def addLink (s : St) (link : String) : Option St :=
  match na link with
  | none => none
  | some net =>
    if (s.route net).type = .link then none
    else if s.bmv net = 0 then none
    else
      let s1 := propagate s (.link link)
      let s2 := { s1 with isLink := upd s1.isLink link true, reach := upd s1.reach link [], links := s1.links ++ [link] }
      let s3 := addRouteInfo s2 net link .link
      some { s3 with out := s3.out ++ [.internal link (.init s.links)] }

/-- BMCManagement.sol:254-256: the loop over the link's reachable networks. -/
def removeAll (link : String) : List String → St → Option St
  | [], s => some s
  | r :: t, s => match na r with
    | none => none
    | some n => match removeRouteInfo na s n true link with
      | none => none
      | some s1 => removeAll link t s1

/-- BMCManagement.sol:238-267 `removeLink`. -/
def removeLink (s : St) (link : String) : Option St :=
  if ¬ s.isLink link then none
  else if s.routes.any (fun d => decide ((s.route d).type = .manual ∧ (s.route d).next = link)) then none
  else match na link with
    | none => none
    | some net => match removeRouteInfo na s net false "" with
      | none => none
      | some s1 => match remove s1.links link with
        | none => none
        | some ls => match removeAll na link (s1.reach link) { s1 with links := ls } with
          | none => none
          | some s2 =>
            some (propagate { s2 with
              isLink := upd s2.isLink link false
              reach := upd s2.reach link []
              relays := upd s2.relays link []
              added := upd s2.added link []
              out := s2.out ++ [.clear link] } (.unlink link))

/-- BMCManagement.sol:292-301 `addRelay`. -/
def addRelay (s : St) (link : String) (a : Nat) : Option St :=
  if a = 0 then none
  else if ¬ s.isLink link then none
  else if a ∈ s.relays link then none
  else some { s with relays := upd s.relays link (s.relays link ++ [a]), added := upd s.added link (s.added link ++ [a]) }

/-- BMCManagement.sol:303-314 `removeRelay`. -/
def removeRelay (s : St) (link : String) (a : Nat) : Option St :=
  if ¬ s.isLink link then none
  else if a ∉ s.relays link then none
  else match remove (s.relays link) a with
    | none => none
    | some l => some { s with relays := upd s.relays link l }

/-- BMCManagement.sol:342-354 `addRoute`; both arguments are network addresses. -/
def addRoute (s : St) (dst link : String) : Option St :=
  if dst = link then none
  else if (s.route dst).type = .manual then none
  else if (s.route link).type ≠ .link then none
  else some (addRouteInfo s dst (s.route link).next .manual)

/-- BMCManagement.sol:393-399 `removeRoute`. -/
def removeRoute (s : St) (dst : String) : Option St :=
  if (s.route dst).type ≠ .manual then none else removeRouteInfo na s dst false ""

/-- BMCManagement.sol:595-604 `_resolveNext`; `none` is a revert. -/
def resolveNext (s : St) (dst : String) : Option String := if (s.route dst).type ≠ .none then some (s.route dst).next else none

/-- BMCManagement.sol:421-443 `setFeeTable`, one entry. -/
def setFee (s : St) (dst : String) (v : List Nat) : Option St :=
  if v.length > 0 then
    if v.length % 2 ≠ 0 then none
    else if v.length = 2 ∧ (s.route dst).type ≠ .link then none
    else if v.length ≠ 2 ∧ (resolveNext s dst).isNone then none
    else some { s with fee := upd s.fee dst v }
  else some { s with fee := upd s.fee dst [] }

/-- BMCManagement.sol:614-621 `addReachable` (called by the service contract). -/
def addReachable (s : St) (from_ r : String) : Option St :=
  match na r with
  | none => none
  | some n =>
    let l := (s.route from_).next
    some (addRouteInfo { s with reach := upd s.reach l (s.reach l ++ [r]) } n l .reachable)

/-- BMCManagement.sol:623-630 `removeReachable` (called by the service contract). -/
def removeReachable (s : St) (from_ r : String) : Option St :=
  let l := (s.route from_).next
  match remove (s.reach l) r with
  | none => none
  | some rs =>
    match na r with
    | none => none
    | some n => removeRouteInfo na { s with reach := upd s.reach l rs } n true l

/-- BMCManagement.sol:585-593 `isLinkRelay`; `none` is a revert. -/
def isLinkRelay (s : St) (link : String) (a : Nat) : Option Bool := if s.isLink link then some (decide (a ∈ s.relays link)) else none

/-- Calls; the first four fields of the owner calls need an owner (`requireOwnerAccess`, lines 48-51). -/
inductive Op where
  | addOwner (a : Nat)
  | removeOwner (a : Nat)
  | addService (svc : String) (a : Nat)
  | removeService (svc : String)
  | addVerifier (net : String) (a : Nat)
  | removeVerifier (net : String)
  | addLink (link : String)
  | removeLink (link : String)
  | addRelay (link : String) (a : Nat)
  | removeRelay (link : String) (a : Nat)
  | addRoute (dst link : String)
  | removeRoute (dst : String)
  | setFee (dst : String) (v : List Nat)
  | addReachable (from_ r : String)
  | removeReachable (from_ r : String)

/-- A call by an owner or (the last two) by the service contract; `none` is a revert. -/
def act (s : St) : Op → Option St
  | .addOwner a => SolRoutes.addOwner s a
  | .removeOwner a => SolRoutes.removeOwner s a
  | .addService svc a => SolRoutes.addService s svc a
  | .removeService svc => SolRoutes.removeService s svc
  | .addVerifier net a => SolRoutes.addVerifier s net a
  | .removeVerifier net => SolRoutes.removeVerifier s net
  | .addLink link => SolRoutes.addLink na s link
  | .removeLink link => SolRoutes.removeLink na s link
  | .addRelay link a => SolRoutes.addRelay s link a
  | .removeRelay link a => SolRoutes.removeRelay s link a
  | .addRoute dst link => SolRoutes.addRoute s dst link
  | .removeRoute dst => SolRoutes.removeRoute na s dst
  | .setFee dst v => SolRoutes.setFee s dst v
  | .addReachable f r => SolRoutes.addReachable na s f r
  | .removeReachable f r => SolRoutes.removeReachable na s f r

def Op.byService : Op → Bool
  | .addReachable _ _ => true
  | .removeReachable _ _ => true
  | _ => false

/-- A call with its sender; `service` is the service contract's address. -/
def call (service : Nat) (s : St) (sender : Nat) (o : Op) : Option St :=
  if o.byService then (if sender = service then act na s o else none)
  else if s.owners sender then act na s o else none

def run (service creator : Nat) (ops : List (Nat × Op)) : St :=
  ops.foldl (fun s o => (call na service s o.1 o.2).getD s) (init creator)

end Verif.SolRoutes
