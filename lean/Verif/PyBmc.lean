import Verif.PyDb
import Verif.PyRlp
import Verif.PyAddr
/-!
Model of the message center of the Python contracts: /repo/pyscore/bmc (bmc.py, link.py, message.py, permission.py, relay.py,
relayer.py, route.py), without the read-only queries.

* The dictionaries (lib/icon/db.py) are lists of key and value in the order of the keys. By C112 the class is such a map when every
  transaction has an instance of its own, keys are longer than one character and a call does not remove what it has added itself.
  A key with a comma is refused (`keyOk`). The values of one property object are the fields of a structure (C114).
* Account addresses are natural numbers; their texts are distinct, without comma and longer than one character.
* A BTP address that is a key is its text; `link.addr` is the address read from the key, and writing it gives the key again
  (C117_text_back).
* Contracts called by the message center see and leave the same state (one instance for the whole transaction); a call of another
  contract that fails leaves no trace. An exception that leaves an external method undoes the whole call: `none`.
* A verifier is an arbitrary relation: what it may return for a link and a sequence number. It does not call back.
* The service called for a message returns, or fails with an exception that `except BTPException` catches (`btp`), or with another one.
* `ceil(max_aggregation / (src / dst))` and `ceil(d / (src / dst))` are floating point: `Cfg.term`, `Cfg.ahead`. `ceil(a / b)` of
  integers is exact (that is so up to 2^53).
* `sack_term` is 0 and nothing sets it, so lines 627-629 of bmc.py never apply and are left out.
* `gen` of a link and of the log, `names` and `disp` are ghost: nothing reads them except the comparison of `gen` at the end of a
  relay call, which tells whether the link object is still the stored one.
-/
namespace Verif.PyBmc
open Verif Verif.BtpAddress
open Verif.PyRlp (Val Obj T)

/-! ### Dictionaries -/
section
variable {K V : Type} [DecidableEq K]

/-- db.py:232-234 `__getitem__` and 240-242 `__contains__`. -/
def get : List (K × V) → K → Option V
  | [], _ => none
  | (k', v) :: t, k => if k' = k then some v else get t k

/-- db.py:225-230 `__setitem__`: in place, or at the end. -/
def put : List (K × V) → K → V → List (K × V)
  | [], k, v => [(k, v)]
  | (k', v') :: t, k, v => if k' = k then (k, v) :: t else (k', v') :: put t k v

/-- db.py:111-117, 190-212 `remove`: the order of the others stays. -/
def del : List (K × V) → K → List (K × V)
  | [], _ => []
  | (k', v) :: t, k => if k' = k then t else (k', v) :: del t k
end

/-- db.py:214-216 `remove_all`: every second entry stays (C113_every_second_stays). -/
def odds {A : Type} : List A → List A
  | [] => []
  | [_] => []
  | _ :: b :: l => b :: odds l

/-- db.py:102-105: a key with a comma cannot be added. -/
def keyOk (k : Str) : Bool := !k.contains ','

/-! ### Data -/

/-- link.py:31-63, except `relays` (kept in `St.relays`: it survives the removal of the link), `next_relays_remove` (always empty:
  only `remove_relay` fills it, see `Op.removeRelay`) and `sack_term`, `sack_next` (always 0). -/
structure Link where
  rx : Nat
  tx : Nat
  srcI : Int
  dstI : Int
  maxAgg : Int
  delay : Int
  idx : Nat
  rotH : Int
  rxH : Int
  rxHS : Int
  nextH : Int
  nextTerm : Int
  sack : Option Int × Option Int
  reach : List Str
  add : List Nat
  gen : Nat
deriving DecidableEq

/-- relay.py:21-29. -/
structure Relay where
  blocks : Int
  msgs : Int
deriving DecidableEq

/-- message.py:19-25: fields may be null. -/
structure Msg where
  src : Option PyAddr.Addr
  dst : Option PyAddr.Addr
  svc : Option Bytes
  sn : Option Int
  payload : Option Bytes
deriving DecidableEq

inductive Event where
  /-- bmc.py:649-661 `Message`; `gen` is ghost -/
  | message (gen : Nat) (next : Str) (seq : Nat) (b : Bytes)
  /-- bmc.py:664-676 `ErrorOnBTPError`; `code` is the code of the exception -/
  | onError (svc : Option Bytes) (sn : Int) (code : Int)
deriving DecidableEq

structure St where
  access : Bool
  perms : List (Nat × List Str)
  services : List (Str × Nat)
  verifiers : List (Str × Nat)
  links : List (Str × Link)
  /-- by link text -/
  relays : Str → List (Nat × Relay)
  routes : List (Str × Str)
  relayers : List (Nat × Str)
  /-- relayer.py:27: by relayer -/
  owned : Nat → List (Str × Nat)
  log : List Event
  /-- ghost: generation of the link, number, message -/
  disp : List (Nat × Nat × Bytes)
  /-- ghost: texts of the links ever added, by generation -/
  names : List Str

/-- What a verifier returns (bmc.py:590-595): its height before, height and last height after; the messages are in the call. -/
structure Verdict where
  before : Int
  height : Int
  last : Int
deriving DecidableEq

structure Cfg where
  /-- the own address (bmc.py:59) -/
  me : PyAddr.Addr
  owner : Nat
  valid : Bytes → Bool
  text : Bytes → Str
  utf8 : Str → Bytes
  alnum : Str → Bool
  /-- `ceil(max_agg / (src / dst))`: arguments src, dst, max_agg -/
  term : Int → Int → Int → Int
  /-- `ceil(d / (src / dst))`: arguments src, dst, d -/
  ahead : Int → Int → Int → Int
  verify : Nat → Str → Nat → Verdict → List Bytes → Bool

/-- Who calls: `msg.sender`, `tx.origin`, `block_height`. -/
structure Ctx where
  sender : Nat
  origin : Nat
  height : Int
deriving DecidableEq

def initSt : St := ⟨false, [], [], [], [], fun _ => [], [], [], fun _ => [], [], [], []⟩

/-- The network part of an address that is a key; `none` is an exception. -/
def netOf (k : Str) : Option Str := (PyAddr.fromString k).map (·.net)

/-! ### Messages -/

def strOf : Val → Option Bytes
  | .str b => some b
  | _ => none
def intOf : Val → Option Int
  | .int v => some v
  | _ => none
def bytesOf : Val → Option Bytes
  | .bytes b => some b
  | _ => none
def strObj : Option Bytes → Obj
  | some b => .str b
  | none => .none

def sNone : Str := ['N', 'o', 'n', 'e']
def bEvent : Bytes := [0x5f, 0x65, 0x76, 0x65, 0x6e, 0x74]
def bSack : Bytes := [0x5f, 0x73, 0x61, 0x63, 0x6b]
def bLink : Bytes := [0x4c, 0x69, 0x6e, 0x6b]
def bUnlink : Bytes := [0x55, 0x6e, 0x6c, 0x69, 0x6e, 0x6b]

variable (c : Cfg)

/-- btp_address.py:114-125 on a field that may be null: null stays null. -/
def addrOf : Val → Option (Option PyAddr.Addr)
  | .none => some none
  | .str b => (PyAddr.fromString (c.text b)).map some
  | _ => none

/-- message.py:31-39 `BTPMessage.from_bytes`; `none` is an exception. -/
def readMsg (b : Bytes) : Option Msg :=
  match PyRlp.decode c.valid (.struct [.str, .str, .str, .int, .bytes]) b with
  | some (.list [s, d, v, n, p]) =>
    (addrOf c s).bind fun src => (addrOf c d).map fun dst => ⟨src, dst, strOf v, intOf n, bytesOf p⟩
  | _ => none

/-- message.py:27-29 `to_bytes`; `str(None)` is "None". -/
def writeMsg (src : PyAddr.Addr) (dst : Option PyAddr.Addr) (svc : Option Bytes) (sn : Int) (payload : Bytes) : Bytes :=
  PyRlp.encode (.list [.str (c.utf8 src.toStr), .str (c.utf8 ((dst.map (·.toStr)).getD sNone)), strObj svc, .int sn, .bytes payload])

/-- message.py:47-49. -/
def writeError (code : Int) (m : Bytes) : Bytes := PyRlp.encode (.list [.int code, .str m])

/-- message.py:51-56: whether `ErrorMessage.from_bytes` returns. -/
def errorOk (p : Option Bytes) : Bool :=
  match p.bind (PyRlp.decode c.valid (.struct [.int, .str])) with
  | some (.list [_, _]) => true
  | _ => false

/-- message.py:64-66. -/
def writeEvent (evt : Bytes) (values : List Str) : Bytes := PyRlp.encode (.list [.str evt, .list (values.map fun v => .str (c.utf8 v))])

/-- message.py:68-73 `EventMessage.from_bytes`. -/
def readEvent (p : Option Bytes) : Option (Option Bytes × List (Option Bytes)) :=
  match p.bind (PyRlp.decode c.valid (.struct [.str, .each .str])) with
  | some (.list [e, .list vs]) => some (strOf e, vs.map strOf)
  | _ => none

/-- message.py:85-90 `SACKMessage.from_bytes`. -/
def readSack (p : Option Bytes) : Option (Option Int × Option Int) :=
  match p.bind (PyRlp.decode c.valid (.struct [.int, .int])) with
  | some (.list [h, q]) => some (intOf h, intOf q)
  | _ => none

/-! ### Permissions -/

/-- bmc.py:86-97 `_has_permission`. An empty list of permissions is stored as "" and read back as None (permission.py:72-75). -/
def allowed (s : St) (x : Ctx) (api : Str) : Bool :=
  !s.access ||
    match get s.perms x.sender with
    | some l => l.contains api
    | none => match get s.perms x.origin with
      | some l => l.contains api
      | none => false

/-- permission.py:20-29. -/
def apis : List Str := ["addPermission", "removePermission", "addService", "removeService", "addVerifier", "removeVerifier",
  "addLink", "removeLink", "addRoute", "removeRoute", "addRelayer", "removeRelayer", "addRelay", "removeRelay", "renewRelay",
  "sendMessage"].map String.toList

/-- permission.py:47-53, 71-82 `from_string_with_validation`; the text of the argument is cut at commas. -/
def parsePerm (a : Str) : Option (List Str) :=
  if a = [] then none
  else if (PyDb.split a).all (fun p => apis.contains p) then some (PyDb.split a) else none

/-- permission.py:55-58 `merge`. -/
def mergePerm : List Str → List Str → List Str
  | l, [] => l
  | l, a :: t => mergePerm (if l.contains a then l else l ++ [a]) t

/-- permission.py:60-63 `remove`: one occurrence for each. -/
def removePerm : List Str → List Str → List Str
  | l, [] => l
  | l, a :: t => removePerm (l.erase a) t

/-- bmc.py:99-108 `addPermission` after the check. -/
def addPermission (s : St) (a : Nat) (p : Str) : Option St :=
  match parsePerm p with
  | none => none
  | some l => match get s.perms a with
    | none => some { s with perms := put s.perms a l }
    | some [] => none
    | some org => some { s with perms := put s.perms a (mergePerm org l) }

/-- bmc.py:110-119 `removePermission` after the check. -/
def removePermission (s : St) (a : Nat) (p : Str) : Option St :=
  match parsePerm p with
  | none => none
  | some l => match get s.perms a with
    | none => none
    | some [] => none
    | some org => some { s with perms := put s.perms a (removePerm org l) }

/-! ### Sending -/

/-- bmc.py:560-563 `_send_message`; `none`: no such link. -/
def send (s : St) (to : Str) (b : Bytes) : Option St :=
  match get s.links to with
  | none => none
  | some l => some { s with links := put s.links to { l with tx := l.tx + 1 }, log := s.log ++ [.message l.gen to (l.tx + 1) b] }

/-- bmc.py:565-570 `_send_error`; `none` is an exception other than BTPException. -/
def sendError (s : St) (prev : Str) (m : Msg) (code : Int) (t : Bytes) : Option St :=
  match m.sn with
  | none => none
  | some sn => if sn = 0 then some s else send s prev (writeMsg c c.me m.src m.svc (sn * -1) (writeError code t))

/-- bmc.py:430-435 `_propagate_event`: over the keys of the links. -/
def propagate (evt : Bytes) (values : List Str) : List Str → St → Option St
  | [], s => some s
  | t :: ts, s => match PyAddr.fromString t with
    | none => none
    | some dst => (send s t (writeMsg c c.me (some dst) (some bEvent) 0 (writeEvent c evt values))).bind (propagate evt values ts)

/-! ### Routes -/

/-- Results of functions that may raise: a BTPException with its code, or another exception. -/
inductive R (α : Type) where
  | ok (a : α)
  | btp (code : Int)
  | other
deriving DecidableEq

/-- route.py:29-33: the first key with this network; a key that is no address raises. -/
def routeLoop (net : Str) : List (Str × Str) → R (Option Str)
  | [] => .ok none
  | (k, v) :: t => match netOf k with
    | none => .other
    | some n => if n = net then .ok (some v) else routeLoop net t

/-- route.py:25-33 `resolve`; the address stored was read from an argument of `addRoute`. -/
def routeOf (s : St) (net : Str) : R (Option Str) :=
  match get s.routes net with
  | some v => .ok (some v)
  | none => routeLoop net s.routes

/-- bmc.py:508-512: the first link to the network. -/
def linkLoop (net : Str) : List (Str × Link) → R (Option Str)
  | [] => .ok none
  | (k, _) :: t => match netOf k with
    | none => .other
    | some n => if n = net then .ok (some k) else linkLoop net t

/-- bmc.py:515-517: whether a text in the list has the network. -/
def reachAny (net : Str) : List Str → R Bool
  | [] => .ok false
  | r :: t => match netOf r with
    | none => .other
    | some n => if n = net then .ok true else reachAny net t

/-- bmc.py:513-518: the first link that reaches the network. -/
def reachLoop (net : Str) : List (Str × Link) → R (Option Str)
  | [] => .ok none
  | (k, l) :: t => match reachAny net l.reach with
    | .ok true => .ok (some k)
    | .ok false => reachLoop net t
    | .btp e => .btp e
    | .other => .other

/-- bmc.py:504-521 `_resolve_route`: the text of the link, which is also the destination written into messages; UNREACHABLE is
  9 + 10. A route over a link that does not exist gives None for the link, which raises at the next use. -/
def resolve (s : St) (net : Str) : R Str :=
  match routeOf s net with
  | .btp e => .btp e
  | .other => .other
  | .ok (some v) => if (get s.links v).isSome then .ok v else .other
  | .ok none => match linkLoop net s.links with
    | .btp e => .btp e
    | .other => .other
    | .ok (some k) => .ok k
    | .ok none => match reachLoop net s.links with
      | .btp e => .btp e
      | .other => .other
      | .ok (some k) => .ok k
      | .ok none => .btp 19

/-- bmc.py:631-647 `sendMessage` after the check of the permission. -/
def sendMessage (s : St) (net : Str) (svc : Bytes) (sn : Int) (payload : Bytes) : Option St :=
  if sn < 0 then none
  else match resolve s net with
    | .ok k => (PyAddr.fromString k).bind fun dst => send s k (writeMsg c c.me (some dst) (some svc) sn payload)
    | _ => none

/-! ### Relays -/

/-- link.py:22-23 `ceil(a / b)` of integers: `-(-a // b)`. -/
def ceilDiv (a b : Int) : Int := -((-a).fdiv b)

/-- link.py:70-75 `rotate_term` with 65-68 `_scale`. -/
def rotateTerm (l : Link) : Int := if l.srcI < 1 ∨ l.dstI < 1 then 0 else c.term l.srcI l.dstI l.maxAgg

/-- link.py:77-84 `_rotate`; `none`: no relays, or the index is out of range. -/
def rotateBy (rs : List Nat) (l : Link) (count base : Int) : Option (Link × Nat) :=
  let l1 := if rotateTerm c l > 0 ∧ count > 0 then { l with rotH := base + rotateTerm c l, idx := l.idx + count.toNat } else l
  let turned := rotateTerm c l > 0 ∧ count > 0 ∧ rs.length ≤ l1.idx
  if turned ∧ rs.length = 0 then none
  else
    let l2 := if turned then { l1 with idx := l1.idx % rs.length } else l1
    (rs[l2.idx]?).map fun a => (l2, a)

/-- link.py:90-92: the height at which the messages should have come. -/
def guess (l : Link) (cur msgH : Int) : Int := min (l.rxH + c.ahead l.srcI l.dstI (msgH - l.rxHS) - 1) cur

/-- link.py:93-100 with messages: how often to rotate, and the base height. -/
def counts (l : Link) (cur msgH : Int) : Int × Int :=
  let g := guess c l cur msgH
  let n := max (ceilDiv (g - l.rotH) (rotateTerm c l)) 0
  let skip := ceilDiv (cur - g) l.delay - 1
  if skip > 0 then (n + skip, cur) else (n, l.rotH + (n - 1) * rotateTerm c l)

/-- link.py:86-109 `rotate`: the relay whose turn it is, `none` inside if there is no rotation. -/
def rotate (rs : List Nat) (l : Link) (cur msgH : Int) (hasMsg : Bool) : Option (Link × Option Nat) :=
  if rotateTerm c l > 0 then
    if hasMsg then
      let x := counts c l cur msgH
      (rotateBy c rs { l with rxH := cur, rxHS := msgH } x.1 x.2).map fun y => (y.1, some y.2)
    else
      let n := ceilDiv (cur - l.rotH) (rotateTerm c l)
      (rotateBy c rs l n (l.rotH + (n - 1) * rotateTerm c l)).map fun y => (y.1, some y.2)
  else some (l, none)

/-- bmc.py:599-605: the relay that is paid for the call; `none`: the caller is not allowed. -/
def whose (rs : List (Nat × Relay)) (turn : Option Nat) (origin : Nat) : Option Relay :=
  match turn with
  | none => get rs origin
  | some a => if a = origin then get rs origin else none

/-- bmc.py:587-608: the part of a relay call before the messages are dispatched: text and generation of the link, its sequence
  number, the state. -/
def openRelay (x : Ctx) (s : St) (prev : Str) (v : Verdict) (msgs : List Bytes) : Option (Str × Nat × Nat × St) :=
  match PyAddr.fromString prev with
  | none => none
  | some a => match get s.links a.toStr with
    | none => none
    | some l => match get s.verifiers a.net with
      | none => none
      | some bmv =>
        if c.verify bmv a.toStr l.rx v msgs then
          match rotate c ((s.relays a.toStr).map (·.1)) l x.height v.last (decide (0 < msgs.length)) with
          | none => none
          | some (l1, turn) => match whose (s.relays a.toStr) turn x.origin with
            | none => none
            | some r =>
              let r1 : Relay := ⟨r.blocks + v.height - v.before, r.msgs + msgs.length⟩
              some (a.toStr, l.gen, l.rx, { s with
                links := put s.links a.toStr l1
                relays := PyDb.upd s.relays a.toStr (put (s.relays a.toStr) x.origin r1) })
        else none

/-- bmc.py:626: at the end the number is raised. On a link object that was removed meanwhile the number reads None: exception. -/
def closeRelay (s : St) (key : Str) (gen n : Nat) : Option St :=
  match get s.links key with
  | none => none
  | some l => if l.gen = gen then some { s with links := put s.links key { l with rx := l.rx + n } } else none

/-! ### Receiving -/

/-- bmc.py:437-442 `_on_link`; a null origin is text "None", which is no link. -/
def onLink (s : St) (values : List (Option Bytes)) : Option St :=
  match values with
  | f :: t :: _ => match f with
    | none => some s
    | some fb => match PyAddr.fromString (c.text fb) with
      | none => none
      | some a => match get s.links a.toStr with
        | none => some s
        | some l => match t with
          | none => none
          | some tb => if l.reach.contains (c.text tb) then some s
            else some { s with links := put s.links a.toStr { l with reach := l.reach ++ [c.text tb] } }
  | _ => none

/-- bmc.py:446-450 `_on_unlink`. -/
def onUnlink (s : St) (values : List (Option Bytes)) : Option St :=
  match values with
  | f :: t :: _ => match f with
    | none => some s
    | some fb => match PyAddr.fromString (c.text fb) with
      | none => none
      | some a => match get s.links a.toStr with
        | none => some s
        | some l => match t with
          | none => some s
          | some tb => some { s with links := put s.links a.toStr { l with reach := (PyDb.removeFromArray l.reach (c.text tb)).1 } }
  | _ => none

/-- What the called service does. -/
inductive Out where
  | done
  | btp (code : Int) (m : Bytes)
  | other
deriving DecidableEq

/-- bmc.py:528-537: an event of another message center; another event raises. -/
def handleEvent (s : St) (p : Option Bytes) : Option St :=
  match readEvent c p with
  | none => none
  | some (e, vs) => if e = some bLink then onLink c s vs else if e = some bUnlink then onUnlink c s vs else none

/-- bmc.py:538-542. -/
def handleSack (s : St) (prev : Str) (p : Option Bytes) : Option St :=
  match readSack c p with
  | none => none
  | some x => match get s.links prev with
    | none => none
    | some l => some { s with links := put s.links prev { l with sack := x } }

/-- bmc.py:543-558 and 131-135: the service called; NOT_EXISTS_BSH is 6 + 10. `call` is what the service does to the state. -/
def handleService (out : Out) (call : St → St) (s : St) (prev : Str) (m : Msg) : Option St :=
  let svc := match m.svc with
    | some b => c.text b
    | none => sNone
  match m.sn with
  | none => none
  | some sn =>
    if 0 ≤ sn then
      match get s.services svc with
      | none => sendError c s prev m 16 (c.utf8 "not exists service".toList)
      | some _ => match m.src with
        | none => none
        | some _ => match out with
          | .done => some (call s)
          | .btp code t => sendError c s prev m code t
          | .other => none
    else if errorOk c m.payload then
      match get s.services svc with
      | none => some { s with log := s.log ++ [.onError m.svc (sn * -1) 16] }
      | some _ => match out with
        | .done => some (call s)
        | .btp code _ => some { s with log := s.log ++ [.onError m.svc (sn * -1) code] }
        | .other => some { s with log := s.log ++ [.onError m.svc (sn * -1) 0] }
    else none

/-- bmc.py:526-558 `_handle_msg`. -/
def handleMsg (out : Out) (call : St → St) (s : St) (prev : Str) (m : Msg) : Option St :=
  if m.svc = some bEvent then handleEvent c s m.payload
  else if m.svc = some bSack then handleSack c s prev m.payload
  else handleService c out call s prev m

/-- bmc.py:620-625: a message for another network. -/
def forward (s : St) (prev : Str) (m : Msg) (b : Bytes) : Option St :=
  match m.dst with
  | none => none
  | some d => match resolve s d.net with
    | .ok k => send s k b
    | .btp code => sendError c s prev m code (c.utf8 ("unreachable ".toList ++ d.net))
    | .other => none

/-- bmc.py:611-625: one message; what cannot be read is passed over. -/
def item (out : Out) (call : St → St) (prev : Str) (gen seq : Nat) (s : St) (b : Bytes) : Option St :=
  let s := { s with disp := s.disp ++ [(gen, seq, b)] }
  match readMsg c b with
  | none => some s
  | some m =>
    if m.dst.map (·.toStr) = some c.me.toStr then handleMsg c out call s prev m else forward c s prev m b

/-! ### Calls -/

mutual
/-- External calls. -/
inductive Op where
  | setAccess (x : Ctx) (on : Bool)
  | addPermission (x : Ctx) (a : Nat) (p : Str)
  | removePermission (x : Ctx) (a : Nat) (p : Str)
  | addService (x : Ctx) (svc : Str) (a : Nat)
  | removeService (x : Ctx) (svc : Str)
  | addVerifier (x : Ctx) (net : Str) (a : Nat)
  | removeVerifier (x : Ctx) (net : Str)
  | addLink (x : Ctx) (link : Str)
  | removeLink (x : Ctx) (link : Str)
  /-- `vh` is the height of the verifier -/
  | setLink (x : Ctx) (link : Str) (interval maxAgg delay vh : Int)
  | addRoute (x : Ctx) (dst link : Str)
  | removeRoute (x : Ctx) (dst : Str)
  | addRelayer (x : Ctx) (a : Nat) (desc : Str)
  | removeRelayer (x : Ctx) (a : Nat)
  | addRelay (x : Ctx) (link : Str) (a : Nat)
  | removeRelay (x : Ctx) (link : Str) (a : Nat)
  | nextRelays (x : Ctx) (link : Str) (term : Int)
  | send (x : Ctx) (net : Str) (svc : Bytes) (sn : Int) (payload : Bytes)
  | relay (x : Ctx) (prev : Str) (v : Verdict) (items : Items)
/-- Messages of a relay call with what happens while each is handled. -/
inductive Items where
  | nil
  | cons (b : Bytes) (out : Out) (acts : Ops) (rest : Items)
/-- Calls made by a called contract, one after the other. -/
inductive Ops where
  | nil
  | cons (o : Op) (rest : Ops)
end

def Items.msgs : Items → List Bytes
  | .nil => []
  | .cons b _ _ t => b :: t.msgs

/-- bmc.py:137-153 `addService`. -/
def addService (s : St) (x : Ctx) (svc : Str) (a : Nat) : Option St :=
  if allowed s x "addService".toList ∧ c.alnum svc ∧ get s.services svc = none ∧ keyOk svc then
    let s1 := { s with services := put s.services svc a }
    if allowed s1 x "addPermission".toList then addPermission s1 a "sendMessage".toList else none
  else none

/-- bmc.py:155-175 `removeService`. -/
def removeService (s : St) (x : Ctx) (svc : Str) : Option St :=
  if allowed s x "removeService".toList then
    match get s.services svc with
    | none => none
    | some a =>
      let s1 := { s with services := del s.services svc }
      if s1.services.any (fun p => p.2 = a) then some s1
      else if allowed s1 x "removePermission".toList then removePermission s1 a "sendMessage".toList else none
  else none

/-- link.py:31-63 with bmc.py:264: a new link. BLOCK_INTERVAL_MSEC is 1000. -/
def newLink (gen : Nat) : Link := ⟨0, 0, 1000, 0, 10, 3, 0, 0, 0, 0, 0, 0, (some 0, some 0), [], [], gen⟩

/-- bmc.py:258-267, 290-303 `addLink`. -/
def addLink (s : St) (x : Ctx) (link : Str) : Option St :=
  if allowed s x "addLink".toList then
    match PyAddr.fromStringValid link with
    | none => none
    | some a =>
      if (get s.verifiers a.net).isSome ∧ get s.links a.toStr = none ∧ keyOk a.toStr then
        let s1 := { s with links := put s.links a.toStr (newLink s.names.length), names := s.names ++ [a.toStr] }
        propagate c bLink [c.me.toStr, a.toStr] (s1.links.map (·.1)) s1
      else none
  else none

/-- bmc.py:269-274, 305-315 `removeLink`. -/
def removeLink (s : St) (x : Ctx) (link : Str) : Option St :=
  if allowed s x "removeLink".toList then
    match PyAddr.fromStringValid link with
    | none => none
    | some a =>
      if (get s.links a.toStr).isSome then
        (propagate c bUnlink [c.me.toStr, a.toStr] (s.links.map (·.1)) s).map fun s1 =>
          { s1 with links := del s1.links a.toStr, relays := PyDb.upd s1.relays a.toStr (odds (s1.relays a.toStr)) }
      else none
  else none

/-- bmc.py:282-288 `_has_link`; `none`: a key that is no address. -/
def hasLink (net : Str) : List (Str × Link) → Option Bool
  | [] => some false
  | (k, _) :: t => match netOf k with
    | none => none
    | some n => if n = net then some true else hasLink net t

/-- bmc.py:317-341 `setLink`. -/
def setLink (s : St) (x : Ctx) (link : Str) (interval maxAgg delay vh : Int) : Option St :=
  if allowed s x "setLink".toList then
    match PyAddr.fromStringValid link with
    | none => none
    | some a => match get s.links a.toStr with
      | none => none
      | some l =>
        if maxAgg < 1 ∨ delay < 1 then none
        else
          let l1 := { l with dstI := interval, maxAgg := maxAgg, delay := delay }
          if rotateTerm c l = 0 ∧ rotateTerm c l1 > 0 then
            if (get s.verifiers a.net).isSome then
              some { s with links := put s.links a.toStr { l1 with rotH := x.height + rotateTerm c l1, rxH := x.height, rxHS := vh } }
            else none
          else some { s with links := put s.links a.toStr l1 }
  else none

/-- bmc.py:457-471 `addRoute`. -/
def addRoute (s : St) (x : Ctx) (dst link : Str) : Option St :=
  if allowed s x "addRoute".toList ∧ get s.routes dst = none then
    match PyAddr.fromStringValid link with
    | none => none
    | some a => if keyOk dst then some { s with routes := put s.routes dst a.toStr } else none
  else none

/-- bmc.py:732-747 `addRelay` with relayer.py:29-32 and link.py:111-120. -/
def addRelay (s : St) (x : Ctx) (link : Str) (a : Nat) : Option St :=
  if (get s.relayers x.origin).isSome then
    match PyAddr.fromStringValid link with
    | none => none
    | some t =>
      if (get (s.owned x.origin) t.toStr).isSome ∨ keyOk t.toStr = false then none
      else
        let s1 := { s with owned := PyDb.upd s.owned x.origin (put (s.owned x.origin) t.toStr a) }
        match get s.links t.toStr with
        | none => none
        | some l =>
          if (get (s.relays t.toStr) a).isSome then none
          else if l.nextTerm > 0 then
            if l.add.contains a then none else some { s1 with links := put s.links t.toStr { l with add := l.add ++ [a] } }
          else some { s1 with relays := PyDb.upd s.relays t.toStr (put (s.relays t.toStr) a ⟨0, 0⟩) }
  else none

/-- link.py:154-156: the waiting relays, the last first; one that is there already stays as it is. -/
def addAll (rs : List (Nat × Relay)) : List Nat → List (Nat × Relay)
  | [] => rs
  | a :: t => addAll (if (get rs a).isSome then rs else put rs a ⟨0, 0⟩) t

/-- bmc.py:784-791 `nextRelays` with link.py:149-157. -/
def nextRelays (s : St) (x : Ctx) (link : Str) (term : Int) : Option St :=
  if allowed s x "nextRelays".toList then
    match PyAddr.fromStringValid link with
    | none => none
    | some t => match get s.links t.toStr with
      | none => none
      | some l =>
        if l.nextH ≤ x.height then
          some { s with
            links := put s.links t.toStr { l with nextTerm := term, add := [], nextH := l.nextH + term }
            relays := PyDb.upd s.relays t.toStr (addAll (s.relays t.toStr) l.add.reverse) }
        else some { s with links := put s.links t.toStr { l with nextTerm := term } }
  else none

mutual
/-- One external call; `none` is an exception (nothing changes). -/
def exec : Op → St → Option St
  -- bmc.py:72-77
  | .setAccess x on, s => if x.sender = c.owner then some { s with access := on } else none
  | .addPermission x a p, s => if allowed s x "addPermission".toList then addPermission s a p else none
  | .removePermission x a p, s => if allowed s x "removePermission".toList then removePermission s a p else none
  | .addService x svc a, s => addService c s x svc a
  | .removeService x svc, s => removeService s x svc
  -- bmc.py:204-219
  | .addVerifier x net a, s =>
    if allowed s x "addVerifier".toList ∧ net ≠ c.me.net ∧ get s.verifiers net = none ∧ keyOk net then
      some { s with verifiers := put s.verifiers net a }
    else none
  -- bmc.py:221-235
  | .removeVerifier x net, s =>
    if allowed s x "removeVerifier".toList ∧ (get s.verifiers net).isSome ∧ hasLink net s.links = some false then
      some { s with verifiers := del s.verifiers net }
    else none
  | .addLink x link, s => addLink c s x link
  | .removeLink x link, s => removeLink c s x link
  | .setLink x link i m d vh, s => setLink c s x link i m d vh
  | .addRoute x dst link, s => addRoute s x dst link
  -- bmc.py:473-484
  | .removeRoute x dst, s =>
    if allowed s x "removeRoute".toList ∧ (get s.routes dst).isSome then some { s with routes := del s.routes dst } else none
  -- bmc.py:681-694: no permission is asked
  | .addRelayer _ a desc, s => if (get s.relayers a).isSome then none else some { s with relayers := put s.relayers a desc }
  -- bmc.py:696-707 with relayer.py:57-61
  | .removeRelayer _ a, s =>
    if (get s.relayers a).isSome then
      some { s with relayers := del s.relayers a, owned := PyDb.upd s.owned a (odds (s.owned a)) }
    else none
  | .addRelay x link a, s => addRelay s x link a
  -- bmc.py:749-764: `relayer.remove_relay(target)` lacks an argument (relayer.py:34): TypeError in every case
  | .removeRelay _ _ _, _ => none
  | .nextRelays x link term, s => nextRelays s x link term
  | .send x net svc sn payload, s => if allowed s x "sendMessage".toList then sendMessage c s net svc sn payload else none
  | .relay x prev v items, s =>
    match openRelay c x s prev v items.msgs with
    | none => none
    | some (key, gen, rx, s1) => match execItems items key gen (rx + 1) s1 with
      | none => none
      | some s2 => closeRelay s2 key gen items.msgs.length
/-- The dispatch loop; `none` is an exception that leaves the call. -/
def execItems : Items → Str → Nat → Nat → St → Option St
  | .nil, _, _, _, s => some s
  | .cons b out acts t, key, gen, seq, s =>
    match item c out (fun y => execOps acts y) key gen seq s b with
    | none => none
    | some s1 => execItems t key gen (seq + 1) s1
/-- Calls one after the other; one that fails changes nothing (if the caller does not catch it, it fails itself). -/
def execOps : Ops → St → St
  | .nil, s => s
  | .cons o t, s => execOps t ((exec o s).getD s)
end

/-- A history of transactions. -/
def run (ops : List Op) : St := ops.foldl (fun s o => (exec c o s).getD s) initSt

end Verif.PyBmc
