import Verif.PyBmc
import Verif.IntText
/-!
Model of /repo/pyscore/token/token_bsh.py: the token service of the Python contracts.

JSON values are trees; `json_loads` with the UTF-8 decoding is the parameter `parse`, and what is stored with `json_dumps` is kept as
the list of texts it holds. Addresses are numbers with a text; `Address.from_string` is the parameter `addrOf`. The hexadecimal texts of
numbers are modelled (`hex`, `int(_, 16)`). An exception is a result: `R.btp` for the exceptions of the protocol, `R.other` for others;
a call that raises changes nothing. Calls to the message center return, or raise, as the argument of the call says; calls to token
contracts may call back before they do. Logging is left out. The list `log` is ghost except for the events `TransferStart`, `TransferEnd`
and the messages, which the code emits.
-/
namespace Verif.PyToken
open Verif Verif.BtpAddress
open Verif.PyBmc (R)
open Verif.PyDb (upd)

/-! ### Numbers as text -/

/-- Digits of `hex`. -/
def hexAux : Nat → Nat → Str
  | 0, _ => []
  | f + 1, n => if n < 16 then [IntText.hexDigit n] else hexAux f (n / 16) ++ [IntText.hexDigit (n % 16)]

/-- Python `hex(v)`. -/
def hex (v : Int) : Str := (if v < 0 then ['-', '0', 'x'] else ['0', 'x']) ++ hexAux (v.natAbs + 1) v.natAbs

def isSpace (ch : Char) : Bool := ch = ' ' ∨ (9 ≤ ch.toNat ∧ ch.toNat ≤ 13)
def strip (s : Str) : Str := ((s.dropWhile isSpace).reverse.dropWhile isSpace).reverse

/-- Digits with single underscores between them; the flag: the last character was a digit. -/
def body : Str → Nat → Bool → Option Nat
  | [], acc, last => if last then some acc else none
  | ch :: t, acc, last =>
    if ch = '_' then (if last then body t acc false else none)
    else match IntText.hexVal ch with
      | none => none
      | some d => body t (acc * 16 + d) true

/-- The prefix: one underscore may follow it. -/
def unprefix : Str → Str
  | '0' :: 'x' :: '_' :: t => t
  | '0' :: 'X' :: '_' :: t => t
  | '0' :: 'x' :: t => t
  | '0' :: 'X' :: t => t
  | s => s

def sign : Str → Bool × Str
  | '-' :: t => (true, t)
  | '+' :: t => (false, t)
  | s => (false, s)

/-- Python `int(s, 16)` of a text of ASCII characters; `none` is ValueError. -/
def int16Ascii (s : Str) : Option Int :=
  let x := sign (strip s)
  (body (unprefix x.2) 0 false).map fun (n : Nat) => if x.1 then -(n : Int) else (n : Int)

/-! ### JSON -/

inductive Json where
  | null
  | bool (b : Bool)
  | int (v : Int)
  /-- a number with a fraction or exponent -/
  | num (raw : Str)
  | str (s : Str)
  | arr (l : List Json)
  | obj (l : List (Str × Json))

/-- `j[key]`: the last member with this name; other values and a missing member raise. -/
def field (j : Json) (key : Str) : Option Json :=
  match j with
  | .obj l => (l.reverse.find? fun p => p.1 = key).map (·.2)
  | _ => none

/-! ### State -/

inductive Ev where
  | deposit (u : Nat) (t : Str) (v : Int)
  | reclaim (u : Nat) (t : Str) (v : Int)
  /-- token_bsh.py:85-87 `TransferStart`, with the network -/
  | start (sn : Int) (u : Nat) (t : Str) (v : Int) (net contract : Str)
  | receive (src : Str) (sn : Int) (u : Nat) (t : Str) (v : Int)
  /-- `TransferEnd` (89-91) of a transfer answered with 0 -/
  | settle (src : Str) (sn : Int) (u : Nat) (t : Str) (v : Int)
  /-- `TransferEnd` of a transfer answered with something else -/
  | refund (src : Str) (sn : Int) (u : Nat) (t : Str) (v : Int)
  /-- given back for an error -/
  | rollback (sn : Int) (u : Nat) (t : Str) (v : Int)
  /-- a message given to the message center: network, number, kind -/
  | send (net : Str) (sn : Int) (m : Option Int)
deriving DecidableEq

/-- token_bsh.py:93-103. `pending` holds the texts type, from, to, name, value; `bal` the texts usable, locked. -/
structure St where
  sn : Int
  pending : Int → Option (List Str)
  addrs : Str → Option Nat
  names : List Str
  bal : Nat → Str → Option (List Str)
  log : List Ev

structure Cfg where
  owner : Nat
  bmc : Nat
  /-- `_to_obj` (15-16) -/
  parse : Bytes → Option Json
  addrText : Nat → Str
  addrOf : Str → Option Nat
  /-- decimal digits and spaces of other scripts as ASCII (the first step of `int`) -/
  ascii : Str → Str
  /-- the key a value that is no text gives -/
  key : Json → Option Str
  /-- whether an event takes this value as its code -/
  eventOk : Json → Bool

def initSt : St := ⟨0, fun _ => none, fun _ => none, [], fun _ _ => none, []⟩

/-- token_bsh.py:62-64. -/
def sReq : Str := "req_token_transfer".toList
def sRes : Str := "res_token_transfer".toList

variable (c : Cfg)

/-- `int(_, 16)`. -/
def int16 (s : Str) : Option Int := int16Ascii (c.ascii s)

/-- token_bsh.py:388-397 `_get_balance`: usable, locked. -/
def getBalance (s : St) (u : Nat) (t : Str) : Option (Int × Int) :=
  match s.bal u t with
  | none => some (0, 0)
  | some [a, b] => match int16 c a, int16 c b with
    | some x, some y => some (x, y)
    | _, _ => none
  | some _ => none

/-- token_bsh.py:373-386 `_update_balance_by`. -/
def updateBalance (s : St) (u : Nat) (t : Str) (du dl : Int) : Option St :=
  match getBalance c s u t with
  | none => none
  | some (x, y) =>
    some { s with bal := upd s.bal u (upd (s.bal u) t (if x + du = 0 ∧ y + dl = 0 then none else some [hex (x + du), hex (y + dl)])) }

/-- token_bsh.py:344-365 `_get_pending`: from, name, value (a transfer is the only kind stored). -/
def getPending (s : St) (sn : Int) : Option (Nat × Str × Int) :=
  match s.pending sn with
  | some [ty, f, _, name, v] =>
    if ty = sReq then match c.addrOf f, int16 c v with
      | some a, some n => some (a, name, n)
      | _, _ => none
    else none
  | _ => none

/-- token_bsh.py:164-173: one round of the loop of `unregister` over the index `i`. -/
def unlistStep (name : Str) (count : Nat) (x : List Str × Bool) (i : Nat) : List Str × Bool :=
  let found := x.2 || decide (x.1[i]? = some name)
  if found then
    if i < count - 1 then (x.1.set i (x.1.getD (i + 1) []), true) else (x.1.dropLast, true)
  else (x.1, false)

def unlist (name : Str) (l : List Str) : List Str := ((List.range l.length).foldl (unlistStep name l.length) (l, false)).1

/-- A key from a JSON value. -/
def keyOf : Json → Option Str
  | .str s => some s
  | j => c.key j

/-- token_bsh.py:247-249: the parts of a request; `none` is an exception that is not of the protocol. -/
def readRequest (j : Json) : Option (Nat × Int × Str) :=
  match field j "to".toList, (field j "args".toList).bind (field · "value".toList), (field j "args".toList).bind (field · "name".toList) with
  | some (.str to), some (.str v), some name => match c.addrOf to, int16 c v, keyOf c name with
    | some u, some n, some t => some (u, n, t)
    | _, _, _ => none
  | _, _, _ => none

/-- The code of a response. -/
def isOk : Json → Bool
  | .int v => v = 0
  | _ => false

/-- Whether the event `TransferEnd` takes the code: numbers it does. -/
def codeOk : Json → Bool
  | .int _ => true
  | j => c.eventOk j

/-- What the message center does with a message it is given. -/
inductive Sent where
  | ok
  | btp (code : Int)
  | other
deriving DecidableEq

/-- token_bsh.py:324-328 `_send_message`. -/
def sendMsg (r : Sent) (s : St) (net : Str) (sn : Int) (m : Option Int) : R St :=
  match r with
  | .ok => .ok { s with log := s.log ++ [.send net sn m] }
  | .btp e => .btp e
  | .other => .other

/-- A failure that is not of the protocol. -/
def orOther {α β : Type} (x : Option α) (f : α → R β) : R β :=
  match x with
  | none => .other
  | some a => f a

/-- token_bsh.py:246-260: a request; the messages carry the code. -/
def onRequest (r : Sent) (s : St) (src : Str) (sn : Int) (j : Json) : R St :=
  orOther (readRequest c j) fun (u, v, t) =>
    if (s.addrs t).isSome then
      orOther (updateBalance c s u t v 0) fun s1 => sendMsg r { s1 with log := s1.log ++ [.receive src sn u t v] } src sn (some 0)
    else sendMsg r s src sn (some (-1))

/-- token_bsh.py:262-276: a response. -/
def onResponse (s : St) (src : Str) (sn : Int) (j : Json) : R St :=
  if s.pending sn = none then .btp 43
  else orOther (getPending c s sn) fun (u, t, v) => orOther (field j "code".toList) fun code =>
    if isOk code then orOther (updateBalance c s u t 0 (-v)) fun s1 =>
      .ok { s1 with pending := upd s1.pending sn none, log := s1.log ++ [.settle src sn u t v] }
    else orOther (updateBalance c s u t v (-v)) fun s1 =>
      if codeOk c code then .ok { s1 with pending := upd s1.pending sn none, log := s1.log ++ [.refund src sn u t v] } else .other

/-- token_bsh.py:239-280 `handleBTPMessage`. -/
def onMessage (r : Sent) (s : St) (sender : Nat) (src : Str) (sn : Int) (b : Bytes) : R St :=
  if sender ≠ c.bmc then .btp 41
  else orOther (c.parse b) fun j => match field j "type".toList with
    | none => .other
    | some (.str ty) =>
      if ty = sReq then onRequest c r s src sn j
      else if ty = sRes then onResponse c s src sn j
      else sendMsg r s src sn none
    | some _ => sendMsg r s src sn none

/-- token_bsh.py:282-298 `handleBTPError`. -/
def onError (s : St) (sender : Nat) (sn : Int) : R St :=
  if sender ≠ c.bmc then .btp 41
  else if s.pending sn = none then .btp 43
  else orOther (getPending c s sn) fun (u, t, v) => orOther (updateBalance c s u t v (-v)) fun s1 =>
    .ok { s1 with pending := upd s1.pending sn none, log := s1.log ++ [.rollback sn u t v] }

/-- token_bsh.py:146-154 `register`. -/
def register (s : St) (sender : Nat) (name : Str) (addr : Nat) : R St :=
  if sender ≠ c.owner then .btp 41
  else if (s.addrs name).isSome then .btp 42
  else .ok { s with addrs := upd s.addrs name (some addr), names := s.names ++ [name] }

/-- token_bsh.py:156-173 `unregister`. -/
def unregister (s : St) (sender : Nat) (name : Str) : R St :=
  if sender ≠ c.owner then .btp 41
  else if s.addrs name = none then .btp 43
  else .ok { s with names := unlist name s.names }

/-- token_bsh.py:175-189 `tokenFallback`. -/
def tokenFallback (s : St) (sender frm : Nat) (v : Int) : R St :=
  if v < 0 then .btp 44
  else match s.names.find? fun n => s.addrs n = some sender with
    | none => .btp 43
    | some t => if t = [] then .btp 43 else orOther (updateBalance c s frm t v 0) fun s1 => .ok { s1 with log := s1.log ++ [.deposit frm t v] }

/-- token_bsh.py:191-207 `reclaim`, up to the call of the token contract. -/
def reclaim (s : St) (sender : Nat) (t : Str) (v : Int) : R St :=
  if v < 0 then .btp 44
  else if s.addrs t = none then .btp 43
  else orOther (getBalance c s sender t) fun (x, _) =>
    if x < v then .btp 45
    else orOther (updateBalance c s sender t (-v) 0) fun s1 => .ok { s1 with log := s1.log ++ [.reclaim sender t v] }

/-- token_bsh.py:209-237 `transfer`; 330-342 for number and pending message. -/
def transfer (r : Sent) (s : St) (sender : Nat) (t to : Str) (v : Int) : R St :=
  if s.addrs t = none then .btp 43
  else if v < 0 then .btp 44
  else match PyAddr.fromStringValid to with
    | none => .btp 46
    | some a => orOther (getBalance c s sender t) fun (x, _) =>
      if x < v then .btp 45
      else orOther (updateBalance c s sender t (-v) v) fun s1 =>
        let sn := s.sn + 1
        let s2 := { s1 with
          sn := sn
          pending := upd s1.pending sn (some [sReq, c.addrText sender, a.contract, t, hex v])
          log := s1.log ++ [.start sn sender t v a.net a.contract] }
        match r with
        | .ok => .ok s2
        | .btp e => .btp e
        | .other => .other

mutual
/-- Calls. `sender` is `msg.sender`. -/
inductive Op where
  | register (sender : Nat) (name : Str) (addr : Nat)
  | unregister (sender : Nat) (name : Str)
  | tokenFallback (sender frm : Nat) (v : Int)
  /-- with the calls made by the token contract and whether it returns -/
  | reclaim (sender : Nat) (t : Str) (v : Int) (acts : Ops) (ret : Bool)
  | transfer (sender : Nat) (t to : Str) (v : Int) (r : Sent)
  | message (sender : Nat) (src : Str) (sn : Int) (b : Bytes) (r : Sent)
  | error (sender : Nat) (sn : Int)
inductive Ops where
  | nil
  | cons (o : Op) (rest : Ops)
end

mutual
def exec : Op → St → R St
  | .register x n a, s => register c s x n a
  | .unregister x n, s => unregister c s x n
  | .tokenFallback x f v, s => tokenFallback c s x f v
  | .reclaim x t v acts ret, s => match reclaim c s x t v with
    | .ok s1 => if ret then .ok (execOps acts s1) else .other
    | e => e
  | .transfer x t to v r, s => transfer c r s x t to v
  | .message x src sn b r, s => onMessage c r s x src sn b
  | .error x sn, s => onError c s x sn
/-- Calls one after the other; one that raises changes nothing. -/
def execOps : Ops → St → St
  | .nil, s => s
  | .cons o t, s => execOps t (match exec o s with
    | .ok s1 => s1
    | _ => s)
end

/-- The state after a call. -/
def after (s : St) (o : Op) : St :=
  match exec c o s with
  | .ok s1 => s1
  | _ => s

def run (ops : List Op) : St := ops.foldl (after c) initSt

end Verif.PyToken
