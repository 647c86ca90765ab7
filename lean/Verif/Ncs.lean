import Verif.Tab
/-!
Model of /repo/javascore/nativecoin: NativeCoinService.java (coins and tokens sent over BTP) and irc31/OwnerBasedIRC31Supplier.java (the
tokens of the foreign coins).

* Names, accounts and networks are byte strings, `BigInteger` is `Int`. A call that throws is `none` (the transaction is reverted);
  error codes and messages are left out. Events are left out.
* IRC31Basic (balances, `transferFrom`, `_mint`, `_burn` and their batches) is a library that is not in the repository; it is modelled
  by its interface: a transfer needs the holder's approval and balance, a burn the balance, and a contract that receives must accept.
* Null assets are assets with a null amount (both end in an exception). BTP addresses come taken apart.
* The two fields `settled` and `paid` of the state are not in the contract and nothing reads them: they count what was confirmed as
  delivered and what was paid out or minted for requests.
-/
namespace Verif.Ncs
open Verif

/-- Balance.java:27-28. -/
structure Balance where
  locked : Int
  refundable : Int
deriving DecidableEq

/-- AssetTransferDetail.java, Asset.java:26-27. -/
structure Detail where
  coin : Bytes
  amount : Int
  fee : Int
deriving DecidableEq

/-- Asset.java; the amount may be null. -/
structure Asset where
  coin : Bytes
  amount : Option Int
deriving DecidableEq

/-- TransferTransaction.java:29-31. -/
structure Tx where
  frm : Bytes
  toNet : Bytes
  toAcc : Bytes
  assets : List Detail
deriving DecidableEq

/-- NCSMessage.java:26-32 with TransferRequest.java and TransferResponse.java. `other` is a message of another type, `bad` one that
cannot be read. -/
inductive Msg where
  | request (frm to : Bytes) (assets : List Asset)
  | response (code : Int)
  | unknown
  | other
  | bad
deriving DecidableEq

/-- A message given to the message center: network, serial number, message. -/
structure Out where
  net : Bytes
  sn : Int
  msg : Msg
deriving DecidableEq

/-- What does not change: the addresses of the message center and of the contract, the name of the native coin, the numbers of the
tokens (`generateTokenId`, the hash of the name), reading of addresses, which accounts take payments, which holders approved
the contract, whether the contract may mint, and to which networks the message center sends. -/
structure Cfg where
  bmc : Bytes
  self : Bytes
  name : Bytes
  id : Bytes → Int
  parse : Bytes → Option Bytes
  accepts : Bytes → Bool
  approved : Bytes → Bool
  minter : Bool
  sends : Bytes → Bool

/-- OwnerBasedIRC31Supplier.java:32 `supplies` and the balances of IRC31Basic. -/
structure Irc31 where
  supplies : Tab Int Int
  bals : Tab (Int × Bytes) Int
deriving DecidableEq

/-- NativeCoinService.java:47-56; the coins of the chain; the two counters. -/
structure S where
  sn : Int
  feeRatio : Int
  coins : List Bytes
  bals : Tab (Bytes × Bytes) Balance
  fees : Tab Bytes Int
  txs : Tab Int Tx
  icx : Tab Bytes Int
  irc : Irc31
  settled : Tab Bytes Int
  paid : Tab Bytes Int
deriving DecidableEq

/-- `getOrDefault(k, ZERO)` and adding to it. -/
def at0 {K : Type} [DecidableEq K] (t : Tab K Int) (k : K) : Int := t.getD k 0
def add {K : Type} [DecidableEq K] (t : Tab K Int) (k : K) (v : Int) : Tab K Int := t.put k (at0 t k + v)

/-- IRC31Basic `transferFrom` by the contract `cfg.self`. -/
def Irc31.transferFrom (cfg : Cfg) (i : Irc31) (frm to : Bytes) (id v : Int) : Option Irc31 :=
  if (frm = cfg.self ∨ cfg.approved frm = true) ∧ 0 ≤ v ∧ v ≤ at0 i.bals (id, frm) ∧ cfg.accepts to = true then
    some { i with bals := add (add i.bals (id, frm) (-v)) (id, to) v }
  else none

/-- IRC31Basic `transferFromBatch`. -/
def Irc31.transferFromBatch (cfg : Cfg) (frm to : Bytes) : Irc31 → List (Int × Int) → Option Irc31
  | i, [] => some i
  | i, (id, v) :: l => (i.transferFrom cfg frm to id v).bind fun i => transferFromBatch cfg frm to i l

/-- OwnerBasedIRC31Supplier.java:56-74 `mintBatch`, one token after the other. -/
def Irc31.mintBatch (cfg : Cfg) (to : Bytes) : Irc31 → List (Int × Int) → Option Irc31
  | i, [] => some i
  | i, (id, v) :: l =>
    if cfg.minter = true ∧ 0 < v ∧ cfg.accepts to = true then
      mintBatch cfg to { supplies := add i.supplies id v, bals := add i.bals (id, to) v } l
    else none

/-- OwnerBasedIRC31Supplier.java:89-108 `burnBatch`, one token after the other. -/
def Irc31.burnBatch (cfg : Cfg) (owner : Bytes) : Irc31 → List (Int × Int) → Option Irc31
  | i, [] => some i
  | i, (id, v) :: l =>
    if cfg.minter = true ∧ 0 < v ∧ (i.supplies.get? id).isSome ∧ v ≤ at0 i.bals (id, owner) then
      burnBatch cfg owner { supplies := add i.supplies id (-v), bals := add i.bals (id, owner) (-v) } l
    else none

/-- `Context.transfer` by the contract; it has no fallback, so it cannot pay itself. -/
def pay (cfg : Cfg) (s : S) (to : Bytes) (v : Int) : Option S :=
  if to ≠ cfg.self ∧ cfg.accepts to = true ∧ 0 ≤ v ∧ v ≤ at0 s.icx cfg.self then
    some { s with icx := add (add s.icx cfg.self (-v)) to v }
  else none

/-- A call with coins: the platform moves them to the contract first. -/
def receive (cfg : Cfg) (s : S) (frm : Bytes) (v : Int) : Option S :=
  if frm ≠ cfg.self ∧ 0 ≤ v ∧ v ≤ at0 s.icx frm then
    some { s with icx := add (add s.icx frm (-v)) cfg.self v }
  else none

/-- NativeCoinService.java:397-405 `getBalance`. -/
def balance (s : S) (coin owner : Bytes) : Balance := s.bals.getD (coin, owner) ⟨0, 0⟩

/-- NativeCoinService.java:407-409 `setBalance`. -/
def setBalance (s : S) (coin owner : Bytes) (b : Balance) : S := { s with bals := s.bals.put (coin, owner) b }

/-- NativeCoinService.java:411-416 `lock`. -/
def lock (s : S) (coin owner : Bytes) (v : Int) : S :=
  setBalance s coin owner { balance s coin owner with locked := (balance s coin owner).locked + v }

/-- NativeCoinService.java:418-423 `unlock`. -/
def unlock (s : S) (coin owner : Bytes) (v : Int) : S :=
  setBalance s coin owner { balance s coin owner with locked := (balance s coin owner).locked - v }

/-- NativeCoinService.java:425-434 `refund`. -/
def refund (cfg : Cfg) (s : S) (coin owner : Bytes) (v : Int) : S :=
  setBalance s coin owner ⟨(balance s coin owner).locked - v,
    if owner ≠ cfg.self then (balance s coin owner).refundable + v else (balance s coin owner).refundable⟩

/-- NativeCoinService.java:582-599 `newAssetTransferDetail`. -/
def detail (coin : Bytes) (amount feeRatio : Int) : Option Detail :=
  let fee := (amount * feeRatio).tdiv 10000
  let fee := if feeRatio > 0 ∧ fee = 0 then 1 else fee
  if amount - fee < 1 then none else some ⟨coin, amount - fee, fee⟩

/-- NativeCoinService.java:257-264: the loop of `sendRequest`. -/
def lockAll (owner : Bytes) (feeRatio : Int) : S → List (Bytes × Int) → Option (S × List Detail)
  | s, [] => some (s, [])
  | s, (c, v) :: l =>
    (detail c v feeRatio).bind fun d =>
      (lockAll owner feeRatio (lock s c owner v) l).bind fun x => some (x.1, d :: x.2)

/-- NativeCoinService.java:246-284 `sendRequest`, 296-305 `sendMessage`. -/
def sendRequest (cfg : Cfg) (s : S) (owner toNet toAcc : Bytes) (l : List (Bytes × Int)) : Option (S × List Out) :=
  (lockAll owner (if owner = cfg.self then 0 else s.feeRatio) s l).bind fun x =>
    let sn := x.1.sn + 1
    if cfg.sends toNet = true then
      some ({ x.1 with sn := sn, txs := x.1.txs.put sn ⟨owner, toNet, toAcc, x.2⟩ },
        [⟨toNet, sn, .request owner toAcc (x.2.map fun d => ⟨d.coin, some d.amount⟩)⟩])
    else none

/-- NativeCoinService.java:185-191 `transferNativeCoin`. -/
def transferNative (cfg : Cfg) (s : S) (caller : Bytes) (v : Int) (toNet toAcc : Bytes) : Option (S × List Out) :=
  if 0 < v then
    (receive cfg s caller v).bind fun s => sendRequest cfg s caller toNet toAcc [(cfg.name, v)]
  else none

/-- NativeCoinService.java:193-201 `transfer`. -/
def transfer (cfg : Cfg) (s : S) (caller coin : Bytes) (v : Int) (toNet toAcc : Bytes) : Option (S × List Out) :=
  if 0 < v ∧ cfg.name ≠ coin ∧ coin ∈ s.coins then
    (s.irc.transferFrom cfg caller cfg.self (cfg.id coin) v).bind fun i =>
      sendRequest cfg { s with irc := i } caller toNet toAcc [(coin, v)]
  else none

/-- NativeCoinService.java:203-230 `transferBatch`; `v` are the coins sent along. -/
def transferBatch (cfg : Cfg) (s : S) (caller : Bytes) (l : List (Bytes × Int)) (v : Int) (toNet toAcc : Bytes) : Option (S × List Out) :=
  (receive cfg s caller v).bind fun s =>
    if ∀ p ∈ l, cfg.name ≠ p.1 ∧ p.1 ∈ s.coins then
      (s.irc.transferFromBatch cfg caller cfg.self (l.map fun p => (cfg.id p.1, p.2))).bind fun i =>
        sendRequest cfg { s with irc := i } caller toNet toAcc (if 0 < v then l ++ [(cfg.name, v)] else l)
    else none

/-- NativeCoinService.java:168-183 `reclaim`. -/
def reclaim (cfg : Cfg) (s : S) (caller coin : Bytes) (v : Int) : Option S :=
  if 0 < v ∧ v ≤ (balance s coin caller).refundable then
    let s := setBalance s coin caller { balance s coin caller with refundable := (balance s coin caller).refundable - v }
    if cfg.name = coin then pay cfg s caller v
    else (s.irc.transferFrom cfg cfg.self caller (cfg.id coin) v).map fun i => { s with irc := i }
  else none

/-- NativeCoinService.java:458-478: the loop over the assets of a request: the tokens, and the amount of native coins (the last one). -/
def sortAssets (cfg : Cfg) (coins : List Bytes) : List Asset → Option (List (Bytes × Int) × Option Int)
  | [] => some ([], none)
  | a :: l =>
    match a.amount with
    | none => none
    | some v =>
      if v < 1 then none
      else
        (sortAssets cfg coins l).bind fun x =>
          if a.coin ∈ coins then some ((a.coin, v) :: x.1, x.2)
          else if cfg.name = a.coin then some (x.1, match x.2 with | some w => some w | none => some v)
          else none

/-- The counter `paid` for a list of coins. -/
def count (t : Tab Bytes Int) : List (Bytes × Int) → Tab Bytes Int
  | [] => t
  | (c, v) :: l => count (add t c v) l

/-- NativeCoinService.java:480-486: the payment of `handleRequest`. -/
def payNative (cfg : Cfg) (s : S) (to : Bytes) : Option Int → Option S
  | some v => (pay cfg s to v).map fun s => { s with paid := add s.paid cfg.name v }
  | none => some s

/-- NativeCoinService.java:488-490: the tokens of `handleRequest`. -/
def mintAll (cfg : Cfg) (s : S) (to : Bytes) (l : List (Bytes × Int)) : Option S :=
  (s.irc.mintBatch cfg to (l.map fun p => (cfg.id p.1, p.2))).map fun i => { s with irc := i, paid := count s.paid l }

/-- NativeCoinService.java:449-495 `handleRequest`. -/
def handleRequest (cfg : Cfg) (s : S) (to : Bytes) (assets : List Asset) (net : Bytes) (sn : Int) : Option (S × List Out) :=
  match cfg.parse to with
  | none => none
  | some to =>
    (sortAssets cfg s.coins assets).bind fun x =>
      (payNative cfg s to x.2).bind fun s =>
        (mintAll cfg s to x.1).bind fun s =>
          if cfg.sends net = true then some (s, [⟨net, sn, .response 0⟩]) else none

/-- NativeCoinService.java:511-528: the loop over the assets of a transaction that succeeded, with the tokens to burn. -/
def settleAll (cfg : Cfg) (owner : Bytes) : S → List Detail → Option (S × List (Bytes × Int))
  | s, [] => some (s, [])
  | s, d :: l =>
    if cfg.name = d.coin ∨ d.coin ∈ s.coins then
      let s := unlock s d.coin owner (d.amount + d.fee)
      let s := { s with fees := add s.fees d.coin d.fee, settled := add s.settled d.coin d.amount }
      (settleAll cfg owner s l).bind fun x => some (x.1, if cfg.name = d.coin then x.2 else (d.coin, d.amount) :: x.2)
    else none

/-- NativeCoinService.java:534-546: the loop over the assets of a transaction that failed. -/
def refundAll (cfg : Cfg) (owner : Bytes) : S → List Detail → Option S
  | s, [] => some s
  | s, d :: l =>
    if cfg.name = d.coin ∨ d.coin ∈ s.coins then refundAll cfg owner (refund cfg s d.coin owner (d.amount + d.fee)) l else none

/-- NativeCoinService.java:497-553 `handleResponse`. -/
def handleResponse (cfg : Cfg) (s : S) (sn code : Int) : Option S :=
  match s.txs.get? sn with
  | none => some s
  | some tx =>
    (if code = 0 then
      (settleAll cfg tx.frm s tx.assets).bind fun x =>
        (x.1.irc.burnBatch cfg cfg.self (x.2.map fun p => (cfg.id p.1, p.2))).map fun i => { x.1 with irc := i }
    else refundAll cfg tx.frm s tx.assets).map fun s => { s with txs := s.txs.del sn }

/-- NativeCoinService.java:321-344 `handleBTPMessage`. -/
def handleMessage (cfg : Cfg) (s : S) (caller net : Bytes) (sn : Int) (m : Msg) : Option (S × List Out) :=
  if caller = cfg.bmc then
    match m with
    | .request _ to assets => handleRequest cfg s to assets net sn
    | .response code => (handleResponse cfg s sn code).map fun s => (s, [])
    | .unknown => some (s, [])
    | .other => if cfg.sends net = true then some (s, [⟨net, sn, .unknown⟩]) else none
    | .bad => none
  else none

/-- NativeCoinService.java:346-353 `handleBTPError`. -/
def handleError (cfg : Cfg) (s : S) (caller : Bytes) (sn : Int) : Option S :=
  if caller = cfg.bmc then handleResponse cfg s sn 1 else none

/-- NativeCoinService.java:117-123 `register`; `auth`: the caller is an owner. -/
def register (cfg : Cfg) (s : S) (auth : Bool) (coin : Bytes) : Option S :=
  if auth = true ∧ cfg.name ≠ coin ∧ coin ∉ s.coins then some { s with coins := s.coins ++ [coin] } else none

/-- NativeCoinService.java:565-574 `setFeeRatio`. -/
def setFeeRatio (s : S) (auth : Bool) (v : Int) : Option S :=
  if auth = true ∧ 1 ≤ v ∧ v < 10000 then some { s with feeRatio := v } else none

/-- What happens on the chain: calls of the contract, and transfers of coins and tokens among others. Coins cannot be sent to the
contract but by its payable methods; tokens can. -/
inductive Op where
  | transferNative (caller : Bytes) (v : Int) (toNet toAcc : Bytes)
  | transfer (caller coin : Bytes) (v : Int) (toNet toAcc : Bytes)
  | transferBatch (caller : Bytes) (l : List (Bytes × Int)) (v : Int) (toNet toAcc : Bytes)
  | reclaim (caller coin : Bytes) (v : Int)
  | message (caller net : Bytes) (sn : Int) (m : Msg)
  | error (caller : Bytes) (sn : Int)
  | register (auth : Bool) (coin : Bytes)
  | setFeeRatio (auth : Bool) (v : Int)
  | coinSend (frm to : Bytes) (v : Int)
  | tokenSend (frm to : Bytes) (id v : Int)
deriving DecidableEq

/-- A call: the new state and the messages sent; `none` if it is reverted. The contract calls none of its own methods. -/
def step (cfg : Cfg) (s : S) : Op → Option (S × List Out)
  | .transferNative c v n a => transferNative cfg s c v n a
  | .transfer c coin v n a => if c = cfg.self then none else transfer cfg s c coin v n a
  | .transferBatch c l v n a => transferBatch cfg s c l v n a
  | .reclaim c coin v => if c = cfg.self then none else (reclaim cfg s c coin v).map fun s => (s, [])
  | .message c n sn m => handleMessage cfg s c n sn m
  | .error c sn => (handleError cfg s c sn).map fun s => (s, [])
  | .register a coin => (register cfg s a coin).map fun s => (s, [])
  | .setFeeRatio a v => (setFeeRatio s a v).map fun s => (s, [])
  | .coinSend frm to v =>
    if frm ≠ cfg.self ∧ to ≠ cfg.self ∧ 0 ≤ v ∧ v ≤ at0 s.icx frm then some ({ s with icx := add (add s.icx frm (-v)) to v }, []) else none
  | .tokenSend frm to id v =>
    if frm ≠ cfg.self ∧ 0 ≤ v ∧ v ≤ at0 s.irc.bals (id, frm) then
      some ({ s with irc := { s.irc with bals := add (add s.irc.bals (id, frm) (-v)) (id, to) v } }, [])
    else none

/-- NCSProperties.java:30-34: a new contract on a chain with the given coins. -/
def init (icx : Tab Bytes Int) : S := ⟨0, 10, [], [], [], [], icx, ⟨[], []⟩, [], []⟩

/-- A history: calls that fail change nothing. -/
def run (cfg : Cfg) : S → List Op → S
  | s, [] => s
  | s, o :: l =>
    match step cfg s o with
    | some x => run cfg x.1 l
    | none => run cfg s l

end Verif.Ncs
