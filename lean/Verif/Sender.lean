import Verif.Errors
import Verif.Fragment
import Verif.IntText
import Verif.Link
/-!
Model of the relay's senders: /repo/chain/icon/sender.go (with `MapError` and `SendTransactionAndGetResult` of
/repo/chain/icon/client/client.go) and /repo/chain/ethbr/sender.go.

The node is a stream of replies, the clock and the signing key a stream of signing results: the k-th signing gives
transaction number k. A loop without a bound takes fuel and is `stuck` when it is used up. Error texts are lists of
characters; a character stands for a byte.
-/
namespace Verif.Sender
open Verif.Errors

abbrev Str := List Char

/-- What a JSON-RPC call can fail with (common/jsonrpc/client.go:50-108): an error object of the node, an error object
that is a nil pointer (line 85: a non-200 JSON reply without one), an HTTP error, a refused connection, anything else. -/
inductive RpcErr where
  | rpc (code : Int) (msg : Str)
  | rpcNil
  | http
  | refused
  | other
deriving DecidableEq

/-- client/type.go:32-35. -/
def codeSystem : Int := -31000
def codeOverflow : Int := -31001
def codePending : Int := -31002
def codeExecuting : Int := -31003

/-- client/type.go:43-47. -/
def subDuplicate : Int := 2000
def subPoolOverflow : Int := 2001
def subExpired : Int := 2002
def subFuture : Int := 2003

/-- sender.go:235, client.go:148, 526: `strconv.ParseInt(je.Message[1:5], 0, 32)`: `none` is the panic of the slice,
`some none` a parse error. -/
def subCode (msg : Str) : Option (Option Int) :=
  if msg.length < 5 then none
  else match IntText.goParseInt ((msg.drop 1).take 4) 32 with
    | .ok v => some (some v)
    | .error _ => some none

/-- What `MapError` returns. `same` is the error itself. -/
inductive Mapped where
  | overflow | expired | future | pending | connect
  | same (e : RpcErr)
  | panic
deriving DecidableEq

/-- client.go:517-549 `MapError` (of an error; nil stays nil). -/
def mapError : RpcErr → Mapped
  | .rpc code msg =>
    if code = codeOverflow then .overflow
    else if code = codeSystem then
      match subCode msg with
      | none => .panic
      | some sub =>
        if sub = some subExpired then .expired
        else if sub = some subFuture then .future
        else if sub = some subPoolOverflow then .overflow
        else .same (.rpc code msg)
    else if code = codePending ∨ code = codeExecuting then .pending
    else .same (.rpc code msg)
  | .rpcNil => .panic
  | .http => .connect
  | .refused => .connect
  | .other => .same .other

/-- A reply to `icx_sendTransaction`: the hash, or an error (and then the hash pointer is nil, client.go:81-87). -/
inductive Reply where
  | ok (hash : Str)
  | fail (e : RpcErr)
deriving DecidableEq

/-- What `sendTransaction` comes to: a hash parameter (empty text when no hash was ever set), an error, a panic, or no
return. -/
inductive Out where
  | sent (hash : Str)
  | signErr
  | err (m : Mapped)
  | panic
  | stuck
deriving DecidableEq

/-- What the loop does after a reply (sender.go:225-248). -/
inductive Next where
  | resend
  | resign
  | done (o : Out)
deriving DecidableEq

/-- sender.go:246 `return nil, client.MapError(err)`. -/
def finish : Mapped → Next
  | .panic => .done .panic
  | m => .done (.err m)

/-- sender.go:228-248; `hash` is `thp.Hash`, set by the last accepting reply - there is none before the loop ends. -/
def next (hash : Str) : Reply → Next
  | .ok h => .done (.sent h)
  | .fail (.rpc code msg) =>
    if code = codeOverflow then .resend
    else if code = codeSystem then
      match subCode msg with
      | none => .done .panic
      | some sub =>
        if sub = some subDuplicate then .done (.sent hash)
        else if sub = some subExpired then .resign
        else finish (mapError (.rpc code msg))
    else finish (mapError (.rpc code msg))
  | .fail .rpcNil => .done .panic
  | .fail e => finish (mapError e)

/-- sender.go:215-251 `sendTransaction`: `tx` is the number of the signed transaction, `j` the number of the next
reply; the second component lists the transactions sent. -/
def sendFrom (signs : Nat → Bool) (replies : Nat → Reply) : Nat → Nat → Nat → Out × List Nat
  | 0, _, _ => (.stuck, [])
  | fuel + 1, tx, j =>
    match next [] (replies j) with
    | .resend => let r := sendFrom signs replies fuel tx (j + 1); (r.1, tx :: r.2)
    | .resign =>
      if signs (tx + 1) then let r := sendFrom signs replies fuel (tx + 1) (j + 1); (r.1, tx :: r.2)
      else (.signErr, [tx])
    | .done o => (o, [tx])

/-- sender.go:215-251, from the first signing. -/
def sendTransaction (signs : Nat → Bool) (replies : Nat → Reply) (fuel : Nat) : Out × List Nat :=
  if signs 0 then sendFrom signs replies fuel 0 0 else (.signErr, [])

/-- sender.go:102-128 `_relay`: the transactions of Fragment.relayTxs one after the other, each with the outcome of its
`sendTransaction`, up to the first that is not sent. The transactions handed to the node, and the outcome. -/
def relaySend (outs : Nat → Out) : Nat → List Fragment.Tx → List Fragment.Tx × Out
  | _, [] => ([], .stuck)
  | k, [t] => ([t], outs k)
  | k, t :: t' :: ts =>
    match outs k with
    | .sent _ => let r := relaySend outs (k + 1) (t' :: ts); (t :: r.1, r.2)
    | o => ([t], o)

/-- sender.go:102-128 on a message. -/
def relay (limit : Nat) (outs : Nat → Out) (msg : Bytes) : List Fragment.Tx × Out :=
  relaySend outs 0 (Fragment.relayTxs limit msg)

/-! ### results, ICON -/

/-- A reply to `icx_getTransactionResult`: the status, and for a failure the failure object (nil when missing) with the
number its code stands for. A code text that is not a number counts as 0 or an extreme value (strconv.ParseInt). -/
inductive ResReply where
  | success
  | failed (failure : Option Int)
  | fail (e : RpcErr)
deriving DecidableEq

/-- What `GetResult` comes to: success, an error with a code, one without, a panic, or no return. -/
inductive Res where
  | success
  | coded (c : Int)
  | plain
  | panic
  | stuck
deriving DecidableEq

/-- sender.go:269-281 `mapErrorWithTransactionResult`, and whether `errors.CoderOf` finds a code (none of the errors
of `MapError` has one; `NewRevertError` gives a `baseError`). -/
def resOf : ResReply → Res
  | .success => .success
  | .failed none => .panic
  | .failed (some fc) =>
    if fc < 32 ∨ fc > 99 then .plain
    else match newRevertError (fc - 32) with
      | some p => .coded p.1
      | none => .success
  | .fail e => if mapError e = .panic then .panic else .plain

/-- sender.go:253-267 `GetResult`. A nil error object panics at `je.Code`. -/
def getResult (replies : Nat → ResReply) : Nat → Nat → Res
  | 0, _ => .stuck
  | fuel + 1, j =>
    match replies j with
    | .fail (.rpc code msg) =>
      if code = codePending ∨ code = codeExecuting then getResult replies fuel (j + 1)
      else resOf (.fail (.rpc code msg))
    | r => resOf r

/-- A message from the sender to the link (common/types): a result or a status; `none` is a nil status. -/
inductive Chan where
  | result (id : Int) (code : Int)
  | status (b : Option Link.Bls)
deriving DecidableEq

/-- sender.go:130-150 `result` and `SendStatus`: the messages sent; `none` when it panics or does not return.
`status` is what `GetStatus` gives, `none` an error. -/
def resultMsgs (id : Int) (r : Res) (status : Option Link.Bls) : Option (List Chan) :=
  match r with
  | .success => some [.status status]
  | .coded c => some [.result id c, .status status]
  | .plain => some [.status status]
  | .panic => none
  | .stuck => none

/-- link.go:161-163: the link on a status; a nil one is dereferenced for the first queued element. -/
def onStatus {ρ β γ : Type} (b : Option Link.Bls) : Link.M ρ β γ Unit := fun s =>
  match b with
  | some b => Link.bnd (Link.clearRelay b) (fun _ => Link.clearStatus b) s
  | none => if s.rms.length = 0 ∧ s.rss.length = 0 then (.ok (), s) else (.panic, s)

/-! ### client.SendTransactionAndGetResult -/

/-- client.go:130-164: the first half; the outcome is the hash, an error, or a panic (`*txh` of a nil pointer). The
comparison with `ErrSendFailByOverflow` (137) never holds: the error is not mapped. -/
def sendOnce : Reply → Out
  | .ok h => .sent h
  | .fail (.rpc code msg) =>
    if code = codeSystem then
      match subCode msg with
      | none => .panic
      | some sub => if sub = some subDuplicate then .panic else .err (.same (.rpc code msg))
    else .err (.same (.rpc code msg))
  | .fail .rpcNil => .panic
  | .fail e => .err (.same e)

/-! ### results, EVM -/

/-- strings.Split(s, ":"). -/
def splitColon : Str → List Str
  | [] => [[]]
  | c :: cs =>
    if c = ':' then [] :: splitColon cs
    else match splitColon cs with
      | [] => [[c]]
      | p :: ps => (c :: p) :: ps

/-- strings.TrimLeft(s, " "). -/
def trimLeft : Str → Str
  | [] => []
  | c :: cs => if c = ' ' then trimLeft cs else c :: cs

/-- Decimal digits only, at least one. -/
def digits (s : Str) : Option Nat :=
  if s.length = 0 then none
  else if s.all (fun c => c.isDigit) then some (Nat.ofDigitChars 10 s 0) else none

/-- strconv.Atoi, 64 bits: an optional sign and decimal digits. -/
def atoi : Str → Option Int
  | '-' :: s => match digits s with
    | some n => if n ≤ 2 ^ 63 then some (-(n : Int)) else none
    | none => none
  | '+' :: s => match digits s with
    | some n => if n < 2 ^ 63 then some n else none
    | none => none
  | s => match digits s with
    | some n => if n < 2 ^ 63 then some n else none
    | none => none

/-- ethbr/client/client.go:332-355 `GetRevertMessage`: an error, a replayed call that succeeds (`err.Error()` of a nil
error), or the text. -/
inductive EvmMsg where
  | err
  | replaySucceeds
  | text (s : Str)
deriving DecidableEq

/-- One turn of the loop of ethbr/sender.go:145-177: the lookup or the receipt fails, the transaction is pending, it
succeeded, or it was reverted. -/
inductive EvmReply where
  | err
  | pending
  | success
  | reverted (m : EvmMsg)
deriving DecidableEq

/-- ethbr/sender.go:159-175: the result of a reverted transaction. -/
def evmRevert : EvmMsg → Res
  | .err => .plain
  | .replaySucceeds => .panic
  | .text s =>
    let msgs := splitColon s
    if msgs.length > 2 then
      match atoi (trimLeft (msgs.getD 1 [])) with
      | none => .plain
      | some c =>
        match newRevertError c with
        | some p => .coded p.1
        | none => .success
    else match newRevertError 25 with
      | some p => .coded p.1
      | none => .success

/-- ethbr/sender.go:144-178 `GetResult`. -/
def evmGetResult (replies : Nat → EvmReply) : Nat → Nat → Res
  | 0, _ => .stuck
  | fuel + 1, j =>
    match replies j with
    | .err => .plain
    | .pending => evmGetResult replies fuel (j + 1)
    | .success => .success
    | .reverted m => evmRevert m

end Verif.Sender
