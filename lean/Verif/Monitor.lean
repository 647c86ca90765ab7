import Verif.Receiver
/-!
Models of the block monitors and of what becomes of their failures:
/repo/chain/ethbr/client/client.go (Poll, MonitorBlock, Monitor), /repo/chain/icon/client/client.go:313-335 (MonitorBTP),
the `Start`/`Monitoring` functions of the three receivers, /repo/common/link/link.go:99-175 (Start and its goroutines) and
/repo/cmd/relay/linkfatory.go.

Nodes are parameters: which requests they answer. Time is left out; the k-th request of a poller is answered or not.
-/
namespace Verif.Monitor
open Verif Verif.Receiver

/-! ### ethbr/client/client.go -/

/-- How a monitor ends, or that it is still waiting. -/
inductive End where
  | waiting
  | failed
deriving DecidableEq

/-- client.go:49 `BlockRetryLimit`. -/
def retryLimit : Nat := 5

/-- client.go:205-243 `Poll` from `current` on; `reply k`: the k-th header request is answered; `cb` is the callback with its
state, `false` an error. The first argument bounds the number of requests. `c.stop` is nil for every client: its case never
fires. -/
def poll {σ : Type} (reply : Nat → Bool) (cb : σ → Int → σ × Bool) : Nat → Nat → Int → Nat → σ → σ × End
  | 0, _, _, _, s => (s, .waiting)
  | n + 1, k, cur, retry, s =>
    if retry = 0 then (s, .failed)
    else if reply k then
      match cb s cur with
      | (s', true) => poll reply cb n (k + 1) (cur + 1) retryLimit s'
      | (s', false) => (s', .failed)
    else poll reply cb n (k + 1) cur (retry - 1) s

/-- client.go:297-308, the loop over the subscribed heads. -/
def subscribe {σ : Type} (cb : σ → Int → σ × Bool) : List Int → σ → σ × End
  | [], s => (s, .waiting)
  | n :: l, s =>
    match cb s n with
    | (s', true) => subscribe cb l s'
    | (s', false) => (s', .failed)

/-- What happens to a block given to `onBlockHeader` (client.go:246-262). -/
inductive Hand where
  | noLogs
  | cbErr
  | ok
deriving DecidableEq

/-- State of the closure of `MonitorBlock`: whether `h` is set, and the heights given to the caller's callback. -/
structure MB where
  started : Bool
  out : List Int
deriving DecidableEq

/-- client.go:246-262 `onBlockHeader`; `hand k` is what happens to the block after k deliveries. -/
def onHeader (hand : Nat → Hand) (s : MB) (n : Int) : MB × Bool :=
  match hand s.out.length with
  | .noLogs => (s, false)
  | .cbErr => ({ s with out := s.out ++ [n] }, false)
  | .ok => ({ s with out := s.out ++ [n] }, true)

/-- client.go:269-277: the catch-up loop, `n` rounds from `h`; `hdr`: the header is found. -/
def catchUp (hdr : Int → Bool) (hand : Nat → Hand) : Nat → Int → MB → MB × Bool
  | 0, _, s => (s, true)
  | n + 1, h, s =>
    if hdr h then
      match onHeader hand s h with
      | (s', true) => catchUp hdr hand n (h + 1) s'
      | (s', false) => (s', false)
    else (s, false)

/-- client.go:267-280: the callback of `MonitorBlock` for start height `h`. -/
def onHead (hdr : Int → Bool) (hand : Nat → Hand) (h : Int) (s : MB) (n : Int) : MB × Bool :=
  if s.started then onHeader hand s n
  else
    match catchUp hdr hand (n - h).toNat h { s with started := true } with
    | (s', true) => onHeader hand s' n
    | (s', false) => (s', false)

/-- client.go:245-281 `MonitorBlock` over a subscription. -/
def monitorSub (hdr : Int → Bool) (hand : Nat → Hand) (h : Int) (heads : List Int) : MB × End :=
  subscribe (onHead hdr hand h) heads ⟨false, []⟩

/-- client.go:245-281 `MonitorBlock` over polling, from the block number `n` the node reports at the start. -/
def monitorPoll (hdr : Int → Bool) (hand : Nat → Hand) (reply : Nat → Bool) (h n : Int) (fuel : Nat) : MB × End :=
  poll reply (onHead hdr hand h) fuel 0 n retryLimit ⟨false, []⟩

/-! ### Receivers -/

/-- A log: transaction index, for our destination, event; `none` does not unpack. -/
abbrev Log := Option (Int × Bool × Ev)

/-- State of the ethbr receiver: last sequence number seen and the known blocks. -/
structure Eb where
  seq : Int
  rss : List EbRS
deriving DecidableEq

/-- ethbr/receiver.go:210-262: the callback; `none` is a panic (the log line reads the event before its error is looked at). -/
def ebOnBlock (s : Eb) (height : Int) (logs : List Log) : Option Eb :=
  if logs.any Option.isNone then none
  else
    match ebStatus height s.seq (logs.filterMap id) with
    | none => some s
    | some rs => some ⟨rs.seq, s.rss ++ [rs]⟩

/-- The callback on a list of blocks. -/
def ebRun : Eb → List (Int × List Log) → Option Eb
  | s, [] => some s
  | s, (h, logs) :: l =>
    match ebOnBlock s h logs with
    | none => none
    | some s' => ebRun s' l

/-- A BTP notification: main height and update number of the header (`none`: it does not decode), and the reply to the request
for the block's messages (`none`: it failed). -/
structure Notif where
  header : Option (Int × Int)
  msgs : Option (List Bytes)
deriving DecidableEq

/-- btp2/btp2.go:286-313 under icon/client/client.go:313-335: an error of the callback is logged, the monitor goes on. -/
def b2OnNotif (H : Bytes → Bytes) (start : Int) (s : B2) (n : Notif) : B2 :=
  match n.header with
  | none => s
  | some (h, _) =>
    if h = start then s
    else
      match n.msgs with
      | none => s
      | some ms =>
        match Mbt.newTree Mbt.goCfg H (ms.map some) with
        | none => { s with seq := s.seq + ms.length }
        | some t => ⟨s.rss ++ [⟨h, s.seq + ms.length, t⟩], s.seq + ms.length⟩

def b2Notifs (H : Bytes → Bytes) (start : Int) (s : B2) (l : List Notif) : B2 := l.foldl (b2OnNotif H start) s

/-- btp2/btp2.go:254-264, 281-284: the height asked for and the sequence number to start with. -/
def b2Request (b : Link.Bls) (seq : Int) : Option (Int × Int) :=
  if b.height < 1 then none else some (b.height + 1, if b.rx ≠ 0 then b.rx else seq)

/-- bridge/bridge.go:198-207: the bridge asks for the verifier's height itself. -/
def brRequest (b : Link.Bls) : Option Int := if b.height < 1 then none else some b.height

/-- bridge/bridge.go:221-255; `offset` is the link's offset plus one. -/
def brOnNotif (start offset rxSeq : Int) (s : List BrRS) (n : Notif) : List BrRS :=
  match n.header with
  | none => s
  | some (h, upd) =>
    if h = start then s
    else
      match n.msgs with
      | none => s
      | some ms => s ++ [brStatus h rxSeq (offset + upd / 2) ms]

def brNotifs (start offset rxSeq : Int) (s : List BrRS) (l : List Notif) : List BrRS := l.foldl (brOnNotif start offset rxSeq) s

/-! ### Failures -/

/-- What can go wrong in a running link, in the order it happens. `result` is the outcome of `link.result` for a relay result,
`none` if it does not return (C30). -/
inductive Fault where
  | receiverStart
  | monitorEnds
  | checkStatus
  | buildMessage
  | senderStart
  | result (r : Option Bool)
deriving DecidableEq

/-- link.go:99-121 `Start` with the goroutines of 127-175 and the receivers' `Start`: the error it returns. Only the status query
at the start and the results of relay transactions have a way to it; the goroutine of the sender hangs with the first result that
does not return. -/
def linkErr (status : Bool) : List Fault → Bool
  | l => !status || go l
where
  go : List Fault → Bool
    | [] => false
    | .result none :: _ => false
    | .result (some true) :: l => go l
    | .result (some false) :: _ => true
    | _ :: l => go l

/-- linkfatory.go:75-101: the error of a link is offered once and dropped if the main loop is not waiting at that moment. -/
def relayStops (links : List (Bool × Bool)) : Bool := links.any (fun l => l.1 && l.2)

end Verif.Monitor
