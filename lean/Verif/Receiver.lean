import Verif.Link
import Verif.Mbt
/-!
Models of the relay's three receivers:
/repo/chain/icon/btp2/{btp2,message}.go, /repo/chain/icon/bridge/{bridge,message}.go,
/repo/chain/ethbr/{receiver,message}.go.

Network calls and encoders are parameters: `hdr h` is the main height in the header fetched for block `h` and the length of
the encoded block update (`none`: a failed call), `plen` the length of an encoded payload. Decoding of base64 is taken
as done. A receive status is appended to the receiver's list by the monitor goroutine and then offered to the link
over an unbuffered channel, so the list may run ahead of the link by one entry.
-/
namespace Verif.Receiver
open Verif Verif.Link Verif.Mbt

/-- btp2/message.go:63-81, bridge/message.go:79-96, ethbr/message.go:60-77 `NewBlockUpdate`. -/
def mkUpdate {β : Type} (b : Bls) (target len : Int) : Item β := ⟨.update, len, ⟨b.rx, target⟩, target, none⟩

/-- btp2/message.go:96-111, bridge/message.go:111-158, ethbr/message.go:92-143 `NewMessageProof`: the next status has the
given last sequence number; `Len` is the length of the payload. (The ethbr version leaves receipts without events out
of the payload; the model keeps them.) -/
def mkProof {β : Type} (b : Bls) (last len : Int) (x : β) : Item β := ⟨.message, len, ⟨last, b.height⟩, 0, some x⟩

/-! ### btp2 -/

/-- btp2.go:18-22 `receiveStatus`. -/
structure B2RS where
  height : Int
  seq : Int
  mt : Tree

/-- btp2.go:56-66 `btp2`: the fields that change. -/
structure B2 where
  rss : List B2RS
  seq : Int

/-- What the btp2 receiver gets from outside. -/
structure B2Env where
  H : Bytes → Bytes
  hdr : Int → Option (Int × Nat)
  plen : Proof → Nat

/-- btp2.go:245-252 `updateReceiveStatus`. -/
def b2Drop (b : Bls) (l : List B2RS) : List B2RS :=
  dropThrough (fun rs => decide (rs.height ≤ b.height ∧ rs.seq ≤ b.rx)) l l

/-- btp2.go:164-183: the loop of `BuildBlockUpdate`. -/
def b2Updates (E : B2Env) (b : Bls) (limit : Int) : List B2RS → R (List (Item Proof))
  | [] => .ok []
  | rs :: rest =>
    match E.hdr rs.height with
    | none => .err
    | some (mh, len) =>
      if limit < len then .ok []
      else
        match b2Updates E b limit rest with
        | .ok l => .ok (mkUpdate b mh len :: l)
        | .err => .err
        | .panic => .panic
        | .stuck => .stuck

/-- btp2.go:161-185 `BuildBlockUpdate`. -/
def b2Update (E : B2Env) (s : B2) (b : Bls) (limit : Int) : R (List (Item Proof)) × B2 :=
  let rss := b2Drop b s.rss
  (b2Updates E b limit rss, { s with rss := rss })

/-- btp2.go:202-221: the loop `for i := offset + 1; i < messageCnt; i++` and what follows it; the first argument is the
number of rounds left. -/
def b2Loop (E : B2Env) (b : Bls) (limit : Int) (t : Tree) (offset : Int) : Nat → Int → R (Option (Item Proof))
  | 0, _ =>
    match t.proof (offset + 1) t.contents.length with
    | none => .err
    | some p => .ok (some (mkProof b (b.rx + t.contents.length) (E.plen p) p))
  | k + 1, i =>
    match t.proof (offset + 1) i with
    | none => .err
    | some p =>
      if limit < E.plen p then .ok (some (mkProof b (b.rx + i) (E.plen p) p))
      else b2Loop E b limit t offset k (i + 1)

/-- btp2.go:325-332 `GetReceiveHeightForHeight`. -/
def b2At (rss : List B2RS) (h : Int) : Option B2RS := rss.find? (fun rs => rs.height = h)

/-- btp2.go:191-222 `BuildMessageProof`. A block without messages skips the loop, as the loop would not run. -/
def b2MsgProof (E : B2Env) (s : B2) (b : Bls) (limit : Int) : R (Option (Item Proof)) :=
  match b2At s.rss b.height with
  | none => .ok none
  | some rs =>
    let cnt : Int := rs.mt.contents.length
    let offset := b.rx - (rs.seq - cnt)
    if b.rx - rs.seq = 0 then .ok none
    else b2Loop E b limit rs.mt offset (if cnt > 0 then (cnt - (offset + 1)).toNat else 0) (offset + 1)

/-- btp2.go:316-323, 152-159 `GetHeightForSeq`. -/
def b2HeightForSeq (s : B2) (q : Int) : Int :=
  match s.rss.find? (fun rs => q ≤ rs.seq ∧ q ≥ rs.seq) with
  | some rs => rs.height
  | none => 0

/-- btp2.go:224-243 `BuildRelayMessage`: all the items, in order; a block proof is an error. The RLP encoding is left
out (it is injective, C03). -/
def b2Encode (l : List (Item Proof)) : R (List (Item Proof)) :=
  if l.any (fun it => it.kind = .proof) then .err else .ok l

/-- btp2.go: the receiver as the link sees it; `BuildBlockProof` (187-189) returns nothing. -/
def b2Rcv (E : B2Env) : Rcv B2 Proof (List (Item Proof)) :=
  ⟨b2Update E, fun _ _ _ => .ok none, b2MsgProof E, b2HeightForSeq, b2Encode⟩

/-- btp2.go:286-313: the callback of the monitor for a block with messages `msgs` (not the network's start block). -/
def b2Monitor (E : B2Env) (s : B2) (height : Int) (msgs : List Bytes) : Option (B2 × RS) :=
  match newTree goCfg E.H (msgs.map some) with
  | none => none
  | some t =>
    let seq := s.seq + msgs.length
    some (⟨s.rss ++ [⟨height, seq, t⟩], seq⟩, ⟨height, seq⟩)

/-! ### bridge -/

/-- An event: sequence number and message. The `next` address is the same for all. -/
abbrev Ev := Int × Bytes

/-- bridge.go:18-22 `receiveStatus` with its receipt's events. -/
structure BrRS where
  height : Int
  seq : Int
  evts : List Ev
deriving DecidableEq

/-- bridge.go:50-59: the loop of `newReceiveStatus`. -/
def brEvents (rxSeq : Int) : Int → List Bytes → List Ev
  | _, [] => []
  | sn, m :: ms => if sn > rxSeq then (sn, m) :: brEvents rxSeq (sn + 1) ms else brEvents rxSeq (sn + 1) ms

/-- bridge.go:47-72 `newReceiveStatus`: the status carries the sequence number of the block's first message. -/
def brStatus (height rxSeq sn : Int) (msgs : List Bytes) : BrRS := ⟨height, sn, brEvents rxSeq sn msgs⟩

/-- `Events[i]` with a Go index; `none` is a panic. -/
def at? {α : Type} (l : List α) (i : Int) : Option α := if i < 0 then none else l[i.toNat]?

/-- bridge.go:160-167: the loop of `BuildMessageProof`; an event counts 8 bytes, the size of a pointer. -/
def brLoop (plen : Int → List Ev → Nat) (b : Bls) (limit : Int) (rs : BrRS) : Nat → Int → Int → List Ev →
    R (Option (Item (Int × List Ev)))
  | 0, _, _, acc =>
    .ok (some (mkProof b (b.rx + rs.evts.length) (plen rs.height acc) (rs.height, acc)))
  | k + 1, i, rmSize, acc =>
    match at? rs.evts i with
    | none => .panic
    | some e =>
      if limit < rmSize + 8 then .ok (some (mkProof b (b.rx + i) (plen rs.height acc) (rs.height, acc)))
      else brLoop plen b limit rs k (i + 1) (rmSize + 8) (acc ++ [e])

/-- bridge.go:273-280 `GetReceiveHeightForSequence`. -/
def brAt (rss : List BrRS) (q : Int) : Option BrRS := rss.find? (fun rs => q ≤ rs.seq ∧ q ≥ rs.seq)

/-- bridge.go:145-172 `BuildMessageProof`. -/
def brMsgProof (plen : Int → List Ev → Nat) (rss : List BrRS) (b : Bls) (limit : Int) :
    R (Option (Item (Int × List Ev))) :=
  match brAt rss (b.rx + 1) with
  | none => .ok none
  | some rs =>
    let cnt : Int := rs.evts.length
    let offset := b.rx - (rs.seq - cnt)
    brLoop plen b limit rs (cnt - offset).toNat offset 0 []

/-- bridge.go:264-271 `updateReceiveStatus`. -/
def brDrop (b : Bls) (l : List BrRS) : List BrRS :=
  dropThrough (fun rs => decide (rs.height ≤ b.height ∧ rs.seq ≤ b.rx)) l l

/-- bridge.go:131-139 `BuildBlockUpdate`: the update of a bridge is empty. -/
def brUpdate (s : List BrRS) (b : Bls) (_limit : Int) : R (List (Item (Int × List Ev))) × List BrRS :=
  (.ok ((brDrop b s).map (fun rs => mkUpdate b rs.height 0)), brDrop b s)

/-- bridge.go:122-129 `GetHeightForSeq`. -/
def brHeightForSeq (s : List BrRS) (q : Int) : Int :=
  match brAt s q with
  | some rs => rs.height
  | none => 0

/-- bridge.go:174-186, ethbr/receiver.go:167-179 `BuildRelayMessage`: the payload of the first message proof, or nil. -/
def firstProof {β : Type} (l : List (Item β)) : R (Option β) :=
  match l.find? (fun it => it.kind = .message) with
  | some it => .ok it.body
  | none => .ok none

/-- bridge.go: the receiver as the link sees it. -/
def brRcv (plen : Int → List Ev → Nat) : Rcv (List BrRS) (Int × List Ev) (Option (Int × List Ev)) :=
  ⟨brUpdate, fun _ _ _ => .ok none, brMsgProof plen, brHeightForSeq, firstProof⟩

/-! ### ethbr -/

/-- A receipt: transaction index and its events. -/
abbrev Rcpt := Int × List Ev

/-- ethbr/receiver.go:26-30 `receiveStatus`. -/
structure EbRS where
  height : Int
  seq : Int
  rps : List Rcpt
deriving DecidableEq

/-- receiver.go:229-238: put an event into the receipt of its transaction (`rpsMap`, here kept in order of the index,
which is the order `sort.Slice` gives at 241-247). -/
def ebInsert (ix : Int) (e : Ev) : List Rcpt → List Rcpt
  | [] => [(ix, [e])]
  | (j, es) :: rest =>
    if ix = j then (j, es ++ [e]) :: rest
    else if ix < j then (ix, [e]) :: (j, es) :: rest
    else (j, es) :: ebInsert ix e rest

/-- receiver.go:214-239: the events of a block's logs (transaction index, destination matches, event) that are newer
than `seq`, by transaction. -/
def ebGroup (seq : Int) (logs : List (Int × Bool × Ev)) : List Rcpt :=
  logs.foldl (fun acc l => if l.2.2.1 ≤ seq then acc else if !l.2.1 then acc else ebInsert l.1 l.2.2 acc) []

/-- receiver.go:240-258: the status of a block, if it has any new event: its sequence number is that of the last
event of the last receipt. -/
def ebStatus (height seq : Int) (logs : List (Int × Bool × Ev)) : Option EbRS :=
  let rps := ebGroup seq logs
  match rps.getLast? with
  | none => none
  | some r =>
    match r.2.getLast? with
    | none => none
    | some e => some ⟨height, e.1, rps⟩

/-- receiver.go:131-140: the loop over a receipt's events; `inl` is the early return inside it. -/
def ebEvents (limit : Int) : List Ev → Int → Nat → List Ev → Sum (List Ev) (Int × Nat × List Ev)
  | [], rm, n, acc => .inr (rm, n, acc)
  | e :: es, rm, n, acc =>
    if limit < rm + 8 ∧ rm > 0 then .inl acc else ebEvents limit es (rm + 8) (n + 1) (acc ++ [e])

/-- receiver.go:123-155: the loop over the receipts. -/
def ebLoop (plen : List Rcpt → Nat) (b : Bls) (limit : Int) (rs : EbRS) : Nat → Int → Int → Nat → List Rcpt →
    R (Option (Item (List Rcpt)))
  | 0, _, _, n, acc => .ok (some (mkProof b (b.rx + n) (plen acc) acc))
  | k + 1, i, rm, n, acc =>
    match at? rs.rps i with
    | none => .panic
    | some (ix, es) =>
      match ebEvents limit es rm n [] with
      | .inl l => .ok (some (mkProof b (b.rx + i) (plen (acc ++ [(ix, l)])) (acc ++ [(ix, l)])))
      | .inr (rm', n', l) =>
        if limit < rm' then .ok (some (mkProof b (b.rx + i) (plen (acc ++ [(ix, l)])) (acc ++ [(ix, l)])))
        else ebLoop plen b limit rs k (i + 1) rm' n' (if l = [] then acc else acc ++ [(ix, l)])

/-- receiver.go:302-309 `GetReceiveHeightForSequence`. -/
def ebAt (rss : List EbRS) (q : Int) : Option EbRS := rss.find? (fun rs => q ≤ rs.seq ∧ q ≥ rs.seq)

/-- receiver.go:110-156 `BuildMessageProof`: the log call reads `rs.rps` before `rs` is compared with nil. -/
def ebMsgProof (plen : List Rcpt → Nat) (rss : List EbRS) (b : Bls) (limit : Int) : R (Option (Item (List Rcpt))) :=
  match ebAt rss (b.rx + 1) with
  | none => .panic
  | some rs =>
    let cnt : Int := rs.rps.length
    let offset := b.rx - (rs.seq - cnt)
    if cnt > 0 then ebLoop plen b limit rs (cnt - offset).toNat offset 0 0 [] else .ok none

/-- receiver.go:181-188 `updateReceiveStatus`. -/
def ebDrop (b : Bls) (l : List EbRS) : List EbRS :=
  dropThrough (fun rs => decide (rs.height ≤ b.height ∧ rs.seq ≤ b.rx)) l l

/-- receiver.go:96-104 `BuildBlockUpdate`. -/
def ebUpdate (s : List EbRS) (b : Bls) (_limit : Int) : R (List (Item (List Rcpt))) × List EbRS :=
  (.ok ((ebDrop b s).map (fun rs => mkUpdate b rs.height 0)), ebDrop b s)

/-- receiver.go:158-165 `GetHeightForSeq`. -/
def ebHeightForSeq (s : List EbRS) (q : Int) : Int :=
  match ebAt s q with
  | some rs => rs.height
  | none => 0

/-- receiver.go: the receiver as the link sees it. -/
def ebRcv (plen : List Rcpt → Nat) : Rcv (List EbRS) (List Rcpt) (Option (List Rcpt)) :=
  ⟨ebUpdate, fun _ _ _ => .ok none, ebMsgProof plen, ebHeightForSeq, firstProof⟩

end Verif.Receiver
