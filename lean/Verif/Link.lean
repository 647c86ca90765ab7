import Verif.Bytes
/-!
Model of the relay's link, /repo/common/link/link.go, over an arbitrary receiver.

The link is a state machine: every method is a function from the link's state to an outcome and a new state. The
outcomes are a value, a returned error, a run-time panic and `stuck` (the goroutine blocks on a lock or runs around a
loop for ever). The Go loops without a bound take a fuel argument and are `stuck` when it is used up; statements
about termination quantify over the fuel. A `*BMCLinkStatus` is a pointer which the queued relay messages share with
the builder, so statuses live in numbered cells. `rand.Int()` is an arbitrary stream of numbers. Log output and the
transmit sequence number (copied, never read) are left out. The link's goroutines are interleaved at whole method
calls; data races inside a method are not modelled.
-/
namespace Verif.Link

/-- What a Go call comes to. -/
inductive R (α : Type) where
  | ok (a : α)
  | err
  | panic
  | stuck
deriving DecidableEq

/-- common/types/type.go `BMCLinkStatus`: the fields the link reads (`RxSeq`, `Verifier.Height`). -/
structure Bls where
  rx : Int
  height : Int
deriving DecidableEq

/-- common/link/type.go `ReceiveStatus`: `Height()`, `Seq()`. -/
structure RS where
  height : Int
  seq : Int
deriving DecidableEq

/-- common/link/type.go `MessageItemType`. -/
inductive Kind where
  | update | proof | message
deriving DecidableEq

/-- A relay message item: `Type()`, `Len()`, the status `UpdateBMCLinkStatus` copies, `ProofHeight()`, payload. -/
structure Item (β : Type) where
  kind : Kind
  len : Int
  next : Bls
  ph : Int
  body : Option β
deriving DecidableEq

/-- common/link/type.go `Receiver`: the calls the link makes. `ρ` is the receiver's state, `γ` the encoded message. -/
structure Rcv (ρ β γ : Type) where
  update : ρ → Bls → Int → R (List (Item β)) × ρ
  blockProof : ρ → Bls → Int → R (Option (Item β))
  msgProof : ρ → Bls → Int → R (Option (Item β))
  heightForSeq : ρ → Int → Int
  encode : List (Item β) → R γ

/-- link.go:29-35 `relayMessage`; `cell` is the number of the status it points to. -/
structure RM (β γ : Type) where
  id : Int
  cell : Nat
  bpHeight : Int
  msg : γ
  items : List (Item β)
deriving DecidableEq

/-- link.go:61-79 `Link` with its `relayMessageItem` (`rmis`, `size`). `cells` are the statuses pointers refer to,
`ids`/`nid` the random numbers and how many are used, `held` the mutex `rmsMtx`. `relayed` is the history of calls of
`Sender.Relay` and `used` the history of items taken from the receiver, in order; no method reads the histories. -/
structure L (ρ β γ : Type) where
  r : ρ
  rms : List (RM β γ)
  rss : List RS
  rmis : List (List (Item β))
  size : Int
  limitSize : Int
  txLimit : Int
  cells : Nat → Bls
  ids : Nat → Int
  nid : Nat
  held : Bool
  relayed : List (RM β γ)
  used : List (Item β)

/-- A method of the link. -/
abbrev M (ρ β γ α : Type) := L ρ β γ → R α × L ρ β γ

section
variable {ρ β γ : Type}

def ret {α : Type} (a : α) : M ρ β γ α := fun s => (.ok a, s)

/-- Sequencing; an error is returned at once (`if err != nil { return err }`). -/
def bnd {α α' : Type} (m : M ρ β γ α) (f : α → M ρ β γ α') : M ρ β γ α' := fun s =>
  match m s with
  | (.ok a, s') => f a s'
  | (.err, s') => (.err, s')
  | (.panic, s') => (.panic, s')
  | (.stuck, s') => (.stuck, s')

/-- A call whose error is dropped. -/
def ign (m : M ρ β γ Unit) : M ρ β γ Unit := fun s =>
  match m s with
  | (.err, s') => (.ok (), s')
  | x => x

/-- A pointer write. -/
def setCell (cells : Nat → Bls) (c : Nat) (b : Bls) : Nat → Bls := fun i => if i = c then b else cells i

/-- link.go:450-453 `createRelayMessageItem`. -/
def createItem : M ρ β γ Unit := fun s => (.ok (), { s with rmis := s.rmis ++ [[]], size := 0 })

/-- link.go:442-448 `isOverLimit`. -/
def isOverLimit (size : Int) : M ρ β γ Bool := fun s =>
  if s.txLimit < size then (.ok true, { s with rmis := s.rmis ++ [[]], size := 0 }) else (.ok false, s)

/-- `rmis[len(rmis)-1] = append(rmis[len(rmis)-1], it)`; `none` is the index -1. -/
def snocLast : List (List (Item β)) → Item β → Option (List (List (Item β)))
  | [], _ => none
  | [l], it => some [l ++ [it]]
  | l :: l' :: ls, it => (snocLast (l' :: ls) it).map (l :: ·)

/-- link.go:210-211, 277-278, 351-352, 367-368: put an item into the last part and add its length. -/
def push (it : Item β) : M ρ β γ Unit := fun s =>
  match snocLast s.rmis it with
  | none => (.panic, s)
  | some x => (.ok (), { s with rmis := x, size := s.size + it.len, used := s.used ++ [it] })

/-- `UpdateBMCLinkStatus`: copies the item's next status into the status pointed to. -/
def updBls (c : Nat) (it : Item β) : M ρ β γ Unit := fun s =>
  (.ok (), { s with cells := setCell s.cells c it.next })

/-- link.go:378-392: the loop of `appendRelayMessage`; numbering starts with `k`. -/
def encodeAll (R0 : Rcv ρ β γ) (r : ρ) (c : Nat) (rx : Int) (ids : Nat → Int) :
    List (List (Item β)) → Nat → R (List (RM β γ))
  | [], _ => .ok []
  | p :: ps, k =>
    match R0.encode p with
    | .ok m =>
      match encodeAll R0 r c rx ids ps (k + 1) with
      | .ok ms => .ok (⟨ids k, c, R0.heightForSeq r rx, m, p⟩ :: ms)
      | .err => .err
      | .panic => .panic
      | .stuck => .stuck
    | .err => .err
    | .panic => .panic
    | .stuck => .stuck

/-- link.go:233-244 `sendRelayMessage` with link.go:377-398 `appendRelayMessage`: encode all parts, empty the parts,
queue and relay every message. `Relay` returns nothing the link reads. -/
def sendRelay (R0 : Rcv ρ β γ) (c : Nat) : M ρ β γ Unit := fun s =>
  match encodeAll R0 s.r c (s.cells c).rx s.ids s.rmis s.nid with
  | .ok ms => (.ok (), { s with rmis := [], size := 0, nid := s.nid + ms.length,
                                rms := s.rms ++ ms, relayed := s.relayed ++ ms })
  | .err => (.err, s)
  | .panic => (.panic, s)
  | .stuck => (.stuck, s)

/-- link.go:246-256 `getHeader`. -/
def getHeader (R0 : Rcv ρ β γ) (c : Nat) : Nat → M ρ β γ (List (Item β))
  | 0 => fun s => (.stuck, s)
  | n + 1 => fun s =>
    match R0.update s.r (s.cells c) (s.limitSize - s.size) with
    | (.ok bus, r') => if bus.length ≠ 0 then (.ok bus, { s with r := r' }) else getHeader R0 c n { s with r := r' }
    | (.err, r') => (.err, { s with r := r' })
    | (.panic, r') => (.panic, { s with r := r' })
    | (.stuck, r') => (.stuck, { s with r := r' })

/-- link.go:345-358 `buildMessageProof`. -/
def buildMessageProof (R0 : Rcv ρ β γ) (c : Nat) : M ρ β γ Unit := fun s =>
  match R0.msgProof s.r (s.cells c) (s.limitSize - s.size) with
  | .ok none => (.ok (), s)
  | .ok (some mp) => bnd (push mp) (fun _ => updBls c mp) s
  | .err => (.err, s)
  | .panic => (.panic, s)
  | .stuck => (.stuck, s)

/-- link.go:360-375 `buildBlockProof`. -/
def buildBlockProof (R0 : Rcv ρ β γ) (c : Nat) (h : Int) : M ρ β γ Unit := fun s =>
  match R0.blockProof s.r (s.cells c) h with
  | .ok none => (.ok (), s)
  | .ok (some bf) => bnd (push bf) (fun _ => updBls c bf) s
  | .err => (.err, s)
  | .panic => (.panic, s)
  | .stuck => (.stuck, s)

/-- link.go:307-313: the over-limit branch after `sendRelayMessage`; `bu != nil || bu.ProofHeight() != 0` calls a
method of a nil interface when `bu` is nil. -/
def overLimitProof (R0 : Rcv ρ β γ) (c : Nat) (bu : Option (Item β)) : M ρ β γ Unit := fun s =>
  match bu with
  | none => (.panic, s)
  | some _ => buildBlockProof R0 c (R0.heightForSeq s.r (s.cells c).rx) s

/-- link.go:301-332: the loop of `buildProof`. In the branch within the limit `mh = h; if mh != h` never holds. -/
def proofLoop (R0 : Rcv ρ β γ) (c : Nat) (bu : Option (Item β)) (rs : RS) : Nat → M ρ β γ Unit
  | 0 => fun s => (.stuck, s)
  | n + 1 => fun s =>
    if rs.seq ≤ (s.cells c).rx then (.ok (), s)
    else bnd (bnd (isOverLimit s.size) (fun over =>
        if over then
          bnd (ign (sendRelay R0 c)) (fun _ => bnd (overLimitProof R0 c bu) (fun _ => buildMessageProof R0 c))
        else buildMessageProof R0 c))
      (fun _ => proofLoop R0 c bu rs n) s

/-- link.go:336-343 `getReceiveStatusForHeight`. -/
def statusAt (rss : List RS) (h : Int) : Option RS := rss.find? (fun rs => rs.height = h)

/-- link.go:295-334 `buildProof`. -/
def buildProof (R0 : Rcv ρ β γ) (n c : Nat) (bu : Option (Item β)) : M ρ β γ Unit := fun s =>
  match statusAt s.rss (s.cells c).height with
  | none => (.ok (), s)
  | some rs => proofLoop R0 c bu rs n s

/-- link.go:208-224: the loop over the block updates. -/
def updates (R0 : Rcv ρ β γ) (n c : Nat) : List (Item β) → M ρ β γ Unit
  | [] => ret ()
  | bu :: bus => bnd (push bu) fun _ => bnd (updBls c bu) fun _ => bnd (buildProof R0 n c (some bu)) fun _ =>
      bnd (sendRelay R0 c) fun _ => updates R0 n c bus

/-- link.go:196-231 `BuildRelayMessage`. -/
def buildRelayMessage (R0 : Rcv ρ β γ) (n c : Nat) : M ρ β γ Unit := fun s =>
  bnd (if s.rmis = [] then createItem else ret ()) (fun _ =>
    bnd (getHeader R0 c n) fun bus => bnd (updates R0 n c bus) fun _ => fun s' =>
      bnd (isOverLimit s'.size) (fun over => if over then ign (sendRelay R0 c) else ret ()) s') s

/-- link.go:259-288: the loop of `checkStatus`; `lastSeq` is never changed. -/
def checkLoop (R0 : Rcv ρ β γ) (n c : Nat) (lastSeq : Int) : Nat → M ρ β γ Unit
  | 0 => fun s => (.stuck, s)
  | k + 1 => fun s =>
    let h := R0.heightForSeq s.r lastSeq
    if h = 0 then (.ok (), s)
    else if h = (s.cells c).height then
      match R0.msgProof s.r (s.cells c) (s.limitSize - s.size) with
      | .ok none => (.ok (), s)
      | .ok (some mp) => if mp.len ≠ 0 ∨ (s.cells c).rx < mp.next.rx then push mp s else (.ok (), s)
      | .err => (.err, s)
      | .panic => (.panic, s)
      | .stuck => (.stuck, s)
    else if h < (s.cells c).height then bnd (buildProof R0 n c none) (fun _ => checkLoop R0 n c lastSeq k) s
    else (.ok (), s)

/-- link.go:258-293 `checkStatus`. `LastSeqNum()` of a message proof is the `RxSeq` of its next status. -/
def checkStatus (R0 : Rcv ρ β γ) (n c : Nat) : M ρ β γ Unit := fun s =>
  bnd (checkLoop R0 n c (s.cells c).rx n) (fun _ => fun s' =>
    if s'.size > 0 then ign (sendRelay R0 c) s' else (.ok (), s')) s

/-- link.go:137 `l.rss = append(l.rss, rs)`. -/
def addStatus (rs : RS) : M ρ β γ Unit := fun s => (.ok (), { s with rss := s.rss ++ [rs] })

/-- link.go:131-140: one turn of the loop of `receiverChannel`; `first` is the `sync.Once`. Errors are dropped. -/
def receive (R0 : Rcv ρ β γ) (n c : Nat) (first : Bool) (rs : RS) : M ρ β γ Unit :=
  bnd (if first then ign (checkStatus R0 n c) else ret ()) fun _ =>
    bnd (addStatus rs) fun _ => ign (buildRelayMessage R0 n c)

/-- `for i, x := range l { if p(x) { l = l[i+1:]; break } }`: link.go:178-194 and the receivers'
`updateReceiveStatus`. -/
def dropThrough {α : Type} (p : α → Bool) : List α → List α → List α
  | whole, [] => whole
  | whole, x :: xs => if p x then xs else dropThrough p whole xs

/-- link.go:178-185 `clearRelayMessage`: the queued message's status is read through its pointer. -/
def clearRelay (b : Bls) : M ρ β γ Unit := fun s =>
  let p : RM β γ → Bool := fun rm => decide ((s.cells rm.cell).height ≤ b.height ∧ (s.cells rm.cell).rx ≤ b.rx)
  (.ok (), { s with rms := dropThrough p s.rms s.rms })

/-- link.go:187-194 `clearReceiveStatus`. -/
def clearStatus (b : Bls) : M ρ β γ Unit := fun s =>
  let p : RS → Bool := fun rs => decide (rs.height ≤ b.height ∧ rs.seq ≤ b.rx)
  (.ok (), { s with rss := dropThrough p s.rss s.rss })

/-- link.go:404-409: `index` is the position of the last message with the id, 0 when there is none. -/
def lastIndex (id : Int) : List (RM β γ) → Nat → Nat → Nat
  | [], _, k => k
  | rm :: rms, i, k => lastIndex id rms (i + 1) (if rm.id = id then i else k)

/-- link.go:400-415 `removeRelayMessage`; `l.rms[index]` in the log call panics on an empty queue. -/
def removeRelay (id : Int) : M ρ β γ Unit := fun s =>
  if s.rms = [] then (.panic, s) else (.ok (), { s with rms := s.rms.drop (lastIndex id s.rms 0 0) })

/-- link.go:433-440 `searchRelayMessage`. -/
def searchRelay (id : Int) (rms : List (RM β γ)) : Option (RM β γ) := rms.find? (fun rm => rm.id = id)

/-- link.go:417-422 `updateBlockProof`; an unknown id is a nil dereference. -/
def updateBlockProof (R0 : Rcv ρ β γ) (n : Nat) (id : Int) : M ρ β γ Unit := fun s =>
  match searchRelay id s.rms with
  | none => (.panic, s)
  | some rm => bnd (ign (buildProof R0 n rm.cell none)) (fun _ => ign (sendRelay R0 rm.cell)) s

/-- link.go:461, 474 `Panicf`. -/
def crash : M ρ β γ Unit := fun s => (.panic, s)

/-- The status object `GetStatus` allocates. -/
def newCell (c : Nat) (b : Bls) : M ρ β γ Unit := fun s => (.ok (), { s with cells := setCell s.cells c b })

/-- link.go:459-476: the body of `result`. `status` is what `GetStatus` answers, `fresh` the cell it is kept in.
Codes (link.go:14-27): 25 unknown, 26 not verifiable, 27 already verified, 28 invalid block witness. -/
def resultBody (R0 : Rcv ρ β γ) (n : Nat) (status : Option Bls) (fresh : Nat) (id : Int) (code : Nat) : M ρ β γ Unit :=
  if code = 26 then
    match status with
    | none => fun s => (.err, s)
    | some b => bnd (newCell fresh b) fun _ => ign (buildRelayMessage R0 n fresh)
  else if code = 27 then removeRelay id
  else if code = 28 then updateBlockProof R0 n id
  else crash

/-- `sync.RWMutex.Lock`: not re-entrant. -/
def lock : M ρ β γ Unit := fun s => if s.held then (.stuck, s) else (.ok (), { s with held := true })

/-- A body with a deferred call: it runs when the body returns and also when it panics. -/
def withDefer (body d : M ρ β γ Unit) : M ρ β γ Unit := fun s =>
  match body s with
  | (.stuck, s') => (.stuck, s')
  | (o, s') =>
    match d s' with
    | (.ok _, s'') => (o, s'')
    | (.err, s'') => (.err, s'')
    | (.panic, s'') => (.panic, s'')
    | (.stuck, s'') => (.stuck, s'')

/-- link.go:455-477 `result`: `l.rmsMtx.Lock(); defer l.rmsMtx.Lock()`. -/
def result (R0 : Rcv ρ β γ) (n : Nat) (status : Option Bls) (fresh : Nat) (id : Int) (code : Nat) : M ρ β γ Unit :=
  bnd lock fun _ => withDefer (resultBody R0 n status fresh id code) lock

end
end Verif.Link
