import Verif.BtpAddress
import Verif.IntConvProps
/-!
The `writeObject` and `readObject` methods of the classes that the Java contracts store in their databases, put into messages or take
out of relay messages (/repo/javascore). The names follow the classes; where two contracts use the same name a letter tells them
apart (`N`: nativecoin, `B`: bsh, `F`: fee-aggregation, `K`: bmv/btpblock, `I`: bmv/icon).

The "RLPn" reader and writer of the Java runtime are not part of the repository. They are modelled as follows. What is written is
a sequence of items `T`: null, a byte string, or a list. `Rt.enc` turns items into bytes and `Rt.dec` back; that this is lossless
is the law `Rt.ok` (a reader that is given bytes decodes them all at once: bytes after the first item that is read do not matter, but
must be well formed). Numbers are written as shortest two's complement (`IntConv.bigIntToBytes`, the same form as on the Go side),
`readLong`/`readInt` refuse more than 8/4 bytes, `readBoolean` takes 0 or 1, an address has 21 bytes, texts are characters which
`Rt.utf8` turns into bytes. `write(null)` and a loop over a null array are exceptions (`none`). The number given to `beginList` is not
used by RLPn. `end()` of a reader skips what has not been read. Every reference field is an `Option`, `none` being null; `long` and
`int` fields are `Int64` and `Int32`.
-/
namespace Verif.JavaObj
open Verif Verif.IntConv Verif.BtpAddress

/-- What the writer produces and the reader consumes. -/
inductive T where
  | null
  | bytes (b : Bytes)
  | list (ts : List T)

/-- The byte forms of the runtime. -/
structure Rt where
  enc : List T → Bytes
  dec : Bytes → Option (List T)
  ok : ∀ l, dec (enc l) = some l
  utf8 : Str → Bytes
  unUtf8 : Bytes → Option Str
  utf8_ok : ∀ s, unUtf8 (utf8 s) = some s

/-- A writer: the items written, or an exception. -/
abbrev W := Option (List T)

/-- Writing one thing after another. -/
def seqW : List W → W
  | [] => some []
  | w :: ws => w.bind fun a => (seqW ws).map fun b => a ++ b

/-- `beginList(n)` … `end()`. -/
def wList (w : W) : W := w.map fun l => [.list l]
def wBytes (b : Bytes) : W := some [.bytes b]
def wStr (R : Rt) (s : Str) : W := some [.bytes (R.utf8 s)]
def wBig (i : Int) : W := some [.bytes (bigIntToBytes i)]
def wLong (i : Int64) : W := some [.bytes (bigIntToBytes i.toInt)]
def wInt (i : Int32) : W := some [.bytes (bigIntToBytes i.toInt)]
def wBool (b : Bool) : W := some [.bytes [if b then 1 else 0]]

/-- `score.Address`: 21 bytes. -/
def Addr : Type := { b : Bytes // b.length = 21 }
instance : DecidableEq Addr := inferInstanceAs (DecidableEq { b : Bytes // b.length = 21 })
def wAddr (a : Addr) : W := some [.bytes a.val]
/-- `write(x)`: null is an exception. -/
def wReq (w : α → W) : Option α → W
  | none => none
  | some x => w x
/-- `writeNullable(x)`, and the `if (x != null) … else writer.writeNull()` of the classes. -/
def wNull (w : α → W) : Option α → W
  | none => some [.null]
  | some x => w x
/-- `beginList(xs.length)`, one write for each element, `end()`. -/
def wArr (w : α → W) (xs : List α) : W := wList (seqW (xs.map w))
/-- A second writer, whose bytes are written. -/
def wNest (R : Rt) (w : α → W) (x : α) : W := (w x).map fun l => [.bytes (R.enc l)]
/-- lib/src/main/java/foundation/icon/btp/lib/BTPAddress.java:113-115 `writeObject`. -/
def wBtp (R : Rt) (a : JAddr) : W := wStr R a.toStr

/-- A reader: from the items that are left to a value and the items left then, or an exception. -/
def Rd (α : Type) := List T → Option (α × List T)

instance : Monad Rd where
  pure x := fun ts => some (x, ts)
  bind r f := fun ts => match r ts with
    | none => none
    | some (x, ts') => f x ts'

def rBytes : Rd Bytes
  | .bytes b :: ts => some (b, ts)
  | _ => none
def rStr (R : Rt) : Rd Str := do
  let b ← rBytes
  fun ts => (R.unUtf8 b).map fun s => (s, ts)
def rBig : Rd Int := do
  let b ← rBytes
  pure (bigIntSetBytes b)
def rLong : Rd Int64 := do
  let b ← rBytes
  fun ts => if 8 < b.length then none else some (Int64.ofInt (bigIntSetBytes b), ts)
def rInt : Rd Int32 := do
  let b ← rBytes
  fun ts => if 4 < b.length then none else some (Int32.ofInt (bigIntSetBytes b), ts)
def rBool : Rd Bool := do
  let b ← rBytes
  fun ts => if b = [1] then some (true, ts) else if b = [0] then some (false, ts) else none
def rAddr : Rd Addr := do
  let b ← rBytes
  fun ts => if h : b.length = 21 then some (⟨b, h⟩, ts) else none
/-- `hasNext()`. -/
def hasNext : Rd Bool := fun ts => some (!ts.isEmpty, ts)
/-- `read`: the value is not null. -/
def rReq (r : Rd α) : Rd (Option α) := do
  let x ← r
  pure (some x)
/-- `readNullable`, and `if (reader.beginNullableList())`. -/
def rNull (r : Rd α) : Rd (Option α)
  | .null :: ts => some (none, ts)
  | ts => rReq r ts
/-- `beginList()` … `end()`. -/
def rList (r : Rd α) : Rd α
  | .list l :: ts => (r l).map fun p => (p.1, ts)
  | _ => none
/-- `while (reader.hasNext())` with at most `n` rounds. -/
def rLoop (r : Rd α) : Nat → Rd (List α)
  | 0, ts => if ts.isEmpty then some ([], ts) else none
  | n + 1, ts =>
    if ts.isEmpty then some ([], ts)
    else match r ts with
      | none => none
      | some (x, ts') => (rLoop r n ts').map fun p => (x :: p.1, p.2)
/-- A list read to its end: every round takes an item. -/
def rArr (r : Rd α) : Rd (List α)
  | .list l :: ts => (rLoop r l.length l).map fun p => (p.1, ts)
  | _ => none
/-- Bytes given to a second reader. -/
def rNest (R : Rt) (r : Rd α) : Rd α := do
  let b ← rBytes
  fun ts => match R.dec b with
    | none => none
    | some l => (r l).map fun p => (p.1, ts)
/-- lib/src/main/java/foundation/icon/btp/lib/BTPAddress.java:117-119 `readObject`. -/
def rBtp (R : Rt) : Rd JAddr := do
  let s ← rStr R
  pure (jParse s)

/-- The `toBytes` methods. -/
def toBytes (R : Rt) (w : Rt → α → W) (x : α) : Option Bytes := (w R x).map R.enc
/-- The `fromBytes` methods. -/
def fromBytes (R : Rt) (r : Rt → Rd α) (b : Bytes) : Option α :=
  match R.dec b with
  | none => none
  | some l => (r R l).map fun p => p.1

/-- lib/src/main/java/foundation/icon/btp/lib/BMVStatus.java, the fields that are written. -/
structure BMVStatus where
  height : Int64
  extra : Option Bytes
deriving DecidableEq

/-- lib/src/main/java/foundation/icon/btp/lib/BMVStatus.java:59-64 `writeObject`. -/
def wBMVStatus (_ : Rt) (x : BMVStatus) : W :=
  wList (seqW [wLong x.height, wReq wBytes x.extra])

/-- lib/src/main/java/foundation/icon/btp/lib/BMVStatus.java:66-73 `readObject`. -/
def rBMVStatus (_ : Rt) : Rd BMVStatus := rList do
  let height ← rLong
  let extra ← rReq rBytes
  pure ⟨height, extra⟩

/-- bmc/src/main/java/foundation/icon/btp/bmc/BMCMessage.java, the fields that are written. -/
structure BMCMessage where
  type : Option Str
  payload : Option Bytes
deriving DecidableEq

/-- bmc/src/main/java/foundation/icon/btp/bmc/BMCMessage.java:75-80 `writeObject`. -/
def wBMCMessage (R : Rt) (x : BMCMessage) : W :=
  wList (seqW [wNull (wStr R) x.type, wNull wBytes x.payload])

/-- bmc/src/main/java/foundation/icon/btp/bmc/BMCMessage.java:66-73 `readObject`. -/
def rBMCMessage (R : Rt) : Rd BMCMessage := rList do
  let type ← rNull (rStr R)
  let payload ← rNull rBytes
  pure ⟨type, payload⟩

/-- bmc/src/main/java/foundation/icon/btp/bmc/BMCRequest.java, the fields that are written. -/
structure BMCRequest where
  dst : Option Str
  msg : Option BMCMessage
  caller : Option Addr
deriving DecidableEq

/-- bmc/src/main/java/foundation/icon/btp/bmc/BMCRequest.java:87-93 `writeObject`. -/
def wBMCRequest (R : Rt) (x : BMCRequest) : W :=
  wList (seqW [wReq (wStr R) x.dst, wReq (wBMCMessage R) x.msg, wReq wAddr x.caller])

/-- bmc/src/main/java/foundation/icon/btp/bmc/BMCRequest.java:77-85 `readObject`. -/
def rBMCRequest (R : Rt) : Rd BMCRequest := rList do
  let dst ← rReq (rStr R)
  let msg ← rReq (rBMCMessage R)
  let caller ← rReq rAddr
  pure ⟨dst, msg, caller⟩

/-- bmc/src/main/java/foundation/icon/btp/bmc/Route.java, the fields that are written. -/
structure Route where
  destination : Option JAddr
  next : Option JAddr
deriving DecidableEq

/-- bmc/src/main/java/foundation/icon/btp/bmc/Route.java:75-80 `writeObject`. -/
def wRoute (R : Rt) (x : Route) : W :=
  wList (seqW [wNull (wBtp R) x.destination, wNull (wBtp R) x.next])

/-- bmc/src/main/java/foundation/icon/btp/bmc/Route.java:66-73 `readObject`. -/
def rRoute (R : Rt) : Rd Route := rList do
  let destination ← rNull (rBtp R)
  let next ← rNull (rBtp R)
  pure ⟨destination, next⟩

/-- bmc/src/main/java/foundation/icon/btp/bmc/InitMessage.java, the fields that are written. -/
structure InitMessage where
  links : Option (List (Option JAddr))
deriving DecidableEq

/-- bmc/src/main/java/foundation/icon/btp/bmc/InitMessage.java:78-87 `writeObject`. -/
def wInitMessage (R : Rt) (x : InitMessage) : W :=
  wList (seqW [wReq (wArr (wNull (wBtp R))) x.links])

/-- bmc/src/main/java/foundation/icon/btp/bmc/InitMessage.java:59-76 `readObject`. -/
def rInitMessage (R : Rt) : Rd InitMessage := rList do
  let links ← rReq (rArr (rNull (rBtp R)))
  pure ⟨links⟩

/-- bmc/src/main/java/foundation/icon/btp/bmc/LinkMessage.java, the fields that are written. -/
structure LinkMessage where
  link : Option JAddr
deriving DecidableEq

/-- bmc/src/main/java/foundation/icon/btp/bmc/LinkMessage.java:63-67 `writeObject`. -/
def wLinkMessage (R : Rt) (x : LinkMessage) : W :=
  wList (seqW [wNull (wBtp R) x.link])

/-- bmc/src/main/java/foundation/icon/btp/bmc/LinkMessage.java:55-61 `readObject`. -/
def rLinkMessage (R : Rt) : Rd LinkMessage := rList do
  let link ← rNull (rBtp R)
  pure ⟨link⟩

/-- bmc/src/main/java/foundation/icon/btp/bmc/UnlinkMessage.java, the fields that are written. -/
structure UnlinkMessage where
  link : Option JAddr
deriving DecidableEq

/-- bmc/src/main/java/foundation/icon/btp/bmc/UnlinkMessage.java:63-67 `writeObject`. -/
def wUnlinkMessage (R : Rt) (x : UnlinkMessage) : W :=
  wList (seqW [wNull (wBtp R) x.link])

/-- bmc/src/main/java/foundation/icon/btp/bmc/UnlinkMessage.java:55-61 `readObject`. -/
def rUnlinkMessage (R : Rt) : Rd UnlinkMessage := rList do
  let link ← rNull (rBtp R)
  pure ⟨link⟩

/-- bmc/src/main/java/foundation/icon/btp/bmc/FeeInfo.java, the fields that are written. -/
structure FeeInfo where
  network : Option Str
  values : Option (List (Option Int))
deriving DecidableEq

/-- bmc/src/main/java/foundation/icon/btp/bmc/FeeInfo.java:89-99 `writeObject`. -/
def wFeeInfo (R : Rt) (x : FeeInfo) : W :=
  wList (seqW [wReq (wStr R) x.network, wReq (wArr (wReq wBig)) x.values])

/-- bmc/src/main/java/foundation/icon/btp/bmc/FeeInfo.java:70-87 `readObject`. -/
def rFeeInfo (R : Rt) : Rd FeeInfo := rList do
  let network ← rReq (rStr R)
  let values ← rReq (rArr (rReq rBig))
  pure ⟨network, values⟩

/-- bmc/src/main/java/foundation/icon/btp/bmc/Link.java, the fields that are written. -/
structure Link where
  addr : Option JAddr
  rxSeq : Option Int
  txSeq : Option Int
  reachable : Option (List (Option JAddr))
deriving DecidableEq

/-- bmc/src/main/java/foundation/icon/btp/bmc/Link.java:104-120 `writeObject`. -/
def wLink (R : Rt) (x : Link) : W :=
  wList (seqW [wNull (wBtp R) x.addr, wNull wBig x.rxSeq, wNull wBig x.txSeq, wNull (wArr (wReq (wBtp R))) x.reachable])

/-- bmc/src/main/java/foundation/icon/btp/bmc/Link.java:86-102 `readObject`. -/
def rLink (R : Rt) : Rd Link := rList do
  let addr ← rNull (rBtp R)
  let rxSeq ← rNull rBig
  let txSeq ← rNull rBig
  let reachable ← rNull (rArr (rNull (rBtp R)))
  pure ⟨addr, rxSeq, txSeq, reachable⟩

/-- bmc/src/main/java/foundation/icon/btp/bmc/ResponseInfo.java, the fields that are written. -/
structure ResponseInfo where
  nsn : Option Int
  feeInfo : Option FeeInfo
deriving DecidableEq

/-- bmc/src/main/java/foundation/icon/btp/bmc/ResponseInfo.java:76-81 `writeObject`. -/
def wResponseInfo (R : Rt) (x : ResponseInfo) : W :=
  wList (seqW [wReq wBig x.nsn, wNull (wFeeInfo R) x.feeInfo])

/-- bmc/src/main/java/foundation/icon/btp/bmc/ResponseInfo.java:67-74 `readObject`. -/
def rResponseInfo (R : Rt) : Rd ResponseInfo := rList do
  let nsn ← rReq rBig
  let feeInfo ← rNull (rFeeInfo R)
  pure ⟨nsn, feeInfo⟩

/-- bmc/src/main/java/foundation/icon/btp/bmc/BTPMessage.java, the fields that are written. -/
structure BTPMessage where
  src : Option Str
  dst : Option Str
  svc : Option Str
  sn : Option Int
  payload : Option Bytes
  nsn : Option Int
  feeInfo : Option FeeInfo
deriving DecidableEq

/-- bmc/src/main/java/foundation/icon/btp/bmc/BTPMessage.java:124-134 `writeObject`. -/
def wBTPMessage (R : Rt) (x : BTPMessage) : W :=
  wList (seqW [wReq (wStr R) x.src, wReq (wStr R) x.dst, wReq (wStr R) x.svc, wReq wBig x.sn, wReq wBytes x.payload, wReq wBig x.nsn,
    wNull (wFeeInfo R) x.feeInfo])

/-- bmc/src/main/java/foundation/icon/btp/bmc/BTPMessage.java:110-122 `readObject`. -/
def rBTPMessage (R : Rt) : Rd BTPMessage := rList do
  let src ← rReq (rStr R)
  let dst ← rReq (rStr R)
  let svc ← rReq (rStr R)
  let sn ← rReq rBig
  let payload ← rReq rBytes
  let nsn ← rReq rBig
  let feeInfo ← rNull (rFeeInfo R)
  pure ⟨src, dst, svc, sn, payload, nsn, feeInfo⟩

/-- bmc/src/main/java/foundation/icon/btp/bmc/ClaimMessage.java, the fields that are written. -/
structure ClaimMessage where
  amount : Option Int
  receiver : Option Str
deriving DecidableEq

/-- bmc/src/main/java/foundation/icon/btp/bmc/ClaimMessage.java:76-81 `writeObject`. -/
def wClaimMessage (R : Rt) (x : ClaimMessage) : W :=
  wList (seqW [wReq wBig x.amount, wReq (wStr R) x.receiver])

/-- bmc/src/main/java/foundation/icon/btp/bmc/ClaimMessage.java:67-74 `readObject`. -/
def rClaimMessage (R : Rt) : Rd ClaimMessage := rList do
  let amount ← rReq rBig
  let receiver ← rReq (rStr R)
  pure ⟨amount, receiver⟩

/-- bmc/src/main/java/foundation/icon/btp/bmc/ResponseMessage.java, the fields that are written. -/
structure ResponseMessage where
  code : Int64
  msg : Option Str
deriving DecidableEq

/-- bmc/src/main/java/foundation/icon/btp/bmc/ResponseMessage.java:80-85 `writeObject`. -/
def wResponseMessage (R : Rt) (x : ResponseMessage) : W :=
  wList (seqW [wLong x.code, wNull (wStr R) x.msg])

/-- bmc/src/main/java/foundation/icon/btp/bmc/ResponseMessage.java:71-78 `readObject`. -/
def rResponseMessage (R : Rt) : Rd ResponseMessage := rList do
  let code ← rLong
  let msg ← rNull (rStr R)
  pure ⟨code, msg⟩

/-- nativecoin/src/main/java/foundation/icon/btp/nativecoin/Asset.java, the fields that are written. -/
structure NAsset where
  coinName : Option Str
  amount : Option Int
deriving DecidableEq

/-- nativecoin/src/main/java/foundation/icon/btp/nativecoin/Asset.java:80-85 `writeObject`. -/
def wNAsset (R : Rt) (x : NAsset) : W :=
  wList (seqW [wNull (wStr R) x.coinName, wNull wBig x.amount])

/-- nativecoin/src/main/java/foundation/icon/btp/nativecoin/Asset.java:71-78 `readObject`. -/
def rNAsset (R : Rt) : Rd NAsset := rList do
  let coinName ← rNull (rStr R)
  let amount ← rNull rBig
  pure ⟨coinName, amount⟩

/-- nativecoin/src/main/java/foundation/icon/btp/nativecoin/TransferRequest.java, the fields that are written. -/
structure TransferRequest where
  from_ : Option Str
  to_ : Option Str
  assets : Option (List (Option NAsset))
deriving DecidableEq

/-- nativecoin/src/main/java/foundation/icon/btp/nativecoin/TransferRequest.java:93-108 `writeObject`. -/
def wTransferRequest (R : Rt) (x : TransferRequest) : W :=
  wList (seqW [wNull (wStr R) x.from_, wNull (wStr R) x.to_, wNull (wArr (wNull (wNAsset R))) x.assets])

/-- nativecoin/src/main/java/foundation/icon/btp/nativecoin/TransferRequest.java:71-91 `readObject`. -/
def rTransferRequest (R : Rt) : Rd TransferRequest := rList do
  let from_ ← rNull (rStr R)
  let to_ ← rNull (rStr R)
  let assets ← rNull (rArr (rNull (rNAsset R)))
  pure ⟨from_, to_, assets⟩

/-- nativecoin/src/main/java/foundation/icon/btp/nativecoin/TransferResponse.java, the fields that are written. -/
structure TransferResponse where
  code : Option Int
  message : Option Str
deriving DecidableEq

/-- nativecoin/src/main/java/foundation/icon/btp/nativecoin/TransferResponse.java:74-79 `writeObject`. -/
def wTransferResponse (R : Rt) (x : TransferResponse) : W :=
  wList (seqW [wReq wBig x.code, wNull (wStr R) x.message])

/-- nativecoin/src/main/java/foundation/icon/btp/nativecoin/TransferResponse.java:65-72 `readObject`. -/
def rTransferResponse (R : Rt) : Rd TransferResponse := rList do
  let code ← rReq rBig
  let message ← rNull (rStr R)
  pure ⟨code, message⟩

/-- nativecoin/src/main/java/foundation/icon/btp/nativecoin/NCSMessage.java, the fields that are written. -/
structure NCSMessage where
  serviceType : Int32
  data : Option Bytes
deriving DecidableEq

/-- nativecoin/src/main/java/foundation/icon/btp/nativecoin/NCSMessage.java:72-77 `writeObject`. -/
def wNCSMessage (_ : Rt) (x : NCSMessage) : W :=
  wList (seqW [wInt x.serviceType, wNull wBytes x.data])

/-- nativecoin/src/main/java/foundation/icon/btp/nativecoin/NCSMessage.java:63-70 `readObject`. -/
def rNCSMessage (_ : Rt) : Rd NCSMessage := rList do
  let serviceType ← rInt
  let data ← rNull rBytes
  pure ⟨serviceType, data⟩

/-- nativecoin/src/main/java/foundation/icon/btp/nativecoin/Balance.java, the fields that are written. -/
structure NBalance where
  locked : Option Int
  refundable : Option Int
deriving DecidableEq

/-- nativecoin/src/main/java/foundation/icon/btp/nativecoin/Balance.java:68-73 `writeObject`. -/
def wNBalance (_ : Rt) (x : NBalance) : W :=
  wList (seqW [wNull wBig x.locked, wNull wBig x.refundable])

/-- nativecoin/src/main/java/foundation/icon/btp/nativecoin/Balance.java:59-66 `readObject`. -/
def rNBalance (_ : Rt) : Rd NBalance := rList do
  let locked ← rNull rBig
  let refundable ← rNull rBig
  pure ⟨locked, refundable⟩

/-- nativecoin/src/main/java/foundation/icon/btp/nativecoin/AssetTransferDetail.java, the fields that are written. -/
structure AssetTransferDetail where
  coinName : Option Str
  amount : Option Int
  fee : Option Int
deriving DecidableEq

/-- nativecoin/src/main/java/foundation/icon/btp/nativecoin/AssetTransferDetail.java:59-65 `writeObject`. -/
def wAssetTransferDetail (R : Rt) (x : AssetTransferDetail) : W :=
  wList (seqW [wNull (wStr R) x.coinName, wNull wBig x.amount, wNull wBig x.fee])

/-- nativecoin/src/main/java/foundation/icon/btp/nativecoin/AssetTransferDetail.java:49-57 `readObject`. -/
def rAssetTransferDetail (R : Rt) : Rd AssetTransferDetail := rList do
  let coinName ← rNull (rStr R)
  let amount ← rNull rBig
  let fee ← rNull rBig
  pure ⟨coinName, amount, fee⟩

/-- nativecoin/src/main/java/foundation/icon/btp/nativecoin/TransferTransaction.java, the fields that are written. -/
structure TransferTransaction where
  from_ : Option Str
  to_ : Option Str
  assets : Option (List (Option AssetTransferDetail))
deriving DecidableEq

/-- nativecoin/src/main/java/foundation/icon/btp/nativecoin/TransferTransaction.java:93-108 `writeObject`. -/
def wTransferTransaction (R : Rt) (x : TransferTransaction) : W :=
  wList (seqW [wNull (wStr R) x.from_, wNull (wStr R) x.to_, wNull (wArr (wNull (wAssetTransferDetail R))) x.assets])

/-- nativecoin/src/main/java/foundation/icon/btp/nativecoin/TransferTransaction.java:71-91 `readObject`. -/
def rTransferTransaction (R : Rt) : Rd TransferTransaction := rList do
  let from_ ← rNull (rStr R)
  let to_ ← rNull (rStr R)
  let assets ← rNull (rArr (rNull (rAssetTransferDetail R)))
  pure ⟨from_, to_, assets⟩

/-- nativecoin/src/main/java/foundation/icon/btp/nativecoin/NCSProperties.java, the fields that are written. -/
structure NCSProperties where
  sn : Option Int
  feeRatio : Option Int
deriving DecidableEq

/-- nativecoin/src/main/java/foundation/icon/btp/nativecoin/NCSProperties.java:76-81 `writeObject`. -/
def wNCSProperties (_ : Rt) (x : NCSProperties) : W :=
  wList (seqW [wNull wBig x.sn, wNull wBig x.feeRatio])

/-- nativecoin/src/main/java/foundation/icon/btp/nativecoin/NCSProperties.java:67-74 `readObject`. -/
def rNCSProperties (_ : Rt) : Rd NCSProperties := rList do
  let sn ← rNull rBig
  let feeRatio ← rNull rBig
  pure ⟨sn, feeRatio⟩

/-- xcall/src/main/java/foundation/icon/btp/xcall/CallRequest.java, the fields that are written. -/
structure CallRequest where
  from_ : Option Addr
  to_ : Option Str
  rollback : Option Bytes
  enabled : Bool
deriving DecidableEq

/-- xcall/src/main/java/foundation/icon/btp/xcall/CallRequest.java:48-55 `writeObject`. -/
def wCallRequest (R : Rt) (x : CallRequest) : W :=
  wList (seqW [wReq wAddr x.from_, wReq (wStr R) x.to_, wNull wBytes x.rollback, wBool x.enabled])

/-- xcall/src/main/java/foundation/icon/btp/xcall/CallRequest.java:57-69 `readObject`. -/
def rCallRequest (R : Rt) : Rd CallRequest := rList do
  let from_ ← rReq rAddr
  let to_ ← rReq (rStr R)
  let rollback ← rNull rBytes
  let enabled ← rBool
  pure ⟨from_, to_, rollback, enabled⟩

/-- xcall/src/main/java/foundation/icon/btp/xcall/CSMessage.java, the fields that are written. -/
structure CSMessage where
  type : Int32
  data : Option Bytes
deriving DecidableEq

/-- xcall/src/main/java/foundation/icon/btp/xcall/CSMessage.java:44-49 `writeObject`. -/
def wCSMessage (_ : Rt) (x : CSMessage) : W :=
  wList (seqW [wInt x.type, wNull wBytes x.data])

/-- xcall/src/main/java/foundation/icon/btp/xcall/CSMessage.java:51-59 `readObject`. -/
def rCSMessage (_ : Rt) : Rd CSMessage := rList do
  let type ← rInt
  let data ← rNull rBytes
  pure ⟨type, data⟩

/-- xcall/src/main/java/foundation/icon/btp/xcall/CSMessageRequest.java, the fields that are written. -/
structure CSMessageRequest where
  from_ : Option Str
  to_ : Option Str
  sn : Option Int
  rollback : Bool
  data : Option Bytes
deriving DecidableEq

/-- xcall/src/main/java/foundation/icon/btp/xcall/CSMessageRequest.java:61-69 `writeObject`. -/
def wCSMessageRequest (R : Rt) (x : CSMessageRequest) : W :=
  wList (seqW [wReq (wStr R) x.from_, wReq (wStr R) x.to_, wReq wBig x.sn, wBool x.rollback, wNull wBytes x.data])

/-- xcall/src/main/java/foundation/icon/btp/xcall/CSMessageRequest.java:71-82 `readObject`. -/
def rCSMessageRequest (R : Rt) : Rd CSMessageRequest := rList do
  let from_ ← rReq (rStr R)
  let to_ ← rReq (rStr R)
  let sn ← rReq rBig
  let rollback ← rBool
  let data ← rNull rBytes
  pure ⟨from_, to_, sn, rollback, data⟩

/-- xcall/src/main/java/foundation/icon/btp/xcall/CSMessageResponse.java, the fields that are written. -/
structure CSMessageResponse where
  sn : Option Int
  code : Int32
  msg : Option Str
deriving DecidableEq

/-- xcall/src/main/java/foundation/icon/btp/xcall/CSMessageResponse.java:53-59 `writeObject`. -/
def wCSMessageResponse (R : Rt) (x : CSMessageResponse) : W :=
  wList (seqW [wReq wBig x.sn, wInt x.code, wNull (wStr R) x.msg])

/-- xcall/src/main/java/foundation/icon/btp/xcall/CSMessageResponse.java:61-70 `readObject`. -/
def rCSMessageResponse (R : Rt) : Rd CSMessageResponse := rList do
  let sn ← rReq rBig
  let code ← rInt
  let msg ← rNull (rStr R)
  pure ⟨sn, code, msg⟩

/-- bsh/src/main/java/foundation/icon/btp/bsh/types/Token.java, the fields that are written. -/
structure BToken where
  name : Option Str
  symbol : Option Str
  decimals : Option Int
  feeNumerator : Option Int
deriving DecidableEq

/-- bsh/src/main/java/foundation/icon/btp/bsh/types/Token.java:22-29 `writeObject`. -/
def wBToken (R : Rt) (x : BToken) : W :=
  wList (seqW [wReq (wStr R) x.name, wReq (wStr R) x.symbol, wReq wBig x.decimals, wReq wBig x.feeNumerator])

/-- bsh/src/main/java/foundation/icon/btp/bsh/types/Token.java:31-36 `readObject`. -/
def rBToken (R : Rt) : Rd BToken := rList do
  let name ← rReq (rStr R)
  let symbol ← rReq (rStr R)
  let decimals ← rReq rBig
  let feeNumerator ← rReq rBig
  pure ⟨name, symbol, decimals, feeNumerator⟩

/-- bsh/src/main/java/foundation/icon/btp/bsh/types/Asset.java, the fields that are written. -/
structure BAsset where
  name : Option Str
  value : Option Int
  fee : Option Int
deriving DecidableEq

/-- bsh/src/main/java/foundation/icon/btp/bsh/types/Asset.java:18-24 `writeObject`. -/
def wBAsset (R : Rt) (x : BAsset) : W :=
  wList (seqW [wReq (wStr R) x.name, wReq wBig x.value, wReq wBig x.fee])

/-- bsh/src/main/java/foundation/icon/btp/bsh/types/Asset.java:26-31 `readObject`. -/
def rBAsset (R : Rt) : Rd BAsset := rList do
  let name ← rReq (rStr R)
  let value ← rReq rBig
  let fee ← rReq rBig
  pure ⟨name, value, fee⟩

/-- bsh/src/main/java/foundation/icon/btp/bsh/types/TransferAsset.java, the fields that are written. -/
structure TransferAsset where
  from_ : Option Str
  to_ : Option Str
  assets : Option (List (Option BAsset))
deriving DecidableEq

/-- bsh/src/main/java/foundation/icon/btp/bsh/types/TransferAsset.java:22-33 `writeObject`. -/
def wTransferAsset (R : Rt) (x : TransferAsset) : W :=
  wList (seqW [wReq (wStr R) x.from_, wReq (wStr R) x.to_, wReq (wArr (wReq (wBAsset R))) x.assets])

/-- bsh/src/main/java/foundation/icon/btp/bsh/types/TransferAsset.java:35-49 `readObject`. -/
def rTransferAsset (R : Rt) : Rd TransferAsset := rList do
  let from_ ← rReq (rStr R)
  let to_ ← rReq (rStr R)
  let assets ← rReq (rArr (rReq (rBAsset R)))
  pure ⟨from_, to_, assets⟩

/-- bsh/src/main/java/foundation/icon/btp/bsh/types/Balance.java, the fields that are written. -/
structure BBalance where
  usable : Option Int
  locked : Option Int
  refundable : Option Int
deriving DecidableEq

/-- bsh/src/main/java/foundation/icon/btp/bsh/types/Balance.java:20-26 `writeObject`. -/
def wBBalance (_ : Rt) (x : BBalance) : W :=
  wList (seqW [wReq wBig x.usable, wReq wBig x.locked, wReq wBig x.refundable])

/-- bsh/src/main/java/foundation/icon/btp/bsh/types/Balance.java:28-33 `readObject`. -/
def rBBalance (_ : Rt) : Rd BBalance := rList do
  let usable ← rReq rBig
  let locked ← rReq rBig
  let refundable ← rReq rBig
  pure ⟨usable, locked, refundable⟩

/-- bsh/src/main/java/foundation/icon/btp/bsh/types/BTPAddress.java, the fields that are written. -/
structure BBTPAddress where
  protocol : Option Str
  net : Option Str
  contract : Option Str
deriving DecidableEq

/-- bsh/src/main/java/foundation/icon/btp/bsh/types/BTPAddress.java:22-28 `writeObject`. -/
def wBBTPAddress (R : Rt) (x : BBTPAddress) : W :=
  wList (seqW [wReq (wStr R) x.protocol, wReq (wStr R) x.net, wReq (wStr R) x.contract])

/-- bsh/src/main/java/foundation/icon/btp/bsh/types/BTPAddress.java:30-35 `readObject`. -/
def rBBTPAddress (R : Rt) : Rd BBTPAddress := rList do
  let protocol ← rReq (rStr R)
  let net ← rReq (rStr R)
  let contract ← rReq (rStr R)
  pure ⟨protocol, net, contract⟩

/-- fee-aggregation/src/main/java/foundation/icon/btp/Syndication.java, the fields that are written. -/
structure Syndication where
  id : Option Int
  tokenAmount : Option Int
  totalDeposited : Option Int
  startTime : Int64
  endTime : Int64
deriving DecidableEq

/-- fee-aggregation/src/main/java/foundation/icon/btp/Syndication.java:49-57 `writeObject`. -/
def wSyndication (_ : Rt) (x : Syndication) : W :=
  wList (seqW [wReq wBig x.id, wReq wBig x.tokenAmount, wReq wBig x.totalDeposited, wLong x.startTime, wLong x.endTime])

/-- fee-aggregation/src/main/java/foundation/icon/btp/Syndication.java:59-69 `readObject`. -/
def rSyndication (_ : Rt) : Rd Syndication := rList do
  let id ← rReq rBig
  let tokenAmount ← rReq rBig
  let totalDeposited ← rReq rBig
  let startTime ← rLong
  let endTime ← rLong
  pure ⟨id, tokenAmount, totalDeposited, startTime, endTime⟩

/-- fee-aggregation/src/main/java/foundation/icon/btp/Token.java, the fields that are written. -/
structure FToken where
  name : Option Str
  address : Option Addr
  tokenId : Option Int
  decimals : Option Int
deriving DecidableEq

/-- fee-aggregation/src/main/java/foundation/icon/btp/Token.java:67-74 `writeObject`. -/
def wFToken (R : Rt) (x : FToken) : W :=
  wList (seqW [wReq (wStr R) x.name, wReq wAddr x.address, wNull wBig x.tokenId, wNull wBig x.decimals])

/-- fee-aggregation/src/main/java/foundation/icon/btp/Token.java:76-86 `readObject`. -/
def rFToken (R : Rt) : Rd FToken := rList do
  let name ← rReq (rStr R)
  let address ← rReq rAddr
  let tokenId ← rNull rBig
  let decimals ← rNull rBig
  pure ⟨name, address, tokenId, decimals⟩

/-- bmv/btpblock/src/main/java/foundation/icon/btp/bmv/btpblock/BMVStatusExtra.java, the fields that are written. -/
structure KStatusExtra where
  sequenceOffset : Option Int
  firstMessageSN : Option Int
  messageCount : Option Int
deriving DecidableEq

/-- bmv/btpblock/src/main/java/foundation/icon/btp/bmv/btpblock/BMVStatusExtra.java:78-84 `writeObject`. -/
def wKStatusExtra (_ : Rt) (x : KStatusExtra) : W :=
  wList (seqW [wReq wBig x.sequenceOffset, wReq wBig x.firstMessageSN, wReq wBig x.messageCount])

/-- bmv/btpblock/src/main/java/foundation/icon/btp/bmv/btpblock/BMVStatusExtra.java:68-76 `readObject`. -/
def rKStatusExtra (_ : Rt) : Rd KStatusExtra := rList do
  let sequenceOffset ← rReq rBig
  let firstMessageSN ← rReq rBig
  let messageCount ← rReq rBig
  pure ⟨sequenceOffset, firstMessageSN, messageCount⟩

/-- bmv/btpblock/src/main/java/foundation/icon/btp/bmv/btpblock/BMVProperties.java, the fields that are written. -/
structure KProperties where
  srcNetworkID : Option Bytes
  networkTypeID : Int32
  networkID : Option Int
  proofContextHash : Option Bytes
  proofContext : Option Bytes
  lastNetworkSectionHash : Option Bytes
  bmc : Option Addr
  lastSequence : Option Int
  lastMessagesRoot : Option Bytes
  lastMessageCount : Option Int
  lastFirstMessageSN : Option Int
  height : Option Int
  sequenceOffset : Option Int
deriving DecidableEq

/-- bmv/btpblock/src/main/java/foundation/icon/btp/bmv/btpblock/BMVProperties.java:183-199 `writeObject`. -/
def wKProperties (_ : Rt) (x : KProperties) : W :=
  wList (seqW [wReq wBytes x.srcNetworkID, wInt x.networkTypeID, wNull wBig x.networkID, wNull wBytes x.proofContextHash,
    wNull wBytes x.proofContext, wNull wBytes x.lastNetworkSectionHash, wReq wAddr x.bmc, wNull wBig x.lastSequence,
    wNull wBytes x.lastMessagesRoot, wNull wBig x.lastMessageCount, wNull wBig x.lastFirstMessageSN, wReq wBig x.height,
    wReq wBig x.sequenceOffset])

/-- bmv/btpblock/src/main/java/foundation/icon/btp/bmv/btpblock/BMVProperties.java:163-181 `readObject`. -/
def rKProperties (_ : Rt) : Rd KProperties := rList do
  let srcNetworkID ← rReq rBytes
  let networkTypeID ← rInt
  let networkID ← rNull rBig
  let proofContextHash ← rNull rBytes
  let proofContext ← rNull rBytes
  let lastNetworkSectionHash ← rNull rBytes
  let bmc ← rReq rAddr
  let lastSequence ← rNull rBig
  let lastMessagesRoot ← rNull rBytes
  let lastMessageCount ← rNull rBig
  let lastFirstMessageSN ← rNull rBig
  let height ← rReq rBig
  let sequenceOffset ← rReq rBig
  pure ⟨srcNetworkID, networkTypeID, networkID, proofContextHash, proofContext, lastNetworkSectionHash, bmc, lastSequence, lastMessagesRoot, lastMessageCount, lastFirstMessageSN, height, sequenceOffset⟩

/-- bmv/btpblock/src/main/java/foundation/icon/btp/bmv/btpblock/ProofNode.java, the fields that are written. -/
structure ProofNode where
  numOfLeaf : Int32
  value : Option Bytes
deriving DecidableEq

/-- bmv/btpblock/src/main/java/foundation/icon/btp/bmv/btpblock/ProofNode.java:48-53 `writeObject`. -/
def wProofNode (_ : Rt) (x : ProofNode) : W :=
  wList (seqW [wInt x.numOfLeaf, wReq wBytes x.value])

/-- bmv/btpblock/src/main/java/foundation/icon/btp/bmv/btpblock/ProofNode.java:41-46 `readObject`. -/
def rProofNode (_ : Rt) : Rd ProofNode := rList do
  let numOfLeaf ← rInt
  let value ← rReq rBytes
  pure ⟨numOfLeaf, value⟩

/-- bmv/btpblock/src/main/java/foundation/icon/btp/bmv/btpblock/RelayMessage.java, the fields that are written. -/
structure TypePrefixedMessage where
  type : Int32
  payload : Option Bytes
deriving DecidableEq

/-- bmv/btpblock/src/main/java/foundation/icon/btp/bmv/btpblock/RelayMessage.java:129-134 `writeObject`. -/
def wTypePrefixedMessage (_ : Rt) (x : TypePrefixedMessage) : W :=
  wList (seqW [wInt x.type, wReq wBytes x.payload])

/-- bmv/btpblock/src/main/java/foundation/icon/btp/bmv/btpblock/RelayMessage.java:117-122 `readObject`. -/
def rTypePrefixedMessage (_ : Rt) : Rd TypePrefixedMessage := rList do
  let type ← rInt
  let payload ← rReq rBytes
  pure ⟨type, payload⟩

/-- bmv/btpblock/src/main/java/foundation/icon/btp/bmv/btpblock/RelayMessage.java, the fields that are written. -/
structure KRelayMessage where
  messages : Option (List (Option TypePrefixedMessage))
deriving DecidableEq

/-- bmv/btpblock/src/main/java/foundation/icon/btp/bmv/btpblock/RelayMessage.java:61-68 `writeObject`. -/
def wKRelayMessage (R : Rt) (x : KRelayMessage) : W :=
  wList (seqW [wReq (wArr (wReq (wTypePrefixedMessage R))) x.messages])

/-- bmv/btpblock/src/main/java/foundation/icon/btp/bmv/btpblock/RelayMessage.java:42-59 `readObject`. -/
def rKRelayMessage (R : Rt) : Rd KRelayMessage := rList do
  let messages ← rReq (rArr (rReq (rTypePrefixedMessage R)))
  pure ⟨messages⟩

/-- bmv/icon/src/main/java/foundation/icon/btp/bmv/icon/BlockWitness.java, the fields that are written. -/
structure BlockWitness where
  height : Int64
  witness : Option (List (Option Bytes))
deriving DecidableEq

/-- bmv/icon/src/main/java/foundation/icon/btp/bmv/icon/BlockWitness.java:82-96 `writeObject`. -/
def wBlockWitness (_ : Rt) (x : BlockWitness) : W :=
  wList (seqW [wLong x.height, wNull (wArr (wReq wBytes)) x.witness])

/-- bmv/icon/src/main/java/foundation/icon/btp/bmv/icon/BlockWitness.java:61-80 `readObject`. -/
def rBlockWitness (_ : Rt) : Rd BlockWitness := rList do
  let height ← rLong
  let witness ← rNull (rArr (rNull rBytes))
  pure ⟨height, witness⟩

/-- bmv/icon/src/main/java/foundation/icon/btp/bmv/icon/BMVStatusExtra.java, the fields that are written. -/
structure IStatusExtra where
  offset : Int64
  lastHeight : Int64
deriving DecidableEq

/-- bmv/icon/src/main/java/foundation/icon/btp/bmv/icon/BMVStatusExtra.java:74-79 `writeObject`. -/
def wIStatusExtra (_ : Rt) (x : IStatusExtra) : W :=
  wList (seqW [wLong x.offset, wLong x.lastHeight])

/-- bmv/icon/src/main/java/foundation/icon/btp/bmv/icon/BMVStatusExtra.java:65-72 `readObject`. -/
def rIStatusExtra (_ : Rt) : Rd IStatusExtra := rList do
  let offset ← rLong
  let lastHeight ← rLong
  pure ⟨offset, lastHeight⟩

/-- bmv/icon/src/main/java/foundation/icon/btp/bmv/icon/Proofs.java, the fields that are written. -/
structure Proofs where
  proofs : Option (List (Option Bytes))
deriving DecidableEq

/-- bmv/icon/src/main/java/foundation/icon/btp/bmv/icon/Proofs.java:69-80 `writeObject`: the list itself, not a list of fields. -/
def wProofs (_ : Rt) (x : Proofs) : W := wNull (wArr (wReq wBytes)) x.proofs

/-- bmv/icon/src/main/java/foundation/icon/btp/bmv/icon/Proofs.java:51-67 `readObject`. -/
def rProofs (_ : Rt) : Rd Proofs := do
  let proofs ← rNull (rArr (rNull rBytes))
  pure ⟨proofs⟩

/-- bmv/icon/src/main/java/foundation/icon/btp/bmv/icon/MPTProof.java, the fields that are written. -/
structure MPTProof where
  index : Int64
  proofs : Option Proofs
deriving DecidableEq

/-- bmv/icon/src/main/java/foundation/icon/btp/bmv/icon/MPTProof.java:71-83 `writeObject`. -/
def wMPTProof (R : Rt) (x : MPTProof) : W :=
  wList (seqW [wLong x.index, wNull (wNest R (wProofs R)) x.proofs])

/-- bmv/icon/src/main/java/foundation/icon/btp/bmv/icon/MPTProof.java:58-69 `readObject`. -/
def rMPTProof (R : Rt) : Rd MPTProof := rList do
  let index ← rLong
  let proofs ← rNull (rNest R (rProofs R))
  pure ⟨index, proofs⟩

/-- bmv/icon/src/main/java/foundation/icon/btp/bmv/icon/ReceiptProof.java, the fields that are written. -/
structure ReceiptProof where
  index : Int64
  proofs : Option Proofs
  eventProofs : Option (List (Option MPTProof))
deriving DecidableEq

/-- bmv/icon/src/main/java/foundation/icon/btp/bmv/icon/ReceiptProof.java:78-100 `writeObject`. -/
def wReceiptProof (R : Rt) (x : ReceiptProof) : W :=
  wList (seqW [wLong x.index, wNull (wNest R (wProofs R)) x.proofs, wNull (wArr (wNull (wMPTProof R))) x.eventProofs])

/-- bmv/icon/src/main/java/foundation/icon/btp/bmv/icon/ReceiptProof.java:52-76 `readObject`. -/
def rReceiptProof (R : Rt) : Rd ReceiptProof := rList do
  let index ← rLong
  let proofs ← rNull (rNest R (rProofs R))
  let eventProofs ← rNull (rArr (rNull (rMPTProof R)))
  pure ⟨index, proofs, eventProofs⟩

/-- bmv/icon/src/main/java/foundation/icon/btp/bmv/icon/PartSetId.java, the fields that are written. -/
structure PartSetId where
  count : Int64
  hash : Option Bytes
deriving DecidableEq

/-- bmv/icon/src/main/java/foundation/icon/btp/bmv/icon/PartSetId.java:67-72 `writeObject`. -/
def wPartSetId (_ : Rt) (x : PartSetId) : W :=
  wList (seqW [wLong x.count, wNull wBytes x.hash])

/-- bmv/icon/src/main/java/foundation/icon/btp/bmv/icon/PartSetId.java:58-65 `readObject`. -/
def rPartSetId (_ : Rt) : Rd PartSetId := rList do
  let count ← rLong
  let hash ← rNull rBytes
  pure ⟨count, hash⟩

/-- bmv/icon/src/main/java/foundation/icon/btp/bmv/icon/VoteMessage.java, the fields that are written. -/
structure VoteMessage where
  height : Int64
  round : Int64
  voteType : Int64
  blockId : Option Bytes
  partSetId : Option PartSetId
  timestamp : Int64
deriving DecidableEq

/-- bmv/icon/src/main/java/foundation/icon/btp/bmv/icon/VoteMessage.java:112-122 `writeObject`. -/
def wVoteMessage (R : Rt) (x : VoteMessage) : W :=
  wList (seqW [wLong x.height, wLong x.round, wLong x.voteType, wNull wBytes x.blockId, wNull (wPartSetId R) x.partSetId, wLong x.timestamp])

/-- bmv/icon/src/main/java/foundation/icon/btp/bmv/icon/VoteMessage.java:99-110 `readObject`. -/
def rVoteMessage (R : Rt) : Rd VoteMessage := rList do
  let height ← rLong
  let round ← rLong
  let voteType ← rLong
  let blockId ← rNull rBytes
  let partSetId ← rNull (rPartSetId R)
  let timestamp ← rLong
  pure ⟨height, round, voteType, blockId, partSetId, timestamp⟩

/-- bmv/icon/src/main/java/foundation/icon/btp/bmv/icon/Vote.java, the fields that are written. -/
structure Vote where
  timestamp : Int64
  signature : Option Bytes
deriving DecidableEq

/-- bmv/icon/src/main/java/foundation/icon/btp/bmv/icon/Vote.java:67-72 `writeObject`. -/
def wVote (_ : Rt) (x : Vote) : W :=
  wList (seqW [wLong x.timestamp, wNull wBytes x.signature])

/-- bmv/icon/src/main/java/foundation/icon/btp/bmv/icon/Vote.java:58-65 `readObject`. -/
def rVote (_ : Rt) : Rd Vote := rList do
  let timestamp ← rLong
  let signature ← rNull rBytes
  pure ⟨timestamp, signature⟩

/-- bmv/icon/src/main/java/foundation/icon/btp/bmv/icon/Votes.java, the fields that are written. -/
structure Votes where
  round : Int64
  partSetId : Option PartSetId
  items : Option (List (Option Vote))
deriving DecidableEq

/-- bmv/icon/src/main/java/foundation/icon/btp/bmv/icon/Votes.java:93-105 `writeObject`. -/
def wVotes (R : Rt) (x : Votes) : W :=
  wList (seqW [wLong x.round, wNull (wPartSetId R) x.partSetId, wReq (wArr (wReq (wVote R))) x.items])

/-- bmv/icon/src/main/java/foundation/icon/btp/bmv/icon/Votes.java:72-91 `readObject`. -/
def rVotes (R : Rt) : Rd Votes := rList do
  let round ← rLong
  let partSetId ← rNull (rPartSetId R)
  let items ← rReq (rArr (rReq (rVote R)))
  pure ⟨round, partSetId, items⟩

/-- bmv/icon/src/main/java/foundation/icon/btp/bmv/icon/Validators.java, the fields that are written. -/
structure Validators where
  addresses : Option (List (Option Addr))
deriving DecidableEq

/-- bmv/icon/src/main/java/foundation/icon/btp/bmv/icon/Validators.java:104-111 `writeObject`: the list itself, not a list of fields. -/
def wValidators (_ : Rt) (x : Validators) : W := wReq (wArr (wReq wAddr)) x.addresses

/-- bmv/icon/src/main/java/foundation/icon/btp/bmv/icon/Validators.java:87-102 `readObject`. -/
def rValidators (_ : Rt) : Rd Validators := do
  let addresses ← rReq (rArr (rNull rAddr))
  pure ⟨addresses⟩

/-- bmv/icon/src/main/java/foundation/icon/btp/bmv/icon/ExtensionData.java, the fields that are written. -/
structure ExtensionData where
  data : Option (List (Option Bytes))
deriving DecidableEq

/-- bmv/icon/src/main/java/foundation/icon/btp/bmv/icon/ExtensionData.java:69-80 `writeObject`: the list itself, not a list of fields. -/
def wExtensionData (_ : Rt) (x : ExtensionData) : W := wNull (wArr (wNull wBytes)) x.data

/-- bmv/icon/src/main/java/foundation/icon/btp/bmv/icon/ExtensionData.java:51-67 `readObject`. -/
def rExtensionData (_ : Rt) : Rd ExtensionData := do
  let data ← rNull (rArr (rNull rBytes))
  pure ⟨data⟩

/-- bmv/icon/src/main/java/foundation/icon/btp/bmv/icon/Result.java, the fields that are written. -/
structure Result where
  stateHash : Option Bytes
  patchReceiptHash : Option Bytes
  receiptHash : Option Bytes
  extensionData : Option ExtensionData
deriving DecidableEq

/-- bmv/icon/src/main/java/foundation/icon/btp/bmv/icon/Result.java:93-105 `writeObject`: the extension data is written only if there is one. -/
def wResult (R : Rt) (x : Result) : W :=
  wList (seqW [wNull wBytes x.stateHash, wNull wBytes x.patchReceiptHash, wNull wBytes x.receiptHash,
    match x.extensionData with
    | none => some []
    | some e => wNest R (wExtensionData R) e])

/-- bmv/icon/src/main/java/foundation/icon/btp/bmv/icon/Result.java:78-91 `readObject`: a fourth field is read as nullable bytes, and the bytes are given to a reader without a check
for null (85-86), which is an exception (`rReq`). -/
def rResult (R : Rt) : Rd Result := rList do
  let stateHash ← rNull rBytes
  let patchReceiptHash ← rNull rBytes
  let receiptHash ← rNull rBytes
  let more ← hasNext
  if more then
    let extensionData ← rReq (rNest R (rExtensionData R))
    pure ⟨stateHash, patchReceiptHash, receiptHash, extensionData⟩
  else pure ⟨stateHash, patchReceiptHash, receiptHash, none⟩

/-- bmv/icon/src/main/java/foundation/icon/btp/bmv/icon/BlockHeader.java, the fields that are written. -/
structure BlockHeader where
  version : Int64
  height : Int64
  timestamp : Int64
  proposer : Option Addr
  prevHash : Option Bytes
  voteHash : Option Bytes
  nextValidatorHash : Option Bytes
  patchTxHash : Option Bytes
  txHash : Option Bytes
  logsBloom : Option Bytes
  result : Option Result
deriving DecidableEq

/-- bmv/icon/src/main/java/foundation/icon/btp/bmv/icon/BlockHeader.java:167-188 `writeObject`. -/
def wBlockHeader (R : Rt) (x : BlockHeader) : W :=
  wList (seqW [wLong x.version, wLong x.height, wLong x.timestamp, wNull wAddr x.proposer, wNull wBytes x.prevHash, wNull wBytes x.voteHash,
    wNull wBytes x.nextValidatorHash, wNull wBytes x.patchTxHash, wNull wBytes x.txHash, wNull wBytes x.logsBloom,
    wNull (wNest R (wResult R)) x.result])

/-- bmv/icon/src/main/java/foundation/icon/btp/bmv/icon/BlockHeader.java:145-165 `readObject`. -/
def rBlockHeader (R : Rt) : Rd BlockHeader := rList do
  let version ← rLong
  let height ← rLong
  let timestamp ← rLong
  let proposer ← rNull rAddr
  let prevHash ← rNull rBytes
  let voteHash ← rNull rBytes
  let nextValidatorHash ← rNull rBytes
  let patchTxHash ← rNull rBytes
  let txHash ← rNull rBytes
  let logsBloom ← rNull rBytes
  let result ← rNull (rNest R (rResult R))
  pure ⟨version, height, timestamp, proposer, prevHash, voteHash, nextValidatorHash, patchTxHash, txHash, logsBloom, result⟩

/-- bmv/icon/src/main/java/foundation/icon/btp/bmv/icon/EventLog.java, the fields that are written. -/
structure EventLog where
  address : Option Addr
  indexed : Option (List (Option Bytes))
  data : Option (List (Option Bytes))
deriving DecidableEq

/-- bmv/icon/src/main/java/foundation/icon/btp/bmv/icon/EventLog.java:118-134 `writeObject`. -/
def wEventLog (_ : Rt) (x : EventLog) : W :=
  wList (seqW [wNull wAddr x.address, wReq (wArr (wReq wBytes)) x.indexed, wReq (wArr (wReq wBytes)) x.data])

/-- bmv/icon/src/main/java/foundation/icon/btp/bmv/icon/EventLog.java:86-116 `readObject`. -/
def rEventLog (_ : Rt) : Rd EventLog := rList do
  let address ← rNull rAddr
  let indexed ← rReq (rArr (rReq rBytes))
  let data ← rReq (rArr (rReq rBytes))
  pure ⟨address, indexed, data⟩

/-- bmv/icon/src/main/java/foundation/icon/btp/bmv/icon/Receipt.java, the fields that are written. -/
structure Receipt where
  status : Int64
  to_ : Option Bytes
  cumulativeStepUsed : Option Bytes
  stepUsed : Option Bytes
  stepPrice : Option Bytes
  logsBloom : Option Bytes
  eventLogs : Option (List (Option EventLog))
  scoreAddress : Option Bytes
  eventLogsHash : Option Bytes
deriving DecidableEq

/-- bmv/icon/src/main/java/foundation/icon/btp/bmv/icon/Receipt.java:162-185 `writeObject`. -/
def wReceipt (R : Rt) (x : Receipt) : W :=
  wList (seqW [wLong x.status, wNull wBytes x.to_, wNull wBytes x.cumulativeStepUsed, wNull wBytes x.stepUsed, wNull wBytes x.stepPrice,
    wNull wBytes x.logsBloom, wNull (wArr (wReq (wNest R (wEventLog R)))) x.eventLogs, wNull wBytes x.scoreAddress, wNull wBytes x.eventLogsHash])

/-- bmv/icon/src/main/java/foundation/icon/btp/bmv/icon/Receipt.java:131-160 `readObject`: `beginList` for the event logs, where the writer may have put a null; null elements are left out. -/
def rReceipt (R : Rt) : Rd Receipt := rList do
  let status ← rLong
  let to_ ← rNull rBytes
  let cumulativeStepUsed ← rNull rBytes
  let stepUsed ← rNull rBytes
  let stepPrice ← rNull rBytes
  let logsBloom ← rNull rBytes
  let eventLogs ← rArr (rNull (rNest R (rEventLog R)))
  let scoreAddress ← rNull rBytes
  let eventLogsHash ← rNull rBytes
  pure ⟨status, to_, cumulativeStepUsed, stepUsed, stepPrice, logsBloom, some ((eventLogs.filterMap id).map some), scoreAddress, eventLogsHash⟩

/-- bmv/icon/src/main/java/foundation/icon/btp/bmv/icon/MessageEvent.java, the fields that are written. -/
structure MessageEvent where
  next : Option Str
  seq : Option Int
  msg : Option Bytes
deriving DecidableEq

/-- bmv/icon/src/main/java/foundation/icon/btp/bmv/icon/MessageEvent.java:80-86 `writeObject`. -/
def wMessageEvent (R : Rt) (x : MessageEvent) : W :=
  wList (seqW [wNull (wStr R) x.next, wNull wBig x.seq, wNull wBytes x.msg])

/-- bmv/icon/src/main/java/foundation/icon/btp/bmv/icon/MessageEvent.java:70-78 `readObject`. -/
def rMessageEvent (R : Rt) : Rd MessageEvent := rList do
  let next ← rNull (rStr R)
  let seq ← rNull rBig
  let msg ← rNull rBytes
  pure ⟨next, seq, msg⟩

/-- bmv/icon/src/main/java/foundation/icon/btp/bmv/icon/MerkleTreeAccumulator.java, the fields that are written. -/
structure MTA where
  height : Int64
  roots : Option (List (Option Bytes))
  offset : Int64
  rootSize : Option Int32
  cacheSize : Option Int32
  cache : Option (List (Option Bytes))
  allowNewerWitness : Option Bool
  cacheIdx : Option Int32
deriving DecidableEq

/-- bmv/icon/src/main/java/foundation/icon/btp/bmv/icon/MerkleTreeAccumulator.java:379-408 `writeObject`. -/
def wMTA (_ : Rt) (x : MTA) : W :=
  wList (seqW [wLong x.height, wNull (wArr (wNull wBytes)) x.roots, wLong x.offset, wNull wInt x.rootSize, wNull wInt x.cacheSize,
    wNull (wArr (wNull wBytes)) x.cache, wNull wBool x.allowNewerWitness, wNull wInt x.cacheIdx])

/-- bmv/icon/src/main/java/foundation/icon/btp/bmv/icon/MerkleTreeAccumulator.java:338-377 `readObject`: an accumulator stored without the last field is read with none. -/
def rMTA (_ : Rt) : Rd MTA := rList do
  let height ← rLong
  let roots ← rNull (rArr (rNull rBytes))
  let offset ← rLong
  let rootSize ← rNull rInt
  let cacheSize ← rNull rInt
  let cache ← rNull (rArr (rNull rBytes))
  let allowNewerWitness ← rNull rBool
  let more ← hasNext
  if more then
    let cacheIdx ← rNull rInt
    pure ⟨height, roots, offset, rootSize, cacheSize, cache, allowNewerWitness, cacheIdx⟩
  else pure ⟨height, roots, offset, rootSize, cacheSize, cache, allowNewerWitness, none⟩

/-- bmv/icon/src/main/java/foundation/icon/btp/bmv/icon/BMVProperties.java, the fields that are written. -/
structure IProperties where
  bmc : Option Addr
  net : Option Str
  lastHeight : Int64
  validators : Option Validators
  mta : Option MTA
deriving DecidableEq

/-- bmv/icon/src/main/java/foundation/icon/btp/bmv/icon/BMVProperties.java:102-112 `writeObject`. -/
def wIProperties (R : Rt) (x : IProperties) : W :=
  wList (seqW [wNull wAddr x.bmc, wNull (wStr R) x.net, wLong x.lastHeight, wNull (wValidators R) x.validators, wNull (wMTA R) x.mta])

/-- bmv/icon/src/main/java/foundation/icon/btp/bmv/icon/BMVProperties.java:90-100 `readObject`. -/
def rIProperties (R : Rt) : Rd IProperties := rList do
  let bmc ← rNull rAddr
  let net ← rNull (rStr R)
  let lastHeight ← rLong
  let validators ← rNull (rValidators R)
  let mta ← rNull (rMTA R)
  pure ⟨bmc, net, lastHeight, validators, mta⟩

/-- bmv/icon/src/main/java/foundation/icon/btp/bmv/icon/BlockUpdate.java, the fields that are written. -/
structure BlockUpdate where
  blockHeader : Option BlockHeader
  votes : Option Votes
  nextValidators : Option Validators
deriving DecidableEq

/-- bmv/icon/src/main/java/foundation/icon/btp/bmv/icon/BlockUpdate.java:89-116 `writeObject`. -/
def wBlockUpdate (R : Rt) (x : BlockUpdate) : W :=
  wList (seqW [wNull (wNest R (wBlockHeader R)) x.blockHeader, wNull (wNest R (wVotes R)) x.votes,
    wNull (wNest R (wValidators R)) x.nextValidators])

/-- bmv/icon/src/main/java/foundation/icon/btp/bmv/icon/BlockUpdate.java:67-87 `readObject`. -/
def rBlockUpdate (R : Rt) : Rd BlockUpdate := rList do
  let blockHeader ← rNull (rNest R (rBlockHeader R))
  let votes ← rNull (rNest R (rVotes R))
  let nextValidators ← rNull (rNest R (rValidators R))
  pure ⟨blockHeader, votes, nextValidators⟩

/-- bmv/icon/src/main/java/foundation/icon/btp/bmv/icon/BlockProof.java, the fields that are written. -/
structure BlockProof where
  blockHeader : Option BlockHeader
  blockWitness : Option BlockWitness
deriving DecidableEq

/-- bmv/icon/src/main/java/foundation/icon/btp/bmv/icon/BlockProof.java:70-83 `writeObject`. -/
def wBlockProof (R : Rt) (x : BlockProof) : W :=
  wList (seqW [wNull (wNest R (wBlockHeader R)) x.blockHeader, wNull (wBlockWitness R) x.blockWitness])

/-- bmv/icon/src/main/java/foundation/icon/btp/bmv/icon/BlockProof.java:57-68 `readObject`. -/
def rBlockProof (R : Rt) : Rd BlockProof := rList do
  let blockHeader ← rNull (rNest R (rBlockHeader R))
  let blockWitness ← rNull (rBlockWitness R)
  pure ⟨blockHeader, blockWitness⟩

/-- bmv/icon/src/main/java/foundation/icon/btp/bmv/icon/RelayMessage.java, the fields that are written. -/
structure IRelayMessage where
  blockUpdates : Option (List (Option BlockUpdate))
  blockProof : Option BlockProof
  receiptProofs : Option (List (Option ReceiptProof))
deriving DecidableEq

/-- bmv/icon/src/main/java/foundation/icon/btp/bmv/icon/RelayMessage.java:121-164 `writeObject`. -/
def wIRelayMessage (R : Rt) (x : IRelayMessage) : W :=
  wList (seqW [wNull (wArr (wNull (wNest R (wBlockUpdate R)))) x.blockUpdates, wNull (wNest R (wBlockProof R)) x.blockProof,
    wNull (wArr (wNull (wNest R (wReceiptProof R)))) x.receiptProofs])

/-- bmv/icon/src/main/java/foundation/icon/btp/bmv/icon/RelayMessage.java:71-119 `readObject`. -/
def rIRelayMessage (R : Rt) : Rd IRelayMessage := rList do
  let blockUpdates ← rNull (rArr (rNull (rNest R (rBlockUpdate R))))
  let blockProof ← rNull (rNest R (rBlockProof R))
  let receiptProofs ← rNull (rArr (rNull (rNest R (rReceiptProof R))))
  pure ⟨blockUpdates, blockProof, receiptProofs⟩

end Verif.JavaObj
