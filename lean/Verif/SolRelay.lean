import Verif.SolBtpBlockAuth
/-!
Model of the decoding of relay messages in the EVM block verifier,
/repo/solidity/bmv/contracts/libraries/{RelayMessageLib,BlockUpdateLib,MessageProofLib}.sol, over the item functions of
`SolRlp` (RLPDecode.sol), and of `handleRelayMessage` and the constructor of
/repo/solidity/bmv/contracts/BtpMessageVerifier.sol on bytes.

A revert is `none`: an item that is no list, an index out of range, a failed length check. All failures of a call revert
it as a whole, so the order of the checks does not matter and a message is decoded before it is handled. The decoder can
read behind the end of a byte string it is given; what memory holds there is a parameter `J`, a function of the place of
the byte string in the relay message: `[]` the message, `[i]` payload `i`, `[i, 0]` its header, `[i, 1]` its proof,
`[i, 0, 3]` the path of the header, `[i, 0, 9]` its validators.
-/
namespace Verif.SolRelay
open Verif Verif.SolRlp Verif.SolBtpBlock Verif.SolProof

deriving instance DecidableEq for SProof
deriving instance DecidableEq for Header
deriving instance DecidableEq for Msg
deriving instance DecidableEq for Call

/-- Memory behind a byte string, by its place. -/
abbrev Mem := List Nat → Bytes

/-- RLPDecode.sol:93-95 `payloadLen`; the subtraction is checked. -/
def payloadLen (i : Item) : Option Nat :=
  if i.len < payloadOffset i.mem then none else some (i.len - payloadOffset i.mem)

/-- RLPDecode.sol:153-168 `toRlpBytes`. -/
def toRlpBytes (i : Item) : Bytes := peek i.len i.mem

/-- `bytes32(b)`: cut off or filled up with zeros at the end. -/
def bytes32 (b : Bytes) : Bytes := (b ++ zero32).take 32

/-- `l[k].payloadLen() > 0 ? f(l[k]) : z`. -/
def ifAny {α : Type} (z : α) (f : Item → Option α) (i : Item) : Option α :=
  (payloadLen i).bind (fun n => if 0 < n then f i else some z)

/-- A pair of a number and a `bytes32`: BlockUpdateLib.sol:113-114, MessageProofLib.sol:157-158. -/
def decodePair (i : Item) : Option (Nat × Bytes) :=
  (toList i).bind (fun l =>
    match l with
    | a0 :: a1 :: _ => (toUint a0).bind (fun n => (toBytes a1).map (fun b => (n, bytes32 b)))
    | _ => none)

/-- BlockUpdateLib.sol:109-117 `decodeNSRootPath`. -/
def decodePath (junk b : Bytes) : Option (List (Nat × Bytes)) :=
  (toList (toRlpItem b junk)).bind (fun l => l.mapM decodePair)

/-- BlockUpdateLib.sol:119-129 `decodeValidators`; an address is 20 bytes. -/
def decodeValidators (junk b : Bytes) : Option (List Bytes) :=
  (toList (toRlpItem b junk)).bind (fun l =>
    match l with
    | a0 :: _ => (toList a0).bind (fun vs => vs.mapM (fun v => (toAddress v).map (be 20)))
    | _ => none)

/-- BlockUpdateLib.sol:36-55 `decodeHeader`. -/
def decodeHeader (J : Mem) (b : Bytes) : Option Header :=
  (toList (toRlpItem b (J []))).bind (fun l =>
    match l with
    | l0 :: l1 :: l2 :: l3 :: l4 :: l5 :: l6 :: l7 :: l8 :: l' =>
      (toUint l0).bind (fun height => (toUint l1).bind (fun round => (toBytes l2).bind (fun npch =>
        (ifAny [] (fun i => decodePath (J [3]) (toRlpBytes i)) l3).bind (fun path =>
          (toUint l4).bind (fun nid => (toUint l5).bind (fun upd =>
            (ifAny zero32 (fun i => (toBytes i).map bytes32) l6).bind (fun prev =>
              (toUint l7).bind (fun cnt =>
                (ifAny zero32 (fun i => (toBytes i).map bytes32) l8).bind (fun root =>
                  (if upd % 2 = 1 then
                      (match l' with
                       | l9 :: _ => (toBytes l9).bind (decodeValidators (J [9]))
                       | [] => none)
                    else some []).map (fun vals =>
                    ⟨height, round, bytes32 npch, path, nid, upd, prev, cnt, root, vals⟩))))))))))
    | _ => none)

/-- BlockUpdateLib.sol:57-69 `decodeProof`. -/
def decodeProof (junk b : Bytes) : Option (List Bytes) :=
  (toList (toRlpItem b junk)).bind (fun l =>
    match l with
    | a0 :: _ => (toList a0).bind (fun ss => ss.mapM (ifAny [] toBytes))
    | _ => none)

/-- BlockUpdateLib.sol:30-34 `decode`. -/
def decodeUpdate (J : Mem) (b : Bytes) : Option (Header × List Bytes) :=
  (toList (toRlpItem b (J []))).bind (fun l =>
    match l with
    | a0 :: a1 :: _ =>
      (toBytes a0).bind (fun hb => (toBytes a1).bind (fun pb =>
        (decodeHeader (fun p => J (0 :: p)) hb).bind (fun h => (decodeProof (J [1]) pb).map (fun s => (h, s)))))
    | _ => none)

/-- MessageProofLib.sol:31-45 `decode`, 153-161 `toMessageProofNodes`; the level of a node is computed in `SolProof`. -/
def decodeMsgProof (junk b : Bytes) : Option SProof :=
  (toList (toRlpItem b junk)).bind (fun l =>
    match l with
    | a0 :: a1 :: a2 :: _ =>
      (toList a1).bind (fun ms => (toList a0).bind (fun ls => (ls.mapM decodePair).bind (fun lefts =>
        (toList a2).bind (fun rs => (rs.mapM decodePair).bind (fun rights =>
          (ms.mapM toBytes).map (fun mesgs => ⟨lefts, mesgs, rights⟩))))))
    | _ => none)

/-- RelayMessageLib.sol:25-29: one message with its type. -/
def decodeTyped (i : Item) : Option (Nat × Bytes) :=
  (toList i).bind (fun ms =>
    match ms with
    | a0 :: a1 :: _ => (toUint a0).bind (fun t => (toBytes a1).map (fun b => (t, b)))
    | _ => none)

/-- RelayMessageLib.sol:19-32 `decode`. -/
def decodeRelay (junk b : Bytes) : Option (List (Nat × Bytes)) :=
  (toList (toRlpItem b junk)).bind (fun l =>
    match l with
    | a0 :: _ => (toList a0).bind (fun tl => tl.mapM decodeTyped)
    | _ => none)

/-- RelayMessageLib.sol:35-43 `toBlockUpdate`, `toMessageProof` as used in BtpMessageVerifier.sol:96-118; a payload of
another type is not read. -/
def readMsg (J : Mem) (t : Nat) (b : Bytes) : Option Msg :=
  if t = 1 then (decodeUpdate J b).map (fun x => .upd x.1 x.2)
  else if t = 2 then (decodeMsgProof (J []) b).map .proof
  else some .other

/-- BtpMessageVerifier.sol:95: the messages in order, `k` is the index of the first. -/
def readAll (J : Mem) : Nat → List (Nat × Bytes) → Option (List Msg)
  | _, [] => some []
  | k, x :: t => (readMsg (fun p => J (k :: p)) x.1 x.2).bind (fun m => (readAll J (k + 1) t).map (m :: ·))

/-- The messages of a relay message. -/
def readRelay (J : Mem) (b : Bytes) : Option (List Msg) := (decodeRelay (J []) b).bind (readAll J 0)

/-- The arguments of `handleRelayMessage` with the relay message as bytes, and memory behind its parts. -/
structure BCall where
  caller : Bytes
  net : Bytes
  sn : Nat
  msg : Bytes
  mem : Mem

/-- The call with its message decoded. -/
def BCall.read (c : BCall) : Option Call := (readRelay c.mem c.msg).map (fun ms => ⟨c.caller, c.net, c.sn, ms⟩)

/-- BtpMessageVerifier.sol:84-138 `handleRelayMessage`. -/
def handleBytes (E : Env) (C : Cfg) (s : St) (c : BCall) : Option (St × List Bytes) := c.read.bind (handleRelay E C s)

/-- A history of calls: the final state and the messages released. -/
def runBytes (E : Env) (C : Cfg) : St → List BCall → St × List Bytes
  | s, [] => (s, [])
  | s, c :: t =>
    match handleBytes E C s c with
    | none => runBytes E C s t
    | some (s', out) => let r := runBytes E C s' t; (r.1, out ++ r.2)

/-- BtpMessageVerifier.sol:49-74 constructor. -/
def initBytes (E : Env) (bmc src : Bytes) (ty off : Nat) (J : Mem) (header : Bytes) : Option (Cfg × St) :=
  (decodeHeader J header).bind (init E bmc src ty off)

end Verif.SolRelay
