import Verif.SolRelayProps
import Verif.SolBmcProps
import Verif.JavaBmcProps
/-!
A link from ICON to an EVM chain put together from the models of its parts: the message center of ICON (`JavaBmc`) with
the byte form of its messages, and on the EVM chain the message center (`SolBmc`) with the block verifier of the link
(`SolRelay`, from the bytes of the relay message on) in one state.

* Strings of the EVM chain are byte strings; in `SolBmc` they are texts. `text` gives each byte one character, so nothing is
  lost and ASCII strings are themselves. Strings of ICON are written in UTF-8.
* Relay calls for the link are made from outside: a service that makes one while it handles a message is refused. All other
  calls, of any depth, are as in `SolBmc`; verifiers of other links are arbitrary.
* A call that reverts undoes what the verifier stored.
-/
namespace Verif.EndToEnd
open Verif Verif.Rlp Verif.IntConv Verif.SolRlp

/-! ### messages as bytes -/

/-- Bytes of a text. -/
def utf8 (s : String) : Bytes := s.toByteArray.data.toList

/-- A byte string of the EVM as a text. -/
def text (b : Bytes) : String := String.ofList (b.map (fun x => Char.ofNat x.toNat))

/-- /repo/javascore/bmc/src/main/java/foundation/icon/btp/bmc/FeeInfo.java:89-99 `writeObject` and `writeNullable`. -/
def wFee : Option SolBmc.FeeInfo → Bytes
  | none => nullSeq
  | some f => wList [wBytes (utf8 f.network), wList (f.values.map uEnc).flatten].flatten

/-- /repo/javascore/bmc/src/main/java/foundation/icon/btp/bmc/BTPMessage.java:124-134, 141-145 `writeObject`, `toBytes`. -/
def wMsg (m : JavaBmc.Msg) : Bytes :=
  wList [wBytes (utf8 m.src), wBytes (utf8 m.dst), wBytes (utf8 m.svc), wBytes (bigIntToBytes m.sn), wBytes m.body,
    wBytes (bigIntToBytes m.nsn), wFee m.fee].flatten

/-- The decoded structure (Types.sol:72-80) as a message of `SolBmc`. -/
def ofStruct (m : BTPMessage) : SolBmc.Msg :=
  ⟨text m.src, text m.dst, text m.svc, m.sn, m.message, m.nsn, ⟨text m.fee.network, m.fee.values⟩⟩

/-- BMCService.sol:149-153: `handleFee` decodes the message; `junk` is the memory behind it. -/
def decodeMsg (b junk : Bytes) : Option SolBmc.Msg := (decodeBTPMessage b junk).map ofStruct

/-- The messages of a relay call, decoded one after the other. -/
def decodeAll (junk : Nat → Bytes) : Nat → List Bytes → Option (List SolBmc.Msg)
  | _, [] => some []
  | k, b :: t => (decodeMsg b (junk k)).bind (fun m => (decodeAll junk (k + 1) t).map (m :: ·))

/-! ### the EVM chain -/

/-- Parameters: message center, verifier, and for the link its text and network part. -/
structure Par where
  c : SolBmc.Cfg
  E : SolBtpBlock.Env
  C : SolBtpBlock.Cfg
  /-- address of the message center -/
  bmc : Bytes
  link : String
  net : Bytes

structure St where
  bmc : SolBmc.St
  bmv : SolBtpBlock.St
  /-- ghost: the messages released by the verifier in calls that did not revert -/
  out : List Bytes

/-- What happens around one relayed message: answers of the management contract, behaviour of the service. -/
structure Beh where
  env : SolBmc.Env
  ok : Bool
  acts : SolBmc.Ops

inductive Op where
  /-- any call but a relay call for the link -/
  | call (o : SolBmc.Op)
  /-- a relay call for the link -/
  | relay (env : SolBmc.Env) (caller : Nat) (msg : Bytes) (mem : SolRelay.Mem) (junk : Nat → Bytes) (beh : Nat → Beh)

/-- Relay calls for the link do not pass through `SolBmc.exec`. -/
def Par.other (P : Par) : SolBmc.Cfg := { P.c with verify := fun l r ms => decide (l ≠ P.link) && P.c.verify l r ms }

def items (beh : Nat → Beh) : Nat → List SolBmc.Msg → SolBmc.Items
  | _, [] => .nil
  | k, m :: t => .cons m (beh k).env (beh k).ok (beh k).acts (items beh (k + 1) t)

/-- BMCPeriphery.sol:76-132 `handleRelayMessage` for the link, with BtpMessageVerifier.sol:84-138 as its verifier; `none` is a
revert. The result is the state of both, and what the verifier released. -/
def relayCall (P : Par) (s : St) (env : SolBmc.Env) (caller : Nat) (msg : Bytes) (mem : SolRelay.Mem) (junk : Nat → Bytes)
    (beh : Nat → Beh) : Option (SolBmc.St × SolBtpBlock.St × List Bytes) :=
  (SolRelay.handleBytes P.E P.C s.bmv ⟨P.bmc, P.net, s.bmc.rx P.link, msg, mem⟩).bind (fun v =>
    if env.isRelay P.link caller = true then
      (decodeAll junk 0 v.2).bind (fun ms =>
        (SolBmc.execItems P.other (items beh 0 ms) caller P.link (s.bmc.rx P.link) s.bmc).map (fun b =>
          ({ b with rx := SolBmc.upd b.rx P.link (b.rx P.link + ms.length) }, v.1, v.2)))
    else none)

def step (P : Par) (s : St) : Op → St
  | .call o => { s with bmc := (SolBmc.exec P.other o s.bmc).getD s.bmc }
  | .relay env caller msg mem junk beh =>
    match relayCall P s env caller msg mem junk beh with
    | none => s
    | some x => ⟨x.1, x.2.1, s.out ++ x.2.2⟩

def run (P : Par) (s : St) (ops : List Op) : St := ops.foldl (step P) s

/-- A message center, after any history with other verifiers, and a verifier in state `v`. -/
def start (b : SolBmc.St) (v : SolBtpBlock.St) : St := ⟨b, v, []⟩

/-- The calls of the verifier that were not undone. -/
def calls (P : Par) : St → List Op → List SolRelay.BCall
  | _, [] => []
  | s, .call o :: t => calls P (step P s (.call o)) t
  | s, .relay env caller msg mem junk beh :: t =>
    (match relayCall P s env caller msg mem junk beh with
      | none => []
      | some _ => [⟨P.bmc, P.net, s.bmc.rx P.link, msg, mem⟩]) ++
    calls P (step P s (.relay env caller msg mem junk beh)) t

/-- No service re-enters the message center for a link whose messages are just being handled. -/
def Op.calm (P : Par) : Op → Prop
  | .call o => o.calm []
  | .relay _ _ _ _ _ beh => ∀ k, (beh k).acts.calm [P.link]

/-! ### ICON -/

/-- Messages given to a BTP network since it was last bound to a link, with their numbers on the link. -/
def given (id : Nat) : List JavaBmc.Event → List (Nat × JavaBmc.Msg) → List (Nat × JavaBmc.Msg)
  | [], acc => acc
  | .chain i _ n m :: t, acc => given id t (if i = id then acc ++ [(n, m)] else acc)
  | .bind i _ :: t, acc => given id t (if i = id then [] else acc)
  | _ :: t, acc => given id t acc

/-- A message of ICON as the EVM's message center sees it. -/
def seen (m : JavaBmc.Msg) : SolBmc.Msg :=
  ⟨text (utf8 m.src), text (utf8 m.dst), text (utf8 m.svc), m.sn, m.body, m.nsn,
    match m.fee with
    | none => ⟨"", []⟩
    | some f => ⟨text (utf8 f.network), f.values⟩⟩

end Verif.EndToEnd
