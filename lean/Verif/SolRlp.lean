import Verif.IntConvProps
import Verif.RlpLemmas
/-!
Model of the Solidity RLP libraries /repo/solidity/bmc/contracts/libraries/{RLPEncode,RLPDecode}.sol (the copies in bmv,
bmv-bridge, xcall and test-lib differ in layout only) and of the codecs of the message center in
/repo/solidity/bmc/contracts/libraries/{RLPEncodeStruct,RLPDecodeStruct}.sol.

A revert is `none`. An `RLPItem` points into memory; it is modelled by its length and the memory contents from its
address on, memory behind the given bytes reads as zero. Addresses are small, so pointer arithmetic does not overflow.
`flatten`, `memcpy`, `concat` and `copy` are concatenation and copying of byte strings; SolMem has them as they work on memory, C151
shows that this is what they do.
-/
namespace Verif.SolRlp
open Verif Verif.IntConv

/-- `abi.encodePacked(uintN(n))` with `N = 8 k`: the low `k` bytes of `n`, big endian. -/
def be : Nat → Nat → Bytes
  | 0, _ => []
  | k + 1, n => be k (n / 256) ++ [UInt8.ofNat (n % 256)]

/-! ### encoding -/

/-- RLPEncode.sol:211-235 `encodeLength`; the loop counts the bytes of `len`. -/
def encodeLength (len off : Nat) : Bytes :=
  if len < 56 then [UInt8.ofNat (len + off)]
  else UInt8.ofNat ((natBytes len).length + off + 55) :: natBytes len

/-- RLPEncode.sol:57-69 `encodeBytes`: a single byte up to and including 128 is its own encoding. -/
def encodeBytes (b : Bytes) : Bytes :=
  match b with
  | [c] => if c.toNat ≤ 128 then [c] else encodeLength 1 128 ++ [c]
  | _ => encodeLength b.length 128 ++ b

/-- RLPEncode.sol:76-83 `encodeList`. -/
def encodeList (l : List Bytes) : Bytes := encodeLength l.flatten.length 192 ++ l.flatten

/-- RLPEncode.sol:397-435 `encodeUintByLength`: the least of 1 to 16 bytes with `n < 256^k - 1`. -/
def encodeUintByLength (n : Nat) : Option Bytes :=
  (((List.range 16).map (· + 1)).find? (fun k => decide (n < 256 ^ k - 1))).map (fun k => be k n)

/-- RLPEncode.sol:122-129 `encodeUint`; the subtraction of the lengths is checked. -/
def uintBytes (n : Nat) : Option Bytes :=
  (encodeUintByLength n).bind (fun b =>
    let nb := bitLen n / 8 + 1
    if nb < b.length then none else if nb - b.length > 0 then some (0 :: b) else some b)

def encodeUint (n : Nat) : Option Bytes := (uintBytes n).map encodeBytes

/-- RLPEncode.sol:137-171 `intToStrictBytes`: the least of 1 to 16 bytes that hold `n` in two's complement. -/
def intToStrictBytes (n : Int) : Option Bytes :=
  (((List.range 16).map (· + 1)).find? (fun k => decide (-(2 ^ (8 * k - 1) : Int) ≤ n ∧ n < 2 ^ (8 * k - 1)))).map
    (fun k => be k (n % 256 ^ k).toNat)

/-- RLPEncode.sol:178-180 `encodeInt`. -/
def encodeInt (n : Int) : Option Bytes := (intToStrictBytes n).map encodeBytes

/-- RLPEncode.sol:187-191 `encodeBool`. -/
def encodeBool (b : Bool) : Bytes := [if b then 1 else 0]

/-- RLPEncodeStruct.sol:119-135 `addLength(length, false)`. -/
def addLength (len : Nat) : Option Bytes :=
  if len ≤ 55 then some [UInt8.ofNat (0xc0 + len)]
  else (encodeUintByLength len).map (fun s => UInt8.ofNat (0xf7 + s.length) :: s)

/-- `abi.encodePacked(addLength(_rlp.length, false), _rlp)`. -/
def listOf (p : Bytes) : Option Bytes := (addLength p.length).map (· ++ p)

/-! ### decoding -/

/-- RLPDecode.sol:17-20 `RLPItem`. -/
structure Item where
  len : Nat
  mem : Bytes

/-- The first `n` bytes of memory. -/
def peek (n : Nat) (mem : Bytes) : Bytes := (mem ++ List.replicate n 0).take n

/-- `byte(0, mload(ptr))`. -/
def byte0 (mem : Bytes) : Nat := (mem.headD 0).toNat

/-- RLPDecode.sol:275-307 `_itemLength`. -/
def itemLength (mem : Bytes) : Nat :=
  let b := byte0 mem
  if b < 0x80 then 1
  else if b < 0xb8 then b - 0x80 + 1
  else if b < 0xc0 then beNat (peek (b - 0xb7) mem.tail) + (b - 0xb7 + 1)
  else if b < 0xf8 then b - 0xc0 + 1
  else beNat (peek (b - 0xf7) mem.tail) + (b - 0xf7 + 1)

/-- RLPDecode.sol:310-325 `_payloadOffset`. -/
def payloadOffset (mem : Bytes) : Nat :=
  let b := byte0 mem
  if b < 0x80 then 0
  else if b < 0xb8 ∨ (b ≥ 0xc0 ∧ b < 0xf8) then 1
  else if b < 0xc0 then b - 0xb7 + 1
  else b - 0xf7 + 1

/-- RLPDecode.sol:54-64 `toRlpItem`; `junk` is the memory behind the byte string. -/
def toRlpItem (b junk : Bytes) : Item := ⟨b.length, b ++ junk⟩

/-- RLPDecode.sol:122-133 `isList`. -/
def isList (i : Item) : Bool := decide (i.len ≠ 0 ∧ 0xc0 ≤ byte0 i.mem)

/-- RLPDecode.sol:135-148 `isNull`. -/
def isNull (i : Item) : Bool := decide (i.len = 2 ∧ byte0 i.mem = 0xf8 ∧ byte0 i.mem.tail = 0)

/-- RLPDecode.sol:107-118 and 260-272 `numItems`: items are read until the end of the list is reached or passed. -/
def walk : Nat → Nat → Bytes → List Item
  | 0, _, _ => []
  | f + 1, n, mem =>
    if n = 0 then [] else ⟨itemLength mem, mem⟩ :: walk f (n - itemLength mem) (mem.drop (itemLength mem))

/-- RLPDecode.sol:100-119 `toList`. -/
def toList (i : Item) : Option (List Item) :=
  if isList i then
    let n := i.len - payloadOffset i.mem
    some (walk n n (i.mem.drop (payloadOffset i.mem)))
  else none

/-- RLPDecode.sol:239-253 `toBytes`. -/
def toBytes (i : Item) : Option Bytes :=
  if i.len = 0 ∨ i.len < payloadOffset i.mem then none
  else some (peek (i.len - payloadOffset i.mem) (i.mem.drop (payloadOffset i.mem)))

/-- RLPDecode.sol:197-215 `toUint`. -/
def toUint (i : Item) : Option Nat :=
  if i.len = 0 ∨ 33 < i.len ∨ i.len < payloadOffset i.mem then none
  else some (beNat (peek (min 32 (i.len - payloadOffset i.mem)) (i.mem.drop (payloadOffset i.mem))))

/-- RLPDecode.sol:217-223 `toInt`: indexing an empty string and `2**256` revert. -/
def toInt (i : Item) : Option Int :=
  (toBytes i).bind (fun b =>
    match b with
    | [] => none
    | c :: t =>
      (toUint i).bind (fun u =>
        let s : Int := if u < 2 ^ 255 then u else (u : Int) - 2 ^ 256
        if 0x80 ≤ c.toNat then
          (if 32 ≤ t.length + 1 then none else some (s - 2 ^ ((t.length + 1) * 8)))
        else some s))

/-- RLPDecode.sol:171-188 `toBoolean`. -/
def toBoolean (i : Item) : Option Bool :=
  if i.len ≠ 1 then none else some (decide (byte0 i.mem ≠ 0 ∧ byte0 i.mem ≠ 0x80))

/-- RLPDecode.sol:190-195 `toAddress`: the low 20 bytes. -/
def toAddress (i : Item) : Option Nat :=
  if i.len ≠ 21 then none else (toUint i).map (· % 2 ^ 160)

/-! ### the structures of the message center -/

/-- Types.sol `FeeInfo`. -/
structure FeeInfo where
  network : Bytes
  values : List Nat
deriving DecidableEq

/-- Types.sol `BTPMessage`. -/
structure BTPMessage where
  src : Bytes
  dst : Bytes
  svc : Bytes
  sn : Int
  message : Bytes
  nsn : Int
  fee : FeeInfo
deriving DecidableEq

/-- RLPEncodeStruct.sol:18-33 `encodeFeeInfo`. -/
def encodeFeeInfo (f : FeeInfo) : Option Bytes :=
  (f.values.mapM encodeUint).bind (fun vs =>
    (listOf vs.flatten).bind (fun v => listOf (encodeBytes f.network ++ v)))

/-- RLPEncodeStruct.sol:47-63 `encodeBTPMessage`. -/
def encodeBTPMessage (m : BTPMessage) : Option Bytes :=
  (encodeInt m.sn).bind (fun sn => (encodeInt m.nsn).bind (fun nsn => (encodeFeeInfo m.fee).bind (fun fee =>
    listOf (encodeBytes m.src ++ (encodeBytes m.dst ++ (encodeBytes m.svc ++ (sn ++ (encodeBytes m.message ++
      (nsn ++ (fee ++ []))))))))))

/-- RLPDecodeStruct.sol:18-36 `_decodeFeeInfo`. -/
def decodeFeeInfo (i : Item) : Option FeeInfo :=
  if isNull i then some ⟨[], []⟩
  else (toList i).bind (fun ls =>
    match ls with
    | a :: b :: _ =>
      (toList b).bind (fun vs => (vs.mapM toUint).bind (fun values => (toBytes a).map (fun n => ⟨n, values⟩)))
    | _ => none)

/-- RLPDecodeStruct.sol:80-96 `decodeBTPMessage`. -/
def decodeBTPMessage (b junk : Bytes) : Option BTPMessage :=
  (toList (toRlpItem b junk)).bind (fun ls =>
    match ls with
    | a0 :: a1 :: a2 :: a3 :: a4 :: a5 :: a6 :: _ =>
      (toBytes a0).bind (fun src => (toBytes a1).bind (fun dst => (toBytes a2).bind (fun svc =>
        (toInt a3).bind (fun sn => (toBytes a4).bind (fun message => (toInt a5).bind (fun nsn =>
          (decodeFeeInfo a6).map (fun fee => ⟨src, dst, svc, sn, message, nsn, fee⟩)))))))
    | _ => none)

/-! ### structures of two or three plain fields, message center and call service -/

/-- RLPEncodeStruct.sol:35-45, 91-98, 78-89: `encodeBMCMessage`, `encodePropagateMessage`, `encodeInitMessage`. -/
def encodeBMCMessage (msgType payload : Bytes) : Option Bytes := listOf (encodeBytes msgType ++ (encodeBytes payload ++ []))
def encodePropagateMessage (link : Bytes) : Option Bytes := listOf (encodeBytes link ++ [])
def encodeInitMessage (links : List Bytes) : Option Bytes :=
  (listOf (links.map encodeBytes).flatten).bind (fun l => listOf (l ++ []))

/-- RLPEncodeStruct.sol:65-76, 100-110: `encodeResponseMessage`, `encodeClaimMessage`. -/
def encodeResponseMessage (code : Nat) (message : Bytes) : Option Bytes :=
  (encodeUint code).bind (fun c => listOf (c ++ (encodeBytes message ++ [])))

/-- RLPDecodeStruct.sol:46-57, 59-66, 68-78. -/
def decodeBMCMessage (b junk : Bytes) : Option (Bytes × Bytes) :=
  (toList (toRlpItem b junk)).bind (fun ls =>
    match ls with
    | a0 :: a1 :: _ => (toBytes a0).bind (fun x => (toBytes a1).map (fun y => (x, y)))
    | _ => none)
def decodePropagateMessage (b junk : Bytes) : Option Bytes :=
  (toList (toRlpItem b junk)).bind (fun ls => match ls with | a0 :: _ => toBytes a0 | _ => none)
def decodeInitMessage (b junk : Bytes) : Option (List Bytes) :=
  (toList (toRlpItem b junk)).bind (fun ls =>
    match ls with | a0 :: _ => (toList a0).bind (fun l => l.mapM toBytes) | _ => none)

/-- RLPDecodeStruct.sol:98-105, 107-114: `decodeResponseMessage`, `decodeClaimMessage`. -/
def decodeResponseMessage (b junk : Bytes) : Option (Nat × Bytes) :=
  (toList (toRlpItem b junk)).bind (fun ls =>
    match ls with
    | a0 :: a1 :: _ => (toUint a0).bind (fun x => (toBytes a1).map (fun y => (x, y)))
    | _ => none)

/-- xcall Types.sol `CSMessageRequest`. -/
structure CallRequest where
  src : Bytes
  dst : Bytes
  sn : Nat
  rollback : Bool
  data : Bytes
deriving DecidableEq

/-- xcall RLPEncodeStruct.sol:23-34, 36-50, 52-65: `encodeCSMessage`, `encodeCSMessageRequest`,
`encodeCSMessageResponse`. -/
def encodeCSMessage (ty : Int) (payload : Bytes) : Option Bytes :=
  (encodeInt ty).bind (fun t => listOf (t ++ (encodeBytes payload ++ [])))
def encodeCSMessageRequest (r : CallRequest) : Option Bytes :=
  (encodeUint r.sn).bind (fun sn =>
    listOf (encodeBytes r.src ++ (encodeBytes r.dst ++ (sn ++ (encodeBool r.rollback ++ (encodeBytes r.data ++ []))))))
def encodeCSMessageResponse (sn : Nat) (code : Int) (msg : Bytes) : Option Bytes :=
  (encodeUint sn).bind (fun s => (encodeInt code).bind (fun c => listOf (s ++ (c ++ (encodeBytes msg ++ [])))))

/-- xcall RLPDecodeStruct.sol:18-29, 31-45, 47-59. -/
def decodeCSMessage (b junk : Bytes) : Option (Int × Bytes) :=
  (toList (toRlpItem b junk)).bind (fun ls =>
    match ls with
    | a0 :: a1 :: _ => (toInt a0).bind (fun x => (toBytes a1).map (fun y => (x, y)))
    | _ => none)
def decodeCSMessageRequest (b junk : Bytes) : Option CallRequest :=
  (toList (toRlpItem b junk)).bind (fun ls =>
    match ls with
    | a0 :: a1 :: a2 :: a3 :: a4 :: _ =>
      (toBytes a0).bind (fun src => (toBytes a1).bind (fun dst => (toUint a2).bind (fun sn =>
        (toBoolean a3).bind (fun rb => (toBytes a4).map (fun data => ⟨src, dst, sn, rb, data⟩)))))
    | _ => none)
def decodeCSMessageResponse (b junk : Bytes) : Option (Nat × Int × Bytes) :=
  (toList (toRlpItem b junk)).bind (fun ls =>
    match ls with
    | a0 :: a1 :: a2 :: _ =>
      (toUint a0).bind (fun sn => (toInt a1).bind (fun code => (toBytes a2).map (fun msg => (sn, code, msg))))
    | _ => none)

end Verif.SolRlp
