import Verif.IntText
/-!
Model of the JSON forms of numbers and bytes in the Go code: /repo/common/hexint.go:11-269 (`HexInt`, `HexInt16`, `HexUint16`,
`HexInt32`, `HexUint32`, `HexInt64`, `HexUint64`) and /repo/common/hexbytes.go:9-94 (`RawHexBytes`, `HexBytes`).
The ICON client of the relay reads and writes its requests and answers with these types (/repo/chain/icon/client/type.go).

Simplifications: a JSON value is `null`, a string (its text after unescaping), or any other text (`raw`: numbers, booleans,
arrays, objects) as it stands; quoting and unescaping of strings by `encoding/json` is not modelled. A nil slice is `none`.
The receiver of an unmarshal call is a fresh value.
-/
namespace Verif.HexJson
open Verif Verif.IntConv Verif.IntText

/-- A JSON value as the unmarshal functions see it. -/
inductive Json where
  | null
  | str (s : Str)
  | raw (s : Str)
deriving DecidableEq

/-- `json.Unmarshal(b, &s)` for a `string`: null leaves the string empty; `none` is the error for other kinds of value. -/
def readString : Json → Option Str
  | .null => some []
  | .str s => some s
  | .raw _ => none

/-- `big.Int.SetString(s, 0)` on the text of a JSON value that is no string: such a text has no plus sign, underscore, leading zero
or base letter in front of digits, so only an optional minus and decimal digits are accepted; fraction and exponent are refused. -/
def setString0 (s : Str) : Option Int :=
  let (neg, t) := stripNeg s
  if t ≠ [] ∧ t.all (fun c => decide (48 ≤ c.toNat ∧ c.toNat ≤ 57)) = true then
    let n : Nat := t.foldl (fun a c => a * 10 + (c.toNat - 48)) 0
    some (if neg then -(n : Int) else n)
  else none

/-- hexint.go:23-34 `HexInt.UnmarshalJSON`. -/
def readBig (j : Json) : Option Int :=
  match readString j with
  | none => match j with
    | .raw s => setString0 s
    | _ => none
  | some s => parseBigInt s

/-- hexint.go:77-83, 151-157, 217-223: the text given to the number parser by the fixed width types. -/
def textOf (j : Json) : Str :=
  match readString j with
  | none => match j with
    | .raw s => s
    | _ => []
  | some s => s

/-- `HexInt16`, `HexInt32`, `HexInt64`: hexint.go:77-88, 151-162, 217-228 `UnmarshalJSON`; the conversion to the width is exact
(C61). -/
def readInt (bits : Nat) (j : Json) : Option Int := parseInt (textOf j) bits

/-- `HexUint16`, `HexUint32`, `HexUint64`: hexint.go:114-125, 184-195, 250-261 `UnmarshalJSON`. -/
def readUint (bits : Nat) (j : Json) : Option Nat := parseUint (textOf j) bits

/-- hexint.go:15-21 `HexInt.MarshalJSON`. -/
def writeBig (v : Int) : Json := .str (formatBigInt v)

/-- hexint.go:69-75, 143-149, 209-215 `MarshalJSON` of the signed widths. -/
def writeInt (v : Int) : Json := .str (formatInt v)

/-- hexint.go:106-112 `HexUint16.MarshalJSON`: it goes through `int64`. -/
def writeUint16 (v : Nat) : Json := .str (formatInt v)

/-- hexint.go:176-182, 242-248 `HexUint32.MarshalJSON` and `HexUint64.MarshalJSON`. -/
def writeUint (v : Nat) : Json := .str (formatUint v)

/-- hexint.go:127-129, 197-199: `RLPEncodeSelf` of `HexUint16` and `HexUint32` encodes an `int64`. -/
def rlpUintAsInt (v : Nat) : Bytes := int64ToBytes v

/-- hexbytes.go:11-17 `RawHexBytes.MarshalJSON`. -/
def writeRawHex : Option Bytes → Json
  | none => .null
  | some bs => .str (hexEncode bs)

/-- hexbytes.go:19-35 `RawHexBytes.UnmarshalJSON`; the outer `none` is the error. -/
def readRawHex : Json → Option (Option Bytes)
  | .null => some none
  | .str s => (hexDecode s).map some
  | .raw _ => none

/-- hexbytes.go:53-59 `HexBytes.MarshalJSON`. -/
def writeHex : Option Bytes → Json
  | none => .null
  | some bs => .str ('0' :: 'x' :: hexEncode bs)

/-- hexbytes.go:71-73: the prefix is cut off, also when nothing follows. -/
def cut0x : Str → Str
  | '0' :: 'x' :: t => t
  | s => s

/-- hexbytes.go:61-80 `HexBytes.UnmarshalJSON`. -/
def readHex : Json → Option (Option Bytes)
  | .null => some none
  | .str s => (hexDecode (cut0x s)).map some
  | .raw _ => none

end Verif.HexJson
