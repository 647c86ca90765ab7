import Verif.IntConv
/-!
Model of /repo/common/intconv/string.go (text forms of integers) and of the parts of the Go library it calls:
`encoding/hex` and `strconv.ParseInt/ParseUint` with base 0. Strings are lists of characters
(every accepted character is ASCII; Go's byte strings with other bytes are rejected by both libraries
exactly like a non-ASCII character here).
-/
namespace Verif.IntText
open Verif Verif.IntConv

abbrev Str := List Char

/-- `encoding/hex` digit of a nibble (lower case). -/
def hexDigit (n : Nat) : Char := if n < 10 then Char.ofNat (48 + n) else Char.ofNat (87 + n)

/-- `encoding/hex` reverse table: 0-9, a-f, A-F. -/
def hexVal (c : Char) : Option Nat :=
  let n := c.toNat
  if 48 ≤ n ∧ n ≤ 57 then some (n - 48)
  else if 97 ≤ n ∧ n ≤ 102 then some (n - 87)
  else if 65 ≤ n ∧ n ≤ 70 then some (n - 55)
  else none

/-- `hex.EncodeToString`. -/
def hexEncode : Bytes → Str
  | [] => []
  | b :: t => hexDigit (b.toNat / 16) :: hexDigit (b.toNat % 16) :: hexEncode t

/-- `hex.DecodeString`; `none` is the error (invalid byte or odd length). -/
def hexDecode : Str → Option Bytes
  | [] => some []
  | [_] => none
  | a :: b :: t => do
    let x ← hexVal a
    let y ← hexVal b
    let r ← hexDecode t
    pure (UInt8.ofNat (x * 16 + y) :: r)

/-- string.go:27-40 `encodeHexNumber`. -/
def encodeHexNumber (neg : Bool) (b : Bytes) : Str :=
  let s := hexEncode b
  match s with
  | [] => ['0', 'x', '0']
  | c :: t =>
    let s' := if c = '0' then t else s
    if neg then '-' :: '0' :: 'x' :: s' else '0' :: 'x' :: s'

/-- string.go:44-47: strip one leading '-'. -/
def stripNeg : Str → Bool × Str
  | '-' :: t => (true, t)
  | s => (false, s)

/-- string.go:48-50: strip "0x" if something follows. -/
def strip0x (s : Str) : Str :=
  match s with
  | '0' :: 'x' :: c :: t => c :: t
  | _ => s

/-- string.go:42-56 `decodeHexNumber`. -/
def decodeHexNumber (s : Str) : Option (Bool × Bytes) :=
  let (neg, s1) := stripNeg s
  let s2 := strip0x s1
  let s3 := if s2.length % 2 = 1 then '0' :: s2 else s2
  (hexDecode s3).map (fun bs => (neg, bs))

/-- string.go:11-13 `FormatBigInt`; `i.Bytes()` is the absolute value. -/
def formatBigInt (i : Int) : Str := encodeHexNumber (decide (i < 0)) (natBytes i.natAbs)

/-- string.go:15-25 `ParseBigInt`. -/
def parseBigInt (s : Str) : Option Int :=
  match decodeHexNumber s with
  | none => none
  | some (neg, bs) => some (if neg then -(beNat bs : Int) else beNat bs)

/-- string.go:98-107 `FormatInt`; `uint64(-v)` wraps at the minimum. -/
def formatInt (v : Int) : Str :=
  if v < 0 then encodeHexNumber true (sizeToBytes ((-v) % 2 ^ 64).toNat)
  else encodeHexNumber false (sizeToBytes v.toNat)

/-- string.go:109-111 `FormatUint`. -/
def formatUint (v : Nat) : Str := encodeHexNumber false (sizeToBytes v)

/-! ### Go `strconv` -/

/-- strconv `lower`, on the letters (other characters cannot become letters). -/
def lower (c : Char) : Char :=
  if 65 ≤ c.toNat ∧ c.toNat ≤ 90 then Char.ofNat (c.toNat + 32) else c

/-- strconv digit value in `ParseUint`. -/
def digitVal (c : Char) : Option Nat :=
  let n := c.toNat
  let l := (lower c).toNat
  if 48 ≤ n ∧ n ≤ 57 then some (n - 48)
  else if 97 ≤ l ∧ l ≤ 122 then some (l - 87)
  else none

inductive NumErr where | syntax | range
deriving DecidableEq

/-- strconv.ParseUint main loop (base 0, so '_' is skipped). `maxVal = 2^bits-1`; the two overflow tests
(`n >= cutoff` and `n1 < n || n1 > maxVal`) together say that `n*base+d` exceeds `maxVal`, for a
`cutoff = (2^64-1)/base+1`. -/
def uintLoop (base maxVal : Nat) : Str → Nat → Bool → Except NumErr (Nat × Bool)
  | [], n, us => .ok (n, us)
  | c :: t, n, us =>
    if c = '_' then uintLoop base maxVal t n true
    else match digitVal c with
      | none => .error .syntax
      | some d =>
        if d ≥ base then .error .syntax
        else if n ≥ (2 ^ 64 - 1) / base + 1 then .error .range
        else if n * base + d > 2 ^ 64 - 1 ∨ n * base + d > maxVal then .error .range
        else uintLoop base maxVal t (n * base + d) us

/-- strconv `underscoreOK`, loop; `saw` is '^' (0), '0' (1), '_' (2), '!' (3). -/
def usLoop (hex : Bool) : Str → Nat → Bool
  | [], saw => saw != 2
  | c :: t, saw =>
    if (48 ≤ c.toNat ∧ c.toNat ≤ 57) ∨ (hex = true ∧ 97 ≤ (lower c).toNat ∧ (lower c).toNat ≤ 102) then usLoop hex t 1
    else if c = '_' then (if saw ≠ 1 then false else usLoop hex t 2)
    else if saw = 2 then false
    else usLoop hex t 3

/-- strconv `underscoreOK`. -/
def underscoreOK (s : Str) : Bool :=
  let s1 := match s with
    | c :: t => if c = '-' ∨ c = '+' then t else s
    | [] => []
  match s1 with
  | '0' :: c :: t =>
    if lower c = 'b' ∨ lower c = 'o' ∨ lower c = 'x' then usLoop (lower c = 'x') t 1
    else usLoop false s1 0
  | _ => usLoop false s1 0

/-- strconv.ParseUint prefix detection for base 0. -/
def basePrefix (s : Str) : Nat × Str :=
  match s with
  | '0' :: c :: d :: t =>
    if lower c = 'b' then (2, d :: t)
    else if lower c = 'o' then (8, d :: t)
    else if lower c = 'x' then (16, d :: t)
    else (8, c :: d :: t)
  | '0' :: t => (8, t)
  | _ => (10, s)

/-- strconv.ParseUint(s, 0, bits), 1 ≤ bits ≤ 64. -/
def goParseUint (s : Str) (bits : Nat) : Except NumErr Nat :=
  if s = [] then .error .syntax
  else
    let (base, t) := basePrefix s
    match uintLoop base (2 ^ bits - 1) t 0 false with
    | .error e => .error e
    | .ok (n, us) => if us && !underscoreOK s then .error .syntax else .ok n

/-- strconv.ParseInt(s, 0, bits). A range error of ParseUint carries `2^bits-1`, which is again out of range
for the signed width (2 ≤ bits ≤ 64). -/
def goParseInt (s : Str) (bits : Nat) : Except NumErr Int :=
  match s with
  | [] => .error .syntax
  | c :: t =>
    let neg := decide (c = '-')
    let body := if c = '+' ∨ c = '-' then t else s
    match goParseUint body bits with
    | .error e => .error e
    | .ok un =>
      let cutoff := 2 ^ (bits - 1)
      if neg = false ∧ un ≥ cutoff then .error .range
      else if neg = true ∧ un > cutoff then .error .range
      else .ok (if neg then -(un : Int) else un)

/-- string.go:58-82 `ParseInt`; `none` is an error. -/
def parseInt (s : Str) (bits : Nat) : Option Int :=
  match goParseInt s bits with
  | .ok v => some v
  | .error _ =>
    match decodeHexNumber s with
    | none => none
    | some (neg, bs) =>
      if bs.length * 8 > bits then none
      else
        let u := bytesToSize bs
        let edge := 2 ^ (bits - 1)
        if neg then (if u > edge then none else some (-(toInt64 u) |> fun x => toInt64 ((x % 2 ^ 64).toNat)))
        else (if u ≥ edge then none else some (toInt64 u))

/-- string.go:84-96 `ParseUint`. -/
def parseUint (s : Str) (bits : Nat) : Option Nat :=
  match goParseUint s bits with
  | .ok v => some v
  | .error _ =>
    match decodeHexNumber s with
    | some (false, bs) => if bs.length * 8 > bits then none else some (bytesToSize bs)
    | _ => none

end Verif.IntText
