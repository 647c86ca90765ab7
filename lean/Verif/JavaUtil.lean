import Verif.IntText
/-!
Model of the helper classes of the Java contracts: /repo/javascore/score-util/src/main/java/foundation/icon/score/util/
StringUtil.java:25-100 and ArrayUtil.java:64-91, and of
/repo/javascore/bmv/icon/src/main/java/foundation/icon/btp/bmv/icon/Validators.java:53-73 (the validators given at deployment).
`ArrayUtil.matchCount` is in JavaMpt.

Simplifications: strings are lists of characters; `Character.digit`, upper and lower case are those of ASCII; a null argument is
not modelled; arrays are lists and a method that changes its array returns the new one.
-/
namespace Verif.JavaUtil
open Verif Verif.IntText

/-! ### StringUtil -/

/-- StringUtil.java:52-59 `tokenize` with `StringTokenizer`: runs of characters that are no delimiter; `cur` is the token so far. -/
def tok (d : List Char) : Str → Str → List Str
  | cur, [] => if cur = [] then [] else [cur]
  | cur, c :: t =>
    if c ∈ d then (if cur = [] then [] else [cur]) ++ tok d [] t
    else tok d (cur ++ [c]) t

def tokenize (d : List Char) (s : Str) : List Str := tok d [] s

/-- Upper case of a letter. -/
def upper (c : Char) : Char := if 97 ≤ c.toNat ∧ c.toNat ≤ 122 then Char.ofNat (c.toNat - 32) else c

/-- StringUtil.java:37-50 `toCamelCase`. -/
def toCamelCase (s : Str) : Str :=
  (tokenize ['_'] s).flatMap fun w =>
    match w.map lower with
    | [] => []
    | c :: t => upper c :: t

/-- StringUtil.java:25-35 `toLowerCamelCase`: the builder with the lowered first letter is dropped (line 34 returns `camelCase`). -/
def toLowerCamelCase (s : Str) : Str := toCamelCase s

/-- `Character.digit(c, 16)`: -1 if it is no digit. -/
def digit16 (c : Char) : Int := match hexVal c with | some d => d | none => -1

/-- The byte of `(hi << 4) | lo & 0xFF` (StringUtil.java:87-88): `&` binds before `|`; a digit -1 has all bits set. -/
def hexByte (hi lo : Int) : UInt8 :=
  UInt8.ofNat ((hi * 16 % 256).toNat ||| (lo % 256).toNat)

/-- StringUtil.java:86-89, the loop. -/
def hexBytes : Str → Bytes
  | a :: b :: t => hexByte (digit16 a) (digit16 b) :: hexBytes t
  | _ => []

/-- StringUtil.java:76-91 `hexToBytes`; `none` is the exception. -/
def hexToBytes (s : Str) : Option Bytes := if s.length % 2 > 0 then none else some (hexBytes s)

/-- StringUtil.java:63-74 `bytesToHex`. -/
def bytesToHex (bs : Bytes) : Str := hexEncode bs

/-- StringUtil.java:93-100 `isAlphaNumeric`, with `Character.isLetterOrDigit` as a parameter. -/
def isAlphaNumeric (letterOrDigit : Char → Bool) (s : Str) : Bool := s.all letterOrDigit

/-! ### ArrayUtil -/

/-- ArrayUtil.java:68-74, the inner loop of `sort`: the least element so far goes along, the rest stays. -/
def sel {α : Type} (cmp : α → α → Int) : α → List α → α × List α
  | v, [] => (v, [])
  | v, x :: xs =>
    if cmp v x > 0 then ((sel cmp x xs).1, v :: (sel cmp x xs).2)
    else ((sel cmp v xs).1, x :: (sel cmp v xs).2)

/-- ArrayUtil.java:64-77 `sort`; the number counts the rounds. -/
def sortN {α : Type} (cmp : α → α → Int) : Nat → List α → List α
  | 0, l => l
  | _ + 1, [] => []
  | n + 1, v :: xs => (sel cmp v xs).1 :: sortN cmp n (sel cmp v xs).2

def sort {α : Type} (cmp : α → α → Int) (l : List α) : List α := sortN cmp l.length l

/-- ArrayUtil.java:79-85 `sum`. -/
def sum (l : List Int) : Int := l.foldl (· + ·) 0

/-- ArrayUtil.java:86-91 `copyOf`; new places are null. -/
def copyOf (l : List Int) (n : Nat) : List (Option Int) :=
  (l.take (min l.length n)).map some ++ List.replicate (n - min l.length n) none

/-! ### Validators -/

/-- Validators.java:53-73 `fromString`; `parse` is `Address.fromString`, `decode` the base64 decoder followed by `fromBytes`;
`none` is an exception (the deployment fails). -/
def fromString {A : Type} (parse : Str → Option A) (decode : Str → Option (List A)) (s : Str) : Option (List A) :=
  match (tokenize [','] s).mapM parse with
  | some l => some l
  | none => if (tokenize [','] s).length = 1 then decode s else none

end Verif.JavaUtil
