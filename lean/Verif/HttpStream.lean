/-!
The HTTP client of common/http.go: the stream of responses (common/http.go:221-274) and the addresses (common/http.go:52-59, 131-153).

* A stream is two goroutines. One decodes the body into the value behind `respPtr` and offers the pointer on an unbuffered channel; the
  other takes it and calls the callback, or is cancelled. Both use the one value behind `respPtr`.
* The body is a list of documents followed by an error (io.EOF if the body ends in order). `dec old d` is what decoding the document `d`
  into a value `old` leaves there (encoding/json leaves fields that are not in the document as they are). A decoding is taken as one step.
* The callback is one step that looks at the value behind the pointer and returns; it may come any time after the pointer was taken.
* The request before it (common/http.go:223-242) and the status check (common/http.go:156-166) come before all this and are not in it.
-/
namespace Verif.HttpStream

/-- common/http.go:248-256: the goroutine that decodes. -/
inductive Prod where
  | decoding
  | offering
  | offeringErr
  | done
deriving DecidableEq

/-- How the call returns: `cancelCh` (common/http.go:260-261), the error of the decoder (263-266), the error of the callback (267-269). -/
inductive Res where
  | cancelled
  | decode
  | callback
deriving DecidableEq

/-- common/http.go:258-271: the goroutine that called Stream. -/
inductive Cons where
  | waiting
  | calling
  | returned (r : Res)
deriving DecidableEq

/-- `seen` (what the callback saw), `got` (documents decoded) and `gave` (pointers handed over) are ghost. -/
structure St (D V : Type) where
  src : List D
  cell : V
  prod : Prod
  cons : Cons
  seen : List V
  got : Nat
  gave : Nat
deriving DecidableEq

inductive Ev where
  | decode
  | hand
  | callback (ok : Bool)
  | cancel
deriving DecidableEq

variable {D V : Type}

/-- One step of one of the two goroutines; a step that cannot be taken leaves the state. -/
def step (dec : V → D → V) (s : St D V) : Ev → St D V
  -- common/http.go:250-253: dec.Decode(respPtr)
  | .decode =>
    if s.prod = .decoding then
      match s.src with
      | [] => { s with prod := .offeringErr }
      | d :: t => { s with src := t, cell := dec s.cell d, prod := .offering, got := s.got + 1 }
    else s
  -- common/http.go:251, 254 with 262-266: `ch <- …` meets `v := <-ch`
  | .hand =>
    if s.cons = .waiting then
      match s.prod with
      | .offering => { s with prod := .decoding, cons := .calling, gave := s.gave + 1 }
      | .offeringErr => { s with prod := .done, cons := .returned .decode }
      | _ => s
    else s
  -- common/http.go:267-269: respFunc(v)
  | .callback ok =>
    if s.cons = .calling then { s with seen := s.seen ++ [s.cell], cons := if ok then .waiting else .returned .callback } else s
  -- common/http.go:260-261
  | .cancel => if s.cons = .waiting then { s with cons := .returned .cancelled } else s

def run (dec : V → D → V) : St D V → List Ev → St D V
  | s, [] => s
  | s, e :: l => run dec (step dec s e) l

/-- common/http.go:243-247: the value behind `respPtr` is the caller's. -/
def init (v : V) (all : List D) : St D V := ⟨all, v, .decoding, .waiting, [], 0, 0⟩

/-! ### Addresses -/

/-- Prefix of a string of bytes up to the first `://`, and what follows; `none` if there is none (strings.Split). -/
def cut : List Char → Option (List Char × List Char)
  | ':' :: '/' :: '/' :: t => some ([], t)
  | [] => none
  | c :: t => (cut t).map fun p => (c :: p.1, p.2)

/-- common/http.go:52-59 `parseAddress`: two parts, or tcp and all of it. -/
def parseAddress (a : List Char) : List Char × List Char :=
  match cut a with
  | none => ("tcp".toList, a)
  | some (n, t) =>
    match cut t with
    | none => (n, t)
    | some _ => ("tcp".toList, a)

/-- common/http.go:131-153 `NewHttpClient`: the base of all URLs. -/
def baseUrl (address ctx : List Char) : List Char :=
  let p := parseAddress address
  (if "unix".toList.isPrefixOf p.1 then "http://localhost".toList
   else if "http".toList.isPrefixOf p.1 then address
   else if p.1 = [] ∨ p.1 = "tcp".toList then "http://".toList ++ p.2
   else []) ++ ctx

/-- common/http.go:339-351 `UrlWithParams`, the parameters encoded. -/
def withParams (u : List Char) : List (List Char) → List Char
  | [] => u
  | p :: l => u ++ '?' :: p ++ l.flatMap fun q => '&' :: q

end Verif.HttpStream
