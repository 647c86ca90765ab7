import Verif.JsonRpc
/-!
Model of single requests of the HTTP client (C181): common/http.go:156-217, `_do`, `Do`, `readResponseBody`, with `NewHttpError` (417-428). `Get`,
`Post`, `PostWithJson` and `Delete` (276-284, 335-337) call `Do`; nothing else in the repository uses the client.

What is fixed: `json` reads the first document of a body into what the caller's pointer points to, and says whether that worked. The
HTTP library is one step (`JsonRpc.Wire`). Left out: texts of errors, headers, and content types (they are not looked at here).
-/
namespace Verif.HttpDo
open Verif JsonRpc

/-- What the caller wants: nothing, the body as a text, or a value (`readResponseBody`, 200-216). -/
inductive Want where
  | nothing | text | value
deriving DecidableEq

/-- The errors; `http` is an `*HttpError` with the status and the bytes of the body (417-428: none if it breaks off). -/
inductive Err where
  | marshal | request | lost (refused : Bool) | http (status : Nat) (body : Bytes) | read
deriving DecidableEq

/-- What the caller's pointer points to: a text or a value. -/
structure Cell (T : Type) where
  text : Bytes
  val : T

/-- The error, what the caller has, whether a request was sent, whether there is an answer whose body is not closed. -/
structure Out (T : Type) where
  err : Option Err
  cell : Cell T
  sent : Bool
  isOpen : Bool

/-- http.go:199-217 `readResponseBody` -/
def readBody {T : Type} (json : Bytes → T → Bool × T) (want : Want) (c : Cell T) (body : Option Bytes) : Out T :=
  match want, body with
  | .nothing, _ => ⟨none, c, true, true⟩
  | .text, none => ⟨some .read, c, true, false⟩
  | .text, some b => ⟨none, { c with text := b }, true, false⟩
  | .value, none => ⟨some .read, c, true, false⟩
  | .value, some b => ⟨if (json b c.val).1 = true then none else some .read, { c with val := (json b c.val).2 }, true, false⟩

/-- http.go:168-197 `Do`, 156-166 `_do` -/
def request {T : Type} (json : Bytes → T → Bool × T) (marshal url : Bool) (want : Want) (c : Cell T) (w : Wire) : Out T :=
  if marshal = false then ⟨some .marshal, c, false, false⟩
  else if url = false then ⟨some .request, c, false, false⟩
  else
    match w with
    | .lost r => ⟨some (.lost r), c, true, false⟩
    | .answer status _ body => if status ≠ 200 then ⟨some (.http status (body.getD [])), c, true, true⟩ else readBody json want c body

/-! ### C181 -/

/-- A request succeeds exactly if the answer has status 200 and what the caller wants can be read from it. -/
theorem C181_success {T : Type} (json : Bytes → T → Bool × T) (m u : Bool) (want : Want) (c : Cell T) (w : Wire) :
    (request json m u want c w).err = none ↔ m = true ∧ u = true ∧ ∃ t body, w = .answer 200 t body ∧
      (want = .nothing ∨ ∃ b, body = some b ∧ (want = .text ∨ (json b c.val).1 = true)) := by
  cases m with
  | false => simp [request]
  | true =>
  cases u with
  | false => simp [request]
  | true =>
  cases w with
  | lost r => simp [request]
  | answer status t body =>
    by_cases hs : status = 200
    · subst hs
      have e : ∀ P : Bool → Option Bytes → Prop, (∃ t' body', Wire.answer 200 t body = .answer 200 t' body' ∧ P t' body') ↔ P t body :=
        fun P => ⟨fun ⟨_, _, h, hp⟩ => (by cases h; exact hp), fun hp => ⟨_, _, rfl, hp⟩⟩
      rw [e fun _ body => _]
      cases want <;> cases body <;> simp [request, readBody]
    · simp [request, hs]

/-- What the caller has after it: nothing wanted, nothing changed; a text is the whole body; a value is what was read. -/
theorem C181_result {T : Type} (json : Bytes → T → Bool × T) (t : Bool) (c : Cell T) (b : Bytes) (body : Option Bytes) :
    (request json true true .nothing c (.answer 200 t body)).cell = c ∧
      (request json true true .text c (.answer 200 t (some b))).cell = { c with text := b } ∧
      (request json true true .value c (.answer 200 t (some b))).cell = { c with val := (json b c.val).2 } := by
  simp [request, readBody]

/-- What the caller has stays as it was after every error but one of reading a value. -/
theorem C181_kept {T : Type} (json : Bytes → T → Bool × T) (m u : Bool) (want : Want) (c : Cell T) (w : Wire) (e : Err)
    (h : (request json m u want c w).err = some e) (hk : want ≠ .value ∨ e ≠ .read) : (request json m u want c w).cell = c := by
  cases m with
  | false => simp [request]
  | true =>
  cases u with
  | false => simp [request]
  | true =>
  cases w with
  | lost r => simp [request]
  | answer status t body =>
    by_cases hs : status = 200
    · subst hs
      cases want <;> cases body <;> simp [request, readBody] at h hk ⊢
      exact absurd h.2.symm hk
    · simp [request, hs]

/-- Errors of the server are handed over with their status and their body, whatever is wanted. -/
theorem C181_server_errors {T : Type} (json : Bytes → T → Bool × T) (want : Want) (c : Cell T) (status : Nat) (t : Bool) (b : Bytes) (hs : status ≠ 200) :
    (request json true true want c (.answer status t (some b))).err = some (.http status b) := by
  simp [request, hs]

/-- So are errors without an answer; and nothing is sent exactly if the request could not be made. -/
theorem C181_sent {T : Type} (json : Bytes → T → Bool × T) (m u r : Bool) (want : Want) (c : Cell T) (w : Wire) :
    (request json m u want c w).sent = (m && u) ∧ (request json true true want c (.lost r)).err = some (.lost r) ∧
      (request json false u want c w).err = some .marshal ∧ (request json true false want c w).err = some .request := by
  refine ⟨?_, rfl, rfl, rfl⟩
  cases m with
  | false => rfl
  | true =>
  cases u with
  | false => rfl
  | true =>
  cases w with
  | lost r => rfl
  | answer status t body =>
    by_cases hs : status = 200
    · subst hs
      cases want <;> cases body <;> simp [request, readBody]
    · simp [request, hs]

/-- An error of reading is told exactly for answers with status 200 that break off or cannot be read as the value wanted. -/
theorem C181_unreadable {T : Type} (json : Bytes → T → Bool × T) (m u : Bool) (want : Want) (c : Cell T) (w : Wire) :
    (request json m u want c w).err = some .read ↔ m = true ∧ u = true ∧ want ≠ .nothing ∧ ∃ t body, w = .answer 200 t body ∧
      ∀ b, body = some b → want = .value ∧ (json b c.val).1 = false := by
  cases m with
  | false => simp [request]
  | true =>
  cases u with
  | false => simp [request]
  | true =>
  cases w with
  | lost r => simp [request]
  | answer status t body =>
    by_cases hs : status = 200
    · subst hs
      have e : ∀ P : Bool → Option Bytes → Prop, (∃ t' body', Wire.answer 200 t body = .answer 200 t' body' ∧ P t' body') ↔ P t body :=
        fun P => ⟨fun ⟨_, _, h, hp⟩ => (by cases h; exact hp), fun hp => ⟨_, _, rfl, hp⟩⟩
      rw [e fun _ body => _]
      cases want <;> cases body <;> simp [request, readBody]
    · simp [request, hs]

/-- The body of an answer is left open exactly if the status is another one or nothing is wanted from it. -/
theorem C181_left_open {T : Type} (json : Bytes → T → Bool × T) (m u : Bool) (want : Want) (c : Cell T) (w : Wire) :
    (request json m u want c w).isOpen = true ↔ m = true ∧ u = true ∧ ∃ status t body, w = .answer status t body ∧ (status ≠ 200 ∨ want = .nothing) := by
  cases m with
  | false => simp [request]
  | true =>
  cases u with
  | false => simp [request]
  | true =>
  cases w with
  | lost r => simp [request]
  | answer status t body =>
    by_cases hs : status = 200
    · subst hs
      cases want <;> cases body <;> simp [request, readBody]
    · simp [request, hs]

/-! ### A case: values are numbers, written as one byte -/
namespace Demo

def json : Bytes → Nat → Bool × Nat
  | b :: _, _ => (true, b.toNat)
  | [], v => (false, v)

def brief (o : Out Nat) : Option Err × Bytes × Nat × Bool × Bool := (o.err, o.cell.text, o.cell.val, o.sent, o.isOpen)

example : brief (request json true true .value ⟨[], 5⟩ (.answer 200 true (some [7, 8]))) = (none, [], 7, true, false) := by decide +kernel
example : brief (request json true true .text ⟨[], 5⟩ (.answer 200 true (some [7, 8]))) = (none, [7, 8], 5, true, false) := by decide +kernel
example : brief (request json true true .nothing ⟨[], 5⟩ (.answer 200 true (some [7, 8]))) = (none, [], 5, true, true) := by decide +kernel
example : brief (request json true true .value ⟨[], 5⟩ (.answer 200 true (some []))) = (some .read, [], 5, true, false) := by decide +kernel
example : brief (request json true true .value ⟨[], 5⟩ (.answer 404 true (some [1]))) = (some (.http 404 [1]), [], 5, true, true) := by decide +kernel

end Demo

end Verif.HttpDo
