import Verif.Sender
/-!
Model of the JSON-RPC client (C178): common/jsonrpc/client.go, with `NewHttpError` of common/http.go:417-428 and the types of
common/jsonrpc/type.go. All clients of ICON nodes (chain/icon/client) call it.

JSON is a parameter: `dec` reads a whole body (`json.Unmarshal`), `first` the first document of a body (`Decoder.Decode`; what follows is not
looked at), `put` a value into what the caller's pointer points to, saying whether that worked; `nil` is the document `null`. The
HTTP library is one step: the node's answer, or an error. Left out: the texts of errors, custom headers, the response handed out beside an error of
decoding (parts of the document may be in it), the content type's header (common/http.go:441-449, here a flag), and `Raw`.
-/
namespace Verif.JsonRpc
open Verif

/-- type.go:17-22 `Response`; `V` are JSON values. -/
structure Rsp (V : Type) where
  version : List Char
  result : Option V
  err : Option (Int × List Char)
  id : Option V

/-- What a document is when read into a `*Response`. -/
inductive Doc (V : Type) where
  | bad
  | null
  | obj (r : Rsp V)

/-- What comes back for a request: an error of the HTTP library (refused connections are told apart), or an answer with its status, whether
its content type is JSON, and its body (`none` if it breaks off: with status 200 before the end of its first document, for the decoder reads no
further, else anywhere). -/
inductive Wire where
  | lost (refused : Bool)
  | answer (status : Nat) (json : Bool) (body : Option Bytes)

/-- The errors; `rpcNil` is a nil `*Error` in the error value, `http` an `*HttpError`. -/
inductive Err where
  | marshal | request | pre | lost (refused : Bool) | http (status : Nat) | rpc (code : Int) (msg : List Char) | rpcNil | decode | result
deriving DecidableEq

/-- What is fixed: how bodies are read and values are put. -/
structure Json (V T : Type) where
  dec : Bytes → Doc V
  first : Bytes → Doc V
  nil : V
  put : V → T → Bool × T

/-- What a call comes to: a panic, or the response, the error, what the caller's pointer points to, whether a request was sent, and
whether the body of the answer was closed. -/
inductive Out (V T : Type) where
  | panic
  | ret (rsp : Option (Rsp V)) (err : Option Err) (val : T) (sent closed : Bool)

/-- client.go:75-89: after an error of `_do` (26-41); http.go:417-428: of a body that breaks off nothing is kept. -/
def failed {V T : Type} (j : Json V T) (v : T) (status : Nat) (json : Bool) (body : Option Bytes) : Out V T :=
  if 0 < (body.getD []).length ∧ json = true then
    match j.dec (body.getD []) with
    | .bad => .ret none (some .decode) v true false
    | .null => .panic
    | .obj r =>
      match r.err with
      | some e => .ret (some r) (some (.rpc e.1 e.2)) v true false
      | none => .ret (some r) (some .rpcNil) v true false
  else .ret none (some (.http status)) v true false

/-- client.go:91-111, 128-132 `decodeResponseBody`: an answer with status 200; `want`: the caller gave a pointer. -/
def answered {V T : Type} (j : Json V T) (want : Bool) (v : T) (body : Option Bytes) : Out V T :=
  match body with
  | none => .ret none (some .decode) v true true
  | some b =>
    match j.first b with
    | .bad => .ret none (some .decode) v true true
    | .null => .panic
    | .obj r =>
      match r.err with
      | some e => .ret (some r) (some (.rpc e.1 e.2)) v true true
      | none =>
        if want = true then
          let p := j.put (r.result.getD j.nil) v
          .ret (some r) (if p.1 = true then none else some .result) p.2 true true
        else .ret (some r) none v true true

/-- client.go:45-112 `Do`, 26-41 `_do`: `marshal`: the parameters can be written; `request`: the endpoint is a URL; `pre`: the hook agrees. -/
def call {V T : Type} (j : Json V T) (marshal request pre want : Bool) (v : T) (w : Wire) : Out V T :=
  if marshal = false then .ret none (some .marshal) v false false
  else if request = false then .ret none (some .request) v false false
  else if pre = false then .ret none (some .pre) v false false
  else
    match w with
    | .lost r => .ret none (some (.lost r)) v true false
    | .answer status json body => if status ≠ 200 then failed j v status json body else answered j want v body

/-- How the sender sees the error (chain/icon/client/client.go:517-549). -/
def Err.seen : Err → Sender.RpcErr
  | .rpc c m => .rpc c m
  | .rpcNil => .rpcNil
  | .http _ => .http
  | .lost true => .refused
  | _ => .other

/-! ### C178 -/

/-- A call succeeds exactly if the answer has status 200 and its first document is an object without an error whose result can be put where
the caller wants it. -/
theorem C178_success {V T : Type} (j : Json V T) (m q p want : Bool) (v v' : T) (w : Wire) :
    (∃ r s c, call j m q p want v w = .ret r none v' s c) ↔
      m = true ∧ q = true ∧ p = true ∧ ∃ json b r, w = .answer 200 json (some b) ∧ j.first b = .obj r ∧ r.err = none ∧
        (if want = true then j.put (r.result.getD j.nil) v = (true, v') else v' = v) := by
  constructor
  · rintro ⟨r, s, c, h⟩
    unfold call at h
    cases m with
    | false => cases h
    | true =>
    cases q with
    | false => cases h
    | true =>
    cases p with
    | false => cases h
    | true =>
    simp only [Bool.true_eq_false, if_false] at h
    cases w with
    | lost x => cases h
    | answer status json body =>
      dsimp only at h
      by_cases hs : status ≠ 200
      · rw [if_pos hs] at h
        unfold failed at h
        split at h
        · cases hd : j.dec (body.getD []) with
          | bad => rw [hd] at h; cases h
          | null => rw [hd] at h; cases h
          | obj x => rw [hd] at h; dsimp only at h; cases he : x.err <;> rw [he] at h <;> cases h
        · cases h
      · rw [if_neg hs] at h
        have hs : status = 200 := Decidable.not_not.mp hs
        subst hs
        unfold answered at h
        cases body with
        | none => cases h
        | some b =>
          dsimp only at h
          cases hd : j.first b with
          | bad => rw [hd] at h; cases h
          | null => rw [hd] at h; cases h
          | obj x =>
            rw [hd] at h
            dsimp only at h
            refine ⟨rfl, rfl, rfl, json, b, x, rfl, hd, ?_⟩
            cases he : x.err with
            | some e => rw [he] at h; cases h
            | none =>
              rw [he] at h
              refine ⟨rfl, ?_⟩
              dsimp only at h
              cases want with
              | false =>
                rw [if_neg (by decide)] at h ⊢
                cases h
                rfl
              | true =>
                rw [if_pos rfl] at h ⊢
                cases hp : j.put (x.result.getD j.nil) v with
                | mk ok y =>
                  rw [hp] at h
                  cases ok with
                  | false => cases h
                  | true => cases h; rfl
  · rintro ⟨rfl, rfl, rfl, json, b, r, rfl, hd, he, hv⟩
    refine ⟨some r, true, true, ?_⟩
    unfold call answered
    simp only [Bool.true_eq_false, if_false, ne_eq, not_true_eq_false, hd, he]
    cases want with
    | false => rw [if_neg (by decide)] at hv ⊢; rw [hv]
    | true => rw [if_pos rfl] at hv ⊢; rw [hv]; rfl

/-- A call panics exactly if the node answers with the document `null`. -/
theorem C178_panics {V T : Type} (j : Json V T) (m q p want : Bool) (v : T) (w : Wire) :
    call j m q p want v w = .panic ↔ m = true ∧ q = true ∧ p = true ∧ ∃ status json b, w = .answer status json (some b) ∧
      ((status = 200 ∧ j.first b = .null) ∨ (status ≠ 200 ∧ json = true ∧ b ≠ [] ∧ j.dec b = .null)) := by
  constructor
  · intro h
    unfold call at h
    cases m with
    | false => cases h
    | true =>
    cases q with
    | false => cases h
    | true =>
    cases p with
    | false => cases h
    | true =>
    simp only [Bool.true_eq_false, if_false] at h
    cases w with
    | lost x => cases h
    | answer status json body =>
      dsimp only at h
      by_cases hs : status ≠ 200
      · rw [if_pos hs] at h
        unfold failed at h
        split at h
        · rename_i hc
          cases body with
          | none => exact absurd hc.1 (by simp)
          | some b =>
            refine ⟨rfl, rfl, rfl, status, json, b, rfl, .inr ⟨hs, hc.2, List.length_pos_iff.mp hc.1, ?_⟩⟩
            dsimp only [Option.getD_some] at h
            cases hd : j.dec b with
            | null => rfl
            | bad => rw [hd] at h; cases h
            | obj x => rw [hd] at h; dsimp only at h; cases he : x.err <;> rw [he] at h <;> cases h
        · cases h
      · rw [if_neg hs] at h
        unfold answered at h
        cases body with
        | none => cases h
        | some b =>
          refine ⟨rfl, rfl, rfl, status, json, b, rfl, .inl ⟨Decidable.not_not.mp hs, ?_⟩⟩
          dsimp only at h
          cases hd : j.first b with
          | null => rfl
          | bad => rw [hd] at h; cases h
          | obj x =>
            rw [hd] at h
            dsimp only at h
            cases he : x.err with
            | some e => rw [he] at h; cases h
            | none => rw [he] at h; dsimp only at h; split at h <;> cases h
  · rintro ⟨rfl, rfl, rfl, status, json, b, rfl, ⟨rfl, hd⟩ | ⟨hs, rfl, hb, hd⟩⟩
    · unfold call answered
      simp [hd]
    · unfold call failed
      simp only [Bool.true_eq_false, if_false, if_pos hs, Option.getD_some]
      rw [if_pos ⟨List.length_pos_iff.mpr hb, by trivial⟩, hd]

/-- The error that is a nil pointer: exactly for answers with another status, JSON content and an object without an error. -/
theorem C178_nil_error {V T : Type} (j : Json V T) (m q p want : Bool) (v : T) (w : Wire) :
    (∃ r v' s c, call j m q p want v w = .ret r (some .rpcNil) v' s c) ↔
      m = true ∧ q = true ∧ p = true ∧ ∃ status b r, w = .answer status true (some b) ∧ status ≠ 200 ∧ b ≠ [] ∧ j.dec b = .obj r ∧ r.err = none := by
  constructor
  · rintro ⟨r, v', s, c, h⟩
    unfold call at h
    cases m with
    | false => cases h
    | true =>
    cases q with
    | false => cases h
    | true =>
    cases p with
    | false => cases h
    | true =>
    simp only [Bool.true_eq_false, if_false] at h
    cases w with
    | lost x => cases h
    | answer status json body =>
      dsimp only at h
      by_cases hs : status ≠ 200
      · rw [if_pos hs] at h
        unfold failed at h
        split at h
        · rename_i hc
          cases body with
          | none => exact absurd hc.1 (by simp)
          | some b =>
            obtain ⟨h1, rfl⟩ := hc
            refine ⟨rfl, rfl, rfl, status, b, ?_⟩
            dsimp only [Option.getD_some] at h h1
            cases hd : j.dec b with
            | null => rw [hd] at h; cases h
            | bad => rw [hd] at h; cases h
            | obj x =>
              rw [hd] at h
              dsimp only at h
              cases he : x.err with
              | none => exact ⟨x, rfl, hs, List.length_pos_iff.mp h1, rfl, he⟩
              | some e => rw [he] at h; cases h
        · cases h
      · rw [if_neg hs] at h
        unfold answered at h
        cases body with
        | none => cases h
        | some b =>
          dsimp only at h
          cases hd : j.first b with
          | null => rw [hd] at h; cases h
          | bad => rw [hd] at h; cases h
          | obj x =>
            rw [hd] at h
            dsimp only at h
            cases he : x.err with
            | some e => rw [he] at h; cases h
            | none =>
              rw [he] at h
              dsimp only at h
              split at h
              · cases hp : (j.put (x.result.getD j.nil) v).1 <;> rw [hp] at h <;> cases h
              · cases h
  · rintro ⟨rfl, rfl, rfl, status, b, r, rfl, hs, hb, hd, he⟩
    refine ⟨some r, v, true, false, ?_⟩
    unfold call failed
    simp only [Bool.true_eq_false, if_false, if_pos hs, Option.getD_some]
    rw [if_pos ⟨List.length_pos_iff.mpr hb, by trivial⟩, hd]
    dsimp only
    rw [he]

/-- Such an error makes the sender panic: one answer of the node ends the relay. -/
theorem C178_nil_error_kills : Sender.mapError Err.rpcNil.seen = .panic ∧ Sender.mapError (Err.http 500).seen = .connect := ⟨rfl, rfl⟩

/-- Errors of the node are handed on as they are, whatever the status. -/
theorem C178_errors_handed_on {V T : Type} (j : Json V T) (want : Bool) (v : T) (status : Nat) (b : Bytes) (r : Rsp V) (e : Int × List Char) (he : r.err = some e) :
    (j.first b = .obj r → call j true true true want v (.answer 200 json (some b)) = .ret (some r) (some (.rpc e.1 e.2)) v true true) ∧
      (status ≠ 200 → b ≠ [] → j.dec b = .obj r →
        call j true true true want v (.answer status true (some b)) = .ret (some r) (some (.rpc e.1 e.2)) v true false) := by
  refine ⟨fun hd => ?_, fun hs hb hd => ?_⟩
  · unfold call answered
    simp [hd, he]
  · unfold call failed
    simp only [Bool.true_eq_false, if_false, if_pos hs, Option.getD_some]
    rw [if_pos ⟨List.length_pos_iff.mpr hb, by trivial⟩, hd]
    dsimp only
    rw [he]

/-- Errors that are no answer of the node in JSON are told as such: nothing is decoded from other content or an empty body. -/
theorem C178_http_error {V T : Type} (j : Json V T) (want : Bool) (v : T) (status : Nat) (json : Bool) (body : Option Bytes) (hs : status ≠ 200)
    (h : json = false ∨ body = none ∨ body = some []) :
    call j true true true want v (.answer status json body) = .ret none (some (.http status)) v true false := by
  unfold call failed
  simp only [Bool.true_eq_false, if_false, if_pos hs]
  rw [if_neg]
  rintro ⟨h1, h2⟩
  rcases h with h | h | h
  · rw [h] at h2; cases h2
  · rw [h] at h1; exact absurd h1 (by simp)
  · rw [h] at h1; exact absurd h1 (by simp)

/-- Answers that cannot be read are told as such: exactly those with status 200 that break off or do not begin with a response, and
those with another status whose content is JSON but no response. -/
theorem C178_unreadable {V T : Type} (j : Json V T) (m q p want : Bool) (v : T) (w : Wire) :
    (∃ r v' s c, call j m q p want v w = .ret r (some .decode) v' s c) ↔
      m = true ∧ q = true ∧ p = true ∧ ∃ status json body, w = .answer status json body ∧
        ((status = 200 ∧ ∀ b, body = some b → j.first b = .bad) ∨
          (status ≠ 200 ∧ json = true ∧ ∃ b, body = some b ∧ b ≠ [] ∧ j.dec b = .bad)) := by
  constructor
  · rintro ⟨r, v', s, c, h⟩
    unfold call at h
    cases m with
    | false => cases h
    | true =>
    cases q with
    | false => cases h
    | true =>
    cases p with
    | false => cases h
    | true =>
    simp only [Bool.true_eq_false, if_false] at h
    cases w with
    | lost x => cases h
    | answer status json body =>
      refine ⟨rfl, rfl, rfl, status, json, body, rfl, ?_⟩
      dsimp only at h
      by_cases hs : status ≠ 200
      · rw [if_pos hs] at h
        unfold failed at h
        split at h
        · rename_i hc
          cases body with
          | none => exact absurd hc.1 (by simp)
          | some b =>
            refine .inr ⟨hs, hc.2, b, rfl, List.length_pos_iff.mp hc.1, ?_⟩
            dsimp only [Option.getD_some] at h
            cases hd : j.dec b with
            | bad => rfl
            | null => rw [hd] at h; cases h
            | obj x => rw [hd] at h; dsimp only at h; cases he : x.err <;> rw [he] at h <;> cases h
        · cases h
      · rw [if_neg hs] at h
        refine .inl ⟨Decidable.not_not.mp hs, ?_⟩
        rintro b rfl
        unfold answered at h
        dsimp only at h
        cases hd : j.first b with
        | bad => rfl
        | null => rw [hd] at h; cases h
        | obj x =>
          rw [hd] at h
          dsimp only at h
          cases he : x.err with
          | some e => rw [he] at h; cases h
          | none =>
            rw [he] at h
            dsimp only at h
            split at h
            · cases hp : (j.put (x.result.getD j.nil) v).1 <;> rw [hp] at h <;> cases h
            · cases h
  · rintro ⟨rfl, rfl, rfl, status, json, body, rfl, ⟨rfl, hd⟩ | ⟨hs, rfl, b, rfl, hb, hd⟩⟩
    · refine ⟨none, v, true, true, ?_⟩
      unfold call answered
      cases body with
      | none => simp
      | some b => simp [hd b rfl]
    · refine ⟨none, v, true, false, ?_⟩
      unfold call failed
      simp only [Bool.true_eq_false, if_false, if_pos hs, Option.getD_some]
      rw [if_pos ⟨List.length_pos_iff.mpr hb, by trivial⟩, hd]

/-- A request without an answer is told as lost, and the sender tries again exactly if the connection was refused. -/
theorem C178_lost {V T : Type} (j : Json V T) (want r : Bool) (v : T) :
    call j true true true want v (.lost r) = .ret none (some (.lost r)) v true false ∧
      (Sender.mapError (Err.lost r).seen = .connect ↔ r = true) := by
  refine ⟨rfl, ?_⟩
  cases r with
  | true => exact ⟨fun _ => rfl, fun _ => rfl⟩
  | false => exact ⟨fun h => (by cases h), fun h => (by cases h)⟩

/-- Without a success what the caller's pointer points to stays as it was, unless the result could be put there only in part. -/
theorem C178_value_kept {V T : Type} (j : Json V T) (m q p want : Bool) (v v' : T) (w : Wire) (r : Option (Rsp V)) (e : Err) (s c : Bool)
    (h : call j m q p want v w = .ret r (some e) v' s c) (he : e ≠ .result) : v' = v := by
  unfold call at h
  cases m with
  | false => cases h; rfl
  | true =>
  cases q with
  | false => cases h; rfl
  | true =>
  cases p with
  | false => cases h; rfl
  | true =>
  simp only [Bool.true_eq_false, if_false] at h
  cases w with
  | lost x => cases h; rfl
  | answer status json body =>
    dsimp only at h
    split at h
    · unfold failed at h
      split at h
      · cases hd : j.dec (body.getD []) with
        | bad => rw [hd] at h; cases h; rfl
        | null => rw [hd] at h; cases h
        | obj x => rw [hd] at h; dsimp only at h; cases hx : x.err <;> rw [hx] at h <;> cases h <;> rfl
      · cases h; rfl
    · unfold answered at h
      cases body with
      | none => cases h; rfl
      | some b =>
        dsimp only at h
        cases hd : j.first b with
        | bad => rw [hd] at h; cases h; rfl
        | null => rw [hd] at h; cases h
        | obj x =>
          rw [hd] at h
          dsimp only at h
          cases hx : x.err with
          | some e => rw [hx] at h; cases h; rfl
          | none =>
            rw [hx] at h
            dsimp only at h
            split at h
            · cases hp : (j.put (x.result.getD j.nil) v).1 with
              | true => rw [hp] at h; cases h
              | false => rw [hp] at h; cases h; exact absurd rfl he
            · cases h

/-- Nothing is sent if the parameters cannot be written, the endpoint is no URL, or the hook refuses; else exactly one request is. -/
theorem C178_sent {V T : Type} (j : Json V T) (m q p want : Bool) (v v' : T) (w : Wire) (r : Option (Rsp V)) (e : Option Err) (s c : Bool)
    (h : call j m q p want v w = .ret r e v' s c) : s = (m && q && p) := by
  unfold call at h
  cases m with
  | false => cases h; rfl
  | true =>
  cases q with
  | false => cases h; rfl
  | true =>
  cases p with
  | false => cases h; rfl
  | true =>
  simp only [Bool.true_eq_false, if_false] at h
  cases w with
  | lost x => cases h; rfl
  | answer status json body =>
    dsimp only at h
    split at h
    · unfold failed at h
      split at h
      · cases hd : j.dec (body.getD []) with
        | bad => rw [hd] at h; cases h; rfl
        | null => rw [hd] at h; cases h
        | obj x => rw [hd] at h; dsimp only at h; cases hx : x.err <;> rw [hx] at h <;> cases h <;> rfl
      · cases h; rfl
    · unfold answered at h
      cases body with
      | none => cases h; rfl
      | some b =>
        dsimp only at h
        cases hd : j.first b with
        | bad => rw [hd] at h; cases h; rfl
        | null => rw [hd] at h; cases h
        | obj x =>
          rw [hd] at h
          dsimp only at h
          cases hx : x.err with
          | some e => rw [hx] at h; cases h; rfl
          | none => rw [hx] at h; dsimp only at h; split at h <;> cases h <;> rfl

/-! ### What is not looked at -/

/-- The number and the version of an answer are never looked at: the answer to another request is taken for this one. -/
theorem C178_any_id {V T : Type} (j : Json V T) (want json : Bool) (v v' : T) (b b' : Bytes) (r : Rsp V) (id : Option V) (ver : List Char)
    (h : j.first b = .obj r) (h' : j.first b' = .obj { r with id := id, version := ver }) :
    (∃ x s c, call j true true true want v (.answer 200 json (some b)) = .ret x none v' s c) ↔
      ∃ x s c, call j true true true want v (.answer 200 json (some b')) = .ret x none v' s c := by
  rw [C178_success, C178_success]
  constructor
  · rintro ⟨_, _, _, y, d, z, hw, hz, hr, hv⟩
    cases hw
    rw [h] at hz
    cases hz
    exact ⟨rfl, rfl, rfl, json, b', _, rfl, h', hr, hv⟩
  · rintro ⟨_, _, _, y, d, z, hw, hz, hr, hv⟩
    cases hw
    rw [h'] at hz
    cases hz
    exact ⟨rfl, rfl, rfl, json, b, _, rfl, h, hr, hv⟩

/-- An answer with neither a result nor an error is a success, and what the caller asked for is put as `null`. -/
theorem C178_no_result {V T : Type} (j : Json V T) (v : T) (b : Bytes) (r : Rsp V) (hd : j.first b = .obj r) (he : r.err = none) (hr : r.result = none)
    (hp : (j.put j.nil v).1 = true) :
    call j true true true true v (.answer 200 true (some b)) = .ret (some r) none (j.put j.nil v).2 true true := by
  unfold call answered
  simp [hd, he, hr, hp]

/-! ### A case: values are numbers, 0 is null, which leaves the value as it is; bodies are one byte -/
namespace Demo

def doc : Bytes → Doc Nat
  | [0] => .null
  | [1] => .obj ⟨['2', '.', '0'], some 7, none, some 1⟩
  | [2] => .obj ⟨['2', '.', '0'], none, some (-31001, ['x']), some 1⟩
  | [3] => .obj ⟨[], none, none, none⟩
  | [4] => .obj ⟨[], some 7, none, some 99⟩
  | _ => .bad

def json : Json Nat Nat := ⟨doc, fun b => doc (b.take 1), 0, fun x v => if x = 0 then (true, v) else (true, x)⟩

def brief : Out Nat Nat → Option (Option Err × Nat × Bool × Bool)
  | .panic => none
  | .ret _ e v s c => some (e, v, s, c)

example : brief (call json true true true true 5 (.answer 200 true (some [1, 9]))) = some (none, 7, true, true) := by decide +kernel
example : brief (call json true true true true 5 (.answer 200 true (some [3]))) = some (none, 5, true, true) := by decide +kernel
example : brief (call json true true true true 5 (.answer 200 true (some [0]))) = none := by decide +kernel
example : brief (call json true true true true 5 (.answer 500 true (some [2]))) = some (some (.rpc (-31001) ['x']), 5, true, false) := by decide +kernel
example : brief (call json true true true true 5 (.answer 500 true (some [3]))) = some (some .rpcNil, 5, true, false) := by decide +kernel
example : brief (call json true true true true 5 (.answer 500 true (some [1, 9]))) = some (some .decode, 5, true, false) := by decide +kernel
example : brief (call json true true true true 5 (.answer 502 false (some [1]))) = some (some (.http 502), 5, true, false) := by decide +kernel
example : brief (call json true false true true 5 (.answer 200 true (some [1]))) = some (some .request, 5, false, false) := by decide +kernel

/-- An answer with another number is taken as well. -/
example : brief (call json true true true true 5 (.answer 200 true (some [4]))) = some (none, 7, true, true) := by decide +kernel

/-- An answer that breaks off cannot be read. -/
example : brief (call json true true true true 5 (.answer 200 true none)) = some (some .decode, 5, true, true) := by decide +kernel

end Demo

end Verif.JsonRpc
