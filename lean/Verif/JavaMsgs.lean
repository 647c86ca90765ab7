import Verif.EndToEndProps
/-!
The messages that the message centers and the call services of ICON and EVM chains exchange, in the byte form ICON writes.
The ICON side is written with the runtime's `ObjectWriter` ("RLPn"): lists of byte strings, numbers as shortest two's complement, a
missing value as the two bytes `f8 00`, booleans as the numbers 0 and 1. Texts are their UTF-8 bytes. The EVM side is `SolRlp`.
-/
namespace Verif.JavaMsgs
open Verif Verif.Rlp Verif.IntConv Verif.SolRlp Verif.SolRelay Verif.EndToEnd

/-- `writeNullable` of a byte string or text. -/
def wOpt : Option Bytes → Bytes
  | none => nullSeq
  | some b => wBytes b

/-- /repo/javascore/bmc/src/main/java/foundation/icon/btp/bmc/BMCMessage.java:75-80 `writeObject`. -/
def jBmc (ty payload : Option Bytes) : Bytes := wList [wOpt ty, wOpt payload].flatten

/-- InitMessage.java:78-87 `writeObject`. -/
def jInit (links : List (Option Bytes)) : Bytes := wList [wList (links.map wOpt).flatten].flatten

/-- LinkMessage.java:63-67, UnlinkMessage.java:63-67 `writeObject`. -/
def jLink (link : Option Bytes) : Bytes := wList [wOpt link].flatten

/-- ResponseMessage.java:80-85 `writeObject`. -/
def jResponse (code : Int) (msg : Option Bytes) : Bytes := wList [wBytes (bigIntToBytes code), wOpt msg].flatten

/-- ClaimMessage.java:76-81 `writeObject`. -/
def jClaim (amount : Int) (receiver : Bytes) : Bytes := wList [wBytes (bigIntToBytes amount), wBytes receiver].flatten

/-- /repo/javascore/xcall/src/main/java/foundation/icon/btp/xcall/CSMessage.java:44-49 `writeObject`. -/
def jCS (ty : Int) (payload : Option Bytes) : Bytes := wList [wBytes (bigIntToBytes ty), wOpt payload].flatten

/-- CSMessageRequest.java:61-69 `writeObject`. -/
def jReq (src dst : Bytes) (sn : Int) (rb : Bool) (data : Option Bytes) : Bytes :=
  wList [wBytes src, wBytes dst, wBytes (bigIntToBytes sn), wBytes [if rb then 1 else 0], wOpt data].flatten

/-- CSMessageResponse.java:53-59 `writeObject`. -/
def jRes (sn code : Int) (msg : Option Bytes) : Bytes :=
  wList [wBytes (bigIntToBytes sn), wBytes (bigIntToBytes code), wOpt msg].flatten

/-! ### reading in the EVM -/

theorem opt_reads {o : Option Bytes} (h : (wOpt o).length < 2 ^ 64) : Reads toBytes (wOpt o) (o.getD []) := by
  cases o with
  | none => intro rest; simp [wOpt, toBytes, nullSeq, payloadOffset, byte0, peek]
  | some b => exact bytes_reads h

theorem opt_whole {o : Option Bytes} (h : (wOpt o).length < 2 ^ 64) : Whole (wOpt o) := by
  cases o with
  | none => exact null_whole
  | some b => exact bytes_whole h

theorem two {e1 e2 : Bytes} (w1 : Whole e1) (w2 : Whole e2) : ∀ e ∈ [e1, e2], Whole e := by
  intro e he
  simp only [List.mem_cons, List.not_mem_nil, or_false] at he
  rcases he with rfl | rfl
  · exact w1
  · exact w2

theorem three {e1 e2 e3 : Bytes} (w1 : Whole e1) (w2 : Whole e2) (w3 : Whole e3) : ∀ e ∈ [e1, e2, e3], Whole e := by
  intro e he
  simp only [List.mem_cons, List.not_mem_nil, or_false] at he
  rcases he with rfl | rfl | rfl
  · exact w1
  · exact w2
  · exact w3

/-- Lengths of the parts of a short message. -/
theorem parts_len {es : List Bytes} {n : Nat} (h : (wList es.flatten).length < n) : es.flatten.length < n ∧ ∀ e ∈ es, e.length < n := by
  have h1 := Nat.lt_of_le_of_lt (wList_ge _) h
  exact ⟨h1, fun e he => Nat.lt_of_le_of_lt (len_flatten he) h1⟩

/-- C139: the message of a message center to another: type and payload arrive, missing ones as empty. -/
theorem C139_bmc_message (ty payload : Option Bytes) (h : (jBmc ty payload).length < 2 ^ 63) (junk : Bytes) :
    decodeBMCMessage (jBmc ty payload) junk = some (ty.getD [], payload.getD []) := by
  obtain ⟨l0, l⟩ := parts_len h
  have l1 := l (wOpt ty) (by simp)
  have l2 := l (wOpt payload) (by simp)
  unfold decodeBMCMessage toRlpItem jBmc
  rw [toList_wList _ (by omega) (two (opt_whole (by omega)) (opt_whole (by omega))) junk]
  simp only [itemsOf, Option.bind_some]
  rw [opt_reads (by omega), opt_reads (by omega)]
  rfl

/-- C139: the links announced at the start arrive, in order. -/
theorem C139_init (links : List (Option Bytes)) (h : (jInit links).length < 2 ^ 63) (junk : Bytes) :
    decodeInitMessage (jInit links) junk = some (links.map (·.getD [])) := by
  obtain ⟨l0, l⟩ := parts_len h
  have l1 := l (wList (links.map wOpt).flatten) (by simp)
  obtain ⟨l2, l3⟩ := parts_len l1
  unfold decodeInitMessage toRlpItem jInit
  rw [toList_wList _ (by omega) (by
    intro e he
    simp only [List.mem_singleton] at he
    rw [he]; exact wList_whole _ (by omega)) junk]
  simp only [itemsOf, Option.bind_some]
  rw [toList_wList _ (by omega) (by
    intro e he
    have he2 := he
    simp only [List.mem_map] at he
    obtain ⟨o, _, rfl⟩ := he
    exact opt_whole (by have := l3 _ he2; omega))]
  simp only [Option.bind_some, List.flatten_nil, List.nil_append]
  have l3' : ∀ o ∈ links, (wOpt o).length < 2 ^ 63 := fun o ho => l3 _ (List.mem_map_of_mem ho)
  clear l l0 l1 l2 l3 h
  induction links with
  | nil => rfl
  | cons o t ih =>
    simp only [List.map_cons, itemsOf]
    rw [List.mapM_cons, opt_reads (by have := l3' o (by simp); omega), ih (fun o ho => l3' o (by simp [ho]))]
    rfl

/-- C139: a link added or removed arrives. -/
theorem C139_link (link : Option Bytes) (h : (jLink link).length < 2 ^ 63) (junk : Bytes) :
    decodePropagateMessage (jLink link) junk = some (link.getD []) := by
  obtain ⟨l0, l⟩ := parts_len h
  have l1 := l (wOpt link) (by simp)
  unfold decodePropagateMessage toRlpItem jLink
  rw [toList_wList _ (by omega) (by
    intro e he
    simp only [List.mem_singleton] at he
    rw [he]; exact opt_whole (by omega)) junk]
  simp only [itemsOf, Option.bind_some]
  exact opt_reads (by omega) _

/-- C139: a response arrives; so does a claim, which has the same form in the EVM. -/
theorem C139_response (code : Nat) (msg : Option Bytes) (hc : code < 2 ^ 255) (h : (jResponse code msg).length < 2 ^ 63) (junk : Bytes) :
    decodeResponseMessage (jResponse code msg) junk = some (code, msg.getD []) := by
  obtain ⟨l0, l⟩ := parts_len h
  have l2 := l (wOpt msg) (by simp)
  unfold decodeResponseMessage toRlpItem jResponse
  have e : wBytes (bigIntToBytes (code : Int)) = uEnc code := rfl
  rw [e] at l0 ⊢
  rw [toList_wList _ (by omega) (two (val_wh hc) (opt_whole (by omega))) junk]
  simp only [itemsOf, Option.bind_some]
  rw [val_reads hc, opt_reads (by omega)]
  rfl

theorem C139_claim (amount : Nat) (receiver : Bytes) (hc : amount < 2 ^ 255) (h : (jClaim amount receiver).length < 2 ^ 63) (junk : Bytes) :
    decodeResponseMessage (jClaim amount receiver) junk = some (amount, receiver) :=
  C139_response amount (some receiver) hc h junk

/-- C139: the three messages of the call service arrive. -/
theorem C139_call_message (ty : Int) (payload : Option Bytes) (ht : -(2 ^ 247) ≤ ty ∧ ty < 2 ^ 247) (h : (jCS ty payload).length < 2 ^ 63)
    (junk : Bytes) : decodeCSMessage (jCS ty payload) junk = some (ty, payload.getD []) := by
  obtain ⟨l0, l⟩ := parts_len h
  have l2 := l (wOpt payload) (by simp)
  unfold decodeCSMessage toRlpItem jCS
  rw [toList_wList _ (by omega) (two (int_wh ht) (opt_whole (by omega))) junk]
  simp only [itemsOf, Option.bind_some]
  rw [int_reads ht, opt_reads (by omega)]
  rfl

theorem bool_reads (b : Bool) : Reads toBoolean (wBytes [if b then 1 else 0]) b := by
  intro rest; cases b <;> simp [wBytes, toBoolean, byte0]

theorem C139_call_request (src dst : Bytes) (sn : Nat) (rb : Bool) (data : Option Bytes) (hs : sn < 2 ^ 255)
    (h : (jReq src dst sn rb data).length < 2 ^ 63) (junk : Bytes) :
    decodeCSMessageRequest (jReq src dst sn rb data) junk = some ⟨src, dst, sn, rb, data.getD []⟩ := by
  obtain ⟨l0, l⟩ := parts_len h
  have l1 := l (wBytes src) (by simp)
  have l2 := l (wBytes dst) (by simp)
  have l3 := l (wOpt data) (by simp)
  unfold decodeCSMessageRequest toRlpItem jReq
  rw [toList_wList _ (by omega) (by
    intro e he
    simp only [List.mem_cons, List.not_mem_nil, or_false] at he
    rcases he with rfl | rfl | rfl | rfl | rfl
    · exact bytes_whole (by omega)
    · exact bytes_whole (by omega)
    · exact val_wh hs
    · exact wBytes_whole _ (by simp)
    · exact opt_whole (by omega)) junk]
  simp only [itemsOf, Option.bind_some]
  rw [bytes_reads (by omega), bytes_reads (by omega), show wBytes (bigIntToBytes (sn : Int)) = uEnc sn from rfl, val_reads hs, bool_reads,
    opt_reads (by omega)]
  rfl

theorem C139_call_response (sn : Nat) (code : Int) (msg : Option Bytes) (hs : sn < 2 ^ 255) (hc : -(2 ^ 247) ≤ code ∧ code < 2 ^ 247)
    (h : (jRes sn code msg).length < 2 ^ 63) (junk : Bytes) :
    decodeCSMessageResponse (jRes sn code msg) junk = some (sn, code, msg.getD []) := by
  obtain ⟨l0, l⟩ := parts_len h
  have l3 := l (wOpt msg) (by simp)
  unfold decodeCSMessageResponse toRlpItem jRes
  have e : wBytes (bigIntToBytes (sn : Int)) = uEnc sn := rfl
  rw [e] at l0 ⊢
  rw [toList_wList _ (by omega) (three (val_wh hs) (int_wh hc) (opt_whole (by omega))) junk]
  simp only [itemsOf, Option.bind_some]
  rw [val_reads hs, int_reads hc, opt_reads (by omega)]
  rfl

/-- C139: numbers from 2 ^ 255 on are refused: ICON writes them with a leading zero in 33 bytes. -/
theorem C139_number_limit (n : Nat) (hn : 2 ^ 255 ≤ n) (rest : Bytes) : toUint ⟨(uEnc n).length, uEnc n ++ rest⟩ = none := by
  have h1 := (C04_bigInt_roundtrip (n : Int)).1
  rw [C04_bigIntSetBytes_value] at h1
  have hne := bigIntToBytes_ne n
  have hlen : 33 ≤ (bigIntToBytes (n : Int)).length := by
    generalize bigIntToBytes (n : Int) = b at *
    match b, hne with
    | c :: t, _ =>
      apply Classical.byContradiction
      intro hlt
      have hb := beNat_lt (c :: t)
      have hp : (256 : Nat) ^ (c :: t).length ≤ 256 ^ 32 := Nat.pow_le_pow_right (by omega) (by omega)
      simp only [sval] at h1
      split at h1
      · have : (beNat (c :: t) : Int) < 256 ^ (t.length + 1) := by
          rw [← cast256]; exact Int.ofNat_lt.mpr hb
        omega
      · rename_i hc
        have hbt := beNat_lt t
        have he : beNat (c :: t) = c.toNat * 256 ^ t.length + beNat t := by
          rw [show c :: t = [c] ++ t from rfl, beNat_append]; simp [beNat]
        have hp2 : (256 : Nat) ^ t.length ≤ 256 ^ 31 := Nat.pow_le_pow_right (by omega) (by simp only [List.length_cons] at hlt; omega)
        have hm : c.toNat * 256 ^ t.length ≤ 127 * 256 ^ t.length := Nat.mul_le_mul_right _ (by omega)
        have h31 : (256 : Nat) ^ 31 = 2 ^ 248 := by decide
        omega
  have hge := wBytes_ge (bigIntToBytes (n : Int))
  have hl : 34 ≤ (uEnc n).length := by
    unfold uEnc
    rcases wBytes_cases (bigIntToBytes (n : Int)) with ⟨c, h, _, _⟩ | ⟨_, h⟩ | ⟨_, h⟩
    · rw [h] at hlen; simp at hlen
    · rw [h]; simp; omega
    · rw [h]; simp; omega
  unfold toUint
  rw [if_pos (by dsimp only; omega)]

/-! ### what the EVM writes is what ICON writes -/

/-- C139, the other way: the EVM writes the bytes ICON would write for the same contents, unless a list has a length one less than a
power of 256 (C59), a string is the single byte 0x80, or a number is out of range. -/
theorem C139_evm_bmc_message_partial (ty payload : Bytes) (h1 : StrOk ty) (h2 : StrOk payload) (hl : LenOk (wBytes ty ++ wBytes payload).length) :
    encodeBMCMessage ty payload = some (jBmc (some ty) (some payload)) := by
  unfold encodeBMCMessage jBmc
  rw [str_enc h1, str_enc h2]
  have e : wBytes ty ++ (wBytes payload ++ []) = [wBytes ty, wBytes payload].flatten := by simp
  rw [e]
  exact listOf_eq _ (by simpa using hl)

theorem C139_evm_init_partial (links : List Bytes) (h : ∀ b ∈ links, StrOk b) (h1 : LenOk (links.map wBytes).flatten.length)
    (h2 : LenOk (wList (links.map wBytes).flatten).length) :
    encodeInitMessage links = some (jInit (links.map some)) := by
  have hm : links.map encodeBytes = links.map wBytes := List.map_congr_left (fun b hb => str_enc (h b hb))
  have hm2 : (links.map some).map wOpt = links.map wBytes := by simp [wOpt]
  unfold encodeInitMessage jInit
  rw [hm, hm2, listOf_eq _ h1]
  simp only [Option.bind_some]
  have e : wList (links.map wBytes).flatten ++ [] = [wList (links.map wBytes).flatten].flatten := by simp
  rw [e]
  exact listOf_eq _ (by simpa using h2)

theorem C139_evm_link_partial (link : Bytes) (h1 : StrOk link) (hl : LenOk (wBytes link).length) :
    encodePropagateMessage link = some (jLink (some link)) := by
  unfold encodePropagateMessage jLink
  rw [str_enc h1]
  have e : wBytes link ++ [] = [wBytes link].flatten := by simp
  rw [e]
  exact listOf_eq _ (by simpa using hl)

theorem C139_evm_response_partial (code : Nat) (msg : Bytes) (h1 : UintOk code) (h2 : StrOk msg) (hl : LenOk (uEnc code ++ wBytes msg).length) :
    encodeResponseMessage code msg = some (jResponse code (some msg)) ∧ encodeResponseMessage code msg = some (jClaim code msg) := by
  have : encodeResponseMessage code msg = some (jResponse code (some msg)) := by
    unfold encodeResponseMessage jResponse
    rw [(C59_uint code).1 h1, str_enc h2]
    simp only [Option.bind_some]
    have e : wBytes (bigIntToBytes (code : Int)) ++ (wBytes msg ++ []) = [wBytes (bigIntToBytes (code : Int)), wBytes msg].flatten := by simp
    rw [e]
    exact listOf_eq _ (by simpa [uEnc] using hl)
  exact ⟨this, this⟩

theorem C139_evm_call_message_partial (ty : Int) (payload : Bytes) (h1 : IntOk ty) (h2 : StrOk payload)
    (hl : LenOk (wBytes (bigIntToBytes ty) ++ wBytes payload).length) : encodeCSMessage ty payload = some (jCS ty (some payload)) := by
  unfold encodeCSMessage jCS
  rw [(C59_int ty).1 h1, str_enc h2]
  simp only [Option.bind_some]
  have e : wBytes (bigIntToBytes ty) ++ (wBytes payload ++ []) = [wBytes (bigIntToBytes ty), wBytes payload].flatten := by simp
  rw [e]
  exact listOf_eq _ (by simpa using hl)

theorem C139_evm_call_request_partial (r : CallRequest) (h1 : StrOk r.src) (h2 : StrOk r.dst) (h3 : UintOk r.sn) (h4 : StrOk r.data)
    (hl : LenOk [wBytes r.src, wBytes r.dst, uEnc r.sn, wBytes [if r.rollback then 1 else 0], wBytes r.data].flatten.length) :
    encodeCSMessageRequest r = some (jReq r.src r.dst r.sn r.rollback (some r.data)) := by
  unfold encodeCSMessageRequest jReq
  rw [(C59_uint r.sn).1 h3, str_enc h1, str_enc h2, str_enc h4, bool_enc]
  simp only [Option.bind_some]
  have e : wBytes r.src ++ (wBytes r.dst ++ (wBytes (bigIntToBytes (r.sn : Int)) ++ (wBytes [if r.rollback then 1 else 0] ++ (wBytes r.data ++ [])))) =
    [wBytes r.src, wBytes r.dst, wBytes (bigIntToBytes (r.sn : Int)), wBytes [if r.rollback then 1 else 0], wBytes r.data].flatten := by simp
  rw [e]
  exact listOf_eq _ hl

theorem C139_evm_call_response_partial (sn : Nat) (code : Int) (msg : Bytes) (h1 : UintOk sn) (h2 : IntOk code) (h3 : StrOk msg)
    (hl : LenOk [uEnc sn, wBytes (bigIntToBytes code), wBytes msg].flatten.length) :
    encodeCSMessageResponse sn code msg = some (jRes sn code (some msg)) := by
  unfold encodeCSMessageResponse jRes
  rw [(C59_uint sn).1 h1, (C59_int code).1 h2, str_enc h3]
  simp only [Option.bind_some]
  have e : wBytes (bigIntToBytes (sn : Int)) ++ (wBytes (bigIntToBytes code) ++ (wBytes msg ++ [])) =
    [wBytes (bigIntToBytes (sn : Int)), wBytes (bigIntToBytes code), wBytes msg].flatten := by simp
  rw [e]
  exact listOf_eq _ hl

/-! ### concrete cases -/

example : decodeBMCMessage (jBmc (some [0x49, 0x6e]) none) [7, 7] = some ([0x49, 0x6e], []) := by decide +kernel
example : decodeInitMessage (jInit [some [0x61], none, some [0x62, 0x80]]) [1] = some [[0x61], [], [0x62, 0x80]] := by decide +kernel
example : decodePropagateMessage (jLink (some [0x61, 0x62])) [] = some [0x61, 0x62] := by decide +kernel
example : decodeResponseMessage (jResponse 4 none) [9] = some (4, []) := by decide +kernel
example : decodeResponseMessage (jClaim (10 ^ 18) [0x68, 0x78]) [9] = some (10 ^ 18, [0x68, 0x78]) := by decide +kernel
example : decodeResponseMessage (jClaim (2 ^ 255) [0x68, 0x78]) [9] = none := by decide +kernel
example : decodeCSMessage (jCS 1 (some [0xc0])) [] = some (1, [0xc0]) := by decide +kernel
example : decodeCSMessageRequest (jReq [0x61] [0x62] 200 true none) [5] = some ⟨[0x61], [0x62], 200, true, []⟩ := by decide +kernel
example : decodeCSMessageResponse (jRes 200 (-1) (some [0x62])) [5] = some (200, -1, [0x62]) := by decide +kernel
example : encodeCSMessageResponse 200 (-1) [0x62] = some (jRes 200 (-1) (some [0x62])) := by decide +kernel
example : encodeInitMessage [[0x61], [0x62, 0x80]] = some (jInit [some [0x61], some [0x62, 0x80]]) := by decide +kernel
example : LenOk [uEnc 200, wBytes (bigIntToBytes (-1)), wBytes [0x62]].flatten.length := ⟨by decide +kernel, Or.inl (by decide +kernel)⟩

end Verif.JavaMsgs
