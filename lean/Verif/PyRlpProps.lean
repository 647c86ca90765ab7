import Verif.PyRlp
/-!
Property C115 of the RLP codec of the Python contracts.
-/
namespace Verif.PyRlp
open Verif Verif.IntConv
open Verif.Rlp (wBytes wList nullSeq readBytes readAll wBytes_cases wList_cases u8_ofNat_small)

/-! ### Writing -/

theorem natBytes_one (n : Nat) (h0 : 0 < n) (h : n < 256) : natBytes n = [UInt8.ofNat n] := by
  have e : beNat [UInt8.ofNat n] = n := by simp [beNat_cons, u8_ofNat_small h]
  have := natBytes_beNat [UInt8.ofNat n] (by
    simp only [List.head?_cons, ne_eq, Option.some.injEq]
    intro c
    have := congrArg UInt8.toNat c
    rw [u8_ofNat_small h] at this
    exact absurd this (by simp; omega))
  rw [e] at this; exact this

theorem natBytes_two (n : Nat) (h0 : 256 ≤ n) (h : n < 65536) : natBytes n = [UInt8.ofNat (n / 256), UInt8.ofNat (n % 256)] := by
  have e : beNat [UInt8.ofNat (n / 256), UInt8.ofNat (n % 256)] = n := by
    rw [beNat_cons, beNat_cons, u8_ofNat_small (by omega), u8_ofNat_small (by omega)]; simp; omega
  have := natBytes_beNat [UInt8.ofNat (n / 256), UInt8.ofNat (n % 256)] (by
    simp only [List.head?_cons, ne_eq, Option.some.injEq]
    intro c
    have := congrArg UInt8.toNat c
    rw [u8_ofNat_small (by omega)] at this
    exact absurd this (by simp; omega))
  rw [e] at this; exact this

theorem lengthSize_eq (n : Nat) (h : 55 < n) : lengthSize n n = if n < 256 then 1 else if n < 65536 then 2 else lengthSize (n - 2) (n / 65536) + 2 := by
  obtain ⟨k, rfl⟩ : ∃ k, n = k + 3 := ⟨n - 3, by omega⟩
  rw [lengthSize, if_pos (by omega)]
  by_cases h1 : k + 3 < 256
  · rw [if_pos h1, lengthSize, if_neg (by omega)]
  · rw [if_neg h1, lengthSize, if_pos (by omega)]
    have e : (k + 3) / 256 / 256 = (k + 3) / 65536 := by omega
    rw [e]
    by_cases h2 : k + 3 < 65536
    · rw [if_pos h2]
      have : (k + 3) / 65536 = 0 := by omega
      rw [this, lengthSize, if_neg (by omega)]
    · rw [if_neg h2]; rfl

theorem longHeader_eq (base n : Nat) (h : 55 < n) (h2 : n < 65536) (hb : base ≤ 247) :
    longHeader base n = UInt8.ofNat (base + (sizeToBytes n).length) :: sizeToBytes n := by
  have hs : sizeToBytes n = natBytes n := by rw [(C03_size_roundtrip n (by omega)).2.1, if_neg (by omega)]
  unfold longHeader
  rw [hs, lengthSize_eq n h]
  by_cases h1 : n < 256
  · rw [if_pos h1, natBytes_one n (by omega) h1]
    have e : (base + 1) % 256 = base + 1 := by omega
    simp [lenLoop, insertAt, e, Nat.mod_eq_of_lt h1]
  · rw [if_neg h1, if_pos h2, natBytes_two n (by omega) h2]
    have e : (base + 2) % 256 = base + 2 := by omega
    simp [lenLoop, insertAt, e, Nat.mod_eq_of_lt (show n / 256 < 256 by omega)]

/-- C115, the part that holds: values below 65536 bytes are written as by the relay. -/
theorem C115_bytes_partial (b : Bytes) (h : b.length < 65536) : encBytes b = wBytes b := by
  unfold encBytes
  rcases wBytes_cases b with ⟨c, h1, h2, h3⟩ | ⟨h1, h2⟩ | ⟨h1, h2⟩
  · rw [h3, h1, if_pos ⟨rfl, h2⟩]
  · by_cases hc : b.length = 1 ∧ (b.getD 0 0).toNat < 0x80
    · obtain ⟨hc1, hc2⟩ := hc
      match b, hc1 with
      | [c], _ =>
        have hlt : c < 0x80 := hc2
        rw [if_pos ⟨rfl, hc2⟩, wBytes, if_pos hlt]
    · rw [if_neg hc, if_pos h1, h2]
  · rw [if_neg (by omega), if_neg (by omega), h2, longHeader_eq _ _ h1 h (by omega)]; rfl

theorem sum_length (l : List Bytes) : (l.map List.length).sum = l.flatten.length := by
  induction l with
  | nil => rfl
  | cons a l ih => rw [List.map_cons, List.sum_cons, ih, List.flatten_cons, List.length_append]

theorem C115_list_partial (l : List Bytes) (h : l.flatten.length < 65536) : encList l = wList l.flatten := by
  unfold encList
  rw [sum_length]
  rcases wList_cases l.flatten with ⟨h1, h2⟩ | ⟨h1, h2⟩
  · show (if l.flatten.length ≤ 55 then _ else _) = _
    rw [if_pos h1, h2]
  · show (if l.flatten.length ≤ 55 then _ else _) = _
    rw [if_neg (show ¬ l.flatten.length ≤ 55 by omega), h2, longHeader_eq _ _ h1 h (by omega)]; rfl

/-- C115: integers are written as by the relay, whatever their size. -/
theorem C115_int (v : Int) (h : (bigIntToBytes v).length < 65536) :
    encode (.int v) = wBytes (bigIntToBytes v) ∧ encode .none = nullSeq := by
  refine ⟨?_, rfl⟩
  rw [encode, PyInt.intBytes_eq]
  exact C115_bytes_partial _ h

theorem longHeader_three (base n : Nat) (h : 65536 ≤ n) (h2 : n < 16777216) (hb : base ≤ 247) :
    longHeader base n = [UInt8.ofNat (base + 3), UInt8.ofNat (n / 65536), UInt8.ofNat (n % 256), UInt8.ofNat (n / 256 % 256)] := by
  unfold longHeader
  have hz : lengthSize n n = 3 := by
    rw [lengthSize_eq n (by omega), if_neg (by omega), if_neg (by omega)]
    obtain ⟨k, hk⟩ : ∃ k, n - 2 = k + 2 := ⟨n - 4, by omega⟩
    rw [hk, lengthSize, if_pos (by omega), lengthSize, if_neg (by omega)]
  rw [hz]
  have e : (base + 3) % 256 = base + 3 := by omega
  have e2 : n / 256 / 256 = n / 65536 := by omega
  have e3 : n / 65536 % 256 = n / 65536 := by omega
  simp [lenLoop, insertAt, e, e2, e3]

/-! ### Reading -/

theorem header_of (t : UInt8) (r : Bytes) (x : Bool × Nat × Nat) (h : tag t.toNat r = x) (hl : x.2.1 + x.2.2 ≤ r.length + 1) :
    header (t :: r) = some x := by
  show (if r.length + 1 < (tag t.toNat r).2.1 + (tag t.toNat r).2.2 then none else some (tag t.toNat r)) = some x
  rw [h, if_neg (by omega)]

theorem header_wBytes (b rest : Bytes) (h : b.length < 2 ^ 64) :
    ∃ ts, header (wBytes b ++ rest) = some (false, ts, b.length) ∧ (wBytes b).drop ts = b ∧ ts + b.length = (wBytes b).length := by
  rcases wBytes_cases b with ⟨c, h1, h2, h3⟩ | ⟨h1, h2⟩ | ⟨h1, h2⟩
  · refine ⟨0, ?_, by rw [h3, h1]; rfl, by rw [h3, h1]; rfl⟩
    rw [h3, h1]
    refine header_of _ _ _ ?_ (by simp)
    unfold tag; rw [if_pos h2]; rfl
  · refine ⟨1, ?_, by rw [h2]; rfl, by rw [h2]; simp; omega⟩
    rw [h2, List.cons_append]
    refine header_of _ _ _ ?_ (by simp; omega)
    unfold tag
    rw [u8_ofNat_small (show 0x80 + b.length < 256 by omega), if_neg (by omega), if_pos (by omega),
      show 0x80 + b.length - 0x80 = b.length by omega]
  · obtain ⟨s1, s2, s3⟩ := Rlp.size_facts h
    refine ⟨(sizeToBytes b.length).length + 1, ?_, by rw [h2]; simp, by rw [h2]; simp; omega⟩
    have hv : beNat (sizeToBytes b.length) = b.length := by
      rw [(C03_size_roundtrip b.length h).2.1, if_neg (by omega), beNat_natBytes]
    rw [h2, List.cons_append]
    generalize hz : sizeToBytes b.length = z at *
    refine header_of _ _ _ ?_ (by simp; omega)
    unfold tag
    have e : 183 + z.length - 183 = z.length := by omega
    rw [u8_ofNat_small (show 0xB7 + z.length < 256 by omega), if_neg (by omega), if_neg (by omega), if_pos (by omega), e,
      List.append_assoc, List.take_left, hv]

theorem header_wList (b rest : Bytes) (h : b.length < 2 ^ 64) :
    ∃ ts, header (wList b ++ rest) = some (true, ts, b.length) ∧ (wList b).drop ts = b ∧ ts + b.length = (wList b).length ∧
    ¬ (ts = 2 ∧ b.length = 0) := by
  rcases wList_cases b with ⟨h1, h2⟩ | ⟨h1, h2⟩
  · refine ⟨1, ?_, by rw [h2]; rfl, by rw [h2]; simp; omega, by omega⟩
    rw [h2, List.cons_append]
    refine header_of _ _ _ ?_ (by simp; omega)
    unfold tag
    rw [u8_ofNat_small (show 0xC0 + b.length < 256 by omega), if_neg (by omega), if_neg (by omega), if_neg (by omega), if_pos (by omega),
      show 0xC0 + b.length - 0xC0 = b.length by omega]
  · obtain ⟨s1, s2, s3⟩ := Rlp.size_facts h
    refine ⟨(sizeToBytes b.length).length + 1, ?_, by rw [h2]; simp, by rw [h2]; simp; omega, by omega⟩
    have hv : beNat (sizeToBytes b.length) = b.length := by
      rw [(C03_size_roundtrip b.length h).2.1, if_neg (by omega), beNat_natBytes]
    rw [h2, List.cons_append]
    generalize hz : sizeToBytes b.length = z at *
    refine header_of _ _ _ ?_ (by simp; omega)
    unfold tag
    have e : 247 + z.length - 247 = z.length := by omega
    rw [u8_ofNat_small (show 0xF7 + z.length < 256 by omega), if_neg (by omega), if_neg (by omega), if_neg (by omega), if_neg (by omega), e,
      List.append_assoc, List.take_left, hv]

theorem whole_wBytes (b : Bytes) (h : b.length < 2 ^ 64) : whole (wBytes b) = some (.bytes b) := by
  obtain ⟨ts, h1, h2, h3⟩ := header_wBytes b [] h
  rw [List.append_nil] at h1
  unfold whole part
  rw [h1]
  simp only [Option.bind_some, h2, Bool.false_eq_true, if_false]
  simp [h3]

theorem header_null (rest : Bytes) : header (nullSeq ++ rest) = some (true, 2, 0) := by
  refine header_of _ _ _ ?_ (by simp)
  rfl

theorem whole_null : whole nullSeq = some .null := by decide +kernel

/-- An encoding that the reader of elements takes as one. -/
def IsItem (e : Bytes) : Prop := e ≠ [] ∧ ∀ rest, ∃ h, header (e ++ rest) = some h ∧ h.2.1 + h.2.2 = e.length

theorem IsItem.bytes (b : Bytes) (h : b.length < 2 ^ 64) : IsItem (wBytes b) :=
  ⟨Rlp.wBytes_ne_nil b, fun rest => by
    obtain ⟨ts, h1, _, h3⟩ := header_wBytes b rest h
    exact ⟨_, h1, h3⟩⟩

theorem IsItem.list (b : Bytes) (h : b.length < 2 ^ 64) : IsItem (wList b) :=
  ⟨Rlp.wList_ne_nil b, fun rest => by
    obtain ⟨ts, h1, _, h3, _⟩ := header_wList b rest h
    exact ⟨_, h1, h3⟩⟩

theorem IsItem.null : IsItem nullSeq := ⟨by simp [nullSeq], fun rest => ⟨_, header_null rest, rfl⟩⟩

theorem items_flatten (l : List Bytes) (n : Nat) (hl : ∀ e ∈ l, IsItem e) (hn : l.flatten.length ≤ n) :
    items n l.flatten = some l := by
  induction l generalizing n with
  | nil => cases n <;> rfl
  | cons e l ih =>
    obtain ⟨hne, hh⟩ := hl e List.mem_cons_self
    obtain ⟨h, h1, h2⟩ := hh l.flatten
    have hlen : e.length ≠ 0 := by simpa using hne
    cases n with
    | zero => rw [List.flatten_cons, List.length_append] at hn; omega
    | succ n =>
      rw [List.flatten_cons]
      cases hc : e ++ l.flatten with
      | nil => simp at hc; exact absurd hc.1 hne
      | cons x r =>
        rw [← hc, items, h1]
        · simp only [Option.bind_some, h2, List.take_left, List.drop_left]
          rw [ih n (fun x hx => hl x (List.mem_cons_of_mem _ hx)) (by rw [List.flatten_cons, List.length_append] at hn; omega)]; rfl
        · rw [hc]; simp

theorem whole_wList (l : List Bytes) (h : l.flatten.length < 2 ^ 64) (hl : ∀ e ∈ l, IsItem e) :
    whole (wList l.flatten) = some (.items l) := by
  obtain ⟨ts, h1, h2, h3, h4⟩ := header_wList l.flatten [] h
  rw [List.append_nil] at h1
  unfold whole part
  rw [h1]
  simp only [Option.bind_some, h2, if_true, if_neg h4, List.take_length, items_flatten l _ hl (Nat.le_refl _), Option.map_some]
  rw [h3, List.drop_length]; rfl

mutual
/-- What reading an object as a type should give: the independent statement of what the types mean. -/
def expect (u : Bytes → Bool) : T → Obj → Option Val
  | .bytes, .bytes b => some (.bytes b)
  | .bytes, .none => some .none
  | .int, .int v => some (.int v)
  | .int, .none => some .none
  | .str, .str s => if u s then some (.str s) else none
  | .str, .none => some .none
  | .bool, .int v => if v = 0 then some (.bool false) else if v = 1 then some (.bool true) else none
  | .bool, .none => some .none
  | .raw, .list l => some (.items (encodes l))
  | .raw, .none => some .none
  | .struct ts, .list l => (expects u ts l).map .list
  | .each t, .list l => (l.mapM (expect u t)).map .list
  | _, _ => none
def expects (u : Bytes → Bool) : List T → List Obj → Option (List Val)
  | _, [] => some []
  | [], _ :: _ => none
  | t :: ts, o :: os => (expect u t o).bind fun v => (expects u ts os).map (v :: ·)
end

theorem encBytes_len (b : Bytes) : b.length ≤ (encBytes b).length := by
  unfold encBytes
  split
  · exact Nat.le_refl _
  · split <;> simp

theorem encList_len (l : List Bytes) : l.flatten.length ≤ (encList l).length := by
  unfold encList
  show _ ≤ (if (l.map List.length).sum ≤ 55 then _ else _ : Bytes).length
  split
  · rw [List.length_cons]; omega
  · rw [List.length_append]; omega

theorem encode_bytes (b : Bytes) (h : (encBytes b).length < 65536) : encBytes b = wBytes b ∧ b.length < 65536 := by
  have := encBytes_len b
  exact ⟨C115_bytes_partial b (by omega), by omega⟩

theorem encode_list (l : List Bytes) (h : (encList l).length < 65536) : encList l = wList l.flatten ∧ l.flatten.length < 65536 := by
  have := encList_len l
  exact ⟨C115_list_partial l (by omega), by omega⟩

theorem encode_item (o : Obj) (h : (encode o).length < 65536) : IsItem (encode o) := by
  have hb : ∀ b, (encBytes b).length < 65536 → IsItem (encBytes b) := fun b h => by
    obtain ⟨e, hl⟩ := encode_bytes b h
    rw [e]; exact IsItem.bytes b (by omega)
  cases o with
  | none => exact IsItem.null
  | bytes b => exact hb b h
  | int v => exact hb _ h
  | str b => exact hb b h
  | list l =>
    obtain ⟨e, hl⟩ := encode_list (encodes l) h
    show IsItem (encList (encodes l))
    rw [e]; exact IsItem.list _ (by omega)

theorem mem_flatten_len (e : Bytes) (l : List Bytes) (h : e ∈ l) : e.length ≤ l.flatten.length := by
  induction l with
  | nil => cases h
  | cons a l ih =>
    rw [List.flatten_cons, List.length_append]
    rcases List.mem_cons.1 h with rfl | h
    · omega
    · have := ih h; omega

theorem encodes_eq (l : List Obj) : encodes l = l.map encode := by
  induction l with
  | nil => rfl
  | cons o l ih => rw [encodes, ih]; rfl

theorem whole_list (l : List Obj) (h : (encode (.list l)).length < 65536) :
    whole (encode (.list l)) = some (.items (encodes l)) ∧ ∀ o ∈ l, (encode o).length < 65536 := by
  obtain ⟨e, hl⟩ := encode_list (encodes l) h
  have hall : ∀ o ∈ l, (encode o).length < 65536 := fun o ho => by
    have := mem_flatten_len (encode o) (encodes l) (by rw [encodes_eq]; exact List.mem_map_of_mem ho)
    omega
  refine ⟨?_, hall⟩
  show whole (encList (encodes l)) = _
  rw [e]
  refine whole_wList _ (by omega) fun x hx => ?_
  rw [encodes_eq] at hx
  obtain ⟨o, ho, rfl⟩ := List.mem_map.1 hx
  exact encode_item o (hall o ho)

theorem whole_enc (b : Bytes) (h : (encBytes b).length < 65536) : whole (encBytes b) = some (.bytes b) := by
  obtain ⟨e, hl⟩ := encode_bytes b h
  rw [e]; exact whole_wBytes b (by omega)

theorem int_back (v : Int) : PyInt.intFrom ((PyInt.intBytes v).getD []) = v := by
  obtain ⟨b, h1, _, h2⟩ := PyInt.intFrom_intBytes v
  rw [h1]; exact h2

theorem mapM_some {α β : Type} (f : α → Option β) (g : α → Option β) (l : List α) (vs : List β)
    (h : ∀ a ∈ l, ∀ v, f a = some v → g a = some v) (hf : l.mapM f = some vs) : l.mapM g = some vs := by
  induction l generalizing vs with
  | nil => exact hf
  | cons a l ih =>
    rw [List.mapM_cons] at hf ⊢
    cases ha : f a with
    | none => rw [ha] at hf; cases hf
    | some v =>
      rw [ha] at hf
      rw [h a List.mem_cons_self v ha]
      cases hm : l.mapM f with
      | none =>
        have hf' : (l.mapM f).bind (fun bs => some (v :: bs)) = some vs := hf
        rw [hm] at hf'; cases hf'
      | some ws =>
        have hf' : (l.mapM f).bind (fun bs => some (v :: bs)) = some vs := hf
        show (l.mapM g).bind (fun bs => some (v :: bs)) = some vs
        rw [ih ws (fun b hb => h b (List.mem_cons_of_mem _ hb)) hm, ← hf', hm]

theorem mapM_map {α β γ : Type} (e : α → β) (g : β → Option γ) (l : List α) : (l.map e).mapM g = l.mapM (fun a => g (e a)) := by
  induction l with
  | nil => rfl
  | cons a l ih => rw [List.map_cons, List.mapM_cons, List.mapM_cons, ih]

theorem expects_len (u : Bytes → Bool) : ∀ (ts : List T) (l : List Obj) (vs : List Val), expects u ts l = some vs → l.length ≤ ts.length
  | _, [], _, _ => by simp
  | [], _ :: _, _, h => by simp [expects] at h
  | t :: ts, o :: l, vs, h => by
    rw [expects] at h
    cases ho : expect u t o with
    | none => rw [ho] at h; cases h
    | some v =>
      rw [ho] at h
      cases hl : expects u ts l with
      | none => rw [hl] at h; cases h
      | some ws => have := expects_len u ts l ws hl; simp; omega

mutual
theorem dec_expect (u : Bytes → Bool) : (t : T) → (o : Obj) → (v : Val) → expect u t o = some v → (encode o).length < 65536 →
    decode u t (encode o) = some v
  | .bytes, o, v, h, hl => by
    cases o <;> simp only [expect, Option.some.injEq, reduceCtorEq] at h <;> subst h
    · show (whole nullSeq).bind _ = _; rw [whole_null]; rfl
    · rename_i b; show (whole (encBytes b)).bind _ = _; rw [whole_enc b hl]; rfl
  | .int, o, v, h, hl => by
    cases o <;> simp only [expect, Option.some.injEq, reduceCtorEq] at h <;> subst h
    · show (whole nullSeq).bind _ = _; rw [whole_null]; rfl
    · rename_i i
      show (whole (encBytes ((PyInt.intBytes i).getD []))).bind _ = _
      rw [whole_enc _ hl]
      show some (Val.int (PyInt.intFrom _)) = _
      rw [int_back]
  | .str, o, v, h, hl => by
    cases o <;> simp only [expect, Option.some.injEq, reduceCtorEq] at h
    · subst h; show (whole nullSeq).bind _ = _; rw [whole_null]; rfl
    · rename_i b
      show (whole (encBytes b)).bind _ = _
      rw [whole_enc b hl]
      exact h
  | .bool, o, v, h, hl => by
    cases o with
    | none => simp only [expect, Option.some.injEq] at h; subst h; show (whole nullSeq).bind _ = _; rw [whole_null]; rfl
    | bytes b => simp [expect] at h
    | str b => simp [expect] at h
    | list l => simp [expect] at h
    | int i =>
      show (whole (encBytes ((PyInt.intBytes i).getD []))).bind _ = _
      rw [whole_enc _ hl]
      rw [expect] at h
      have e0 : PyInt.intBytes 0 = some [0] := by decide +kernel
      have e1 : PyInt.intBytes 1 = some [1] := by decide +kernel
      by_cases h0 : i = 0
      · rw [if_pos h0] at h; subst h0; rw [e0]; exact h
      · rw [if_neg h0] at h
        by_cases h1 : i = 1
        · rw [if_pos h1] at h; subst h1; rw [e1]; exact h
        · rw [if_neg h1] at h; cases h
  | .raw, o, v, h, hl => by
    cases o <;> simp only [expect, Option.some.injEq, reduceCtorEq] at h <;> subst h
    · show (whole nullSeq).bind _ = _; rw [whole_null]; rfl
    · rename_i l; show (whole (encode (.list l))).bind _ = _; rw [(whole_list l hl).1]; rfl
  | .struct ts, o, v, h, hl => by
    cases o <;> simp only [expect, reduceCtorEq] at h
    rename_i l
    cases hv : expects u ts l with
    | none => rw [hv] at h; cases h
    | some vs =>
      rw [hv] at h; cases h
      obtain ⟨h1, h2⟩ := whole_list l hl
      have hn := expects_len u ts l vs hv
      rw [decode, h1]
      show (if ts.length < (encodes l).length then none else (decodes u ts (encodes l)).map Val.list) = _
      rw [if_neg (by rw [encodes_eq, List.length_map]; omega), decs_expects u ts l vs hv h2]; rfl
  | .each t, o, v, h, hl => by
    cases o <;> simp only [expect, reduceCtorEq] at h
    rename_i l
    cases hv : l.mapM (expect u t) with
    | none => rw [hv] at h; cases h
    | some vs =>
      rw [hv] at h; cases h
      obtain ⟨h1, h2⟩ := whole_list l hl
      rw [decode, h1]
      show ((encodes l).mapM (decode u t)).map Val.list = _
      rw [encodes_eq, mapM_map, mapM_some (expect u t) (fun a => decode u t (encode a)) l vs
        (fun a ha w hw => dec_expect u t a w hw (h2 a ha)) hv]; rfl
theorem decs_expects (u : Bytes → Bool) : (ts : List T) → (l : List Obj) → (vs : List Val) → expects u ts l = some vs →
    (∀ o ∈ l, (encode o).length < 65536) → decodes u ts (encodes l) = some vs
  | _, [], vs, h, _ => by
    simp only [expects, Option.some.injEq] at h; subst h; simp [encodes, decodes]
  | [], _ :: _, vs, h, _ => by simp [expects] at h
  | t :: ts, o :: l, vs, h, hl => by
    rw [expects] at h
    rw [encodes, decodes]
    cases ho : expect u t o with
    | none => rw [ho] at h; cases h
    | some v =>
      rw [ho] at h
      cases hv : expects u ts l with
      | none => rw [hv] at h; cases h
      | some ws =>
        rw [hv] at h; cases h
        rw [dec_expect u t o v ho (hl o List.mem_cons_self), decs_expects u ts l ws hv (fun x hx => hl x (List.mem_cons_of_mem _ hx))]; rfl
end

/-- C115, the part that holds: an object whose encoding is shorter than 65536 bytes is read back, as any type that it fits. -/
theorem C115_roundtrip_partial (u : Bytes → Bool) (t : T) (o : Obj) (v : Val) (h : expect u t o = some v) (hl : (encode o).length < 65536) :
    decode u t (encode o) = some v := dec_expect u t o v h hl

/-- C115 is false of the code: the bytes of a length of three bytes are written in a wrong order, so what is written is not read back unless
the two lower bytes are the same. -/
theorem C115_long_unreadable (u : Bytes → Bool) (b : Bytes) (h1 : 65536 ≤ b.length) (h2 : b.length < 16777216)
    (hd : b.length % 256 ≠ b.length / 256 % 256) : decode u .bytes (encode (.bytes b)) = none := by
  have e : encode (.bytes b) = UInt8.ofNat (0xB7 + 3) :: UInt8.ofNat (b.length / 65536) :: UInt8.ofNat (b.length % 256) ::
      UInt8.ofNat (b.length / 256 % 256) :: b := by
    rw [encode, encBytes, if_neg (by omega), if_neg (by omega), longHeader_three _ _ h1 h2 (by omega)]; rfl
  have hw : whole (encode (.bytes b)) = none := by
    rw [e]
    unfold whole part
    have ht : tag (UInt8.ofNat (0xB7 + 3)).toNat (UInt8.ofNat (b.length / 65536) :: UInt8.ofNat (b.length % 256) ::
        UInt8.ofNat (b.length / 256 % 256) :: b) = (false, 4, b.length / 65536 * 65536 + b.length % 256 * 256 + b.length / 256 % 256) := by
      rw [u8_ofNat_small (by omega)]
      unfold tag
      rw [if_neg (by omega), if_neg (by omega), if_pos (by omega)]
      rw [show 0xB7 + 3 - 0xB7 = 2 + 1 by omega, List.take_succ_cons, List.take_succ_cons, List.take_succ_cons, List.take_zero, beNat_cons, beNat_cons, beNat_cons, u8_ofNat_small (by omega), u8_ofNat_small (by omega), u8_ofNat_small (by omega)]
      have hz : b.length / 65536 * 256 ^ [UInt8.ofNat (b.length % 256), UInt8.ofNat (b.length / 256 % 256)].length +
          (b.length % 256 * 256 ^ [UInt8.ofNat (b.length / 256 % 256)].length + (b.length / 256 % 256 * 256 ^ ([] : Bytes).length + beNat [])) =
          b.length / 65536 * 65536 + b.length % 256 * 256 + b.length / 256 % 256 := by simp; omega
      rw [hz]
    generalize hz : b.length / 65536 * 65536 + b.length % 256 * 256 + b.length / 256 % 256 = z at ht
    have hne : z ≠ b.length := by omega
    by_cases hc : b.length < z
    · have : header (UInt8.ofNat (0xB7 + 3) :: UInt8.ofNat (b.length / 65536) :: UInt8.ofNat (b.length % 256) ::
          UInt8.ofNat (b.length / 256 % 256) :: b) = none := by
        unfold header
        simp only [ht]
        rw [if_pos (by simp; omega)]
      rw [this]; rfl
    · have : header (UInt8.ofNat (0xB7 + 3) :: UInt8.ofNat (b.length / 65536) :: UInt8.ofNat (b.length % 256) ::
          UInt8.ofNat (b.length / 256 % 256) :: b) = some (false, 4, z) := header_of _ _ _ ht (by simp; omega)
      rw [this]
      simp only [Option.bind_some, Bool.false_eq_true, if_false]
      rw [if_pos (by simp; omega)]
  show (whole (encode (.bytes b))).bind _ = none
  rw [hw]; rfl

theorem readAll_nil (n : Nat) (r b : Bytes) : readAll n r = .ok b [] ↔ r = b ∧ b.length = n := by
  unfold readAll
  by_cases h : r.length < n
  · rw [if_pos h]; simp; rintro rfl; omega
  · rw [if_neg h]
    constructor
    · intro e
      injection e with e1 e2
      have : r.length ≤ n := by simpa using e2
      have hn : r.length = n := by omega
      rw [← e1, ← hn]; simp
    · rintro ⟨rfl, rfl⟩; simp

theorem whole_bytes_iff (bs b : Bytes) : whole bs = some (.bytes b) ↔
    ∃ ts n, header bs = some (false, ts, n) ∧ ts + n = bs.length ∧ b = bs.drop ts := by
  unfold whole part
  constructor
  · intro h
    cases hh : header bs with
    | none => rw [hh] at h; cases h
    | some x =>
      obtain ⟨l, ts, n⟩ := x
      rw [hh] at h
      simp only [Option.bind_some] at h
      cases l with
      | true =>
        simp only [if_true] at h
        split at h
        · simp only [Option.bind_some] at h; split at h <;> simp at h
        · cases hi : items n ((bs.drop ts).take n) with
          | none => rw [hi] at h; cases h
          | some l => rw [hi] at h; simp only [Option.map_some, Option.bind_some] at h; split at h <;> simp at h
      | false =>
        simp only [Bool.false_eq_true, if_false, Option.bind_some] at h
        have hlen : ts + n ≤ bs.length := by
          cases bs with
          | nil => cases hh
          | cons t r =>
            simp only [header] at hh
            split at hh
            · cases hh
            · rename_i hx; simp only [Option.some.injEq] at hh; rw [hh] at hx; simp only [List.length_cons] at hx ⊢; omega
        split at h
        · cases h
        · rename_i hd
          have hd' : bs.length - (ts + n) = 0 := by simpa using hd
          refine ⟨ts, n, rfl, by omega, ?_⟩
          cases h
          exact List.take_of_length_le (by rw [List.length_drop]; omega)
  · rintro ⟨ts, n, h1, h2, rfl⟩
    rw [h1]
    simp only [Option.bind_some, Bool.false_eq_true, if_false]
    have e : List.drop (ts + n) bs = [] := by rw [h2]; simp
    rw [e, if_neg (by simp), List.take_of_length_le (by rw [List.length_drop]; omega)]

/-- C115: a byte string is read from exactly the inputs from which the relay reads it, with the same result. -/
theorem C115_reads_as_relay (u : Bytes → Bool) (cap : Nat) (bs b : Bytes) (hl : bs.length ≤ cap) :
    decode u .bytes bs = some (.bytes b) ↔ readBytes cap bs = .ok b [] := by
  have hd : decode u .bytes bs = some (.bytes b) ↔ whole bs = some (.bytes b) := by
    show (whole bs).bind (fromBytes u .bytes) = _ ↔ _
    cases whole bs with
    | none => simp
    | some p => cases p <;> simp [fromBytes]
  rw [hd, whole_bytes_iff]
  cases bs with
  | nil => simp [header, readBytes]
  | cons t r =>
    have hh : ∀ ts n, header (t :: r) = some (false, ts, n) ↔ tag t.toNat r = (false, ts, n) ∧ ts + n ≤ r.length + 1 := by
      intro ts n
      simp only [header]
      constructor
      · intro h
        split at h
        · cases h
        · rename_i hx
          simp only [Option.some.injEq] at h
          rw [h] at hx
          simp only at hx
          exact ⟨h, by omega⟩
      · rintro ⟨h1, h2⟩
        rw [h1, if_neg (by simp only; omega)]
    simp only [readBytes, hh]
    have ht : t.toNat < 256 := t.toNat_lt
    by_cases c1 : t.toNat < 0x80
    · rw [if_pos c1]
      have e : tag t.toNat r = (false, 0, 1) := by unfold tag; rw [if_pos c1]
      rw [e]
      constructor
      · rintro ⟨ts, n, ⟨h1, h2⟩, h3, rfl⟩
        cases h1
        have : r = [] := by simpa using h3.symm
        subst this; rfl
      · intro h; injection h with h1 h2; subst h1 h2
        exact ⟨0, 1, ⟨rfl, by simp⟩, rfl, rfl⟩
    rw [if_neg c1]
    by_cases c2 : t.toNat < 0xB8
    · rw [if_pos (show t.toNat ≤ 0xB7 by omega), readAll_nil]
      have e : tag t.toNat r = (false, 1, t.toNat - 0x80) := by unfold tag; rw [if_neg c1, if_pos c2]
      rw [e]
      constructor
      · rintro ⟨ts, n, ⟨h1, h2⟩, h3, rfl⟩
        cases h1
        simp only [List.length_cons] at h3
        exact ⟨rfl, by simp; omega⟩
      · rintro ⟨rfl, h⟩
        exact ⟨1, _, ⟨rfl, by omega⟩, by simp; omega, rfl⟩
    rw [if_neg (show ¬ t.toNat ≤ 0xB7 by omega)]
    by_cases c3 : t.toNat < 0xC0
    · rw [if_pos c3]
      have e : tag t.toNat r = (false, t.toNat - 0xB7 + 1, beNat (r.take (t.toNat - 0xB7))) := by
        unfold tag; rw [if_neg c1, if_neg c2, if_pos c3]
      rw [e]
      by_cases c4 : r.length < t.toNat - 0xB7
      · have : readAll (t.toNat - 0xB7) r = .err := by unfold readAll; rw [if_pos c4]
        rw [this]
        constructor
        · rintro ⟨ts, n, ⟨h1, h2⟩, h3, rfl⟩
          cases h1; omega
        · intro h; cases h
      · have : readAll (t.toNat - 0xB7) r = .ok (r.take (t.toNat - 0xB7)) (r.drop (t.toNat - 0xB7)) := by unfold readAll; rw [if_neg c4]
        rw [this]
        have hsz : bytesToSize (r.take (t.toNat - 0xB7)) = beNat (r.take (t.toNat - 0xB7)) := by
          rw [C03_bytesToSize_value]
          refine Nat.mod_eq_of_lt (Nat.lt_of_lt_of_le (beNat_lt _) ?_)
          rw [List.length_take]
          calc 256 ^ min (t.toNat - 0xB7) r.length ≤ 256 ^ 8 := Nat.pow_le_pow_right (by omega) (by omega)
            _ = 2 ^ 64 := by decide
        simp only [hsz]
        constructor
        · rintro ⟨ts, n, ⟨h1, h2⟩, h3, rfl⟩
          cases h1
          simp only [List.length_cons] at h3 hl
          rw [if_neg (by omega), readAll_nil]
          refine ⟨List.drop_succ_cons.symm, ?_⟩
          rw [List.drop_succ_cons, List.length_drop]; omega
        · intro h
          split at h
          · cases h
          · rw [readAll_nil] at h
            obtain ⟨rfl, h⟩ := h
            rw [List.length_drop] at h
            exact ⟨_, _, ⟨rfl, by omega⟩, by simp only [List.length_cons]; omega, List.drop_succ_cons.symm⟩
    · rw [if_neg c3]
      have hl2 : ∀ ts n, tag t.toNat r ≠ (false, ts, n) := by
        intro ts n
        unfold tag
        rw [if_neg c1, if_neg c2, if_neg c3]
        split <;> simp
      constructor
      · rintro ⟨ts, n, ⟨h1, _⟩, _⟩; exact absurd h1 (hl2 _ _)
      · intro h
        split at h
        · cases r with
          | nil => cases h
          | cons x r => simp only at h; split at h <;> cases h
        · cases h

/-- C115: encodings that are not the shortest are accepted, so different bytes may stand for the same value. -/
theorem C115_not_canonical (u : Bytes → Bool) : decode u .bytes [0x81, 5] = some (.bytes [5]) ∧ decode u .bytes [5] = some (.bytes [5]) ∧
    decode u .bytes [0xB8, 1, 5] = some (.bytes [5]) ∧ decode u .int [0x82, 0, 5] = some (.int 5) := by
  have e1 : whole [0x81, 5] = some (.bytes [5]) := by decide +kernel
  have e2 : whole [5] = some (.bytes [5]) := by decide +kernel
  have e3 : whole [0xB8, 1, 5] = some (.bytes [5]) := by decide +kernel
  have e4 : whole [0x82, 0, 5] = some (.bytes [0, 5]) := by decide +kernel
  have e5 : PyInt.intFrom [0, 5] = 5 := by decide +kernel
  refine ⟨?_, ?_, ?_, ?_⟩
  · show (whole [0x81, 5]).bind _ = _; rw [e1]; rfl
  · show (whole [5]).bind _ = _; rw [e2]; rfl
  · show (whole [0xB8, 1, 5]).bind _ = _; rw [e3]; rfl
  · show (whole [0x82, 0, 5]).bind _ = _; rw [e4]; show some (Val.int (PyInt.intFrom [0, 5])) = _; rw [e5]

/-- C115: an object with fewer fields than the type is accepted. -/
theorem C115_missing_fields (u : Bytes → Bool) (ts : List T) : decode u (.struct ts) [0xC0] = some (.list []) := by
  rw [decode]
  have : whole [0xC0] = some (.items []) := by decide +kernel
  rw [this]
  simp [decodes]

/-! ### Examples -/

example : encode (.list [.str [98, 116], .int (-300), .bytes [1, 2, 3], .none]) = [0xCC, 0x82, 98, 116, 0x82, 0xFE, 0xD4, 0x83, 1, 2, 3, 0xF8, 0] := by
  decide +kernel

example : ∃ v, expect (fun _ => true) (.struct [.str, .int, .each .bytes]) (.list [.str [98], .int 7, .list [.bytes [1], .bytes []]]) = some v ∧
    decode (fun _ => true) (.struct [.str, .int, .each .bytes]) (encode (.list [.str [98], .int 7, .list [.bytes [1], .bytes []]])) = some v :=
  ⟨.list [.str [98], .int 7, .list [.bytes [1], .bytes []]], by simp [expect, expects], C115_roundtrip_partial _ _ _ _ (by simp [expect, expects]) (by decide +kernel)⟩

/-- A length to which `C115_long_unreadable` applies. -/
example : ∃ n : Nat, 65536 ≤ n ∧ n < 16777216 ∧ n % 256 ≠ n / 256 % 256 := ⟨65537, by decide⟩

end Verif.PyRlp
