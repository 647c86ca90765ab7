import Verif.PyMultiProps
/-!
C147: what the events of the sample multi-token say about its balances. The bytes in the events of batch transfers are read here with the
relay's RLP reader (C06), each element as an unsigned number.
-/
namespace Verif.PyMulti
open Verif Verif.Rlp

theorem round53_small (n : Nat) (h : n < 2 ^ 53) : round53 n = n := by
  have he : Nat.log2 n - 52 = 0 := by
    by_cases h0 : n = 0
    · subst h0; decide
    · have := (Nat.log2_lt h0).2 h; omega
  simp only [round53, he]; simp [Nat.mod_one]

theorem div256_small (n : Nat) (h : n < 2 ^ 53) : div256 n = some ((n / 256 : Nat) : Int) := by
  simp only [div256, Int.natAbs_natCast, round53_small n h]
  rw [if_neg (by have : (2 : Nat) ^ 53 ≤ 2 ^ 1032 := by decide +kernel
                 omega), if_neg (by omega)]

theorem intToBytes_small : ∀ (f n : Nat), n < f → n < 2 ^ 53 → intToBytes f n = some (natBytes n)
  | 0, _, h, _ => by omega
  | f + 1, n, h, h2 => by
    rw [intToBytes]
    by_cases h0 : n = 0
    · subst h0; simp
    · rw [if_neg (by omega), div256_small n h2, Option.bind_some, intToBytes_small f (n / 256) (by omega) (by omega), natBytes_pos h0]
      have : ((n : Int) % 256).toNat = n % 256 := by omega
      rw [this]; rfl

/-- C147: `int_to_bytes` is right below 2^53 … -/
theorem C147_int_partial (n : Nat) (h : n < 2 ^ 53) : toBytes n = some (natBytes n) :=
  intToBytes_small _ n (by simp) h

/-- … and wrong not far above it: the bytes of 2^53 + 255 are those of a number greater by 256. -/
theorem C147_int_wrong : (toBytes (2 ^ 53 + 255)).map beNat = some (2 ^ 53 + 511) := by decide +kernel

theorem encLength_small (n off : Nat) (h : n < 2 ^ 53) (ho : off ≤ 0xc0) :
    encLength n off = some (if n ≤ 55 then [UInt8.ofNat (off + n)] else UInt8.ofNat (off + 55 + (natBytes n).length) :: natBytes n) := by
  unfold encLength
  by_cases h1 : n ≤ 55
  · rw [if_pos h1, if_pos h1, Nat.add_comm]
  · rw [if_neg h1, if_neg h1, C147_int_partial n h, Option.bind_some]
    have : (natBytes n).length ≤ 7 := natBytes_len_le (by have : (256 : Nat) ^ 7 = 2 ^ 56 := by decide
                                                          omega)
    rw [if_pos (by omega), show (natBytes n).length + off + 55 = off + 55 + (natBytes n).length by omega]

theorem encBytes_small (b : Bytes) (h : b.length ≤ 55) : encBytes b = some (wBytes b) := by
  unfold encBytes
  match b, h with
  | [], _ => simp [encLength, wBytes]
  | [c], _ =>
    by_cases hc : c < 0x80
    · have : c.toNat < 128 := by simpa [UInt8.lt_iff_toNat_lt] using hc
      simp [wBytes, hc, this]
    · have : ¬ c.toNat < 128 := by simpa [UInt8.lt_iff_toNat_lt] using hc
      rw [if_neg (by simpa using this), wBytes, if_neg hc, encLength_small _ _ (by simp) (by omega)]; simp
  | c :: d :: t, h =>
    rw [if_neg (by simp), encLength_small _ _ (by omega) (by omega), if_pos h]
    rw [wBytes]
    · rw [if_pos h]; rfl
    · simp
    · simp

/-- A number the events can carry. -/
def Fit (x : Int) : Prop := 0 ≤ x ∧ x < 2 ^ 53

theorem natBytes_len7 (x : Int) (h : Fit x) : (natBytes x.toNat).length ≤ 7 :=
  natBytes_len_le (by have : (256 : Nat) ^ 7 = 2 ^ 56 := by decide
                      have := h.2; omega)

theorem encItems_fit : ∀ (l : List Int), (∀ x ∈ l, Fit x) → encItems l = some ((l.map fun x => some (natBytes x.toNat)).flatMap (enc .bytes))
  | [], _ => rfl
  | x :: l, h => by
    have hx := h x List.mem_cons_self
    have e : toBytes x = some (natBytes x.toNat) := by
      have := C147_int_partial x.toNat (by have := hx.2; omega)
      rwa [Int.toNat_of_nonneg hx.1] at this
    rw [encItems, e, Option.bind_some, encBytes_small _ (by have := natBytes_len7 x hx; omega), Option.bind_some,
      encItems_fit l (fun y hy => h y (List.mem_cons_of_mem _ hy))]
    simp [enc]

theorem wBytes_len8 (b : Bytes) (h : b.length ≤ 7) : (wBytes b).length ≤ 8 := by
  match b, h with
  | [], _ => simp [wBytes]
  | [c], _ => simp only [wBytes]; split <;> simp
  | c :: d :: t, h =>
    rw [wBytes]
    · rw [if_pos (by omega)]; simpa using h
    · simp
    · simp

theorem items_len : ∀ (l : List Int), (∀ x ∈ l, Fit x) → ((l.map fun x => some (natBytes x.toNat)).flatMap (enc .bytes)).length ≤ 8 * l.length
  | [], _ => by simp
  | x :: l, h => by
    have := items_len l (fun y hy => h y (List.mem_cons_of_mem _ hy))
    have h8 := wBytes_len8 _ (natBytes_len7 x (h x List.mem_cons_self))
    rw [List.map_cons, List.flatMap_cons, List.length_append, List.length_cons]
    have e : enc .bytes (some (natBytes x.toNat)) = wBytes (natBytes x.toNat) := by simp [enc]
    rw [e]; omega

/-- The numbers in the bytes of an event. -/
def readList (x : Bytes) : Option (List Nat) :=
  match dec (2 ^ 62) (.slice .bytes) x with
  | .ok (some l) [] => some (l.map fun o => beNat (o.getD []))
  | _ => none

/-- C147: a list of numbers from 0 to 2^53 - 1 is written as the relay would write it, and read back as it was. -/
theorem C147_list_partial (l : List Int) (hl : ∀ x ∈ l, Fit x) (hn : l.length < 2 ^ 48) :
    ∃ e, encList l = some e ∧ readList e = some (l.map Int.toNat) := by
  have hlen := items_len l hl
  have e : encList l = some (enc (.slice .bytes) (some (l.map fun x => some (natBytes x.toNat)))) := by
    unfold encList
    rw [encItems_fit l hl, Option.bind_some, encLength_small _ _ (by omega) (by omega)]
    simp only [enc, Option.map_some, Option.some.injEq]
    generalize (l.map fun x => some (natBytes x.toNat)).flatMap (enc .bytes) = b at hlen ⊢
    unfold wList
    by_cases h0 : b.length = 0
    · rw [if_pos h0, if_pos (by omega), List.length_eq_zero_iff.1 h0]; rfl
    · rw [if_neg h0]
      by_cases h1 : b.length ≤ 55
      · rw [if_pos h1, if_pos h1]; rfl
      · rw [if_neg h1, if_neg h1]
        have := SolRlp.natBytes_size (n := b.length) (by omega) h0
        simp only [this]; rfl
  refine ⟨_, e, ?_⟩
  have hb : (enc (.slice .bytes) (some (l.map fun x => some (natBytes x.toNat)))).length ≤ 2 ^ 62 := by
    have e2 : encList l = some (enc (.slice .bytes) (some (l.map fun x => some (natBytes x.toNat)))) := e
    simp only [encList, encItems_fit l hl, Option.bind_some] at e2
    rw [encLength_small _ _ (by omega) (by omega), Option.map_some, Option.some.injEq] at e2
    rw [← e2, List.length_append]
    have h7 : ∀ n : Nat, n < 2 ^ 53 → (natBytes n).length ≤ 7 := fun n hn => natBytes_len_le (by
      have : (256 : Nat) ^ 7 = 2 ^ 56 := by decide
      omega)
    have := h7 ((l.map fun x => some (natBytes x.toNat)).flatMap (enc .bytes)).length (by omega)
    split
    · rw [List.length_singleton]; omega
    · rw [List.length_cons]; omega
  have := C06_roundtrip_top (2 ^ 62) (by decide) (.slice .bytes) (by simp [Plain]) (some (l.map fun x => some (natBytes x.toNat))) [] hb
  rw [List.append_nil, if_neg (by simp [isNilPtr])] at this
  unfold readList
  rw [this]
  simp only [List.map_map, Option.some.injEq]
  apply List.map_congr_left
  intro x _
  simp [beNat_natBytes]

/-- The transfers an event tells of: from, to, id, value. -/
def moved : Ev → List (Nat × Nat × Int × Int)
  | .single _ f t i v => [(f, t, i, v)]
  | .batch _ f t x y =>
    match readList x, readList y with
    | some is, some vs => (is.zip vs).map fun p => (f, t, Int.ofNat p.1, Int.ofNat p.2)
    | _, _ => []

/-- What a transfer means for the balance of `a`. -/
def delta (id : Int) (a : Nat) (m : Nat × Nat × Int × Int) : Int :=
  (if m.2.2.1 = id ∧ m.2.1 = a then m.2.2.2 else 0) - (if m.2.2.1 = id ∧ m.1 = a then m.2.2.2 else 0)

/-- The balance of `a` as the events tell it. -/
def told (log : List Ev) (id : Int) (a : Nat) : Int := ((log.flatMap moved).map (delta id a)).sum

theorem told_snoc (log : List Ev) (e : Ev) (id : Int) (a : Nat) : told (log ++ [e]) id a = told log id a + ((moved e).map (delta id a)).sum := by
  simp [told, List.sum_append]

theorem move_delta {b b' : Int → Nat → Int} {f t : Nat} {i v : Int} (h : move b f t i v = some b') (id : Int) (a : Nat) :
    b' id a = b id a + delta id a (f, t, i, v) := by
  rw [move_bal h]
  simp only [delta, eq_comm (a := id), eq_comm (a := a)]; omega

theorem moves_delta {f t : Nat} (id : Int) (a : Nat) : ∀ (is vs : List Int) (b b' : Int → Nat → Int), moves b f t is vs = some b' →
    b' id a = b id a + ((is.zip vs).map fun p => delta id a (f, t, p.1, p.2)).sum
  | [], vs, b, b', h => by simp only [moves, Option.some.injEq] at h; simp [h]
  | _ :: _, [], b, b', h => by simp only [moves, Option.some.injEq] at h; simp [h]
  | i :: is, v :: vs, b, b', h => by
    rw [moves, Option.bind_eq_some_iff] at h
    obtain ⟨b1, h1, h2⟩ := h
    rw [moves_delta id a is vs b1 b' h2, move_delta h1]
    simp only [List.zip_cons_cons, List.map_cons, List.sum_cons]; omega

/-- A batch, if it is one, has ids and values that the events can carry. -/
def Small : Op → Prop
  | .batch _ _ ids vs _ => (∀ x ∈ ids, Fit x) ∧ (∀ x ∈ vs, Fit x) ∧ ids.length < 2 ^ 48
  | _ => True

theorem zip_fit : ∀ (is vs : List Int), (∀ x ∈ is, Fit x) → (∀ x ∈ vs, Fit x) →
    ((is.map Int.toNat).zip (vs.map Int.toNat)).map (fun p => (Int.ofNat p.1, Int.ofNat p.2)) = is.zip vs
  | [], _, _, _ => by simp
  | _ :: _, [], _, _ => by simp
  | i :: is, v :: vs, h1, h2 => by
    have := zip_fit is vs (fun x hx => h1 x (List.mem_cons_of_mem _ hx)) (fun x hx => h2 x (List.mem_cons_of_mem _ hx))
    simp only [List.map_cons, List.zip_cons_cons, this, List.cons.injEq, Prod.mk.injEq, and_true]
    have a := (h1 i List.mem_cons_self).1
    have b := (h2 v List.mem_cons_self).1
    simp only [Int.ofNat_eq_natCast]
    omega

theorem exec_told {isc : Nat → Bool} {s s' : S} {c : Nat} {o : Op} (h : exec isc s c o = some s') (I : Ok s) (hs : Small o) (id : Int) (a : Nat)
    (ha : a ≠ 0) (hb : s.bal id a = told s.log id a) : s'.bal id a = told s'.log id a := by
  cases o with
  | transfer f t i v ok =>
    simp only [exec] at h
    split at h
    · rw [Option.bind_eq_some_iff] at h
      obtain ⟨b, h1, h2⟩ := h
      split at h2
      · exact absurd h2 (by simp)
      · cases h2
        simp only
        rw [told_snoc, move_delta h1, hb]; simp [moved]
    · exact absurd h (by simp)
  | batch f t ids vs ok =>
    simp only [exec] at h
    split at h
    · rename_i hp
      simp only [Option.bind_eq_some_iff] at h
      obtain ⟨b, h1, x, hx, y, hy, h2⟩ := h
      split at h2
      · exact absurd h2 (by simp)
      · cases h2
        simp only
        obtain ⟨x', hx1, hx2⟩ := C147_list_partial ids hs.1 hs.2.2
        obtain ⟨y', hy1, hy2⟩ := C147_list_partial vs hs.2.1 (by have := hp.2.1; have := hs.2.2; omega)
        rw [hx] at hx1; rw [hy] at hy1
        cases hx1; cases hy1
        rw [told_snoc, moves_delta id a ids vs _ _ h1, hb]
        simp only [moved, hx2, hy2]
        rw [List.map_map]
        conv => lhs; rw [← zip_fit ids vs hs.1 hs.2.1, List.map_map]
        rfl
    · exact absurd h (by simp)
  | approve x y => simp only [exec, Option.some.injEq] at h; rw [← h]; exact hb
  | mint i n u =>
    simp only [exec] at h
    split at h
    · rename_i hc
      cases h
      simp only
      rw [told_snoc, ← hb]
      simp only [put, moved, List.map_cons, List.map_nil, List.sum_cons, List.sum_nil, delta]
      rw [if_neg (c := i = id ∧ 0 = a) (fun c => ha c.2.symm)]
      by_cases e : id = i ∧ a = c
      · rw [if_pos e, if_pos ⟨e.1.symm, e.2.symm⟩, e.1, I.none i hc.1]; omega
      · rw [if_neg e, if_neg (fun c => e ⟨c.1.symm, c.2.symm⟩)]; omega
    · exact absurd h (by simp)
  | burn i n =>
    simp only [exec] at h
    split at h
    · cases h
      simp only
      rw [told_snoc, ← hb]
      simp only [put, moved, List.map_cons, List.map_nil, List.sum_cons, List.sum_nil, delta]
      rw [if_neg (c := i = id ∧ 0 = a) (fun c => ha c.2.symm)]
      by_cases e : id = i ∧ a = c
      · rw [if_pos e, if_pos ⟨e.1.symm, e.2.symm⟩, e.1, e.2]; omega
      · rw [if_neg e, if_neg (fun c => e ⟨c.1.symm, c.2.symm⟩)]; omega
    · exact absurd h (by simp)
  | setUri i u =>
    simp only [exec] at h
    split at h
    · cases h; exact hb
    · exact absurd h (by simp)

/-- C147: if all ids and values of batches are from 0 to 2^53 - 1, the events tell every balance (of everyone but the zero address, which
stands for making and destroying tokens). -/
theorem C147_log_partial (isc : Nat → Bool) (l : List (Nat × Op)) (hs : ∀ c ∈ l, Small c.2) (id : Int) (a : Nat) (ha : a ≠ 0) :
    (run isc start l).bal id a = told (run isc start l).log id a := by
  suffices H : ∀ (l : List (Nat × Op)) (s : S), Ok s → (∀ c ∈ l, Small c.2) → s.bal id a = told s.log id a →
      (run isc s l).bal id a = told (run isc s l).log id a from H l start start_ok hs (by rfl)
  intro l
  induction l with
  | nil => intro s _ _ hb; exact hb
  | cons c l ih =>
    intro s I hs hb
    refine ih _ (step_ok isc s c I) (fun d hd => hs d (List.mem_cons_of_mem _ hd)) ?_
    unfold step
    cases h : exec isc s c.1 c.2 with
    | none => exact hb
    | some s' => exact exec_told h I (hs c List.mem_cons_self) id a ha hb

/-- One token with 18 decimals and 200 units given in a batch. -/
def wrongHist : List (Nat × Op) := [(5, .mint 1 (2 * 10 ^ 18) [1]), (5, .batch 5 6 [1] [10 ^ 18 + 200] true)]

/-- C147 fails above: the events tell 256 units more than were given. -/
theorem C147_log_wrong (isc : Nat → Bool) : (run isc start wrongHist).bal 1 6 = 10 ^ 18 + 200 ∧
    told (run isc start wrongHist).log 1 6 = 10 ^ 18 + 456 := by
  have e : run isc start wrongHist = run (fun _ => false) start wrongHist := by
    simp only [wrongHist, run, step, exec]
    simp
  rw [e]
  decide +kernel

/-- C147 fails: different values, and different ids, have the same bytes in the event. -/
theorem C147_same_bytes : encList [2 ^ 60 + 384] = encList [2 ^ 60 + 640] ∧ encList [-1] = encList [255] ∧
    (encList [2 ^ 60 + 384]).isSome ∧ (encList [-1]).isSome := by decide +kernel

/-! ### Cases -/

/-- Making, approving, transfers by holder and operator, a batch, destroying; the refused calls change nothing. -/
def caseHist : List (Nat × Op) :=
  [(5, .mint 1 100 [1]), (7, .mint 1 100 [1]), (5, .mint 2 50 [2]), (5, .approve 7 true), (7, .transfer 5 6 1 30 true),
   (8, .transfer 5 6 1 30 true), (5, .batch 5 9 [1, 2, 1] [10, 5, 20] true), (6, .burn 1 4), (6, .burn 1 400), (7, .setUri 1 [3]),
   (5, .batch 5 9 [1, 2] [10, 500] true), (9, .transfer 9 0 1 1 true)]

example : (accepted (fun a => a == 9) start caseHist).length = 6 ∧
    held [5, 6, 7, 8, 9, 0] ((run (fun a => a == 9) start caseHist).bal 1) = 96 ∧
    ((accepted (fun a => a == 9) start caseHist).map (made 1)).sum = 100 ∧ ((accepted (fun a => a == 9) start caseHist).map (gone 1)).sum = 4 ∧
    (run (fun a => a == 9) start caseHist).bal 1 9 = 30 ∧ told (run (fun a => a == 9) start caseHist).log 1 9 = 30 ∧
    told (run (fun a => a == 9) start caseHist).log 1 5 = 40 ∧ (run (fun a => a == 9) start caseHist).creator 1 = some 5 ∧
    (∀ c ∈ caseHist, ∀ a ∈ addrs c, a ∈ [5, 6, 7, 8, 9, 0]) := by decide +kernel

example : ∀ c ∈ caseHist, Small c.2 := by
  intro c hc
  simp only [caseHist, List.mem_cons, List.not_mem_nil, or_false] at hc
  rcases hc with h | h | h | h | h | h | h | h | h | h | h | h <;> subst h <;> simp [Small, Fit]

example : readList [0xc3, 1, 0x81, 0x80] = some [1, 128] := by decide +kernel

end Verif.PyMulti
