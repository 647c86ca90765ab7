import Verif.SolMem
/-!
C151: the memory routines of the EVM libraries copy and join byte strings and leave all other memory in use alone; the readers of
items give what SolRlp's do on the contents of the memory. The bytes that `encodeAddress` builds depend on what is behind the free
memory pointer.
-/
namespace Verif.SolMem
open Verif Verif.SolRlp

/-! ### words -/

theorem cons_congr {a b : α} {s t : List α} (h1 : a = b) (h2 : s = t) : a :: s = b :: t := by rw [h1, h2]

theorem append_congr {a b s t : List α} (h1 : a = b) (h2 : s = t) : a ++ s = b ++ t := by rw [h1, h2]

@[simp] theorem window_length (m : Mem) (p n : Nat) : (window m p n).length = n := by simp [window]

theorem window_add (m : Mem) (p a b : Nat) : window m p (a + b) = window m p a ++ window m (p + a) b := by
  unfold window
  rw [List.range_add, List.map_append, List.map_map]
  congr 1
  apply List.map_congr_left
  intro i _
  simp [Nat.add_assoc]

theorem window_congr {m m' : Mem} {p q n : Nat} (h : ∀ i, i < n → m (p + i) = m' (q + i)) : window m p n = window m' q n := by
  unfold window
  apply List.map_congr_left
  intro i hi
  exact h i (List.mem_range.mp hi)

theorem window_get {m : Mem} {p n i : Nat} (h : i < n) : (window m p n).getD i 0 = m (p + i) := by
  simp [window, List.getD_eq_getElem?_getD, h]

theorem be_load (m : Mem) (p : Nat) : be 32 (mload m p) = window m p 32 :=
  be_eq (by have := beNat_lt (window m p 32); simpa [mload] using this) (by simp) rfl

theorem mload_lt (m : Mem) (p : Nat) : mload m p < 2 ^ 256 := by
  have := beNat_lt (window m p 32)
  simpa [mload] using this

theorem store_load (m : Mem) (p q x : Nat) :
    mstore m p (mload m q) x = if p ≤ x ∧ x < p + 32 then m (q + (x - p)) else m x := by
  unfold mstore
  rw [be_load]
  split
  · rw [window_get (by omega)]
  · rfl

theorem window_store (m : Mem) (p v : Nat) : window (mstore m p v) p 32 = be 32 v := by
  apply List.ext_getElem
  · simp [be_length]
  · intro i h1 h2
    have : i < 32 := by simpa using h1
    simp [window, mstore, this, h2]

theorem load_store (m : Mem) (p v : Nat) (h : v < 2 ^ 256) : mload (mstore m p v) p = v := by
  unfold mload
  rw [window_store, beNat_be, Nat.mod_eq_of_lt (by simpa using h)]

theorem store_other (m : Mem) (p v x : Nat) (h : x < p ∨ p + 32 ≤ x) : mstore m p v x = m x := by
  unfold mstore
  rw [if_neg (by omega)]

theorem load_congr {m m' : Mem} {p : Nat} (h : ∀ i, i < 32 → m' (p + i) = m (p + i)) : mload m' p = mload m p := by
  unfold mload
  rw [window_congr h]

theorem load_store_other (m : Mem) (p v q : Nat) (h : q + 32 ≤ p ∨ p + 32 ≤ q) : mload (mstore m p v) q = mload m q :=
  load_congr fun i _ => store_other _ _ _ _ (by omega)

theorem load_div (m : Mem) (p k : Nat) (h : k ≤ 32) : mload m p / 256 ^ (32 - k) = beNat (window m p k) := by
  have e : window m p 32 = window m p k ++ window m (p + k) (32 - k) := by
    rw [← window_add]; congr 1; omega
  unfold mload
  rw [e, beNat_append, window_length]
  have := beNat_lt (window m (p + k) (32 - k))
  rw [window_length] at this
  rw [Nat.add_comm, Nat.add_mul_div_right _ _ (Nat.pow_pos (by decide)), Nat.div_eq_of_lt this, Nat.zero_add]

/-! ### masks -/

theorem and_low (v k : Nat) : v &&& (256 ^ k - 1) = v % 256 ^ k := by
  rw [show (256 : Nat) ^ k = 2 ^ (8 * k) by rw [Nat.pow_mul]]
  exact Nat.and_two_pow_sub_one_eq_mod _ _

theorem and_high (v j : Nat) (hv : v < 2 ^ 256) (hj : j ≤ 256) : v &&& wnot (2 ^ j - 1) = v / 2 ^ j * 2 ^ j := by
  have hp : 2 ^ j ≤ 2 ^ 256 := Nat.pow_le_pow_right (by decide) hj
  have h0 : 0 < 2 ^ j := Nat.pow_pos (by decide)
  apply Nat.eq_of_testBit_eq
  intro i
  have e : wnot (2 ^ j - 1) = 2 ^ 256 - ((2 ^ j - 1) + 1) := by unfold wnot; omega
  rw [Nat.testBit_and, e, Nat.testBit_two_pow_sub_succ (by omega), Nat.testBit_two_pow_sub_one, Nat.mul_comm, Nat.testBit_two_pow_mul,
    Nat.testBit_div_two_pow]
  by_cases hi : i < 256
  · by_cases hij : i < j
    · simp [hi, hij]; intro; omega
    · simp [hi, hij, show j ≤ i by omega]
  · have : v.testBit i = false := Nat.testBit_lt_two_pow (Nat.lt_of_lt_of_le hv (Nat.pow_le_pow_right (by decide) (by omega)))
    simp only [this, Bool.false_and]
    by_cases hij : j ≤ i
    · rw [show i - j + j = i by omega, this]; simp
    · simp [hij]

theorem or_disjoint (a b k : Nat) (h : b < 256 ^ k) : b ||| a * 256 ^ k = a * 256 ^ k + b := by
  rw [show (256 : Nat) ^ k = 2 ^ (8 * k) by rw [Nat.pow_mul]] at *
  rw [Nat.or_comm, Nat.mul_comm, Nat.two_pow_add_eq_or_of_lt h]

theorem window2_get (m : Mem) (a n b k i : Nat) (h : i < n + k) :
    (window m a n ++ window m b k).getD i 0 = if i < n then m (a + i) else m (b + (i - n)) := by
  rw [List.getD_eq_getElem?_getD]
  by_cases hi : i < n
  · rw [if_pos hi, List.getElem?_append_left (by rw [window_length]; exact hi), ← List.getD_eq_getElem?_getD, window_get hi]
  · rw [if_neg hi, List.getElem?_append_right (by rw [window_length]; omega), window_length, ← List.getD_eq_getElem?_getD,
      window_get (by omega)]

/-- The masked store writes the first `len` bytes of the source and keeps the rest. -/
theorem tail_store (m : Mem) (dest src len : Nat) (h : len < 32) (x : Nat) :
    mstore m dest ((mload m dest &&& (256 ^ (32 - len) - 1)) ||| (mload m src &&& wnot (256 ^ (32 - len) - 1))) x =
      if dest ≤ x ∧ x < dest + len then m (src + (x - dest)) else m x := by
  have hs := load_div m src len (by omega)
  have hd : mload m dest % 256 ^ (32 - len) = beNat (window m (dest + len) (32 - len)) := by
    have e : window m dest 32 = window m dest len ++ window m (dest + len) (32 - len) := by
      rw [← window_add]; congr 1; omega
    unfold mload
    rw [e, beNat_append, window_length, Nat.mul_add_mod_self_right, Nat.mod_eq_of_lt]
    have := beNat_lt (window m (dest + len) (32 - len))
    rwa [window_length] at this
  have hh : mload m src &&& wnot (256 ^ (32 - len) - 1) = beNat (window m src len) * 256 ^ (32 - len) := by
    rw [show (256 : Nat) ^ (32 - len) = 2 ^ (8 * (32 - len)) by rw [Nat.pow_mul], and_high _ _ (mload_lt m src) (by omega), ← hs,
      show (256 : Nat) ^ (32 - len) = 2 ^ (8 * (32 - len)) by rw [Nat.pow_mul]]
  have hw : be 32 ((mload m dest &&& (256 ^ (32 - len) - 1)) ||| (mload m src &&& wnot (256 ^ (32 - len) - 1))) =
      window m src len ++ window m (dest + len) (32 - len) := by
    rw [and_low, hh, hd, or_disjoint _ _ _ (by have := beNat_lt (window m (dest + len) (32 - len)); rwa [window_length] at this)]
    have e := beNat_append (window m src len) (window m (dest + len) (32 - len))
    rw [window_length] at e
    refine be_eq ?_ (by simp; omega) e
    rw [← e]
    have := beNat_lt (window m src len ++ window m (dest + len) (32 - len))
    rwa [List.length_append, window_length, window_length, show len + (32 - len) = 32 by omega] at this
  unfold mstore
  rw [hw]
  clear hw hh hd hs
  by_cases h32 : dest ≤ x ∧ x < dest + 32
  · rw [if_pos h32, window2_get _ _ _ _ _ _ (by omega)]
    by_cases h1 : x - dest < len
    · rw [if_pos h1, if_pos (by omega)]
    · rw [if_neg h1, if_neg (by omega)]
      congr 1
      omega
  · rw [if_neg h32, if_neg (by omega)]

/-- **C151**: `memcpy` and `copy` write exactly the bytes of the source, of any length, and change no other byte; the source lies
before the destination, or not below it. -/
theorem C151_memcpy (m : Mem) (dest src len : Nat) (h : src + len ≤ dest ∨ dest ≤ src) (x : Nat) :
    memcpy m dest src len x = if dest ≤ x ∧ x < dest + len then m (src + (x - dest)) else m x := by
  induction len using Nat.strongRecOn generalizing m dest src with
  | _ len ih =>
    rw [memcpy]
    by_cases h32 : len ≥ 32
    · rw [if_pos h32, ih (len - 32) (by omega) _ _ _ (by omega), store_load, store_load]
      by_cases h1 : dest + 32 ≤ x ∧ x < dest + 32 + (len - 32)
      · rw [if_pos h1, if_neg (by omega), if_pos (by omega)]
        congr 1; omega
      · rw [if_neg h1]
        by_cases h2 : dest ≤ x ∧ x < dest + 32
        · rw [if_pos h2, if_pos (by omega)]
        · rw [if_neg h2, if_neg (by omega)]
    · rw [if_neg h32]
      by_cases h0 : len > 0
      · rw [if_pos h0]
        exact tail_store m dest src len (by omega) x
      · rw [if_neg h0, if_neg (by omega)]

/-! ### objects in memory -/

/-- Memory below `f` is the same, the word of the free memory pointer aside. -/
def Same (f : Nat) (m m' : Mem) : Prop := ∀ x, x < f → x < 0x40 ∨ 0x60 ≤ x → m' x = m x

/-- A byte string in the memory in use. -/
structure Live (m : Mem) (f p : Nat) : Prop where
  low : 0x60 ≤ p
  high : p + 32 + mload m p ≤ f

theorem Same.load {f : Nat} {m m' : Mem} (h : Same f m m') {p : Nat} (h1 : 0x60 ≤ p) (h2 : p + 32 ≤ f) : mload m' p = mload m p :=
  load_congr fun i _ => h _ (by omega) (by omega)

theorem Same.bytes {f : Nat} {m m' : Mem} (h : Same f m m') {p : Nat} (hl : Live m f p) : bytesAt m' p = bytesAt m p := by
  have h1 := hl.low
  have h2 := hl.high
  unfold bytesAt
  rw [h.load h1 (by omega)]
  exact window_congr fun i hi => h _ (by omega) (by omega)

theorem newBytes_spec (m : Mem) (n f : Nat) (hf : mload m 0x40 = f) (hlow : 0x60 ≤ f) (hn : f + 64 + n < 2 ^ 256) :
    (newBytes m n).2 = f ∧ bytesAt (newBytes m n).1 f = List.replicate n 0 ∧ Same f m (newBytes m n).1 ∧
    f + 32 + n ≤ mload (newBytes m n).1 0x40 ∧ mload (newBytes m n).1 f = n := by
  have hr : n ≤ (n + 31) / 32 * 32 ∧ (n + 31) / 32 * 32 ≤ n + 31 := by omega
  have hlen : mload (newBytes m n).1 f = n := by
    refine Eq.trans (load_congr ?_) (load_store (mstore m 0x40 (f + 32 + (n + 31) / 32 * 32)) f n (by omega))
    intro i hi
    simp only [newBytes, hf]
    rw [if_neg (by omega)]
  refine ⟨hf, ?_, ?_, ?_, hlen⟩
  · unfold bytesAt
    rw [hlen]
    apply List.ext_getElem
    · simp
    · intro i h1 h2
      have : i < n := by simpa using h1
      simp only [window, newBytes, hf, List.getElem_map, List.getElem_range, List.getElem_replicate]
      rw [if_pos (by omega)]
  · intro x hx h40
    simp only [newBytes, hf]
    rw [if_neg (by omega), store_other _ _ _ _ (by omega), store_other _ _ _ _ (by omega)]
  · have : mload (newBytes m n).1 0x40 = f + 32 + (n + 31) / 32 * 32 := by
      refine Eq.trans (load_congr ?_) (load_store m 0x40 (f + 32 + (n + 31) / 32 * 32) (by omega))
      intro i hi
      simp only [newBytes, hf]
      rw [if_neg (by omega), store_other _ _ _ _ (by omega)]
    omega

/-! ### `flatten` -/

/-- The byte strings of an array of `n` pointers, from index `i` on. -/
def strings (m : Mem) (arr i n : Nat) : List Bytes := (List.range n).map fun k => bytesAt m (mload m (arr + 32 + 32 * (i + k)))

theorem strings_succ (m : Mem) (arr i n : Nat) :
    strings m arr i (n + 1) = bytesAt m (mload m (arr + 32 + 32 * i)) :: strings m arr (i + 1) n := by
  unfold strings
  rw [List.range_succ_eq_map, List.map_cons, List.map_map]
  refine cons_congr rfl (List.map_congr_left fun k _ => ?_)
  rw [Function.comp_apply, show i + k.succ = i + 1 + k by omega]

/-- An array of pointers to live byte strings. -/
structure LiveArr (m : Mem) (f arr i n : Nat) : Prop where
  low : 0x60 ≤ arr
  high : arr + 32 + 32 * (i + n) ≤ f
  item : ∀ k, k < n → Live m f (mload m (arr + 32 + 32 * (i + k)))

theorem Same.arr {f : Nat} {m m' : Mem} (h : Same f m m') {arr i n : Nat} (ha : LiveArr m f arr i n) :
    LiveArr m' f arr i n ∧ strings m' arr i n = strings m arr i n := by
  have hl : ∀ k, k < n → mload m' (arr + 32 + 32 * (i + k)) = mload m (arr + 32 + 32 * (i + k)) := fun k hk =>
    h.load (by have := ha.low; omega) (by have := ha.high; omega)
  refine ⟨⟨ha.low, ha.high, fun k hk => ?_⟩, ?_⟩
  · rw [hl k hk]
    have := ha.item k hk
    exact ⟨this.low, by rw [h.load this.low (by have := this.high; omega)]; exact this.high⟩
  · unfold strings
    apply List.map_congr_left
    intro k hk
    rw [hl k (List.mem_range.mp hk), h.bytes (ha.item k (List.mem_range.mp hk))]

theorem flatLoop_spec (arr f : Nat) : ∀ (n i ptr : Nat) (m : Mem), LiveArr m f arr i n → f ≤ ptr →
    (∀ x, x < ptr → flatLoop arr n i ptr m x = m x) ∧
    window (flatLoop arr n i ptr m) ptr (strings m arr i n).flatten.length = (strings m arr i n).flatten := by
  intro n
  induction n with
  | zero => intro i ptr m _ _; exact ⟨fun _ _ => rfl, by simp [strings, window]⟩
  | succ n ih =>
    intro i ptr m ha hp
    have h0 := ha.item 0 (by omega)
    rw [Nat.add_zero] at h0
    rw [flatLoop]
    generalize he : mload m (arr + 32 + 32 * i) = item at h0 ⊢
    generalize hm : memcpy m ptr (item + 32) (mload m item) = m1
    have hb : item + 32 + mload m item ≤ ptr := Nat.le_trans h0.high hp
    have hx : ∀ x, m1 x = if ptr ≤ x ∧ x < ptr + mload m item then m (item + 32 + (x - ptr)) else m x := by
      intro x; rw [← hm]; exact C151_memcpy m ptr (item + 32) (mload m item) (by omega) x
    have hs : Same f m m1 := fun x h _ => by rw [hx, if_neg (by omega)]
    have ha1 : LiveArr m f arr (i + 1) n := ⟨ha.low, by have := ha.high; omega, fun k hk => by
      have := ha.item (k + 1) (by omega)
      rwa [show i + (k + 1) = i + 1 + k by omega] at this⟩
    obtain ⟨ha2, hstr⟩ := hs.arr ha1
    have hlen : mload m1 (mload m1 (arr + 32 + 32 * i)) = mload m item := by
      have e : mload m1 (arr + 32 + 32 * i) = mload m (arr + 32 + 32 * i) :=
        hs.load (by have := ha.low; omega) (by have := ha.high; omega)
      rw [e, he, hs.load h0.low (by have := h0.high; omega)]
    rw [hlen]
    obtain ⟨i1, i2⟩ := ih (i + 1) (ptr + mload m item) m1 ha2 (by omega)
    refine ⟨fun x h => ?_, ?_⟩
    · rw [i1 x (by omega), hx, if_neg (by omega)]
    · rw [strings_succ, he, List.flatten_cons, List.length_append]
      have hl : (bytesAt m item).length = mload m item := by simp [bytesAt]
      rw [hl, window_add, ← hstr, i2]
      congr 1
      unfold bytesAt
      apply window_congr
      intro k hk
      rw [i1 _ (by omega), hx, if_pos (by omega)]
      congr 1; omega

theorem strings_sum (m : Mem) (arr n : Nat) :
    ((List.range n).map fun i => mload m (mload m (arr + 32 + 32 * i))).sum = (strings m arr 0 n).flatten.length := by
  rw [List.length_flatten]
  unfold strings
  rw [List.map_map]
  congr 1
  apply List.map_congr_left
  intro i _
  simp [bytesAt]

/-- **C151**: `flatten` joins the byte strings of an array in order, in fresh memory; what was in use is unchanged, and the free memory
pointer moves behind the result. -/
theorem C151_flatten (m : Mem) (arr f : Nat) (hf : mload m 0x40 = f) (ha : LiveArr m f arr 0 (mload m arr))
    (hsize : f + 64 + (strings m arr 0 (mload m arr)).flatten.length < 2 ^ 256) :
    ∃ m', flatten m arr = some (m', f) ∧ bytesAt m' f = (strings m arr 0 (mload m arr)).flatten ∧ Same f m m' ∧
      f + 32 + (bytesAt m' f).length ≤ mload m' 0x40 := by
  have hlow : 0x60 ≤ f := by have := ha.low; have := ha.high; omega
  unfold flatten
  simp only
  by_cases h0 : mload m arr = 0
  · rw [if_pos h0, h0]
    obtain ⟨e1, e2, e3, e4, _⟩ := newBytes_spec m 0 f hf hlow (by omega)
    refine ⟨(newBytes m 0).1, ?_, ?_, e3, ?_⟩
    · rw [← e1]
    · rw [e2]; simp [strings]
    · rw [e2]; simpa using e4
  · rw [if_neg h0, strings_sum, if_neg (by omega)]
    generalize hL : (strings m arr 0 (mload m arr)).flatten.length = L at hsize ⊢
    obtain ⟨e1, e2, e3, e4, e5⟩ := newBytes_spec m L f hf hlow hsize
    generalize newBytes m L = r at e1 e2 e3 e4 e5 ⊢
    obtain ⟨m1, p⟩ := r
    simp only at e1 e2 e3 e4 e5 ⊢
    subst e1
    obtain ⟨ha1, hs1⟩ := e3.arr ha
    obtain ⟨g1, g2⟩ := flatLoop_spec arr p (mload m arr) 0 (p + 32) m1 ha1 (by omega)
    have g5 : mload (flatLoop arr (mload m arr) 0 (p + 32) m1) p = L := by
      rw [← e5]; exact load_congr fun i _ => g1 _ (by omega)
    have g6 : bytesAt (flatLoop arr (mload m arr) 0 (p + 32) m1) p = (strings m arr 0 (mload m arr)).flatten := by
      unfold bytesAt
      rw [g5, ← hL, ← hs1, g2]
    refine ⟨_, rfl, g6, fun x hx h40 => ?_, ?_⟩
    · rw [g1 x (by omega), e3 x hx h40]
    · rw [g6, hL]
      have : mload (flatLoop arr (mload m arr) 0 (p + 32) m1) 0x40 = mload m1 0x40 := load_congr fun i _ => g1 _ (by omega)
      omega

/-! ### `concat` -/

theorem wcopy_spec (m : Mem) (mc cc stop : Nat) (h : cc + (stop - mc) ≤ mc) :
    (∀ x, x < mc → wcopy m mc cc stop x = m x) ∧
    (∀ x, mc ≤ x → x < stop → wcopy m mc cc stop x = m (cc + (x - mc))) := by
  generalize hn : stop - mc = n
  induction n using Nat.strongRecOn generalizing m mc cc with
  | _ n ih =>
    rw [wcopy]
    by_cases hlt : mc < stop
    · rw [if_pos hlt]
      obtain ⟨h1, h2⟩ := ih (stop - (mc + 32)) (by omega) (mstore m mc (mload m cc)) (mc + 32) (cc + 32) (by omega) rfl
      refine ⟨fun x hx => ?_, fun x hx hs => ?_⟩
      · rw [h1 x (by omega), store_load, if_neg (by omega)]
      · by_cases h32 : x < mc + 32
        · rw [h1 x h32, store_load, if_pos (by omega)]
        · rw [h2 x (by omega) hs, store_load, if_neg (by omega)]
          congr 1; omega
    · rw [if_neg hlt]
      exact ⟨fun _ _ => rfl, fun x _ _ => by omega⟩

/-- **C151**: `concat` joins two byte strings, in fresh memory; what was in use is unchanged, and the free memory pointer moves
behind the result, to a whole word. -/
theorem C151_concat (m : Mem) (pre post f : Nat) (hf : mload m 0x40 = f) (h1 : Live m f pre) (h2 : Live m f post)
    (hsize : 3 * f + 128 < 2 ^ 256) :
    (concat m pre post).2 = f ∧ bytesAt (concat m pre post).1 f = bytesAt m pre ++ bytesAt m post ∧ Same f m (concat m pre post).1 ∧
      f + 32 + (mload m pre + mload m post) ≤ mload (concat m pre post).1 0x40 ∧ mload (concat m pre post).1 0x40 % 32 = 0 := by
  obtain ⟨l1, g1⟩ := h1
  obtain ⟨l2, g2⟩ := h2
  refine ⟨hf, ?_⟩
  unfold concat
  simp only [hf]
  generalize ha : mload m pre = a at g1 ⊢
  generalize hb : mload m post = b at g2 ⊢
  generalize hm1 : mstore m f a = m1
  generalize hm2 : wcopy m1 (f + 32) (pre + 32) (f + 32 + a) = m2
  have s1 : ∀ x, x < f → m1 x = m x := fun x hx => by rw [← hm1, store_other _ _ _ _ (by omega)]
  obtain ⟨c1, c2⟩ := wcopy_spec m1 (f + 32) (pre + 32) (f + 32 + a) (by omega)
  rw [hm2] at c1 c2
  have hpost : mload m2 post = b := by
    rw [← hb]; exact load_congr fun i _ => by rw [c1 _ (by omega), s1 _ (by omega)]
  have htemp : mload m2 f = a := by
    have : mload m2 f = mload m1 f := load_congr fun i _ => c1 _ (by omega)
    rw [this, ← hm1, load_store _ _ _ (by omega)]
  rw [hpost, htemp]
  generalize hm3 : mstore m2 f (b + a) = m3
  generalize hm4 : wcopy m3 (f + 32 + a) (post + 32) (f + 32 + a + b) = m4
  have s3 : ∀ x, x < f ∨ f + 32 ≤ x → m3 x = m2 x := fun x hx => by rw [← hm3, store_other _ _ _ _ (by omega)]
  obtain ⟨d1, d2⟩ := wcopy_spec m3 (f + 32 + a) (post + 32) (f + 32 + a + b) (by omega)
  rw [hm4] at d1 d2
  have hlow : ∀ x, x < f → m4 x = m x := fun x hx => by rw [d1 _ (by omega), s3 _ (by omega), c1 _ (by omega), s1 _ hx]
  have hpre : mload m4 pre = a := by rw [← ha]; exact load_congr fun i _ => hlow _ (by omega)
  rw [hpre]
  generalize hz : (f + 32 + a + b + (if b + a = 0 then 1 else 0) + 31) = z
  have hzb : f + 32 + a + b + 31 ≤ z ∧ z ≤ f + 32 + a + b + 32 := by rw [← hz]; split <;> omega
  have hand : z &&& wnot 31 = z / 32 * 32 := and_high z 5 (by omega) (by omega)
  rw [hand]
  have hlen : mload (mstore m4 0x40 (z / 32 * 32)) f = a + b := by
    rw [load_store_other _ _ _ _ (by omega)]
    have : mload m4 f = mload m3 f := load_congr fun i _ => d1 _ (by omega)
    rw [this, ← hm3, load_store _ _ _ (by omega), Nat.add_comm]
  refine ⟨?_, fun x hx h40 => ?_, ?_, ?_⟩
  · unfold bytesAt
    rw [hlen, ha, hb, window_add]
    congr 1
    · apply window_congr
      intro i hi
      rw [store_other _ _ _ _ (by omega), d1 _ (by omega), s3 _ (by omega), c2 _ (by omega) (by omega), s1 _ (by omega)]
      congr 1; omega
    · apply window_congr
      intro i hi
      rw [store_other _ _ _ _ (by omega), d2 _ (by omega) (by omega), s3 _ (by omega), c1 _ (by omega), s1 _ (by omega)]
      congr 1; omega
  · rw [store_other _ _ _ _ (by omega), hlow x hx]
  · rw [load_store _ _ _ (by omega)]; omega
  · rw [load_store _ _ _ (by omega)]; omega

/-! ### signatures and addresses -/

/-- C151: a signature splits into its first 32 bytes, its next 32 bytes and its last byte. -/
theorem C151_splitSignature (m : Mem) (p : Nat) :
    splitSignature m p = if (bytesAt m p).length = 65 then
        some ((bytesAt m p).take 32, ((bytesAt m p).drop 32).take 32, ((bytesAt m p).getD 64 0).toNat) else none := by
  have hl : (bytesAt m p).length = mload m p := by simp [bytesAt]
  unfold splitSignature
  rw [hl]
  by_cases h : mload m p = 65
  · rw [if_pos h, if_pos h]
    have e : bytesAt m p = window m (p + 32) 32 ++ (window m (p + 64) 32 ++ window m (p + 96) 1) := by
      rw [bytesAt, h, ← window_add, ← window_add]
    have hv : mload m (p + 96) / 256 ^ 31 = (m (p + 96)).toNat := by
      have := load_div m (p + 96) 1 (by omega)
      simpa [window, beNat] using this
    rw [be_load, be_load, hv, e]
    simp [List.take_append, List.drop_append, List.take_of_length_le, List.drop_of_length_le, window]
  · rw [if_neg h, if_neg h]

theorem xor_add (self : Nat) (h : self < 2 ^ 160) :
    0x140000000000000000000000000000000000000000 ^^^ self = 20 * 256 ^ 20 + self := by
  have e : (0x140000000000000000000000000000000000000000 : Nat) = 2 ^ 160 * 20 := by decide
  rw [e, show (20 * 256 ^ 20 : Nat) = 2 ^ 160 * 20 by decide, Nat.two_pow_add_eq_or_of_lt h]
  apply Nat.eq_of_testBit_eq
  intro i
  rw [Nat.testBit_xor, Nat.testBit_or, Nat.testBit_two_pow_mul]
  by_cases hi : 160 ≤ i
  · have : self.testBit i = false := Nat.testBit_lt_two_pow (Nat.lt_of_lt_of_le h (Nat.pow_le_pow_right (by decide) hi))
    simp [this]
  · simp [hi]

/-- **C151_partial**: the bytes that `encodeAddress` encodes have the length 20 plus whatever the twenty bytes behind the free memory
pointer say; with those zero they are the address. -/
theorem C151_address_partial (m : Mem) (self f : Nat) (hs : self < 2 ^ 160) (hf : mload m 0x40 = f) (hlow : 0x60 ≤ f) :
    (addressBytes m self).2 = f ∧ Same f m (addressBytes m self).1 ∧
    mload (addressBytes m self).1 f = beNat (window m f 20) * 256 ^ 12 + 20 ∧
    (window m f 20 = List.replicate 20 0 → bytesAt (addressBytes m self).1 f = be 20 self) := by
  have hw : be 32 (0x140000000000000000000000000000000000000000 ^^^ self) = List.replicate 11 0 ++ ([20] ++ be 20 self) := by
    have hb : beNat (be 20 self) = self := by rw [beNat_be, Nat.mod_eq_of_lt (by omega)]
    rw [xor_add self hs]
    refine be_eq (by omega) (by simp [be_length]) ?_
    rw [beNat_append, beNat_append, hb]
    simp [be_length, beNat]
  refine ⟨hf, fun x h1 h2 => by
    simp only [addressBytes, hf]
    rw [store_other _ _ _ _ (by omega), store_other _ _ _ _ (by omega)], ?_⟩
  have hx : ∀ x, f ≤ x → (addressBytes m self).1 x =
      if f + 20 ≤ x ∧ x < f + 52 then (List.replicate 11 0 ++ ([20] ++ be 20 self)).getD (x - (f + 20)) 0 else m x := by
    intro x hfx
    simp only [addressBytes, hf]
    rw [store_other _ _ _ _ (by omega), mstore, hw]
  clear hw
  generalize (addressBytes m self).1 = m' at hx ⊢
  have hl : window m' f 32 = window m f 20 ++ (List.replicate 11 0 ++ [20]) := by
    rw [show (32 : Nat) = 20 + 12 from rfl, window_add]
    refine append_congr (window_congr fun i hi => ?_) ?_
    · rw [hx _ (by omega), if_neg (by omega)]
    · apply List.ext_getElem
      · simp
      · intro i h1 h2
        have hi : i < 12 := by simpa using h1
        simp only [window, List.getElem_map, List.getElem_range]
        rw [hx _ (by omega), if_pos (by omega), show f + 20 + i - (f + 20) = i by omega, List.getD_eq_getElem?_getD,
          ← List.append_assoc, List.getElem?_append_left h2, List.getElem?_eq_getElem h2]
        rfl
  have hd : window m' (f + 32) 20 = be 20 self := by
    apply List.ext_getElem
    · rw [window_length, be_length]
    · intro i h1 h2
      have hi : i < 20 := by simpa using h1
      simp only [window, List.getElem_map, List.getElem_range]
      rw [hx _ (by omega), if_pos (by omega), show f + 32 + i - (f + 20) = 12 + i by omega, List.getD_eq_getElem?_getD,
        ← List.append_assoc, List.getElem?_append_right (by simp)]
      simp only [List.length_append, List.length_replicate, List.length_singleton]
      rw [show 12 + i - (11 + 1) = i by omega, List.getElem?_eq_getElem h2]
      rfl
  have hlen : mload m' f = beNat (window m f 20) * 256 ^ 12 + 20 := by
    unfold mload
    rw [hl, beNat_append]
    rfl
  refine ⟨hlen, fun h0 => ?_⟩
  unfold bytesAt
  rw [hlen, h0]
  exact hd

/-- Witness: `concat` may leave bytes behind the free memory pointer it sets, and an address taken right after has a wrong length.
The memory holds a string of one byte at 0x80, and at 0xa0 + 1 .. a word that is not zero; the free pointer is 0xe0. -/
def dirty : Mem := fun x => if x = 0x5f then 0xe0 else if x = 0x9f then 1 else if 0xa0 ≤ x ∧ x < 0xe0 then 7 else 0

theorem C151_address_false : mload dirty 0x40 = 0xe0 ∧ Live dirty 0xe0 0x80 ∧
    (let r := concat dirty 0x80 0x80
     mload (addressBytes r.1 1).1 (addressBytes r.1 1).2 ≠ 20) := by
  refine ⟨by decide +kernel, ⟨by decide, by decide +kernel⟩, by decide +kernel⟩

/-! ### reading items -/

theorem window_zero (m : Mem) (p : Nat) : window m p 0 = [] := rfl

theorem window_drop (m : Mem) (p n k : Nat) : (window m p n).drop k = window m (p + k) (n - k) := by
  by_cases h : k ≤ n
  · rw [show n = k + (n - k) by omega, window_add, List.drop_left' (by simp), Nat.add_sub_cancel_left]
  · rw [List.drop_of_length_le (by simp; omega), show n - k = 0 by omega, window_zero]

theorem window_take (m : Mem) (p n k : Nat) (h : k ≤ n) : (window m p n).take k = window m p k := by
  rw [show n = k + (n - k) by omega, window_add, List.take_left' (by simp)]

theorem peek_window (m : Mem) (p n k : Nat) (h : k ≤ n) : peek k (window m p n) = window m p k := by
  unfold peek
  rw [List.take_append_of_le_length (by simpa using h), window_take _ _ _ _ h]

theorem byte_window (m : Mem) (p n : Nat) (h : 0 < n) : byte0 (window m p n) = mbyte0 m p := by
  have e : mbyte0 m p = beNat (window m p 1) := load_div m p 1 (by omega)
  rw [e, show n = 1 + (n - 1) by omega, window_add]
  simp [byte0, window, beNat]

theorem tail_window (m : Mem) (p n : Nat) : (window m p n).tail = window m (p + 1) (n - 1) := by
  rw [← List.drop_one, window_drop]

/-- C151: the length of an item read from memory is the one of its bytes. -/
theorem C151_itemLength (m : Mem) (p n : Nat) (h : 9 ≤ n) : mItemLength m p = itemLength (window m p n) := by
  have hb : mbyte0 m p < 256 := by
    have e : mbyte0 m p = beNat (window m p 1) := load_div m p 1 (by omega)
    rw [e]; have := beNat_lt (window m p 1); simpa using this
  unfold mItemLength itemLength
  simp only [byte_window m p n (by omega), tail_window]
  generalize mbyte0 m p = b at hb ⊢
  by_cases h1 : b < 0x80
  · rw [if_pos h1, if_pos h1]
  rw [if_neg h1, if_neg h1]
  by_cases h2 : b < 0xb8
  · rw [if_pos h2, if_pos h2]
  rw [if_neg h2, if_neg h2]
  by_cases h3 : b < 0xc0
  · rw [if_pos h3, if_pos h3, load_div _ _ _ (by omega), peek_window _ _ _ _ (by omega)]
  rw [if_neg h3, if_neg h3]
  by_cases h4 : b < 0xf8
  · rw [if_pos h4, if_pos h4]
  rw [if_neg h4, if_neg h4, load_div _ _ _ (by omega), peek_window _ _ _ _ (by omega)]

/-- C151: so is the offset of its payload. -/
theorem C151_payloadOffset (m : Mem) (p n : Nat) (h : 0 < n) : mPayloadOffset m p = payloadOffset (window m p n) := by
  unfold mPayloadOffset payloadOffset
  simp only [byte_window m p n h]

theorem mPayloadOffset_le (m : Mem) (p : Nat) : mPayloadOffset m p ≤ 9 := by
  have hb : mbyte0 m p < 256 := by
    have e : mbyte0 m p = beNat (window m p 1) := load_div m p 1 (by omega)
    rw [e]; have := beNat_lt (window m p 1); simpa using this
  unfold mPayloadOffset
  simp only
  split
  · omega
  · split
    · omega
    · split <;> omega

/-- The item of SolRlp for an item in memory: its length, and the memory from its address up to `N`. -/
def asItem (m : Mem) (N : Nat) (i : MItem) : Item := ⟨i.len, window m i.ptr (N - i.ptr)⟩

/-- C151: the tests for a list and for null, and the reading of a boolean. -/
theorem C151_tests (m : Mem) (N : Nat) (i : MItem) (h : i.ptr + 1 < N) :
    mIsList m i = isList (asItem m N i) ∧ mIsNull m i = isNull (asItem m N i) ∧ mToBoolean m i = toBoolean (asItem m N i) := by
  have e0 : byte0 (window m i.ptr (N - i.ptr)) = mbyte0 m i.ptr := byte_window m i.ptr (N - i.ptr) (by omega)
  have e1 : byte0 (window m i.ptr (N - i.ptr)).tail = mbyte0 m (i.ptr + 1) := by rw [tail_window, byte_window _ _ _ (by omega)]
  refine ⟨?_, ?_, ?_⟩
  · simp only [mIsList, isList, asItem, e0]
  · simp only [mIsNull, isNull, asItem, e0, e1]
  · simp only [mToBoolean, toBoolean, asItem, e0]
    by_cases h1 : i.len = 1
    · rw [if_pos h1, if_neg (show ¬i.len ≠ 1 from fun h => h h1)]
      congr 1
      by_cases h2 : mbyte0 m i.ptr = 0 ∨ mbyte0 m i.ptr = 0x80
      · rw [if_pos h2]; exact (decide_eq_false (by omega)).symm
      · rw [if_neg h2]; exact (decide_eq_true (by omega)).symm
    · rw [if_neg h1, if_pos h1]

/-- C151: a number read from memory. -/
theorem C151_toUint (m : Mem) (N : Nat) (i : MItem) (h : i.ptr + 41 ≤ N) : mToUint m i = toUint (asItem m N i) := by
  have ho := mPayloadOffset_le m i.ptr
  have e : payloadOffset (window m i.ptr (N - i.ptr)) = mPayloadOffset m i.ptr := (C151_payloadOffset m _ _ (by omega)).symm
  unfold mToUint toUint asItem
  simp only [e]
  generalize mPayloadOffset m i.ptr = o at ho ⊢
  by_cases h1 : 0 < i.len ∧ i.len ≤ 33
  · rw [if_pos h1]
    by_cases h2 : i.len < o
    · rw [if_pos h2, if_pos (by omega)]
    · rw [if_neg h2, if_neg (show ¬(i.len = 0 ∨ 33 < i.len ∨ i.len < o) by omega), window_drop, peek_window _ _ _ _ (by omega)]
      by_cases h3 : i.len - o < 32
      · rw [if_pos h3, load_div _ _ _ (by omega), show min 32 (i.len - o) = i.len - o by omega]
      · rw [if_neg h3, show min 32 (i.len - o) = 32 by omega]
        rfl
  · rw [if_neg h1, if_pos (by omega)]

/-- **C151**: the bytes of an item read from memory: if the item lies in the memory in use, `toBytes` reverts or gives what it gives
on the bytes, in fresh memory, with all else unchanged. -/
theorem C151_toBytes (m : Mem) (N f : Nat) (i : MItem) (hf : mload m 0x40 = f) (h1 : 0x60 ≤ i.ptr) (h2 : i.ptr + i.len ≤ f)
    (hN : f < N) (hsize : 2 * f + 64 < 2 ^ 256) :
    (mToBytes m i = none ∧ toBytes (asItem m N i) = none) ∨
    ∃ m' b, mToBytes m i = some (m', f) ∧ toBytes (asItem m N i) = some b ∧ bytesAt m' f = b ∧ Same f m m' ∧
      f + 32 + b.length ≤ mload m' 0x40 := by
  have e : payloadOffset (window m i.ptr (N - i.ptr)) = mPayloadOffset m i.ptr := (C151_payloadOffset m _ _ (by omega)).symm
  unfold mToBytes toBytes asItem
  simp only [e]
  generalize mPayloadOffset m i.ptr = o
  by_cases h0 : 0 < i.len
  · rw [if_pos h0]
    by_cases h3 : i.len < o
    · rw [if_pos h3, if_pos (by omega)]; exact Or.inl ⟨rfl, rfl⟩
    · right
      rw [if_neg h3, if_neg (by omega), window_drop, peek_window _ _ _ _ (by omega)]
      obtain ⟨e1, e2, e3, e4, e5⟩ := newBytes_spec m (i.len - o) f hf (by omega) (by omega)
      generalize newBytes m (i.len - o) = r at e1 e2 e3 e4 e5 ⊢
      obtain ⟨m1, p⟩ := r
      simp only at e1 e2 e3 e4 e5 ⊢
      subst e1
      have hx : ∀ x, memcpy m1 (p + 32) (i.ptr + o) (i.len - o) x =
          if p + 32 ≤ x ∧ x < p + 32 + (i.len - o) then m1 (i.ptr + o + (x - (p + 32))) else m1 x :=
        C151_memcpy m1 (p + 32) (i.ptr + o) (i.len - o) (by omega)
      have hl : mload (memcpy m1 (p + 32) (i.ptr + o) (i.len - o)) p = i.len - o := by
        refine Eq.trans (load_congr fun k _ => ?_) e5
        rw [hx, if_neg (by omega)]
      refine ⟨_, _, rfl, rfl, ?_, fun x hlt h40 => ?_, ?_⟩
      · unfold bytesAt
        rw [hl]
        apply window_congr
        intro k hk
        rw [hx, if_pos (by omega), show i.ptr + o + (p + 32 + k - (p + 32)) = i.ptr + o + k by omega]
        exact e3 _ (by omega) (by omega)
      · rw [hx, if_neg (by omega), e3 x hlt h40]
      · rw [window_length]
        have : mload (memcpy m1 (p + 32) (i.ptr + o) (i.len - o)) 0x40 = mload m1 0x40 :=
          load_congr fun k _ => by rw [hx, if_neg (by omega)]
        omega
  · rw [if_neg h0, if_pos (by omega)]; exact Or.inl ⟨rfl, rfl⟩

/-- C151: the raw encoding of an item in the memory in use. -/
theorem C151_toRlpBytes (m : Mem) (f : Nat) (i : MItem) (hf : mload m 0x40 = f) (h1 : 0x60 ≤ i.ptr) (h2 : i.ptr + i.len ≤ f)
    (hsize : 2 * f + 64 < 2 ^ 256) :
    (mToRlpBytes m i).2 = f ∧ bytesAt (mToRlpBytes m i).1 f = window m i.ptr i.len ∧ Same f m (mToRlpBytes m i).1 := by
  unfold mToRlpBytes
  obtain ⟨e1, e2, e3, e4, e5⟩ := newBytes_spec m i.len f hf (by omega) (by omega)
  generalize newBytes m i.len = r at e1 e2 e3 e4 e5 ⊢
  obtain ⟨m1, p⟩ := r
  simp only at e1 e2 e3 e4 e5 ⊢
  subst e1
  rw [e5]
  by_cases h0 : i.len = 0
  · rw [if_pos h0]
    refine ⟨rfl, ?_, e3⟩
    rw [e2, h0]; rfl
  · rw [if_neg h0]
    have hx : ∀ x, memcpy m1 (p + 32) i.ptr i.len x =
        if p + 32 ≤ x ∧ x < p + 32 + i.len then m1 (i.ptr + (x - (p + 32))) else m1 x :=
      C151_memcpy m1 (p + 32) i.ptr i.len (by omega)
    have hl : mload (memcpy m1 (p + 32) i.ptr i.len) p = i.len := by
      refine Eq.trans (load_congr fun k _ => ?_) e5
      rw [hx, if_neg (by omega)]
    refine ⟨rfl, ?_, fun x hlt h40 => ?_⟩
    · unfold bytesAt
      simp only
      rw [hl]
      apply window_congr
      intro k hk
      rw [hx, if_pos (by omega), show i.ptr + (p + 32 + k - (p + 32)) = i.ptr + k by omega]
      exact e3 _ (by omega) (by omega)
    · simp only
      rw [hx, if_neg (by omega), e3 x hlt h40]

theorem mWalk_walk (m : Mem) (N stop : Nat) : ∀ (fuel cur : Nat), (∀ j ∈ mWalk m stop fuel cur, j.ptr + 9 ≤ N) →
    (mWalk m stop fuel cur).map (asItem m N) = walk fuel (stop - cur) (window m cur (N - cur)) := by
  intro fuel
  induction fuel with
  | zero => intro cur _; rfl
  | succ fuel ih =>
    intro cur h
    rw [mWalk, walk]
    by_cases hc : cur < stop
    · rw [mWalk, if_pos hc] at h
      have h9 := h _ (List.mem_cons_self ..)
      simp only at h9
      have e : itemLength (window m cur (N - cur)) = mItemLength m cur := (C151_itemLength m cur _ (by omega)).symm
      rw [if_pos hc, if_neg (by omega), e, window_drop, List.map_cons]
      refine cons_congr rfl ?_
      have := ih (cur + mItemLength m cur) (fun j hj => h j (List.mem_cons_of_mem _ hj))
      rw [this]
      congr 1
      · omega
      · congr 1; omega
    · rw [if_neg hc, if_pos (by omega)]
      rfl

/-- **C151**: the items of a list read from memory are those read from its bytes, as long as none starts behind the memory looked at. -/
theorem C151_toList (m : Mem) (N : Nat) (i : MItem) (h : i.ptr + 9 ≤ N) (l : List MItem) (hl : mToList m i = some l)
    (hb : ∀ j ∈ l, j.ptr + 9 ≤ N) : toList (asItem m N i) = some (l.map (asItem m N)) := by
  unfold mToList at hl
  unfold toList
  rw [(C151_tests m N i (by omega)).1] at hl
  split at hl
  · rename_i ht
    rw [if_pos ht]
    simp only [Option.some.injEq] at hl
    have e : payloadOffset (asItem m N i).mem = mPayloadOffset m i.ptr := (C151_payloadOffset m _ _ (by omega)).symm
    simp only [e]
    subst hl
    rw [mWalk_walk m N _ _ _ hb]
    simp only [asItem, window_drop]
    congr 2
    · omega
    · congr 1; omega
  · simp at hl

/-- C151: what is not a list on its bytes is not one in memory. -/
theorem C151_toList_none (m : Mem) (N : Nat) (i : MItem) (h : i.ptr + 9 ≤ N) : mToList m i = none ↔ toList (asItem m N i) = none := by
  unfold mToList toList
  rw [(C151_tests m N i (by omega)).1]
  split <;> simp

/-- C151: an item made of a byte string in memory is the item of its bytes, whatever follows. -/
theorem C151_item (m : Mem) (N p : Nat) (h : p + 32 + mload m p ≤ N) :
    asItem m N (mItem m p) = toRlpItem (bytesAt m p) (window m (p + 32 + mload m p) (N - (p + 32 + mload m p))) := by
  unfold asItem mItem toRlpItem
  simp only [bytesAt, window_length]
  rw [← window_add]
  congr 2; omega

/-! ### examples -/

/-- A memory with a string of 33 bytes at 0x80, a string of one byte at 0xe0 and an array of both at 0x120; the free pointer is 0x180. -/
def demo : Mem := fun x =>
  if x = 0x5e then 1 else if x = 0x5f then 0x80
  else if x = 0x9f then 33 else if 0xa0 ≤ x ∧ x < 0xc1 then UInt8.ofNat (x - 0x9f)
  else if x = 0xff then 1 else if x = 0x100 then 0xaa
  else if x = 0x13f then 2 else if x = 0x15f then 0x80 else if x = 0x17f then 0xe0
  else 0

example : mload demo 0x40 = 0x180 := by decide +kernel
example : LiveArr demo 0x180 0x120 0 (mload demo 0x120) := by
  have h : mload demo 0x120 = 2 := by decide +kernel
  rw [h]
  refine ⟨by decide, by decide, fun k hk => ?_⟩
  match k, hk with
  | 0, _ => exact ⟨by decide +kernel, by decide +kernel⟩
  | 1, _ => exact ⟨by decide +kernel, by decide +kernel⟩
example : (flatten demo 0x120).map (fun r => (r.2, bytesAt r.1 r.2)) =
    some (0x180, (List.range 33).map (fun k => UInt8.ofNat (k + 1)) ++ [0xaa]) := by decide +kernel
example : bytesAt (concat demo 0xe0 0x80).1 0x180 = 0xaa :: (List.range 33).map (fun k => UInt8.ofNat (k + 1)) := by decide +kernel
example : mload (concat demo 0xe0 0x80).1 0x40 = 0x1e0 := by decide +kernel
example : window (memcpy demo 0x200 0xa0 33) 0x200 34 = (List.range 33).map (fun k => UInt8.ofNat (k + 1)) ++ [0] := by
  decide +kernel
example : bytesAt (addressBytes demo 0xabcd).1 0x180 = List.replicate 18 0 ++ [0xab, 0xcd] := by decide +kernel
example : mToList demo ⟨3, 0xa0⟩ = none := by decide +kernel
example : (mToBytes demo ⟨5, 0xa0⟩).map (fun r => (r.2, bytesAt r.1 r.2)) = some (0x180, [1, 2, 3, 4, 5]) := by decide +kernel
/-- A list of two items in memory: the bytes `c4 81 90 05 80`. -/
def demoList : Mem := fun x => ([0xc4, 0x81, 0x90, 0x05, 0x80] : Bytes).getD (x - 0x80) 0
example : (mToList demoList ⟨5, 0x80⟩).map (·.map fun j => (j.len, j.ptr)) = some [(2, 0x81), (1, 0x83), (1, 0x84)] := by
  decide +kernel
example : mToUint demoList ⟨2, 0x81⟩ = some 0x90 := by decide +kernel
example : (splitSignature (fun x => if x < 0x9f then 0 else if x = 0x9f then 65 else UInt8.ofNat x) 0x80).map (fun r => (r.1.length, r.2.1.headD 0, r.2.2)) =
    some (32, 0xc0, 0xe0) := by decide +kernel

end Verif.SolMem
