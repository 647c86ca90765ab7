import Verif.JavaMta
/-!
C93: the accumulator of block hashes in the Java verifier for ICON blocks, and its agreement with the relay's accumulator (`Verif.Mta`).
-/
namespace Verif.JavaMta
open Verif Verif.Mta Verif.Merkle Verif.Mbt

/-- Roots from level `k` upwards over the leaves `hs`. -/
def JInv (H : Bytes → Bytes) : Nat → List (Option Bytes) → List Bytes → Prop
  | _, [], hs => hs = []
  | k, none :: rs, hs => JInv H (k + 1) rs hs ∧ hs ≠ []
  | k, some r :: rs, hs => ∃ a b, hs = a ++ b ∧ b.length = 2 ^ k ∧ r = mroot H b ∧ JInv H (k + 1) rs a

theorem concat_ok (H : Bytes → Bytes) (a b : Bytes) (ha : a.length = 32) (hb : b.length = 32) :
    concatAndHash H a b = some (H (a ++ b)) := by
  unfold concatAndHash
  rw [if_pos ⟨by omega, by omega⟩, List.take_of_length_le (by omega), List.take_of_length_le (by omega)]

theorem addLoop_inv {H : Bytes → Bytes} (hH : ∀ x, (H x).length = 32) (s : Nat) (rs : List (Option Bytes)) :
    ∀ (k : Nat) (hs b : List Bytes), JInv H k rs hs → (∀ x ∈ hs, x.length = 32) → (∀ x ∈ b, x.length = 32) → b.length = 2 ^ k →
      (s ≠ 0 → k < s ∧ k + rs.length ≤ s) →
      ∃ rs' d, addLoop H s k rs (mroot H b) = some (rs', ((d : Nat) : Int)) ∧ d ≤ hs.length ∧ (s = 0 → d = 0) ∧
        JInv H k rs' ((hs ++ b).drop d) ∧ (s ≠ 0 → k + rs'.length ≤ s) := by
  induction rs with
  | nil =>
    intro k hs b hi _ _ hb hs'
    refine ⟨[some (mroot H b)], 0, rfl, Nat.zero_le _, fun _ => rfl, ?_, fun h => by have := (hs' h).1; simp only [List.length_singleton]; omega⟩
    have : hs = [] := hi
    subst this
    exact ⟨[], b, by simp, hb, rfl, rfl⟩
  | cons x rs ih =>
    intro k hs b hi h1 h2 hb hs'
    have hpos := Nat.one_le_two_pow (n := k)
    cases x with
    | none =>
      refine ⟨some (mroot H b) :: rs, 0, rfl, Nat.zero_le _, fun _ => rfl, ?_, fun h => (hs' h).2⟩
      exact ⟨hs, b, by simp, hb, rfl, hi.1⟩
    | some r =>
      obtain ⟨a, b', rfl, hb', rfl, hia⟩ := hi
      by_cases hp : k + 1 = s
      · have hlen := (hs' (by omega)).2
        simp only [List.length_cons] at hlen
        have hrs : rs = [] := List.length_eq_zero_iff.1 (by omega)
        subst hrs
        have ha : a = [] := hia
        subst ha
        refine ⟨[some (mroot H b)], 2 ^ k, ?_, ?_, fun h => by omega, ?_, fun h => by simp only [List.length_singleton]; omega⟩
        · show (if k + 1 = s then _ else _) = _
          rw [if_pos hp]
          simp
        · simp [hb']
        · rw [List.nil_append, ← hb', List.drop_left]
          exact ⟨[], b, by simp, hb.trans rfl, rfl, rfl⟩
      · have l1 : (mroot H b').length = 32 := mroot_length H 32 hH b' (by rintro rfl; simp at hb'; omega)
          (fun x hx => h1 x (List.mem_append_right _ hx))
        have l2 : (mroot H b).length = 32 := mroot_length H 32 hH b (by rintro rfl; simp at hb; omega) h2
        have hm := mroot_append H b' b k hb' (by rintro rfl; simp at hb; omega) (by omega)
        obtain ⟨rs', d, e1, e2, e3, e4, e5⟩ := ih (k + 1) a (b' ++ b) hia (fun x hx => h1 x (List.mem_append_left _ hx))
          (by
            intro x hx
            rcases List.mem_append.1 hx with hx | hx
            · exact h1 x (List.mem_append_right _ hx)
            · exact h2 x hx) (by rw [List.length_append, hb, hb', Nat.pow_succ]; omega)
          (fun h => by
            have := hs' h
            simp only [List.length_cons] at this
            omega)
        refine ⟨none :: rs', d, ?_, by rw [List.length_append]; omega, e3, ⟨?_, ?_⟩, fun h => ?_⟩
        · show (if k + 1 = s then _ else (concatAndHash H (mroot H b') (mroot H b)).bind fun x =>
            (addLoop H s (k + 1) rs x).map fun y => (none :: y.1, y.2)) = _
          rw [if_neg hp, concat_ok H _ _ l1 l2, Option.bind_some, ← hm, e1]
          rfl
        · rw [List.append_assoc]; exact e4
        · intro h0
          have := congrArg List.length h0
          rw [List.length_drop, List.length_append, List.length_append] at this
          simp only [List.length_nil] at this
          omega
        · have := e5 h
          simp only [List.length_cons]
          omega

/-- A correct accumulator: `hs` are all hashes added since the start at `o`. -/
structure Ok (H : Bytes → Bytes) (o : Int) (hs : List Bytes) (j : J) : Prop where
  inv : ∃ d, d ≤ hs.length ∧ (j.rootSize = 0 → d = 0) ∧ j.offset = o + d ∧ JInv H 0 j.roots (hs.drop d)
  height : j.height = o + hs.length
  len : j.rootSize ≠ 0 → j.roots.length ≤ j.rootSize
  cache : ∀ h, some h ∈ j.cache → h ∈ hs
  l32 : ∀ h ∈ hs, h.length = 32

theorem jinv_nil {H : Bytes → Bytes} {k : Nat} {rs : List (Option Bytes)} (h : JInv H k rs []) : rs = [] := by
  cases rs with
  | nil => rfl
  | cons x rs =>
    cases x with
    | none => exact absurd rfl h.2
    | some r =>
      obtain ⟨a, b, h1, h2, _⟩ := h
      have := Nat.one_le_two_pow (n := k)
      have h3 := congrArg List.length h1
      rw [List.length_append] at h3
      simp only [List.length_nil] at h3
      omega

theorem putCache_fields (j : J) (h : Bytes) : (putCache j h).height = j.height ∧ (putCache j h).offset = j.offset ∧
    (putCache j h).roots = j.roots ∧ (putCache j h).rootSize = j.rootSize ∧ (putCache j h).allowNewer = j.allowNewer ∧
    ∀ x, some x ∈ (putCache j h).cache → some x ∈ j.cache ∨ x = h := by
  unfold putCache
  split
  · refine ⟨rfl, rfl, rfl, rfl, rfl, fun x hx => ?_⟩
    rcases List.mem_or_eq_of_mem_set hx with h | h
    · exact Or.inl h
    · exact Or.inr (by simpa using h)
  · exact ⟨rfl, rfl, rfl, rfl, rfl, fun x hx => Or.inl hx⟩

theorem add_ok {H : Bytes → Bytes} (hH : ∀ x, (H x).length = 32) {o : Int} {hs : List Bytes} {j : J} (hok : Ok H o hs j) (h : Bytes)
    (hl : h.length = 32) : ∃ j', add H j h = some j' ∧ Ok H o (hs ++ [h]) j' ∧ j'.rootSize = j.rootSize ∧ j'.allowNewer = j.allowNewer := by
  obtain ⟨⟨d, hd, hd0, hoff, hinv⟩, hh, hlen, hc, h32⟩ := hok
  obtain ⟨p1, p2, p3, p4, p5, p6⟩ := putCache_fields j h
  have h32' : ∀ x ∈ hs ++ [h], x.length = 32 := by
    intro x hx
    rcases List.mem_append.1 hx with hx | hx
    · exact h32 x hx
    · rw [List.mem_singleton.1 hx]; exact hl
  have hc' : ∀ x, some x ∈ (putCache j h).cache → x ∈ hs ++ [h] := by
    intro x hx
    rcases p6 x hx with h' | rfl
    · exact List.mem_append_left _ (hc x h')
    · simp
  unfold add
  dsimp only
  by_cases he : (putCache j h).height = (putCache j h).offset
  · rw [if_pos he]
    rw [p1, p2, hh, hoff] at he
    have hdl : d = hs.length := by omega
    rw [hdl, List.drop_length] at hinv
    have hr := jinv_nil hinv
    refine ⟨_, rfl, ⟨⟨d, by simp; omega, ?_, ?_, ?_⟩, ?_, ?_, hc', h32'⟩, p4, p5⟩
    · dsimp only; rw [p4]; exact hd0
    · dsimp only; rw [p2]; exact hoff
    · dsimp only
      rw [p3, hr, hdl, List.drop_left]
      exact ⟨[], [h], rfl, rfl, (mroot_one H h).symm, rfl⟩
    · dsimp only; rw [p1, hh]; simp; omega
    · dsimp only; rw [p3, p4, hr]; intro h0; simp; omega
  · rw [if_neg he]
    obtain ⟨rs', d', e1, e2, e3, e4, e5⟩ := addLoop_inv hH j.rootSize j.roots 0 (hs.drop d) [h] hinv
      (fun x hx => h32 x (List.mem_of_mem_drop hx)) (by simpa using hl) rfl (fun h0 => by
        have := hlen h0; omega)
    rw [mroot_one] at e1
    rw [p4, p3, e1]
    rw [List.length_drop] at e2
    refine ⟨_, rfl, ⟨⟨d + d', by simp; omega, ?_, ?_, ?_⟩, ?_, ?_, hc', h32'⟩, rfl, p5⟩
    · dsimp only; intro h0; rw [hd0 h0, e3 h0]
    · dsimp only; rw [p2, hoff]; omega
    · dsimp only
      rw [← List.drop_drop, List.drop_append_of_le_length hd]
      exact e4
    · dsimp only; rw [p1, hh]; simp; omega
    · dsimp only; intro h0; have := e5 h0; omega

/-- A new accumulator, with any limit of roots and any empty cache. -/
structure Fresh (o : Int) (j : J) : Prop where
  height : j.height = o
  offset : j.offset = o
  roots : j.roots = []
  cache : ∀ h, some h ∉ j.cache

theorem fresh_ok (H : Bytes → Bytes) {o : Int} {j : J} (h : Fresh o j) : Ok H o [] j :=
  ⟨⟨0, by simp, fun _ => rfl, by rw [h.offset]; simp, by rw [h.roots]; rfl⟩, by rw [h.height]; simp, fun _ => by rw [h.roots]; simp,
    fun x hx => absurd hx (h.cache x), by simp⟩

theorem addAll_ok {H : Bytes → Bytes} (hH : ∀ x, (H x).length = 32) {o : Int} (hs : List Bytes) : ∀ (pre : List Bytes) (j : J),
    Ok H o pre j → (∀ h ∈ hs, h.length = 32) →
    ∃ j', addAll H j hs = some j' ∧ Ok H o (pre ++ hs) j' ∧ j'.rootSize = j.rootSize ∧ j'.allowNewer = j.allowNewer := by
  induction hs with
  | nil => intro pre j h _; exact ⟨j, rfl, by simpa using h, rfl, rfl⟩
  | cons h hs ih =>
    intro pre j hok hl
    obtain ⟨j1, e1, o1, r1, n1⟩ := add_ok hH hok h (hl h (by simp))
    obtain ⟨j2, e2, o2, r2, n2⟩ := ih _ j1 o1 (fun x hx => hl x (by simp [hx]))
    refine ⟨j2, ?_, by simpa using o2, r2.trans r1, n2.trans n1⟩
    show (add H j h).bind (addAll H · hs) = _
    rw [e1]; exact e2

/-! ### The relay's accumulator over the same leaves -/

theorem rep_exists {H : Bytes → Bytes} (db : Db) (k : Nat) : ∀ b : List Bytes, b.length = 2 ^ k → (∀ x ∈ b, x.length = 32) →
    ∃ n, Rep H db k n b := by
  induction k with
  | zero =>
    intro b hb hl
    match b, hb with
    | [x], _ => exact ⟨.hash x, by simp only [Rep, Stored]; exact ⟨by trivial, hl x (by simp)⟩⟩
  | succ k ih =>
    intro b hb hl
    rw [Nat.pow_succ] at hb
    have h1 : (b.take (2 ^ k)).length = 2 ^ k := by simp; omega
    have h2 : (b.drop (2 ^ k)).length = 2 ^ k := by simp; omega
    obtain ⟨l, hl'⟩ := ih _ h1 (fun x hx => hl x (List.mem_of_mem_take hx))
    obtain ⟨r, hr'⟩ := ih _ h2 (fun x hx => hl x (List.mem_of_mem_drop hx))
    exact ⟨.br false none l r, k, b.take (2 ^ k), b.drop (2 ^ k), rfl, (List.take_append_drop _ _).symm, h1, h2, hl', hr', by simp, by simp⟩

theorem relay_roots {H : Bytes → Bytes} (hH : ∀ x, (H x).length = 32) (db : Db) (rs : List (Option Bytes)) : ∀ (k : Nat) (hs : List Bytes),
    JInv H k rs hs → (∀ x ∈ hs, x.length = 32) → ∃ gs, Inv H db k gs hs ∧ rs = gs.map (Option.map (Node.hashOf H)) := by
  induction rs with
  | nil => intro k hs h _; exact ⟨[], h, rfl⟩
  | cons x rs ih =>
    intro k hs h hl
    cases x with
    | none =>
      obtain ⟨gs, h1, h2⟩ := ih (k + 1) hs h.1 hl
      exact ⟨none :: gs, ⟨h1, h.2⟩, by simp [h2]⟩
    | some r =>
      obtain ⟨a, b, rfl, hb, rfl, ha⟩ := h
      obtain ⟨gs, h1, h2⟩ := ih (k + 1) a ha (fun x hx => hl x (List.mem_append_left _ hx))
      obtain ⟨n, hn⟩ := rep_exists (H := H) db k b hb (fun x hx => hl x (List.mem_append_right _ hx))
      refine ⟨some n :: gs, ⟨a, b, rfl, hn, h1⟩, ?_⟩
      simp [h2, (hn.root hH).1]

/-- The two accumulators hold the same roots. -/
def Same (H : Bytes → Bytes) (j : J) (a : Acc) : Prop :=
  j.roots = a.roots.map (Option.map (Node.hashOf H)) ∧ j.height = j.offset + a.length

theorem ok_relay {H : Bytes → Bytes} (hH : ∀ x, (H x).length = 32) (db : Db) {o : Int} {hs : List Bytes} {j : J} (h : Ok H o hs j) :
    ∃ d a, d ≤ hs.length ∧ (j.rootSize = 0 → d = 0) ∧ j.offset = o + d ∧ Acc.Ok H db a (hs.drop d) ∧ Same H j a := by
  obtain ⟨⟨d, hd, hd0, hoff, hinv⟩, hh, _, _, h32⟩ := h
  obtain ⟨gs, h1, h2⟩ := relay_roots hH db j.roots 0 _ hinv (fun x hx => h32 x (List.mem_of_mem_drop hx))
  refine ⟨d, ⟨gs, (hs.drop d).length⟩, hd, hd0, hoff, ⟨h1, rfl⟩, h2, ?_⟩
  rw [hh, hoff]
  simp only [List.length_drop]
  omega

/-- The witness as the relay reads it: sides from the index. -/
def jwit : List Bytes → Int → List W
  | [], _ => []
  | w :: ws, idx => ⟨if idx.tmod 2 = 0 then 1 else 0, w.take 32⟩ :: jwit ws (idx.tdiv 2)

theorem jwit_nat (ws : List Bytes) (hw : ∀ w ∈ ws, w.length = 32) : ∀ i : Nat, jwit ws i = hashesToWitness ws i := by
  induction ws with
  | nil => intro i; rfl
  | cons w ws ih =>
    intro i
    unfold jwit hashesToWitness
    rw [List.take_of_length_le (by rw [hw w (by simp)]; omega)]
    have e1 : (i : Int).tmod 2 = ((i % 2 : Nat) : Int) := by rw [Int.tmod_eq_emod_of_nonneg (by omega)]; omega
    have e2 : (i : Int).tdiv 2 = ((i / 2 : Nat) : Int) := by rw [Int.tdiv_eq_ediv_of_nonneg (by omega)]; omega
    rw [e1, e2, ih (fun x hx => hw x (by simp [hx]))]
    congr 2
    by_cases h : i % 2 = 0
    · rw [if_pos (by omega), if_pos h]
    · rw [if_neg (by omega), if_neg h]

theorem vloop_relay {H : Bytes → Bytes} (hH : ∀ x, (H x).length = 32) (n : Nat) : ∀ (ws : List Bytes) (buf h : Bytes) (idx : Int) (r : Bytes),
    buf.length = 64 → h.length = 32 → vloop H n ws h idx = some r →
    n ≤ ws.length ∧ Mta.vloop H (jwit (ws.take n) idx) buf h = r := by
  induction n with
  | zero => intro ws buf h idx r _ _ hr; exact ⟨Nat.zero_le _, by simpa [vloop, Mta.vloop, jwit] using hr⟩
  | succ n ih =>
    intro ws buf h idx r hb hh hr
    cases ws with
    | nil => cases hr
    | cons w ws =>
      have e0 : vloop H (n + 1) (w :: ws) h idx =
        (if idx.tmod 2 = 0 then concatAndHash H h w else concatAndHash H w h).bind fun h' => vloop H n ws h' (idx.tdiv 2) := rfl
      rw [e0] at hr
      have e1 : Mta.vloop H (jwit ((w :: ws).take (n + 1)) idx) buf h =
        Mta.vloop H (jwit (ws.take n) (idx.tdiv 2)) (vbuf buf h ⟨if idx.tmod 2 = 0 then 1 else 0, w.take 32⟩)
          (H (vbuf buf h ⟨if idx.tmod 2 = 0 then 1 else 0, w.take 32⟩)) := rfl
      rw [e1]
      by_cases hw : 32 ≤ w.length
      · have hw' : (w.take 32).length = 32 := by simp; omega
        have hv := vbuf_eq buf h ⟨if idx.tmod 2 = 0 then 1 else 0, w.take 32⟩ hb hh hw'
        have ht : h.take 32 = h := List.take_of_length_le (by omega)
        by_cases hi : idx.tmod 2 = 0
        · rw [if_pos hi] at hr hv ⊢
          dsimp only at hv
          rw [if_neg (by decide)] at hv
          unfold concatAndHash at hr
          rw [if_pos ⟨by omega, hw⟩, Option.bind_some, ht] at hr
          rw [hv]
          obtain ⟨h1, h2⟩ := ih ws (h ++ w.take 32) _ _ r (by rw [List.length_append, hw', hh]) (hH _) hr
          exact ⟨by simp only [List.length_cons]; omega, h2⟩
        · rw [if_neg hi] at hr hv ⊢
          rw [if_pos rfl] at hv
          unfold concatAndHash at hr
          rw [if_pos ⟨hw, by omega⟩, Option.bind_some, ht] at hr
          rw [hv]
          obtain ⟨h1, h2⟩ := ih ws (w.take 32 ++ h) _ _ r (by rw [List.length_append, hw', hh]) (hH _) hr
          exact ⟨by simp only [List.length_cons]; omega, h2⟩
      · exfalso
        by_cases hi : idx.tmod 2 = 0
        · rw [if_pos hi] at hr
          unfold concatAndHash at hr
          rw [if_neg (by omega)] at hr; cases hr
        · rw [if_neg hi] at hr
          unfold concatAndHash at hr
          rw [if_neg (by omega)] at hr; cases hr

theorem jwit_length (ws : List Bytes) : ∀ idx, (jwit ws idx).length = ws.length := by
  induction ws with
  | nil => intro idx; rfl
  | cons w ws ih => intro idx; simp [jwit, ih]

/-- What the private `verify` accepts is what the relay's accumulator accepts. -/
theorem verifyRoot_relay {H : Bytes → Bytes} (hH : ∀ x, (H x).length = 32) {j : J} {a : Acc} (hs : Same H j a) (ws : List Bytes) (n : Nat)
    (root : Option Bytes) (h : Bytes) (idx : Int) (hh : h.length = 32) (hr : j.roots[n]? = some root)
    (hv : verifyRoot H ws n root h idx = .ok) : n ≤ ws.length ∧ a.verify H (jwit (ws.take n) idx) h = .ok := by
  unfold verifyRoot at hv
  cases e : vloop H n ws h idx with
  | none => rw [e] at hv; cases hv
  | some x =>
    rw [e] at hv
    dsimp only at hv
    by_cases hx : root = some x
    · obtain ⟨h1, h2⟩ := vloop_relay hH n ws (List.replicate 64 0) h idx x (by simp) hh e
      refine ⟨h1, ?_⟩
      unfold Acc.verify
      rw [jwit_length, List.length_take, Nat.min_eq_left h1]
      rw [hs.1, List.getElem?_map] at hr
      cases g : a.roots[n]? with
      | none => rw [g] at hr; cases hr
      | some y =>
        rw [g] at hr
        cases y with
        | none => simp only [Option.map_some, Option.map_none, Option.some.injEq] at hr; rw [← hr] at hx; cases hx
        | some nd =>
          simp only [Option.map_some, Option.some.injEq] at hr
          rw [← hr] at hx
          simp only [Option.some.injEq] at hx
          dsimp only
          rw [h2, if_pos hx]
    · rw [if_neg hx] at hv; cases hv

theorem jwit_dir (ws : List Bytes) : ∀ (idx : Nat) (k : Nat) (w : W), (jwit ws idx)[k]? = some w → (w.dir = 0 ↔ idx / 2 ^ k % 2 = 1) := by
  induction ws with
  | nil => intro idx k w h; simp [jwit] at h
  | cons x ws ih =>
    intro idx k w h
    have e1 : (idx : Int).tmod 2 = ((idx % 2 : Nat) : Int) := by rw [Int.tmod_eq_emod_of_nonneg (by omega)]; omega
    have e2 : (idx : Int).tdiv 2 = ((idx / 2 : Nat) : Int) := by rw [Int.tdiv_eq_ediv_of_nonneg (by omega)]; omega
    unfold jwit at h
    rw [e1, e2] at h
    cases k with
    | zero =>
      simp only [List.getElem?_cons_zero, Option.some.injEq] at h
      subst h
      dsimp only
      rw [Nat.pow_zero, Nat.div_one]
      by_cases hi : idx % 2 = 0
      · rw [if_pos (by omega)]; omega
      · rw [if_neg (by omega)]; omega
    | succ k =>
      rw [List.getElem?_cons_succ] at h
      rw [ih (idx / 2) k w h, Nat.pow_succ, Nat.mul_comm, ← Nat.div_div_eq_div_mul]

/-- Bits determine the remainder. -/
theorem mod_of_bits (d i m : Nat) (h : ∀ k, k < d → (i / 2 ^ k % 2 = 1 ↔ m / 2 ^ k % 2 = 1)) : i % 2 ^ d = m % 2 ^ d := by
  induction d with
  | zero => simp [Nat.mod_one]
  | succ d ih =>
    rw [mod_pow_succ', mod_pow_succ', ih (fun k hk => h k (by omega))]
    have h1 := h d (by omega)
    have a0 := Nat.mod_two_eq_zero_or_one (i / 2 ^ d)
    have b0 := Nat.mod_two_eq_zero_or_one (m / 2 ^ d)
    rcases a0 with a0 | a0 <;> rcases b0 with b0 | b0 <;> simp [a0, b0] at h1 ⊢

/-- The inputs of the hash function when the witness is folded up to the end. -/
def wcalls (H : Bytes → Bytes) (ws : List Bytes) (h : Bytes) (idx : Int) : List Bytes := vcalls H (jwit ws idx) (List.replicate 64 0) h

theorem wcalls_take (H : Bytes → Bytes) (ws : List Bytes) : ∀ (n : Nat) (buf h : Bytes) (idx : Int),
    ∀ x ∈ vcalls H (jwit (ws.take n) idx) buf h, x ∈ vcalls H (jwit ws idx) buf h := by
  induction ws with
  | nil => intro n buf h idx x hx; simpa using hx
  | cons w ws ih =>
    intro n buf h idx x hx
    cases n with
    | zero => simp [jwit, vcalls] at hx
    | succ n =>
      rw [List.take_succ_cons] at hx
      unfold jwit vcalls at hx ⊢
      rcases List.mem_cons.1 hx with rfl | hx
      · simp
      · exact List.mem_cons_of_mem _ (ih n _ _ _ x hx)

theorem coll_take {H : Bytes → Bytes} {ws : List Bytes} {n : Nat} {h : Bytes} {idx : Int} {ys : List Bytes}
    (hc : Collision H (wcalls H (ws.take n) h idx) ys) : Collision H (wcalls H ws h idx) ys := by
  obtain ⟨x, hx, r⟩ := hc
  exact ⟨x, wcalls_take H ws n _ h idx x hx, r⟩

theorem relay_sound {H : Bytes → Bytes} (hH : ∀ x, (H x).length = 32) {db : Db} {a : Acc} {rem : List Bytes} (hok : a.Ok H db rem)
    (h32 : ∀ x ∈ rem, x.length = 32) (ws : List Bytes) (h : Bytes) (hh : h.length = 32) (idx : Int)
    (hv : a.verify H (jwit ws idx) h = .ok) :
    (∃ s n, Collision H (wcalls H ws h idx) (inputs H ((rem.drop s).take n))) ∨
    ∃ i, rem[i]? = some h ∧ IsDepth rem.length i ws.length ∧ (0 ≤ idx → i % 2 ^ ws.length = idx.toNat % 2 ^ ws.length) := by
  rcases hok.verify_sound hH h32 _ h hh hv with ⟨s, hc⟩ | ⟨i, h1, h2, h3⟩
  · exact Or.inl ⟨s, _, hc⟩
  · rw [jwit_length] at h2
    refine Or.inr ⟨i, h1, h2, fun hi => ?_⟩
    obtain ⟨m, rfl⟩ := Int.eq_ofNat_of_zero_le hi
    simp only [Int.toNat_natCast] at *
    apply mod_of_bits
    intro k hk
    have hk' : k < (jwit ws (m : Int)).length := by rw [jwit_length]; exact hk
    have e := List.getElem?_eq_getElem hk'
    rw [← h3 k _ e, jwit_dir ws m k _ e]

theorem rootLoop_depth {H : Bytes → Bytes} (hH : ∀ x, (H x).length = 32) {db : Db} {a : Acc} {rem : List Bytes} (hok : a.Ok H db rem)
    {rs : List (Option Bytes)} (hr : rs = a.roots.map (Option.map (Node.hashOf H))) (i : Nat) :
    ∀ o, i / 2 ^ o = rem.length / 2 ^ o → i < rem.length →
      ∃ d, IsDepth rem.length i d ∧ d < o ∧ rootLoop rs o ((i % 2 ^ o : Nat) : Int) = some d := by
  intro o
  induction o with
  | zero => intro h hi; simp at h; omega
  | succ o ih =>
    intro heq hi
    have d1 := div_pow_succ i o; have d2 := div_pow_succ rem.length o
    have hm := mod_pow_succ' i o
    have hp := Nat.two_pow_pos o
    have hlt := Nat.mod_lt i hp
    have hle : i / 2 ^ o ≤ rem.length / 2 ^ o := Nat.div_le_div_right (by omega)
    unfold rootLoop
    rw [hr, List.getElem?_map]
    rcases (hok.1.facts hH).2.2.2 o with ⟨n, a1, a2, _, _⟩ | ⟨a1, a2, a3⟩
    · rw [Nat.zero_add] at a2
      rw [a1]
      simp only [Option.map_some]
      by_cases hbit : i / 2 ^ o % 2 = 0
      · rw [hbit, Nat.mul_zero, Nat.add_zero] at hm
        rw [hm, if_pos (by exact_mod_cast hlt)]
        exact ⟨o, ⟨a2, by omega⟩, by omega, rfl⟩
      · have hb1 : i / 2 ^ o % 2 = 1 := by omega
        rw [hb1, Nat.mul_one] at hm
        rw [hm, if_neg (by
          have : ((2 ^ o : Nat) : Int) = (2 : Int) ^ o := by simp
          rw [← this]; omega)]
        obtain ⟨d, h1, h2, h3⟩ := ih (by omega) hi
        refine ⟨d, h1, by omega, ?_⟩
        rw [hr] at h3
        rw [← h3]
        congr 1
        have : ((2 ^ o : Nat) : Int) = (2 : Int) ^ o := by simp
        rw [← this]; omega
    · rw [Nat.zero_add] at a3
      have hbit : i / 2 ^ o % 2 = 0 := by omega
      rw [hbit, Nat.mul_zero, Nat.add_zero] at hm
      obtain ⟨d, h1, h2, h3⟩ := ih (by omega) hi
      refine ⟨d, h1, by omega, ?_⟩
      rw [hr] at h3
      rw [hm]
      cases g : a.roots[o]? with
      | none => simpa using h3
      | some y =>
        cases y with
        | none => simpa using h3
        | some nd => exact absurd g (a2 nd)

theorem ok_len {H : Bytes → Bytes} (hH : ∀ x, (H x).length = 32) {db : Db} {a : Acc} {rem : List Bytes} (hok : a.Ok H db rem) :
    rem.length < 2 ^ a.roots.length := by
  have := (hok.1.facts hH).2.1
  simpa using this

/-- The slot `getRootIdxByHeight` finds is the one of the tree the leaf is in. -/
theorem rootIdx_depth {H : Bytes → Bytes} (hH : ∀ x, (H x).length = 32) {db : Db} {a : Acc} {rem : List Bytes} (hok : a.Ok H db rem)
    {j : J} (hs : Same H j a) (i : Nat) (hi : i < rem.length) (height : Int) (hh : height = j.offset + i + 1) :
    ∃ d, rootIdx j height = some d ∧ IsDepth rem.length i d := by
  have hlen := ok_len hH hok
  have hl2 : j.roots.length = a.roots.length := by rw [hs.1]; simp
  have e1 : rem.length / 2 ^ a.roots.length = 0 := Nat.div_eq_of_lt hlen
  have e2 : i / 2 ^ a.roots.length = 0 := Nat.div_eq_of_lt (by omega)
  obtain ⟨d, h1, _, h3⟩ := rootLoop_depth hH hok hs.1 i a.roots.length (by omega) hi
  refine ⟨d, ?_, h1⟩
  unfold rootIdx
  rw [if_neg (by omega), hl2, show height - 1 - j.offset = (i : Int) by omega]
  rw [Nat.mod_eq_of_lt (by omega)] at h3
  exact h3

/-! ### C93 -/

/-- **C93**, structure: from a new accumulator, every sequence of hashes is added without an exception; the height counts them; the
roots are the Merkle roots of the blocks of the remaining leaves given by the binary digits of their number; without a limit of roots
all leaves remain. -/
theorem C93_structure {H : Bytes → Bytes} (hH : ∀ x, (H x).length = 32) (o : Int) (j : J) (hf : Fresh o j) (hs : List Bytes)
    (h32 : ∀ h ∈ hs, h.length = 32) :
    ∃ j' d, addAll H j hs = some j' ∧ j'.height = o + hs.length ∧ j'.offset = o + (d : Nat) ∧ d ≤ hs.length ∧ (j.rootSize = 0 → d = 0) ∧
      (j.rootSize ≠ 0 → j'.roots.length ≤ j.rootSize) ∧
      ∀ s r, j'.roots[s]? = some (some r) ↔ ((hs.drop d).length / 2 ^ s % 2 = 1 ∧
        r = mroot H (((hs.drop d).drop ((hs.drop d).length / 2 ^ (s + 1) * 2 ^ (s + 1))).take (2 ^ s))) := by
  obtain ⟨j', e, hok, hrs, _⟩ := addAll_ok hH hs [] j (fresh_ok H hf) h32
  rw [List.nil_append] at hok
  obtain ⟨d, a, h1, h2, h3, h4, h5⟩ := ok_relay hH (fun _ => []) hok
  refine ⟨j', d, e, hok.height, h3, h1, by rw [← hrs]; exact h2, by rw [← hrs]; exact hok.len, ?_⟩
  intro s r
  rw [h5.1, List.getElem?_map]
  rcases (h4.1.facts hH).2.2.2 s with ⟨n, a1, a2, _, a4⟩ | ⟨_, a2, a3⟩
  · rw [Nat.zero_add] at a2 a4
    have hroot := (a4.root hH).1
    rw [a1]
    simp only [Option.map_some, Option.some.injEq, a2, true_and]
    rw [hroot]
    exact ⟨fun h => h.symm, fun h => h.symm⟩
  · rw [Nat.zero_add] at a3
    constructor
    · intro h
      cases g : a.roots[s]? with
      | none => rw [g] at h; cases h
      | some y =>
        cases y with
        | none => rw [g] at h; cases h
        | some nd => exact absurd g (a2 nd)
    · intro h; omega

/-- **C93**, soundness: whatever witness is accepted (of the current height, of a newer one or by the cache), the hash is one that
was added, or two different inputs of the hash function that occur collide. -/
theorem C93_sound {H : Bytes → Bytes} (hH : ∀ x, (H x).length = 32) (o : Int) (j0 j : J) (hf : Fresh o j0) (hs : List Bytes)
    (h32 : ∀ h ∈ hs, h.length = 32) (hj : addAll H j0 hs = some j) (ws : List Bytes) (h : Bytes) (hh : h.length = 32) (height at_ : Int)
    (hv : verify H j ws h height at_ = .ok) :
    h ∈ hs ∨ ∃ s n, Collision H (wcalls H ws h (height - 1 - j.offset)) (inputs H ((hs.drop s).take n)) := by
  obtain ⟨j', e, hok, _, _⟩ := addAll_ok hH hs [] j0 (fresh_ok H hf) h32
  rw [hj] at e
  cases e
  rw [List.nil_append] at hok
  obtain ⟨d, a, h1, h2, h3, h4, h5⟩ := ok_relay hH (fun _ => []) hok
  have l32 : ∀ x ∈ hs.drop d, x.length = 32 := fun x hx => h32 x (List.mem_of_mem_drop hx)
  have fin : ∀ (n : Nat) (root : Option Bytes), j.roots[n]? = some root → verifyRoot H ws n root h (height - 1 - j.offset) = .ok →
      h ∈ hs ∨ ∃ s n, Collision H (wcalls H ws h (height - 1 - j.offset)) (inputs H ((hs.drop s).take n)) := by
    intro n root hr hv
    obtain ⟨_, hv'⟩ := verifyRoot_relay hH h5 ws n root h _ hh hr hv
    rcases relay_sound hH h4 l32 _ h hh _ hv' with ⟨s, m, hc⟩ | ⟨i, hi, _⟩
    · rw [List.drop_drop] at hc
      exact Or.inr ⟨_, m, coll_take hc⟩
    · exact Or.inl (List.mem_of_mem_drop (List.mem_of_getElem? hi))
  unfold verify at hv
  by_cases c1 : j.height = at_
  · rw [if_pos c1] at hv
    cases g : j.roots[ws.length]? with
    | none => rw [g] at hv; cases hv
    | some root => rw [g] at hv; exact fin _ root g hv
  · rw [if_neg c1] at hv
    by_cases c2 : j.height < at_
    · rw [if_pos c2] at hv
      by_cases c3 : (!j.allowNewer) = true
      · rw [if_pos c3] at hv; cases hv
      · rw [if_neg c3] at hv
        by_cases c4 : j.height < height
        · rw [if_pos c4] at hv; cases hv
        · rw [if_neg c4] at hv
          cases g : rootIdx j height with
          | none => rw [g] at hv; cases hv
          | some i =>
            rw [g] at hv
            dsimp only at hv
            cases g2 : j.roots[i]? with
            | none => rw [g2] at hv; cases hv
            | some root => rw [g2] at hv; exact fin _ root g2 hv
    · rw [if_neg c2] at hv
      by_cases c3 : j.cache.length > 0 ∧ j.height - height - 1 < j.cache.length
      · rw [if_pos c3] at hv
        by_cases c4 : some h ∈ j.cache
        · exact Or.inl (hok.cache h c4)
        · rw [if_neg c4] at hv; cases hv
      · rw [if_neg c3] at hv; cases hv

/-- **C93**, the height: a witness of a newer accumulator proves the hash at exactly the given height. -/
theorem C93_newer_height {H : Bytes → Bytes} (hH : ∀ x, (H x).length = 32) (o : Int) (j0 j : J) (hf : Fresh o j0) (hs : List Bytes)
    (h32 : ∀ h ∈ hs, h.length = 32) (hj : addAll H j0 hs = some j) (ws : List Bytes) (h : Bytes) (hh : h.length = 32) (height at_ : Int)
    (hat : j.height < at_) (hv : verify H j ws h height at_ = .ok) :
    (∃ i : Nat, hs[i]? = some h ∧ height = o + i + 1) ∨ ∃ s n, Collision H (wcalls H ws h (height - 1 - j.offset)) (inputs H ((hs.drop s).take n)) := by
  obtain ⟨j', e, hok, _, _⟩ := addAll_ok hH hs [] j0 (fresh_ok H hf) h32
  rw [hj] at e
  cases e
  rw [List.nil_append] at hok
  obtain ⟨d, a, h1, h2, h3, h4, h5⟩ := ok_relay hH (fun _ => []) hok
  have l32 : ∀ x ∈ hs.drop d, x.length = 32 := fun x hx => h32 x (List.mem_of_mem_drop hx)
  have hjh := hok.height
  unfold verify at hv
  rw [if_neg (by omega), if_pos hat] at hv
  by_cases c3 : (!j.allowNewer) = true
  · rw [if_pos c3] at hv; cases hv
  · rw [if_neg c3] at hv
    by_cases c4 : j.height < height
    · rw [if_pos c4] at hv; cases hv
    · rw [if_neg c4] at hv
      cases g : rootIdx j height with
      | none => rw [g] at hv; cases hv
      | some n =>
        rw [g] at hv
        dsimp only at hv
        cases g2 : j.roots[n]? with
        | none => rw [g2] at hv; cases hv
        | some root =>
          rw [g2] at hv
          dsimp only at hv
          obtain ⟨hn, hv'⟩ := verifyRoot_relay hH h5 ws n root h _ hh g2 hv
          have hoff : ¬ height ≤ j.offset := by
            intro hle
            unfold rootIdx at g
            rw [if_pos hle] at g; cases g
          obtain ⟨m, hm⟩ : ∃ m : Nat, height = j.offset + m + 1 := ⟨(height - j.offset - 1).toNat, by omega⟩
          have hml : m < (hs.drop d).length := by rw [List.length_drop]; omega
          obtain ⟨n', g', hdep⟩ := rootIdx_depth hH h4 h5 m hml height hm
          rw [g] at g'
          cases g'
          rcases relay_sound hH h4 l32 _ h hh _ hv' with ⟨s, k, hc⟩ | ⟨i, hi, hdi, hmod⟩
          · rw [List.drop_drop] at hc
            exact Or.inr ⟨_, k, coll_take hc⟩
          · left
            rw [List.length_take, Nat.min_eq_left hn] at hdi hmod
            have hmod := hmod (by omega)
            rw [show (height - 1 - j.offset).toNat = m by omega] at hmod
            have : i = m := by
              have q1 := Nat.div_add_mod i (2 ^ n)
              have q2 := Nat.div_add_mod m (2 ^ n)
              have q3 : i / 2 ^ n = m / 2 ^ n := by have := hdi.2; have := hdep.2; omega
              rw [q3] at q1
              omega
            subst this
            rw [List.getElem?_drop] at hi
            exact ⟨d + i, hi, by omega⟩

/-- **C93** is false for a witness of the current height: the height is not bound. With an empty witness the last hash is accepted for
every height when the number of hashes is odd. -/
theorem C93_height_not_bound {H : Bytes → Bytes} (hH : ∀ x, (H x).length = 32) (o : Int) (hs : List Bytes) (x : Bytes)
    (h32 : ∀ h ∈ hs ++ [x], h.length = 32) (hodd : hs.length % 2 = 0) (height : Int) :
    ∃ j, addAll H (init o) (hs ++ [x]) = some j ∧ verify H j [] x height (o + (hs ++ [x]).length) = .ok := by
  obtain ⟨j, d, h1, h2, h3, h4, h5, h6, h7⟩ := C93_structure hH o (init o) ⟨rfl, rfl, rfl, by simp [init]⟩ (hs ++ [x]) h32
  have hd := h5 rfl
  subst hd
  refine ⟨j, h1, ?_⟩
  have hr := (h7 0 x).2 (by
    rw [List.drop_zero, List.length_append, List.length_singleton]
    refine ⟨by simp; omega, ?_⟩
    have e : (hs.length + 1) / 2 ^ (0 + 1) * 2 ^ (0 + 1) = hs.length := by simp; omega
    rw [e, List.drop_left]
    simp [mroot_one])
  unfold verify
  rw [if_pos h2]
  show (match j.roots[0]? with | none => V.bad | some root => verifyRoot H [] 0 root x _) = _
  rw [hr]
  simp [verifyRoot, vloop]

/-- **C93**, what the height is worth at the current height: it gives the position up to the size of the tree the hash is in. -/
theorem C93_position_partial {H : Bytes → Bytes} (hH : ∀ x, (H x).length = 32) (o : Int) (hs : List Bytes)
    (h32 : ∀ h ∈ hs, h.length = 32) (j : J) (hj : addAll H (init o) hs = some j) (ws : List Bytes) (h : Bytes) (hh : h.length = 32)
    (idx : Nat) (hv : verify H j ws h (o + idx + 1) (o + hs.length) = .ok) :
    (∃ i : Nat, hs[i]? = some h ∧ i % 2 ^ ws.length = idx % 2 ^ ws.length) ∨ ∃ s n, Collision H (wcalls H ws h idx) (inputs H ((hs.drop s).take n)) := by
  obtain ⟨j', e, hok, hrs, _⟩ := addAll_ok hH hs [] (init o) (fresh_ok H (o := o) ⟨rfl, rfl, rfl, by simp [init]⟩) h32
  rw [hj] at e
  cases e
  rw [List.nil_append] at hok
  obtain ⟨d, a, h1, h2, h3, h4, h5⟩ := ok_relay hH (fun _ => []) hok
  have hd := h2 hrs
  subst hd
  rw [List.drop_zero] at h4
  unfold verify at hv
  rw [if_pos hok.height] at hv
  cases g : j.roots[ws.length]? with
  | none => rw [g] at hv; cases hv
  | some root =>
    rw [g] at hv
    dsimp only at hv
    obtain ⟨_, hv'⟩ := verifyRoot_relay hH h5 ws _ root h _ hh g hv
    rw [List.take_length] at hv'
    rcases relay_sound hH h4 h32 _ h hh _ hv' with hc | ⟨i, hi, _, hmod⟩
    · rw [show o + (idx : Int) + 1 - 1 - j.offset = (idx : Nat) by omega] at hc
      exact Or.inr hc
    · left
      have := hmod (by omega)
      rw [show (o + (idx : Int) + 1 - 1 - j.offset).toNat = idx by omega] at this
      exact ⟨i, hi, this⟩

theorem vloop_complete {H : Bytes → Bytes} (hH : ∀ x, (H x).length = 32) (ws : List Bytes) : ∀ (n : Nat) (h buf : Bytes) (idx : Nat),
    n ≤ ws.length → buf.length = 64 → h.length = 32 → (∀ w ∈ ws, w.length = 32) →
    vloop H n ws h idx = some (Mta.vloop H (hashesToWitness (ws.take n) idx) buf h) := by
  induction ws with
  | nil =>
    intro n h buf idx hn _ _ _
    have : n = 0 := by simpa using hn
    subst this; rfl
  | cons w ws ih =>
    intro n h buf idx hn hb hh hw
    cases n with
    | zero => rfl
    | succ n =>
      have e1 : (idx : Int).tmod 2 = ((idx % 2 : Nat) : Int) := by rw [Int.tmod_eq_emod_of_nonneg (by omega)]; omega
      have e2 : (idx : Int).tdiv 2 = ((idx / 2 : Nat) : Int) := by rw [Int.tdiv_eq_ediv_of_nonneg (by omega)]; omega
      have hwl := hw w (by simp)
      have e0 : vloop H (n + 1) (w :: ws) h idx =
        (if (idx : Int).tmod 2 = 0 then concatAndHash H h w else concatAndHash H w h).bind fun h' => vloop H n ws h' ((idx : Int).tdiv 2) := rfl
      have e3 : Mta.vloop H (hashesToWitness ((w :: ws).take (n + 1)) idx) buf h =
        Mta.vloop H (hashesToWitness (ws.take n) (idx / 2)) (vbuf buf h ⟨if idx % 2 = 0 then 1 else 0, w⟩)
          (H (vbuf buf h ⟨if idx % 2 = 0 then 1 else 0, w⟩)) := rfl
      rw [e0, e3, e1, e2, vbuf_eq buf h _ hb hh hwl, concat_ok H _ _ hh hwl, concat_ok H _ _ hwl hh]
      simp only [List.length_cons] at hn
      by_cases hi : idx % 2 = 0
      · rw [if_pos (by omega), if_pos hi]
        dsimp only
        rw [if_neg (by decide), Option.bind_some]
        exact ih n _ _ _ (by omega) (by rw [List.length_append]; omega) (hH _) (fun x hx => hw x (by simp [hx]))
      · rw [if_neg (by omega), if_neg hi]
        dsimp only
        rw [if_pos rfl, Option.bind_some]
        exact ih n _ _ _ (by omega) (by rw [List.length_append]; omega) (hH _) (fun x hx => hw x (by simp [hx]))

theorem hashes_wit (H : Bytes → Bytes) (hs : List Bytes) (i d : Nat) : hashesToWitness ((wit H hs i d).map (·.hash)) i = wit H hs i d := by
  have := hashesToWitness_range H hs i d 0
  rw [← List.range_eq_range'] at this
  simpa [wit, Function.comp_def] using this

theorem wit_hash_len {H : Bytes → Bytes} (hH : ∀ x, (H x).length = 32) (hs : List Bytes) (h32 : ∀ x ∈ hs, x.length = 32) (i d : Nat)
    (hd : IsDepth hs.length i d) : ∀ w ∈ (wit H hs i d).map (·.hash), w.length = 32 := by
  intro w hw
  simp only [wit, List.mem_map, List.mem_range] at hw
  obtain ⟨x, ⟨k, hk, rfl⟩, rfl⟩ := hw
  exact entry_length hH hs h32 i k d hk hd.block

/-- **C93**, completeness: the witness that the relay's accumulator over the same blocks makes for a block is accepted by the contract
at the same height. -/
theorem C93_relay_accepted {H : Bytes → Bytes} (hH : ∀ x, (H x).length = 32) (o : Int) (hs : List Bytes) (h32 : ∀ h ∈ hs, h.length = 32)
    (db : Db) (a : Acc) (ha : a.Ok H db hs) (i : Nat) (x : Bytes) (hx : hs[i]? = some x) :
    ∃ j a' w, addAll H (init o) hs = some j ∧ a.witnessFor H db i = (a', some w) ∧
      verify H j (witnessesToHashes w) x (o + i + 1) (o + hs.length) = .ok := by
  obtain ⟨j, d, h1, h2, h3, h4, h5, h6, h7⟩ := C93_structure hH o (init o) ⟨rfl, rfl, rfl, by simp [init]⟩ hs h32
  have hd := h5 rfl
  subst hd
  rw [List.drop_zero] at h7
  have hi : i < hs.length := (List.getElem?_eq_some_iff.1 hx).1
  obtain ⟨d, a', hdep, hw, _⟩ := ha.witness hH i hi
  refine ⟨j, a', _, h1, hw, ?_⟩
  have hwl := wit_hash_len hH hs h32 i d hdep
  have hst : hs.length / 2 ^ (d + 1) * 2 ^ (d + 1) = i / 2 ^ d * 2 ^ d := by
    obtain ⟨hd1, hd2⟩ := hdep
    have := div_pow_succ hs.length d
    have : i / 2 ^ d = 2 * (hs.length / 2 ^ (d + 1)) := by omega
    rw [this, Nat.pow_succ, Nat.mul_comm (2 ^ d) 2, ← Nat.mul_assoc, Nat.mul_comm _ 2]
  have hroot := (h7 d (mroot H (blk hs (i / 2 ^ d * 2 ^ d) (2 ^ d)))).2 ⟨hdep.1, by rw [hst]; rfl⟩
  unfold witnessesToHashes verify
  rw [if_pos h2, List.length_map, wit_length, hroot]
  dsimp only
  unfold verifyRoot
  rw [show o + (i : Int) + 1 - 1 - j.offset = (i : Nat) by rw [h3]; omega,
    vloop_complete hH _ d x (List.replicate 64 0) i (by simp [wit_length]) (by simp) (h32 x (List.mem_of_getElem? hx)) hwl]
  have ht : ((wit H hs i d).map (·.hash)).take d = (wit H hs i d).map (·.hash) := by
    rw [List.take_of_length_le]; simp [wit_length]
  rw [ht, hashes_wit]
  dsimp only
  rw [Mta.vloop_eq hH _ _ _ (by simp) (h32 x (List.mem_of_getElem? hx))
    (fun w hw => hwl w.hash (List.mem_map.2 ⟨w, hw, rfl⟩)), fold_wit hs i d x hx hdep.block]
  rw [if_pos rfl]

/-- **C93**, newer witnesses: a contract that allows them accepts the relay's witness of a longer accumulator for every block that the
contract knows. -/
theorem C93_newer_accepted {H : Bytes → Bytes} (hH : ∀ x, (H x).length = 32) (o : Int) (hs more : List Bytes) (hm : more ≠ [])
    (h32 : ∀ h ∈ hs ++ more, h.length = 32) (db : Db) (a : Acc) (ha : a.Ok H db (hs ++ more)) (i : Nat) (x : Bytes) (hx : hs[i]? = some x) :
    ∃ j a' w, addAll H { init o with allowNewer := true } hs = some j ∧ a.witnessFor H db i = (a', some w) ∧
      verify H j (witnessesToHashes w) x (o + i + 1) (o + (hs ++ more).length) = .ok := by
  have hi : i < hs.length := (List.getElem?_eq_some_iff.1 hx).1
  have l32 : ∀ h ∈ hs, h.length = 32 := fun h hh => h32 h (List.mem_append_left _ hh)
  have hfr : Fresh o { init o with allowNewer := true } := ⟨rfl, rfl, rfl, by simp [init]⟩
  obtain ⟨j, d0, h1, h2, h3, h4, h5, h6, h7⟩ := C93_structure hH o _ hfr hs l32
  obtain ⟨j2, e2, hok, hrs, hnew⟩ := addAll_ok hH hs [] _ (fresh_ok H hfr) l32
  rw [h1] at e2
  cases e2
  rw [List.nil_append] at hok
  have hd := h5 rfl
  subst hd
  obtain ⟨d1, a1, g1, g2, g3, g4, g5⟩ := ok_relay hH (fun _ => []) hok
  have hd1 := g2 hrs
  subst hd1
  rw [List.drop_zero] at h7 g4
  obtain ⟨e, a', hdepE, hw, _⟩ := ha.witness hH i (by rw [List.length_append]; omega)
  obtain ⟨d, hrd, hdep⟩ := rootIdx_depth hH g4 g5 i hi (o + i + 1) (by rw [h3]; omega)
  refine ⟨j, a', _, h1, hw, ?_⟩
  have hml : 0 < more.length := List.length_pos_iff.2 hm
  have hle : d ≤ e := hdep.mono hdepE (by rw [List.length_append]; omega)
  have hwl := wit_hash_len hH (hs ++ more) h32 i e hdepE
  have hst : hs.length / 2 ^ (d + 1) * 2 ^ (d + 1) = i / 2 ^ d * 2 ^ d := by
    obtain ⟨hd1, hd2⟩ := hdep
    have := div_pow_succ hs.length d
    have : i / 2 ^ d = 2 * (hs.length / 2 ^ (d + 1)) := by omega
    rw [this, Nat.pow_succ, Nat.mul_comm (2 ^ d) 2, ← Nat.mul_assoc, Nat.mul_comm _ 2]
  have hroot := (h7 d (mroot H (blk hs (i / 2 ^ d * 2 ^ d) (2 ^ d)))).2 ⟨hdep.1, by rw [hst]; rfl⟩
  unfold witnessesToHashes verify
  rw [if_neg (by rw [h2, List.length_append]; omega), if_pos (by rw [h2, List.length_append]; omega),
    if_neg (by rw [hnew]; simp), if_neg (by rw [h2]; omega), hrd]
  dsimp only
  rw [hroot]
  dsimp only
  unfold verifyRoot
  rw [show o + (i : Int) + 1 - 1 - j.offset = (i : Nat) by rw [h3]; omega,
    vloop_complete hH _ d x (List.replicate 64 0) i (by simp [wit_length]; exact hle) (by simp) (l32 x (List.mem_of_getElem? hx)) hwl]
  have ht : ((wit H (hs ++ more) i e).map (·.hash)).take d = (wit H hs i d).map (·.hash) := by
    rw [← List.map_take, wit_le H _ i d e hle, ← wit_take H (hs ++ more) hs.length i d hdep, List.take_left]
  rw [ht, hashes_wit]
  dsimp only
  rw [Mta.vloop_eq hH _ _ _ (by simp) (l32 x (List.mem_of_getElem? hx))
    (fun w hw => wit_hash_len hH hs l32 i d hdep w.hash (List.mem_map.2 ⟨w, hw, rfl⟩)), fold_wit hs i d x hx hdep.block]
  rw [if_pos rfl]

/-- **C93**, the contract as deployed: only witnesses of exactly the current height are accepted; a relay message with a block proof is
refused as soon as another block update came in between. -/
theorem C93_only_current {H : Bytes → Bytes} (o : Int) (hs : List Bytes) (j : J) (hj : addAll H (init o) hs = some j) (ws : List Bytes)
    (h : Bytes) (height at_ : Int) (hv : verify H j ws h height at_ = .ok) : at_ = j.height := by
  have fields : ∀ (hs : List Bytes) (j j' : J), j.cache = [] → j.allowNewer = false → addAll H j hs = some j' →
      j'.cache = [] ∧ j'.allowNewer = false := by
    intro hs
    induction hs with
    | nil => intro j j' h1 h2 h3; cases h3; exact ⟨h1, h2⟩
    | cons x hs ih =>
      intro j j' h1 h2 h3
      have e : addAll H j (x :: hs) = (add H j x).bind (addAll H · hs) := rfl
      rw [e] at h3
      cases g : add H j x with
      | none => rw [g] at h3; cases h3
      | some j1 =>
        rw [g] at h3
        refine ih j1 j' ?_ ?_ h3
        · unfold add putCache at g
          rw [h1] at g
          simp only [List.length_nil, gt_iff_lt, Nat.lt_irrefl, if_false] at g
          split at g
          · cases g; exact h1
          · obtain ⟨y, _, rfl⟩ := Option.map_eq_some_iff.1 g; exact h1
        · unfold add putCache at g
          rw [h1] at g
          simp only [List.length_nil, gt_iff_lt, Nat.lt_irrefl, if_false] at g
          split at g
          · cases g; exact h2
          · obtain ⟨y, _, rfl⟩ := Option.map_eq_some_iff.1 g; exact h2
  obtain ⟨h1, h2⟩ := fields hs _ _ rfl rfl hj
  unfold verify at hv
  by_cases c1 : j.height = at_
  · exact c1.symm
  · exfalso
    rw [if_neg c1] at hv
    by_cases c2 : j.height < at_
    · rw [if_pos c2, h2, if_pos (by rfl)] at hv; cases hv
    · rw [if_neg c2, h1, if_neg (by simp)] at hv; cases hv

/-! ### Examples -/

def exLeaves : List Bytes := [exHash 1, exHash 2, exHash 3, exHash 4, exHash 5]
def exJ : J := (addAll exH (init 10) exLeaves).getD (init 0)
example : addAll exH (init 10) exLeaves = some exJ := by decide +kernel
example : exJ.height = 15 ∧ exJ.offset = 10 ∧ exJ.roots.map Option.isSome = [true, false, true] := by decide +kernel
-- leaf 2 (height 13) with its witness, at the current height
def exW : List Bytes := [exHash 4, exH (exHash 1 ++ exHash 2)]
example : verify exH exJ exW (exHash 3) 13 15 = .ok := by decide +kernel
example : verify exH exJ exW (exHash 4) 14 15 = .bad := by decide +kernel
example : verify exH exJ [] (exHash 5) 3 15 = .ok := by decide +kernel
example : verify exH exJ exW (exHash 3) 13 14 = .old := by decide +kernel
-- two roots at most: the oldest leaves are dropped
example : (addAll exH { init 10 with rootSize := 2 } exLeaves).map (fun j => (j.height, j.offset, j.roots.map Option.isSome)) =
    some (15, 12, [true, true]) := by decide +kernel

end Verif.JavaMta
