import Verif.Mbt
/-!
Lemmas on the Merkle binary tree model: honest trees (possibly with collapsed subtrees), lists of aligned blocks.
-/
namespace Verif.Mbt
open Verif Verif.Merkle

/-! ### configurations -/

theorem halvings_eq (n : Nat) : halvings n = if n = 0 then 0 else Nat.log2 n + 1 := by
  induction n using Nat.strongRecOn with
  | ind n ih =>
    rw [halvings]
    by_cases h : n = 0
    · simp [h]
    · rw [if_neg h, if_neg h, ih (n / 2) (by omega)]
      by_cases h2 : n / 2 = 0
      · have : n = 1 := by omega
        subst this; decide
      · rw [if_neg h2]
        conv => rhs; rw [Nat.log2_def]
        rw [if_pos (by omega)]

theorem halvings_lvl {n : Nat} (h : 3 ≤ n) : 3 + halvings ((n - 1) / 4) = lvl n := by
  unfold lvl
  rw [if_neg (by omega), halvings_eq]
  by_cases h4 : (n - 1) / 4 = 0
  · rw [if_pos h4]
    have : Nat.log2 (n - 1) = 1 := log2_unique (by omega) (by omega)
    omega
  · rw [if_neg h4]
    have e : Nat.log2 (n - 1) = Nat.log2 ((n - 1) / 4) + 2 := by
      rw [Nat.log2_def, if_pos (by omega), Nat.log2_def, if_pos (by omega), Nat.div_div_eq_div_mul]
    omega

/-- What the two configurations have in common below the limit `M`. -/
structure CfgOk (cfg : Cfg) (M : Nat) : Prop where
  ntl : ∀ n : Nat, 1 ≤ n → n < M → cfg.ntl n = lvl n
  wrap : ∀ n : Nat, n < M → cfg.wrap n = n
  shl : ∀ k : Nat, 2 ^ k < M → cfg.shl k = 2 ^ k
  shl' : ∀ k : Nat, 2 ^ k < 2 * M → ¬ 2 ^ k < M → cfg.shl k ≤ 0

theorem ntl_go (n : Nat) (h1 : 1 ≤ n) : goNumberToLevel n = lvl n := by
  unfold goNumberToLevel
  rw [if_neg (by omega)]
  by_cases h : n = 1
  · subst h; rfl
  · rw [if_neg (by omega)]
    by_cases h2 : n = 2
    · subst h2; rfl
    · rw [if_neg (by omega), ← halvings_lvl (n := n) (by omega)]
      have : Int.toNat (((n : Int) - 1) / 4) = (n - 1) / 4 := by omega
      rw [this]; simp

theorem ntl_java (n : Nat) (h1 : 1 ≤ n) : javaNumberToLevel n = lvl n := by
  unfold javaNumberToLevel
  by_cases h : n ≤ 2
  · rw [if_pos (by omega)]
    have : n = 1 ∨ n = 2 := by omega
    rcases this with rfl | rfl <;> rfl
  · rw [if_neg (by omega), ← halvings_lvl (n := n) (by omega)]
    have : Int.toNat (((n : Int) - 1) / 4) = (n - 1) / 4 := by omega
    rw [this]; simp

theorem castPow2 (k : Nat) : ((2 ^ k : Nat) : Int) = 2 ^ k := by simp

theorem goOk : CfgOk goCfg (2 ^ 63) where
  ntl := fun n h1 _ => ntl_go n h1
  wrap := fun n h => by show i64 n = n; unfold i64; omega
  shl := fun k h => by
    show (if (k : Int) < 0 then 0 else i64 (2 ^ (k : Int).toNat)) = 2 ^ k
    rw [if_neg (by omega), Int.toNat_natCast, ← castPow2]
    generalize (2 ^ k : Nat) = x at *
    unfold i64; omega
  shl' := fun k h1 h2 => by
    show (if (k : Int) < 0 then 0 else i64 (2 ^ (k : Int).toNat)) ≤ 0
    rw [if_neg (by omega), Int.toNat_natCast, ← castPow2]
    generalize (2 ^ k : Nat) = x at *
    unfold i64; omega

theorem javaOk : CfgOk javaCfg (2 ^ 31) where
  ntl := fun n h1 _ => ntl_java n h1
  wrap := fun n h => by show i32 n = n; unfold i32; omega
  shl := fun k h => by
    have hk : k < 31 := (Nat.pow_lt_pow_iff_right (a := 2) (by omega)).mp h
    show i32 (2 ^ ((k : Int) % 32).toNat) = 2 ^ k
    have : ((k : Int) % 32).toNat = k := by omega
    rw [this, ← castPow2]
    clear this hk
    generalize (2 ^ k : Nat) = x at *
    unfold i32; omega
  shl' := fun k h1 h2 => by
    have hk : k < 32 := (Nat.pow_lt_pow_iff_right (a := 2) (by omega)).mp (by omega)
    show i32 (2 ^ ((k : Int) % 32).toNat) ≤ 0
    have : ((k : Int) % 32).toNat = k := by omega
    rw [this, ← castPow2]
    clear this hk
    generalize (2 ^ k : Nat) = x at *
    unfold i32; omega

/-! ### honest trees -/

/-- The node stands for the honest tree over the leaf hashes `hs`, some subtrees being collapsed into opaque leaves.
With `b` the inner hashes are filled in, otherwise they are empty. -/
def Good (b : Bool) (H : Bytes → Bytes) : Node → List Bytes → Prop
  | .leaf h lev num, hs => hs ≠ [] ∧ num = hs.length ∧ lev = lvl hs.length ∧ h = mroot H hs
  | .br l r h lev num, hs => 2 ≤ hs.length ∧ num = hs.length ∧ lev = lvl hs.length ∧
      h = (if b then mroot H hs else []) ∧
      Good b H l (hs.take (split hs.length)) ∧ Good b H r (hs.drop (split hs.length))

/-- Every opaque leaf on the right spine is a full subtree. -/
def RFull : Node → Prop
  | .leaf _ _ num => ∃ k : Nat, num = 2 ^ k
  | .br _ r _ _ _ => RFull r

/-- No collapsed subtrees. -/
def Fine : Node → Prop
  | .leaf _ lev _ => lev = 1
  | .br l r _ _ _ => Fine l ∧ Fine r

theorem Good.facts {b : Bool} {H : Bytes → Bytes} {t : Node} {hs : List Bytes} (h : Good b H t hs) :
    hs ≠ [] ∧ t.num = hs.length ∧ t.lev = lvl hs.length := by
  cases t with
  | leaf h' lev num => exact ⟨h.1, h.2.1, h.2.2.1⟩
  | br l r h' lev num =>
    have h1 : 2 ≤ hs.length := h.1
    exact ⟨by intro h0; rw [h0] at h1; simp at h1, h.2.1, h.2.2.1⟩

theorem Good.len_pos {b : Bool} {H : Bytes → Bytes} {t : Node} {hs : List Bytes} (h : Good b H t hs) : 1 ≤ hs.length :=
  List.length_pos_iff.mpr h.facts.1

theorem Good.lev_ne {b : Bool} {H : Bytes → Bytes} {t : Node} {hs : List Bytes} (h : Good b H t hs) : t.lev ≠ 0 := by
  rw [h.facts.2.2]; have := lvl_pos h.len_pos; omega

theorem gap {d n N : Nat} (h1 : d ∣ n) (h2 : d ∣ N) (h : n < N) : n + d ≤ N := by
  have := Nat.le_of_dvd (by omega) (Nat.dvd_sub h2 h1)
  omega

/-- Putting a block next to a full subtree. -/
theorem good_wrap (H : Bytes → Bytes) (t : Node) (hs1 hs2 : List Bytes) (k : Nat) (hg : Good false H t hs1)
    (hk : hs1.length = 2 ^ k) (hne : hs2 ≠ []) (hle : hs2.length ≤ 2 ^ k) (lev num : Int)
    (hlev : lev = t.lev + 1) (hnum : num = t.num + hs2.length) :
    Good false H (.br t (.leaf (mroot H hs2) (lvl hs2.length) hs2.length) [] lev num) (hs1 ++ hs2) := by
  have h2 : 1 ≤ hs2.length := List.length_pos_iff.mpr hne
  have hk1 := Nat.one_le_two_pow (n := k)
  obtain ⟨f1, f2, f3⟩ := hg.facts
  have hu := split_unique (n := (hs1 ++ hs2).length) (k := k) (by simp; omega) (by rw [Nat.pow_succ]; simp; omega)
  have hsp : split (hs1 ++ hs2).length = hs1.length := by rw [hu.1, hk]
  refine ⟨by simp; omega, by rw [hnum, f2]; simp, ?_, rfl, ?_, ?_⟩
  · rw [hlev, f3, hk, lvl_pow, hu.2]; simp; omega
  · rw [hsp]; simpa using hg
  · rw [hsp]; simp only [List.drop_left]; exact ⟨hne, rfl, rfl, rfl⟩

theorem lazyAdd_good (cfg : Cfg) (M : Nat) (hc : CfgOk cfg M) (H : Bytes → Bytes) (t : Node) (hs1 hs2 : List Bytes)
    (hg : Good false H t hs1) (hf : RFull t) (hne : hs2 ≠ []) (j : Nat) (hj : 2 ^ j ∣ hs1.length)
    (hle : hs2.length ≤ 2 ^ j) (hM : hs1.length + hs2.length < M) :
    Good false H (t.lazyAdd cfg hs2.length (mroot H hs2)) (hs1 ++ hs2) ∧
      ((∃ k : Nat, hs2.length = 2 ^ k) → RFull (t.lazyAdd cfg hs2.length (mroot H hs2))) := by
  have h2 : 1 ≤ hs2.length := List.length_pos_iff.mpr hne
  induction t generalizing hs1 with
  | leaf h lev num =>
    obtain ⟨f1, f2, f3⟩ := hg.facts
    have hl := hg.lev_ne
    simp only [Node.lev, Node.num] at hl f2 f3
    obtain ⟨k, hk⟩ := hf
    have hk' : hs1.length = 2 ^ k := by rw [f2] at hk; have := castPow2 k; omega
    rw [Node.lazyAdd, if_neg hl, hc.ntl _ h2 (by omega)]
    refine ⟨?_, fun ⟨k', hk'⟩ => ⟨k', by rw [hk']; simp⟩⟩
    apply good_wrap H _ hs1 hs2 k hg hk' hne _ _ _ rfl
    · simp only [Node.num, f2]
      have := hc.wrap (hs1.length + hs2.length) hM
      simpa using this
    · have : 2 ^ j ≤ hs1.length := Nat.le_of_dvd (by have := hg.len_pos; omega) hj
      omega
  | br l r h lev num ihl ihr =>
    obtain ⟨f1, f2, f3⟩ := hg.facts
    have hl := hg.lev_ne
    simp only [Node.lev, Node.num] at hl f2 f3
    have hg' := hg
    obtain ⟨g1, g2, g3, g4, g5, g6⟩ := hg
    have hlt := split_lt g1
    have hle2 := le_split g1
    have nl := g5.facts.2.1
    have nr := g6.facts.2.1
    rw [List.length_take] at nl
    rw [List.length_drop] at nr
    have hw : cfg.wrap (num + hs2.length) = ((hs1.length + hs2.length : Nat) : Int) := by
      have := hc.wrap (hs1.length + hs2.length) hM
      rw [f2]; simpa using this
    rw [Node.lazyAdd, if_neg hl]
    by_cases heq : l.num ≠ r.num
    · rw [if_pos heq, hw]
      have hrlt : hs1.length < 2 * split hs1.length := by omega
      have hjle : 2 ^ j ∣ split hs1.length ∧ 2 ^ j ∣ 2 * split hs1.length := by
        unfold split at hrlt ⊢
        have hjk : j ≤ Nat.log2 (hs1.length - 1) := by
          apply Classical.byContradiction
          intro hlt'
          have : 2 ^ (Nat.log2 (hs1.length - 1) + 1) ∣ 2 ^ j := Nat.pow_dvd_pow 2 (by omega)
          have := Nat.le_of_dvd (by omega) (Nat.dvd_trans this hj)
          rw [Nat.pow_succ] at this; omega
        have := Nat.pow_dvd_pow 2 hjk
        exact ⟨this, Nat.dvd_trans this (Nat.dvd_mul_left _ _)⟩
      have hg2 := gap hj hjle.2 hrlt
      have hu := split_unique (n := (hs1 ++ hs2).length) (k := Nat.log2 (hs1.length - 1))
        (by show split hs1.length < _; simp; omega) (by rw [Nat.pow_succ]; show _ ≤ split hs1.length * 2; simp; omega)
      have hsp : split (hs1 ++ hs2).length = split hs1.length := hu.1
      obtain ⟨i1, i2⟩ := ihr (hs1.drop (split hs1.length)) g6 hf
        (by rw [List.length_drop]; exact Nat.dvd_sub hj hjle.1) (by rw [List.length_drop]; omega)
      refine ⟨⟨by simp; omega, by simp, ?_, g4, ?_, ?_⟩, i2⟩
      · rw [hu.2, f3, lvl, if_neg (by omega)]
      · rw [hsp, List.take_append_of_le_length (by omega)]; exact g5
      · rw [hsp, List.drop_append_of_le_length (by omega)]; exact i1
    · rw [if_neg heq, hw, hc.ntl _ h2 (by omega)]
      have hn2 : hs1.length = 2 ^ (Nat.log2 (hs1.length - 1) + 1) := by
        rw [Nat.pow_succ]; show _ = split hs1.length * 2; omega
      refine ⟨?_, fun ⟨k', hk'⟩ => ⟨k', by rw [hk']; simp⟩⟩
      apply good_wrap H _ hs1 hs2 _ hg' hn2 hne _ _ _ rfl
      · simp only [Node.num, f2]; simp
      · have : 2 ^ j ≤ hs1.length := Nat.le_of_dvd (by omega) hj
        omega

/-- A list of segments starting at position `p`, each fitting into an aligned slot; all but the last are full. -/
def Chain : Nat → List (List Bytes) → Prop
  | _, [] => True
  | p, s :: rest => s ≠ [] ∧ (∃ j, 2 ^ j ∣ p ∧ s.length ≤ 2 ^ j) ∧ (rest = [] ∨ ∃ k : Nat, s.length = 2 ^ k) ∧
      Chain (p + s.length) rest

/-- All segments are full and aligned. -/
def PChain : Nat → List (List Bytes) → Prop
  | _, [] => True
  | p, s :: rest => (∃ k : Nat, s.length = 2 ^ k ∧ 2 ^ k ∣ p) ∧ PChain (p + s.length) rest

/-- The proof node of a segment. -/
def blk (H : Bytes → Bytes) (s : List Bytes) : ProofNode := ⟨s.length, mroot H s⟩

def addSegs (cfg : Cfg) (H : Bytes → Bytes) (t : Node) (segs : List (List Bytes)) : Node :=
  segs.foldl (fun n s => Node.lazyAdd cfg n s.length (mroot H s)) t

theorem addSegs_good (cfg : Cfg) (M : Nat) (hc : CfgOk cfg M) (H : Bytes → Bytes) (segs : List (List Bytes)) (t : Node)
    (hs : List Bytes) (hg : Good false H t hs) (hf : RFull t ∨ segs = []) (hch : Chain hs.length segs)
    (hM : (hs ++ segs.flatten).length < M) : Good false H (addSegs cfg H t segs) (hs ++ segs.flatten) := by
  induction segs generalizing t hs with
  | nil => simpa [addSegs] using hg
  | cons s rest ih =>
    obtain ⟨c1, ⟨j, c2, c3⟩, c4, c5⟩ := hch
    have hf' : RFull t := by rcases hf with h | h; exact h; simp at h
    have hM' : hs.length + s.length + rest.flatten.length < M := by simpa [Nat.add_assoc] using hM
    obtain ⟨a1, a2⟩ := lazyAdd_good cfg M hc H t hs s hg hf' c1 j c2 c3 (by omega)
    have := ih (t.lazyAdd cfg s.length (mroot H s)) (hs ++ s) a1
      (by rcases c4 with h | h; exact Or.inr h; exact Or.inl (a2 h)) (by simpa using c5)
      (by rw [List.length_append, List.length_append]; omega)
    simpa [addSegs, List.append_assoc] using this

theorem addSegs_init (cfg : Cfg) (M : Nat) (hc : CfgOk cfg M) (H : Bytes → Bytes) (segs : List (List Bytes))
    (hne : segs ≠ []) (hch : Chain 0 segs) (hM : segs.flatten.length < M) :
    Good false H (addSegs cfg H Node.init segs) segs.flatten := by
  cases segs with
  | nil => exact absurd rfl hne
  | cons s rest =>
    obtain ⟨c1, ⟨j, c2, c3⟩, c4, c5⟩ := hch
    have h2 : 1 ≤ s.length := List.length_pos_iff.mpr c1
    have hM' : s.length + rest.flatten.length < M := by simpa using hM
    have e : Node.init.lazyAdd cfg s.length (mroot H s) = .leaf (mroot H s) (lvl s.length) s.length := by
      simp [Node.init, Node.lazyAdd, hc.ntl _ h2 (by omega)]
    have hg : Good false H (.leaf (mroot H s) (lvl s.length) s.length) s := ⟨c1, rfl, rfl, rfl⟩
    have := addSegs_good cfg M hc H rest _ s hg
      (by rcases c4 with h | ⟨k, h⟩; exact Or.inr h; exact Or.inl ⟨k, by rw [h]; simp⟩) (by simpa using c5) (by simpa using hM)
    simp only [addSegs, List.foldl_cons, List.flatten_cons] at this ⊢
    rw [e]
    exact this

theorem lazyAdd_fine (cfg : Cfg) (h1 : cfg.ntl 1 = 1) (t : Node) (x : Bytes) (hf : Fine t ∨ t = Node.init) :
    Fine (t.lazyAdd cfg 1 x) := by
  rcases hf with hf | rfl
  · induction t with
    | leaf h lev num =>
      rw [Node.lazyAdd]
      split
      · exact h1
      · exact ⟨hf, h1⟩
    | br l r h lev num ihl ihr =>
      rw [Node.lazyAdd]
      split
      · exact hf
      · split
        · exact ⟨hf.1, ihr hf.2⟩
        · exact ⟨hf, h1⟩
  · simp [Node.init, Node.lazyAdd, Fine, h1]

theorem Good.ensureHash (H : Bytes → Bytes) (hH : ∀ x, H x ≠ []) (t : Node) (hs : List Bytes)
    (hg : Good false H t hs) (hl : ∀ h ∈ hs, h ≠ []) :
    ∃ t', t.ensureHash H = some t' ∧ Good true H t' hs ∧ t'.h = mroot H hs ∧ (Fine t → Fine t') := by
  induction t generalizing hs with
  | leaf h lev num =>
    obtain ⟨g1, g2, g3, g4⟩ := hg
    refine ⟨.leaf h lev num, ?_, ⟨g1, g2, g3, g4⟩, g4, id⟩
    have := mroot_ne_nil H hH hs g1 hl
    rw [← g4] at this
    simp [Node.ensureHash, this]
  | br l r h lev num ihl ihr =>
    obtain ⟨g1, g2, g3, g4, g5, g6⟩ := hg
    obtain ⟨l', l1, l2, l3, l4⟩ := ihl _ g5 (fun x hx => hl x (List.mem_of_mem_take hx))
    obtain ⟨r', r1, r2, r3, r4⟩ := ihr _ g6 (fun x hx => hl x (List.mem_of_mem_drop hx))
    have hlev : ¬ lev < 2 := by
      rw [g3, lvl, if_neg (by omega)]; omega
    have hh : H (l'.h ++ r'.h) = mroot H hs := by rw [l3, r3, ← mroot_two H hs g1]
    refine ⟨.br l' r' (H (l'.h ++ r'.h)) lev num, ?_, ⟨g1, g2, g3, by simpa using hh, l2, r2⟩, hh, fun hf => ⟨l4 hf.1, r4 hf.2⟩⟩
    rw [Node.ensureHash, if_neg hlev, if_pos (by simpa using g4), l1, r1]

theorem Good.verify (cfg : Cfg) (M : Nat) (hc : CfgOk cfg M) (b : Bool) (H : Bytes → Bytes) (t : Node) (hs : List Bytes)
    (hg : Good b H t hs) (hM : hs.length < M) : t.verify cfg = true := by
  induction t generalizing hs with
  | leaf h lev num =>
    obtain ⟨g1, g2, g3, g4⟩ := hg
    have h1 : 1 ≤ hs.length := List.length_pos_iff.mpr g1
    rw [Node.verify]
    split
    · rename_i hlev
      have : lvl hs.length = 1 := by omega
      unfold lvl at this
      split at this
      · simp; omega
      · omega
    · rfl
  | br l r h lev num ihl ihr =>
    obtain ⟨g1, g2, g3, g4, g5, g6⟩ := hg
    have hlt := split_lt g1
    have hle := le_split g1
    have ltake : (hs.take (split hs.length)).length = split hs.length := by simp; omega
    have ldrop : (hs.drop (split hs.length)).length = hs.length - split hs.length := by simp
    rw [Node.verify, ihl _ g5 (by omega), ihr _ g6 (by omega)]
    have hl : l.lev = lvl (split hs.length) := by rw [g5.facts.2.2, ltake]
    have hr : r.lev = lvl (hs.length - split hs.length) := by rw [g6.facts.2.2, ldrop]
    have hn : l.num = (split hs.length : Nat) := by rw [g5.facts.2.1, ltake]
    have hmono := lvl_mono (show hs.length - split hs.length ≤ split hs.length by omega)
    have hlev : ¬ lev = 1 := by rw [g3, lvl, if_neg (by omega)]; omega
    have hshl : cfg.shl (l.lev - 1) = l.num := by
      rw [hl, hn]
      unfold split
      rw [lvl_pow]
      have := hc.shl (Nat.log2 (hs.length - 1)) (by show split hs.length < M; omega)
      simpa using this
    rw [if_neg hlev, hshl, decide_eq_true (show r.lev ≤ l.lev by rw [hr, hl]; omega)]
    simp

end Verif.Mbt
