import Verif.RlpLemmas
import Verif.MbtSound
/-!
Specification of the block data of a BTP network as both block verifiers see it: network sections and their hash chain,
the signed decision, and the path from a section hash to the root over all networks of a type. The encodings are those
of /repo/javascore/bmv/btpblock/src/main/java/foundation/icon/btp/bmv/btpblock/{NetworkSection,NetworkTypeSection,
NetworkTypeSectionDecision}.java with the SCORE's `RLPn` writer taken to be the relay codec (integers as shortest two's
complement, null as f8 00); the Solidity encoders are proved equal to them in SolBtpBlockProps.
-/
namespace Verif.BtpBlock
open Verif Verif.IntConv Verif.Rlp Verif.Merkle

/-- NetworkSection.java:26-30. -/
structure Sec where
  nid : Int
  upd : Int
  prev : Option Bytes
  cnt : Int
  root : Option Bytes
deriving DecidableEq

/-- `w.write(BigInteger)`. -/
def wInt (n : Int) : Bytes := wBytes (bigIntToBytes n)

/-- `w.writeNullable(byte[])`. -/
def wNul : Option Bytes → Bytes
  | none => nullSeq
  | some b => wBytes b

/-- NetworkSection.java:46-54. -/
def secBytes (s : Sec) : Bytes :=
  wList (wInt s.nid ++ (wInt s.upd ++ (wNul s.prev ++ (wInt s.cnt ++ (wNul s.root ++ [])))))

/-- NetworkTypeSection.java:54-59. -/
def ntsBytes (npch : Option Bytes) (root : Bytes) : Bytes := wList (wNul npch ++ (wBytes root ++ []))

/-- NetworkTypeSectionDecision.java:64-72. -/
def decBytes (src : Bytes) (ty height round : Int) (nts : Bytes) : Bytes :=
  wList (wBytes src ++ (wInt ty ++ (wInt height ++ (wInt round ++ (wBytes nts ++ [])))))

/-! ### the encodings are injective -/

theorem wBytes_cancel {a b r s : Bytes} (h : wBytes a ++ r = wBytes b ++ s) (ha : a.length < 2 ^ 63) (hb : b.length < 2 ^ 63) :
    a = b ∧ r = s := by
  have h1 := readBytes_wBytes (2 ^ 63 - 1) a r (by omega) (by omega)
  have h2 := readBytes_wBytes (2 ^ 63 - 1) b s (by omega) (by omega)
  rw [h, h2] at h1
  simp only [Res.ok.injEq] at h1
  exact ⟨h1.1.symm, h1.2.symm⟩

theorem wList_inj {a b : Bytes} (h : wList a = wList b) (ha : a.length < 2 ^ 63) (hb : b.length < 2 ^ 63) : a = b := by
  have h1 := readList_wList a [] ha
  have h2 := readList_wList b [] hb
  rw [h, h2] at h1
  simp only [Res.ok.injEq, and_true] at h1
  exact h1.symm

theorem wInt_cancel {a b : Int} {r s : Bytes} (h : wInt a ++ r = wInt b ++ s) (ha : (wInt a).length < 2 ^ 63)
    (hb : (wInt b).length < 2 ^ 63) : a = b ∧ r = s := by
  have la := wBytes_len (bigIntToBytes a)
  have lb := wBytes_len (bigIntToBytes b)
  unfold wInt at *
  obtain ⟨h1, h2⟩ := wBytes_cancel h (by omega) (by omega)
  refine ⟨?_, h2⟩
  have h3 := (C04_bigInt_roundtrip a).1
  rw [h1, (C04_bigInt_roundtrip b).1] at h3
  exact h3.symm

theorem wNul_cancel {a b : Option Bytes} {r s : Bytes} (h : wNul a ++ r = wNul b ++ s) (ha : (wNul a).length < 2 ^ 63)
    (hb : (wNul b).length < 2 ^ 63) : a = b ∧ r = s := by
  cases a with
  | none =>
    cases b with
    | none => exact ⟨rfl, List.append_cancel_left h⟩
    | some b =>
      have lb := wBytes_len b
      simp only [wNul] at *
      have h1 := readBytes_wBytes (2 ^ 63 - 1) b s (by omega) (by omega)
      rw [← h, readBytes_null] at h1
      simp at h1
  | some a =>
    have la := wBytes_len a
    cases b with
    | none =>
      simp only [wNul] at *
      have h1 := readBytes_wBytes (2 ^ 63 - 1) a r (by omega) (by omega)
      rw [h, readBytes_null] at h1
      simp at h1
    | some b =>
      have lb := wBytes_len b
      simp only [wNul] at *
      obtain ⟨h1, h2⟩ := wBytes_cancel h (by omega) (by omega)
      exact ⟨by rw [h1], h2⟩

theorem sec_inj {a b : Sec} (h : secBytes a = secBytes b) (hl : (secBytes a).length < 2 ^ 63) : a = b := by
  have hl' := h ▸ hl
  have l1 := wList_len (wInt a.nid ++ (wInt a.upd ++ (wNul a.prev ++ (wInt a.cnt ++ (wNul a.root ++ [])))))
  have l2 := wList_len (wInt b.nid ++ (wInt b.upd ++ (wNul b.prev ++ (wInt b.cnt ++ (wNul b.root ++ [])))))
  unfold secBytes at h hl hl'
  have h0 := wList_inj h (by omega) (by omega)
  simp only [List.length_append] at l1 l2
  obtain ⟨e1, h1⟩ := wInt_cancel h0 (by omega) (by omega)
  obtain ⟨e2, h2⟩ := wInt_cancel h1 (by omega) (by omega)
  obtain ⟨e3, h3⟩ := wNul_cancel h2 (by omega) (by omega)
  obtain ⟨e4, h4⟩ := wInt_cancel h3 (by omega) (by omega)
  obtain ⟨e5, _⟩ := wNul_cancel h4 (by omega) (by omega)
  cases a; cases b
  simp_all

theorem nts_inj {n n' : Option Bytes} {r r' : Bytes} (h : ntsBytes n r = ntsBytes n' r') (hl : (ntsBytes n r).length < 2 ^ 63) :
    n = n' ∧ r = r' := by
  have hl' := h ▸ hl
  have l1 := wList_len (wNul n ++ (wBytes r ++ []))
  have l2 := wList_len (wNul n' ++ (wBytes r' ++ []))
  have l3 := wBytes_len r
  have l4 := wBytes_len r'
  unfold ntsBytes at h hl hl'
  have h0 := wList_inj h (by omega) (by omega)
  simp only [List.length_append] at l1 l2
  obtain ⟨e1, h1⟩ := wNul_cancel h0 (by omega) (by omega)
  exact ⟨e1, (wBytes_cancel h1 (by omega) (by omega)).1⟩

theorem dec_inj {s s' : Bytes} {t t' g g' o o' : Int} {n n' : Bytes} (h : decBytes s t g o n = decBytes s' t' g' o' n')
    (hl : (decBytes s t g o n).length < 2 ^ 63) : s = s' ∧ t = t' ∧ g = g' ∧ o = o' ∧ n = n' := by
  have hl' := h ▸ hl
  have l1 := wList_len (wBytes s ++ (wInt t ++ (wInt g ++ (wInt o ++ (wBytes n ++ [])))))
  have l2 := wList_len (wBytes s' ++ (wInt t' ++ (wInt g' ++ (wInt o' ++ (wBytes n' ++ [])))))
  have l3 := wBytes_len s
  have l4 := wBytes_len s'
  have l5 := wBytes_len n
  have l6 := wBytes_len n'
  unfold decBytes at h hl hl'
  have h0 := wList_inj h (by omega) (by omega)
  simp only [List.length_append] at l1 l2
  obtain ⟨e1, h1⟩ := wBytes_cancel h0 (by omega) (by omega)
  obtain ⟨e2, h2⟩ := wInt_cancel h1 (by omega) (by omega)
  obtain ⟨e3, h3⟩ := wInt_cancel h2 (by omega) (by omega)
  obtain ⟨e4, h4⟩ := wInt_cancel h3 (by omega) (by omega)
  exact ⟨e1, e2, e3, e4, (wBytes_cancel h4 (by omega) (by omega)).1⟩

/-! ### the honest chain -/

/-- One block of a BTP network: whether the validators change after it, and its messages. -/
structure Block where
  flag : Bool
  msgs : List Bytes

/-- The section of a block whose first message has number `sn`. -/
def secOf (H : Bytes → Bytes) (nid : Int) (prev : Option Bytes) (sn : Nat) (b : Block) : Sec :=
  ⟨nid, 2 * sn + (if b.flag then 1 else 0), prev, b.msgs.length,
    if b.msgs = [] then none else some (mroot H (b.msgs.map H))⟩

/-- The sections of a chain of blocks. -/
def chain (H : Bytes → Bytes) (nid : Int) : Option Bytes → Nat → List Block → List Sec
  | _, _, [] => []
  | prev, sn, b :: t =>
    secOf H nid prev sn b :: chain H nid (some (H (secBytes (secOf H nid prev sn b)))) (sn + b.msgs.length) t

/-- Each section names the hash of the one before it, the first one names `prev`. -/
def Linked (H : Bytes → Bytes) : Option Bytes → List Sec → Prop
  | _, [] => True
  | prev, s :: t => s.prev = prev ∧ Linked H (some (H (secBytes s))) t

/-- Hash of the last section. -/
def tip (H : Bytes → Bytes) : Option Bytes → List Sec → Option Bytes
  | prev, [] => prev
  | _, s :: t => tip H (some (H (secBytes s))) t

theorem chain_linked (H : Bytes → Bytes) (nid : Int) (prev : Option Bytes) (sn : Nat) (bs : List Block) :
    Linked H prev (chain H nid prev sn bs) := by
  induction bs generalizing prev sn with
  | nil => trivial
  | cons b t ih => exact ⟨rfl, ih _ _⟩

theorem linked_append {H : Bytes → Bytes} {prev : Option Bytes} {a b : List Sec} :
    Linked H prev (a ++ b) ↔ Linked H prev a ∧ Linked H (tip H prev a) b := by
  induction a generalizing prev with
  | nil => simp [Linked, tip]
  | cons s t ih =>
    simp only [List.cons_append, Linked, tip, ih]
    exact ⟨fun ⟨h1, h2, h3⟩ => ⟨⟨h1, h2⟩, h3⟩, fun ⟨⟨h1, h2⟩, h3⟩ => ⟨h1, h2, h3⟩⟩

theorem tip_append {H : Bytes → Bytes} {prev : Option Bytes} {a b : List Sec} : tip H prev (a ++ b) = tip H (tip H prev a) b := by
  induction a generalizing prev with
  | nil => rfl
  | cons s t ih => exact ih

theorem tip_snoc {H : Bytes → Bytes} {prev : Option Bytes} {a : List Sec} {s : Sec} :
    tip H prev (a ++ [s]) = some (H (secBytes s)) := by rw [tip_append]; rfl

/-- Two hash chains from the start with the same last hash are equal, or two different sections have the same hash. -/
theorem linked_unique (H : Bytes → Bytes) (a b : List Sec) (ha : Linked H none a) (hb : Linked H none b)
    (hl : ∀ s ∈ a, (secBytes s).length < 2 ^ 63) (ht : tip H none a = tip H none b) :
    Mbt.Collision H (a.map secBytes) (b.map secBytes) ∨ a = b := by
  generalize hn : a.length = n
  induction n generalizing a b with
  | zero =>
    have : a = [] := List.length_eq_zero_iff.mp hn
    subst this
    rcases List.eq_nil_or_concat b with rfl | ⟨b', s, rfl⟩
    · exact Or.inr rfl
    · rw [List.concat_eq_append, tip_snoc] at ht
      simp [tip] at ht
  | succ n ih =>
    rcases List.eq_nil_or_concat a with rfl | ⟨a', s, rfl⟩
    · simp at hn
    · rw [List.concat_eq_append] at *
      rcases List.eq_nil_or_concat b with rfl | ⟨b', s', rfl⟩
      · rw [tip_snoc] at ht; simp [tip] at ht
      · rw [List.concat_eq_append] at *
        rw [tip_snoc, tip_snoc, Option.some.injEq] at ht
        by_cases hs : secBytes s = secBytes s'
        · have hss := sec_inj hs (hl s (by simp))
          subst hss
          obtain ⟨la, ⟨pa, _⟩⟩ := linked_append.mp ha
          obtain ⟨lb, ⟨pb, _⟩⟩ := linked_append.mp hb
          rcases ih a' b' la lb (fun x hx => hl x (by simp [hx])) (by rw [← pa, ← pb]) (by simpa using hn) with h | h
          · obtain ⟨x, hx, y, hy, hxy⟩ := h
            refine Or.inl ⟨x, ?_, y, ?_, hxy⟩
            · rw [List.map_append]; simp only [List.mem_append]; exact Or.inl hx
            · rw [List.map_append]; simp only [List.mem_append]; exact Or.inl hy
          · exact Or.inr (by rw [h])
        · exact Or.inl ⟨secBytes s, by simp, secBytes s', by simp, hs, ht⟩

/-! ### paths over the networks of a type -/

/-- The path from leaf `i` to the root over `hs`: sibling hashes from the bottom up, `true` if the sibling is on the right. -/
def spath (H : Bytes → Bytes) : Nat → List Bytes → Nat → List (Bool × Bytes)
  | 0, _, _ => []
  | f + 1, hs, i =>
    if hs.length ≤ 1 then []
    else if i < split hs.length then
      spath H f (hs.take (split hs.length)) i ++ [(true, mroot H (hs.drop (split hs.length)))]
    else spath H f (hs.drop (split hs.length)) (i - split hs.length) ++ [(false, mroot H (hs.take (split hs.length)))]

/-- The root that a leaf and a path lead to. -/
def climb (H : Bytes → Bytes) (leaf : Bytes) (p : List (Bool × Bytes)) : Bytes :=
  p.foldl (fun h n => if n.1 then H (h ++ n.2) else H (n.2 ++ h)) leaf

theorem climb_snoc (H : Bytes → Bytes) (leaf : Bytes) (p : List (Bool × Bytes)) (n : Bool × Bytes) :
    climb H leaf (p ++ [n]) = if n.1 then H (climb H leaf p ++ n.2) else H (n.2 ++ climb H leaf p) := by
  simp [climb]

theorem climb_spath (H : Bytes → Bytes) (f : Nat) (hs : List Bytes) (hf : hs.length ≤ f) (i : Nat) (leaf : Bytes)
    (hi : hs[i]? = some leaf) : climb H leaf (spath H f hs i) = mroot H hs := by
  induction f generalizing hs i with
  | zero =>
    have : hs = [] := List.length_eq_zero_iff.mp (by omega)
    subst this; simp at hi
  | succ f ih =>
    have hlt : i < hs.length := by
      rcases Nat.lt_or_ge i hs.length with h | h
      · exact h
      · rw [List.getElem?_eq_none h] at hi; simp at hi
    unfold spath
    by_cases h1 : hs.length ≤ 1
    · rw [if_pos h1]
      match hs, h1, hlt with
      | [x], _, hlt =>
        have : i = 0 := by simp at hlt; exact hlt
        subst this
        simp at hi
        subst hi
        simp [climb, mroot_one]
    · have s1 := split_lt (n := hs.length) (by omega)
      have s2 := split_pos hs.length
      rw [if_neg h1, mroot_two H hs (by omega)]
      by_cases h2 : i < split hs.length
      · rw [if_pos h2, climb_snoc, ih (hs.take (split hs.length)) (by simp; omega) i (by
          rw [List.getElem?_take, if_pos h2]; exact hi)]
        rfl
      · rw [if_neg h2, climb_snoc, ih (hs.drop (split hs.length)) (by simp; omega) (i - split hs.length) (by
          rw [List.getElem?_drop, show split hs.length + (i - split hs.length) = i by omega]; exact hi)]
        rfl

/-- The strings hashed while climbing. -/
def climbCalls (H : Bytes → Bytes) : Bytes → List (Bool × Bytes) → List Bytes
  | _, [] => []
  | h, n :: t =>
    (if n.1 then h ++ n.2 else n.2 ++ h) :: climbCalls H (if n.1 then H (h ++ n.2) else H (n.2 ++ h)) t

/-- All subtree roots of the tree over `hs`. -/
def nodes (H : Bytes → Bytes) (hs : List Bytes) : List Bytes := hs ++ (inputs H hs).map H

theorem mroot_mem_nodes (H : Bytes → Bytes) (hs : List Bytes) (h : hs ≠ []) : mroot H hs ∈ nodes H hs := by
  match hs with
  | [] => exact absurd rfl h
  | [x] => rw [mroot_one]; simp [nodes]
  | a :: b :: t =>
    rw [mroot_two H _ (by simp), nodes, inputs_two H _ (by simp)]
    simp

/-- Both halves of a hashed inner node are subtree roots. -/
theorem inputs_split (H : Bytes → Bytes) (n : Nat) (hs : List Bytes) (hn : hs.length ≤ n) (x : Bytes) (hx : x ∈ inputs H hs) :
    ∃ l ∈ nodes H hs, ∃ r ∈ nodes H hs, x = l ++ r := by
  induction n generalizing hs with
  | zero =>
    have : hs = [] := List.length_eq_zero_iff.mp (by omega)
    subst this; simp [inputs] at hx
  | succ n ih =>
    match hs, hn, hx with
    | [], _, hx => simp [inputs] at hx
    | [_], _, hx => simp [inputs] at hx
    | a :: b :: t, hn, hx =>
      have h2 : 2 ≤ (a :: b :: t).length := by simp
      generalize a :: b :: t = hs at hn hx h2 ⊢
      have s1 := split_lt h2
      have s2 := split_pos hs.length
      have sub : ∀ y, y ∈ nodes H (hs.take (split hs.length)) ∨ y ∈ nodes H (hs.drop (split hs.length)) → y ∈ nodes H hs := by
        intro y hy
        unfold nodes at *
        rw [inputs_two H hs h2]
        simp only [List.mem_append, List.map_cons, List.map_append, List.mem_cons] at *
        rcases hy with (h | h) | (h | h)
        · exact Or.inl (List.mem_of_mem_take h)
        · exact Or.inr (Or.inr (Or.inl h))
        · exact Or.inl (List.mem_of_mem_drop h)
        · exact Or.inr (Or.inr (Or.inr h))
      rw [inputs_two H hs h2] at hx
      simp only [List.mem_cons, List.mem_append] at hx
      rcases hx with rfl | hx | hx
      · refine ⟨_, sub _ (Or.inl (mroot_mem_nodes H _ ?_)), _, sub _ (Or.inr (mroot_mem_nodes H _ ?_)), rfl⟩
        · intro h0; have := congrArg List.length h0; rw [List.length_take, List.length_nil] at this; omega
        · intro h0; have := congrArg List.length h0; simp at this; omega
      · obtain ⟨l, hl, r, hr, e⟩ := ih (hs.take (split hs.length)) (by rw [List.length_take]; omega) hx
        exact ⟨l, sub l (Or.inl hl), r, sub r (Or.inl hr), e⟩
      · obtain ⟨l, hl, r, hr, e⟩ := ih (hs.drop (split hs.length)) (by rw [List.length_drop]; omega) hx
        exact ⟨l, sub l (Or.inr hl), r, sub r (Or.inr hr), e⟩

/-- A hash from which a path leads to the root over the section hashes is one of them or an inner node, unless a
collision shows or a section is itself the concatenation of two hashes. `xs` are the hashed sections. -/
theorem climb_sound (H : Bytes → Bytes) (L : Nat) (hH : ∀ x, (H x).length = L) (xs : List Bytes) (hx : xs ≠ [])
    (h64 : ∀ x ∈ xs, x.length ≠ L + L) (p : List (Bool × Bytes)) (hp : ∀ n ∈ p, n.2.length = L) (leaf : Bytes)
    (hl : leaf.length = L) (h : climb H leaf p = mroot H (xs.map H)) :
    Mbt.Collision H (climbCalls H leaf p) (xs ++ inputs H (xs.map H)) ∨ leaf ∈ nodes H (xs.map H) := by
  have key : ∀ (p : List (Bool × Bytes)) (leaf : Bytes), (∀ n ∈ p, n.2.length = L) → leaf.length = L →
      climb H leaf p ∈ nodes H (xs.map H) →
      Mbt.Collision H (climbCalls H leaf p) (xs ++ inputs H (xs.map H)) ∨ leaf ∈ nodes H (xs.map H) := by
    intro p
    induction p with
    | nil => intro leaf _ _ h; exact Or.inr h
    | cons n t ih =>
      intro leaf hp hl h
      have hn := hp n (by simp)
      have hcl : climb H leaf (n :: t) = climb H (if n.1 then H (leaf ++ n.2) else H (n.2 ++ leaf)) t := rfl
      rw [hcl] at h
      rcases ih _ (fun m hm => hp m (by simp [hm])) (by split <;> exact hH _) h with hc | hm
      · obtain ⟨x, h1, y, h2, h3⟩ := hc
        exact Or.inl ⟨x, by simp only [climbCalls, List.mem_cons]; exact Or.inr h1, y, h2, h3⟩
      · -- the hash of `z` is a node
        have hz : ∃ z, z ∈ climbCalls H leaf (n :: t) ∧ z.length = L + L ∧ H z ∈ nodes H (xs.map H) ∧
            (leaf = z.take L ∨ leaf = z.drop L) := by
          cases hb : n.1 with
          | true =>
            rw [hb] at hm
            refine ⟨leaf ++ n.2, by simp [climbCalls, hb], by simp; omega, hm, Or.inl ?_⟩
            rw [List.take_append_of_le_length (by omega), List.take_of_length_le (by omega)]
          | false =>
            rw [hb] at hm
            refine ⟨n.2 ++ leaf, by simp [climbCalls, hb], by simp; omega, hm, Or.inr ?_⟩
            rw [← hn, List.drop_left]
        obtain ⟨z, hz1, hz2, hz3, hz4⟩ := hz
        unfold nodes at hz3
        simp only [List.mem_append, List.mem_map] at hz3
        rcases hz3 with ⟨x, hx1, hx2⟩ | ⟨y, hy1, hy2⟩
        · exact Or.inl ⟨z, hz1, x, by simp [hx1], fun e => h64 x hx1 (e ▸ hz2), hx2.symm⟩
        · by_cases e : z = y
          · subst e
            obtain ⟨l, hl', r, hr', e⟩ := inputs_split H _ _ (Nat.le_refl _) z hy1
            have nl : ∀ w ∈ nodes H (xs.map H), w.length = L := by
              intro w hw
              unfold nodes at hw
              simp only [List.mem_append, List.mem_map] at hw
              rcases hw with ⟨_, _, rfl⟩ | ⟨_, _, rfl⟩ <;> exact hH _
            have := nl l hl'
            have := nl r hr'
            rw [e] at hz4
            refine Or.inr ?_
            rcases hz4 with h | h
            · rw [List.take_append_of_le_length (by omega), List.take_of_length_le (by omega)] at h
              exact h ▸ hl'
            · rw [show L = l.length by omega, List.drop_left] at h
              exact h ▸ hr'
          · exact Or.inl ⟨z, hz1, y, by simp [hy1], e, hy2.symm⟩
  refine key p leaf hp hl ?_
  rw [h]
  exact mroot_mem_nodes H _ (by simpa using hx)

end Verif.BtpBlock
