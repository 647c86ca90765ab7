import Verif.MbtLemmas
/-!
C11–C15: Merkle binary tree, path proofs and range proofs.
-/
namespace Verif.Mbt
open Verif Verif.Merkle

/-! ### the tree built from a list -/

theorem mapM_some (cs : List Bytes) : (cs.map some).mapM id = some cs := by
  induction cs with
  | nil => rfl
  | cons c t ih => simp [List.mapM_cons, ih]

theorem chain_append (p : Nat) (a b : List (List Bytes)) (ha : PChain p a) (hb : Chain (p + a.flatten.length) b) :
    Chain p (a ++ b) := by
  induction a generalizing p with
  | nil => simpa using hb
  | cons s rest ih =>
    obtain ⟨⟨k, h1, h2⟩, h3⟩ := ha
    have hk := Nat.one_le_two_pow (n := k)
    refine ⟨?_, ⟨k, h2, by omega⟩, Or.inr ⟨k, h1⟩, ?_⟩
    · intro h0; subst h0; simp at h1; omega
    · apply ih _ h3
      simpa [Nat.add_assoc] using hb

theorem pchain_append (p : Nat) (a b : List (List Bytes)) (ha : PChain p a) (hb : PChain (p + a.flatten.length) b) :
    PChain p (a ++ b) := by
  induction a generalizing p with
  | nil => simpa using hb
  | cons s rest ih => exact ⟨ha.1, ih _ ha.2 (by simpa [Nat.add_assoc] using hb)⟩

theorem pchain_single (p : Nat) (hs : List Bytes) : PChain p (hs.map (fun h => [h])) := by
  induction hs generalizing p with
  | nil => trivial
  | cons h t ih => exact ⟨⟨0, rfl, Nat.one_dvd _⟩, ih _⟩

theorem flatten_single (hs : List Bytes) : (hs.map (fun h => [h])).flatten = hs := by
  induction hs with
  | nil => rfl
  | cons h t ih => simp [ih]

theorem addSegs_single (cfg : Cfg) (H : Bytes → Bytes) (t : Node) (cs : List Bytes) :
    cs.foldl (fun n c => Node.lazyAdd cfg n 1 (H c)) t = addSegs cfg H t ((cs.map H).map (fun h => [h])) := by
  induction cs generalizing t with
  | nil => rfl
  | cons c cs ih => simp only [List.foldl_cons, List.map_cons, addSegs, mroot_one]; exact ih _

theorem addSegs_append (cfg : Cfg) (H : Bytes → Bytes) (t : Node) (a b : List (List Bytes)) :
    addSegs cfg H t (a ++ b) = addSegs cfg H (addSegs cfg H t a) b := by simp [addSegs]

theorem addSegs_blk (cfg : Cfg) (H : Bytes → Bytes) (t : Node) (a : List (List Bytes)) :
    (a.map (blk H)).foldl (fun n x => Node.lazyAdd cfg n x.num x.value) t = addSegs cfg H t a := by
  induction a generalizing t with
  | nil => rfl
  | cons s a ih => simp only [List.foldl_cons, List.map_cons, addSegs, blk]; exact ih _

theorem foldl_fine (cfg : Cfg) (h1 : cfg.ntl 1 = 1) (H : Bytes → Bytes) (cs : List Bytes) (t : Node)
    (hf : Fine t ∨ t = Node.init) (hne : cs ≠ [] ∨ Fine t) :
    Fine (cs.foldl (fun n c => Node.lazyAdd cfg n 1 (H c)) t) := by
  induction cs generalizing t with
  | nil => rcases hne with h | h; exact absurd rfl h; exact h
  | cons c cs ih =>
    have := lazyAdd_fine cfg h1 t (H c) hf
    exact ih _ (Or.inl this) (Or.inr this)

theorem newTree_ok (cfg : Cfg) (M : Nat) (hc : CfgOk cfg M) (H : Bytes → Bytes) (hH : ∀ x, H x ≠ []) (cs : List Bytes)
    (hne : cs ≠ []) (hM : cs.length < M) :
    ∃ r, newTree cfg H (cs.map some) = some ⟨some r, cs⟩ ∧ Good true H r (cs.map H) ∧ Fine r ∧ r.h = mroot H (cs.map H) := by
  have hn : 1 ≤ cs.length := List.length_pos_iff.mpr hne
  have hfl := flatten_single (cs.map H)
  have h1 : cfg.ntl 1 = 1 := by have := hc.ntl 1 (by omega) (by omega); simpa [lvl] using this
  have hg := addSegs_init cfg M hc H ((cs.map H).map (fun h => [h])) (by simpa using hne)
    (by have := chain_append 0 _ [] (pchain_single 0 (cs.map H)) trivial; simpa using this)
    (by rw [hfl]; simpa using hM)
  rw [hfl, ← addSegs_single] at hg
  obtain ⟨r, e1, e2, e3, e4⟩ := hg.ensureHash H hH _ _ (by simp; intro a _; exact hH a)
  refine ⟨r, ?_, e2, e4 (foldl_fine cfg h1 H cs Node.init (Or.inr rfl) (Or.inl hne)), e3⟩
  unfold newTree
  rw [mapM_some]
  match cs, hne with
  | c :: cs, _ => simp only [e1]

/-! ### C11 -/

/-- C11, the list constructor: the root is the Merkle root of the specification, for every list and hash function. -/
theorem C11_bulk_root (H : Bytes → Bytes) (hH : ∀ x, H x ≠ []) (cs : List Bytes) (hM : cs.length < 2 ^ 63) :
    ∃ t, newTree goCfg H (cs.map some) = some t ∧ t.contents = cs ∧ t.rootHash = mroot H (cs.map H) := by
  by_cases hne : cs = []
  · subst hne; exact ⟨⟨none, []⟩, by simp [newTree], rfl, by simp [Tree.rootHash, mroot]⟩
  · obtain ⟨r, h1, h2, h3, h4⟩ := newTree_ok goCfg _ goOk H hH cs hne hM
    exact ⟨_, h1, rfl, h4⟩

/-- A list containing a nil content is rejected. -/
theorem C11_nil_content (H : Bytes → Bytes) (cs : List (Option Bytes)) (h : none ∈ cs) : newTree goCfg H cs = none := by
  have : cs.mapM id = none := by
    induction cs with
    | nil => simp at h
    | cons c t ih =>
      cases c with
      | none => simp [List.mapM_cons]
      | some c => simp at h; simp [List.mapM_cons, ih h]
  simp [newTree, this]

/-- Adding the contents one after the other to an empty tree. -/
def addAll (H : Bytes → Bytes) (cs : List Bytes) : Option Tree :=
  cs.foldl (fun t c => t.bind (fun t => t.add goCfg H (some c))) (some ⟨none, []⟩)

/-- C11 is false: with eight leaves the tree grown by `Add` has another root than the one built from the list. -/
theorem C11_add_deviates :
    ∃ (H : Bytes → Bytes) (cs : List Bytes) (t u : Tree), (∀ x y, H x = H y → x = y) ∧ (∀ x, H x ≠ []) ∧
      newTree goCfg H (cs.map some) = some t ∧ addAll H cs = some u ∧ u.contents = t.contents ∧ t.rootHash ≠ u.rootHash := by
  refine ⟨fun x => 1 :: x, [[2], [3], [4], [5], [6], [7], [8], [9]], _, _, fun x y h => by simpa using h, by simp, rfl, rfl, rfl, ?_⟩
  decide +kernel

/-- Leaf hashes of a tree from left to right. -/
def leaves : Node → List Bytes
  | .leaf h _ _ => [h]
  | .br l r _ _ _ => leaves l ++ leaves r

/-- Every inner node carries the hash of its children, every leaf counts one, inner nodes the sum. -/
def Consistent (H : Bytes → Bytes) : Node → Prop
  | .leaf _ lev num => lev = 1 ∧ num = 1
  | .br l r h lev num => h = H (l.h ++ r.h) ∧ num = l.num + r.num ∧ 2 ≤ lev ∧ Consistent H l ∧ Consistent H r

theorem consistent_num (H : Bytes → Bytes) (t : Node) (h : Consistent H t) : t.num = (leaves t).length ∧ 1 ≤ t.lev := by
  induction t with
  | leaf h lev num => simp only [Consistent] at h; simp [Node.num, leaves, Node.lev, h]
  | br l r h lev num ihl ihr =>
    obtain ⟨h1, h2, h3, h4, h5⟩ := h
    have := ihl h4; have := ihr h5
    simp [Node.num, leaves, Node.lev]; omega

theorem add_consistent (H : Bytes → Bytes) (t : Node) (x : Bytes) (h : Consistent H t) (hM : (leaves t).length + 1 < 2 ^ 63) :
    Consistent H (t.add goCfg H x) ∧ leaves (t.add goCfg H x) = leaves t ++ [x] := by
  have hw : ∀ n : Nat, n < 2 ^ 63 → goCfg.wrap n = n := goOk.wrap
  induction t with
  | leaf h' lev num =>
    simp only [Consistent] at h
    obtain ⟨rfl, rfl⟩ := h
    rw [Node.add, if_neg (by omega)]
    refine ⟨⟨rfl, ?_, by omega, ⟨rfl, rfl⟩, ⟨rfl, rfl⟩⟩, rfl⟩
    exact hw 2 (by omega)
  | br l r h' lev num ihl ihr =>
    have hc := h
    obtain ⟨h1, h2, h3, h4, h5⟩ := h
    have nl := consistent_num H l h4
    have nr := consistent_num H r h5
    have hlen : (leaves (.br l r h' lev num)).length = (leaves l).length + (leaves r).length := by simp [leaves]
    have hw' : goCfg.wrap (num + 1) = num + 1 := by
      have := hw ((leaves l).length + (leaves r).length + 1) (by omega)
      have e : num + 1 = (((leaves l).length + (leaves r).length + 1 : Nat) : Int) := by omega
      rw [e]; exact this
    rw [Node.add, if_neg (by omega)]
    split
    · have ih := ihr h5 (by omega)
      have nr' := consistent_num H _ ih.1
      refine ⟨⟨rfl, ?_, h3, h4, ih.1⟩, by simp [leaves, ih.2]⟩
      rw [hw', nr'.1, ih.2]; simp; omega
    · refine ⟨⟨rfl, by rw [hw']; rfl, by omega, hc, ⟨rfl, rfl⟩⟩, rfl⟩

/-- C11, part: a tree grown by `Add` still commits to all leaves in order — every inner hash is the hash of the two
child hashes and the leaves are the content hashes from left to right — and its leaf count is right. -/
theorem C11_add_commits_partial (H : Bytes → Bytes) (cs : List Bytes) (hne : cs ≠ []) (hM : cs.length < 2 ^ 63) :
    ∃ r, addAll H cs = some ⟨some r, cs⟩ ∧ Consistent H r ∧ leaves r = cs.map H ∧ r.num = cs.length := by
  have key : ∀ (cs done : List Bytes) (r : Node), Consistent H r → leaves r = done.map H → done.length + cs.length < 2 ^ 63 →
      ∃ r', cs.foldl (fun (t : Option Tree) c => t.bind (fun t => t.add goCfg H (some c))) (some ⟨some r, done⟩) =
        some ⟨some r', done ++ cs⟩ ∧
        Consistent H r' ∧ leaves r' = (done ++ cs).map H := by
    intro cs
    induction cs with
    | nil => intro done r h1 h2 _; exact ⟨r, by simp, h1, by simpa using h2⟩
    | cons c cs ih =>
      intro done r h1 h2 h3
      have hl := congrArg List.length h2
      simp only [List.length_map] at hl
      simp only [List.length_cons] at h3
      have ha := add_consistent H r (H c) h1 (by omega)
      obtain ⟨r', e1, e2, e3⟩ := ih (done ++ [c]) _ ha.1 (by simp [ha.2, h2]) (by simp; omega)
      exact ⟨r', by simpa [Tree.add] using e1, e2, by simpa using e3⟩
  cases cs with
  | nil => exact absurd rfl hne
  | cons c cs =>
    obtain ⟨r', e1, e2, e3⟩ := key cs [c] (.leaf (H c) 1 1) ⟨rfl, rfl⟩ rfl (by simp at hM ⊢; omega)
    refine ⟨r', by simpa [addAll, Tree.add, Node.init, Node.add] using e1, e2, by simpa using e3, ?_⟩
    rw [(consistent_num H r' e2).1, e3]; simp

theorem Good.hash {H : Bytes → Bytes} {t : Node} {hs : List Bytes} (hg : Good true H t hs) : t.h = mroot H hs := by
  cases t with
  | leaf h lev num => exact hg.2.2.2
  | br l r h lev num => have := hg.2.2.2.1; simp only [if_true] at this; exact this

/-- A tree grown by `Add` whose inner levels do not all come out as in the honest tree. -/
example : ∃ r, addAll (fun x => 1 :: x) [[2], [3], [4], [5], [6], [7], [8], [9]] = some ⟨some r, [[2], [3], [4], [5], [6], [7], [8], [9]]⟩ ∧
    r.lev = 5 ∧ r.num = 8 := ⟨_, rfl, rfl, rfl⟩

/-! ### C12 -/

theorem Good.path (H : Bytes → Bytes) (t : Node) (hs : List Bytes) (hg : Good true H t hs) (hf : Fine t) (num : Nat)
    (h1 : 1 ≤ num) (h2 : num ≤ hs.length) (x : Bytes) (hx : hs[num - 1]? = some x) :
    ∃ p, t.path num = some p ∧
      p.foldl (fun h n => if n.right then H (h ++ n.value) else H (n.value ++ h)) x = mroot H hs := by
  induction t generalizing hs num with
  | leaf h lev n =>
    simp only [Fine] at hf
    obtain ⟨g1, g2, g3, g4⟩ := hg
    have hl : hs.length = 1 := by
      have : lvl hs.length = 1 := by omega
      unfold lvl at this; split at this <;> omega
    refine ⟨[], by simp [Node.path, hf], ?_⟩
    match hs, hl with
    | [a], _ =>
      have : num = 1 := by simp at h2; omega
      subst this
      simp at hx; subst hx
      simp [mroot_one]
  | br l r h lev n ihl ihr =>
    obtain ⟨g1, g2, g3, g4, g5, g6⟩ := hg
    have hlt := split_lt g1
    have hlev : (lev - 2).toNat = Nat.log2 (hs.length - 1) := by
      rw [g3, lvl, if_neg (by omega)]; omega
    have hlev2 : ¬ lev < 2 := by rw [g3, lvl, if_neg (by omega)]; omega
    have hpow : (2 : Int) ^ (lev - 2).toNat = (split hs.length : Nat) := by rw [hlev, split]; simp
    rw [Node.path, if_neg hlev2, hpow]
    by_cases hn : split hs.length < num
    · rw [if_pos (by omega)]
      obtain ⟨p, e1, e2⟩ := ihr _ g6 hf.2 (num - split hs.length) (by omega) (by simp; omega)
        (by rw [List.getElem?_drop]; rw [← hx]; congr 1; omega)
      have e : (num : Int) - (split hs.length : Nat) = ((num - split hs.length : Nat) : Int) := by omega
      refine ⟨p ++ [⟨false, l.h⟩], by rw [e, e1]; rfl, ?_⟩
      rw [List.foldl_append, e2, g5.hash]
      simp [mroot_two H hs g1]
    · rw [if_neg (by omega)]
      obtain ⟨p, e1, e2⟩ := ihl _ g5 hf.1 num (by omega) (by simp; omega)
        (by rw [List.getElem?_take]; rw [if_pos (by omega), hx])
      refine ⟨p ++ [⟨true, r.h⟩], by rw [e1]; rfl, ?_⟩
      rw [List.foldl_append, e2, g6.hash]
      simp [mroot_two H hs g1]

/-- C12: the path of every valid leaf number leads from that leaf's content to the root of the tree; other numbers
are rejected. -/
theorem C12_path (H : Bytes → Bytes) (hH : ∀ x, H x ≠ []) (cs : List Bytes) (hM : cs.length < 2 ^ 63) (num : Int) (t : Tree)
    (ht : newTree goCfg H (cs.map some) = some t) :
    (1 ≤ num ∧ num ≤ cs.length → ∃ c p, cs[(num - 1).toNat]? = some c ∧ t.path num = some (c, p) ∧
      pathRoot H c p = mroot H (cs.map H) ∧ pathRoot H c p = t.rootHash) ∧
    (¬ (1 ≤ num ∧ num ≤ cs.length) → t.path num = none) := by
  by_cases hne : cs = []
  · subst hne
    simp [newTree] at ht
    subst ht
    refine ⟨fun h => by simp at h; omega, fun _ => ?_⟩
    unfold Tree.path
    rw [if_pos (by simp; omega)]
  · obtain ⟨r, h1, h2, h3, h4⟩ := newTree_ok goCfg _ goOk H hH cs hne hM
    rw [h1] at ht
    simp at ht
    subst ht
    constructor
    · rintro ⟨hn1, hn2⟩
      obtain ⟨n, rfl⟩ : ∃ n : Nat, num = n := ⟨num.toNat, by omega⟩
      have e : ((n : Int) - 1).toNat = n - 1 := by omega
      have hlt : n - 1 < cs.length := by omega
      obtain ⟨p, p1, p2⟩ := h2.path H r _ h3 n (by omega) (by simp; omega) (H cs[n - 1]) (by simp [hlt])
      refine ⟨cs[n - 1], p, by rw [e]; simp [hlt], ?_, p2, by rw [show pathRoot H cs[n-1] p = _ from p2]; exact h4.symm⟩
      unfold Tree.path
      rw [if_neg (by simp; omega), e]
      simp [hlt, p1]
    · intro hn
      unfold Tree.path
      rw [if_pos (by simp; omega)]

example : (newTree goCfg (fun x => 1 :: x) ([[2], [3], [4]].map some)).bind (fun t => t.path 3) =
    some ([4], [⟨false, [1, 1, 2, 1, 3]⟩]) := by decide +kernel

/-! ### C13 -/

theorem flatten_nil_of_ne (l : List (List Bytes)) (p : Nat) (h : Chain p l) (h0 : l.flatten = []) : l = [] := by
  cases l with
  | nil => rfl
  | cons s t => simp at h0; exact absurd h0.1 h.1

theorem pchain_nil_of_flatten (l : List (List Bytes)) (p : Nat) (h : PChain p l) (h0 : l.flatten = []) : l = [] :=
  flatten_nil_of_ne l p (by have := chain_append p l [] h trivial; simpa using this) h0

theorem Good.proof (H : Bytes → Bytes) (t : Node) (hs : List Bytes) (hg : Good true H t hs) (hf : Fine t) (num : Nat)
    (h1 : 1 ≤ num) (h2 : num ≤ hs.length) :
    ∃ ls rs, t.proof num = some ((ls.map (blk H)).reverse, rs.map (blk H)) ∧
      ls.flatten = hs.take (num - 1) ∧ rs.flatten = hs.drop num ∧
      ∀ p c, hs.length ≤ 2 ^ c → 2 ^ c ∣ p → PChain p ls ∧ Chain (p + num) rs ∧
        ((∃ k : Nat, hs.length = 2 ^ k) → PChain (p + num) rs) := by
  induction t generalizing hs num with
  | leaf h lev n =>
    simp only [Fine] at hf
    obtain ⟨g1, g2, g3, g4⟩ := hg
    have hl : hs.length = 1 := by
      have : lvl hs.length = 1 := by omega
      unfold lvl at this; split at this <;> omega
    refine ⟨[], [], by simp [Node.proof, hf], ?_, ?_, fun _ _ _ _ => ⟨trivial, trivial, fun _ => trivial⟩⟩
    · rw [show num - 1 = 0 by omega]; simp
    · rw [List.drop_of_length_le (by omega)]; rfl
  | br l r h lev n ihl ihr =>
    obtain ⟨g1, g2, g3, g4, g5, g6⟩ := hg
    have hlt := split_lt g1
    have hle := le_split g1
    have hlev : (lev - 2).toNat = Nat.log2 (hs.length - 1) := by
      rw [g3, lvl, if_neg (by omega)]; omega
    have hlev2 : ¬ lev < 2 := by rw [g3, lvl, if_neg (by omega)]; omega
    have hpow : (2 : Int) ^ (lev - 2).toNat = (split hs.length : Nat) := by rw [hlev, split]; simp
    have ltake : (hs.take (split hs.length)).length = split hs.length := by simp; omega
    have ldrop : (hs.drop (split hs.length)).length = hs.length - split hs.length := by simp
    have bl : (⟨l.num, l.h⟩ : ProofNode) = blk H (hs.take (split hs.length)) := by
      rw [blk, g5.hash, g5.facts.2.1]
    have br : (⟨r.num, r.h⟩ : ProofNode) = blk H (hs.drop (split hs.length)) := by
      rw [blk, g6.hash, g6.facts.2.1]
    rw [Node.proof, if_neg hlev2, hpow, bl, br]
    -- alignment of the children's slots
    have halign : ∀ p c, hs.length ≤ 2 ^ c → 2 ^ c ∣ p → split hs.length ∣ p := by
      intro p c hc hp
      have : Nat.log2 (hs.length - 1) ≤ c := by
        apply Classical.byContradiction
        intro hn
        have := Nat.pow_le_pow_right (n := 2) (by omega) (show c ≤ Nat.log2 (hs.length - 1) by omega)
        have : 2 ^ c ≤ split hs.length := this
        omega
      exact Nat.dvd_trans (Nat.pow_dvd_pow 2 this) hp
    by_cases hn : split hs.length < num
    · rw [if_pos (by omega)]
      obtain ⟨ls, rs, e1, e2, e3, e4⟩ := ihr _ g6 hf.2 (num - split hs.length) (by omega) (by rw [ldrop]; omega)
      have e : (num : Int) - (split hs.length : Nat) = ((num - split hs.length : Nat) : Int) := by omega
      refine ⟨hs.take (split hs.length) :: ls, rs, by rw [e, e1]; simp, ?_, ?_, ?_⟩
      · rw [List.flatten_cons, e2]
        rw [show num - split hs.length - 1 = (num - 1) - split hs.length by omega]
        rw [← List.drop_take]
        have : hs.take (split hs.length) = (hs.take (num - 1)).take (split hs.length) := by
          rw [List.take_take]; congr 1; omega
        rw [this, List.take_append_drop]
      · rw [e3, List.drop_drop]; congr 1; omega
      · intro p c hc hp
        have ha := halign p c hc hp
        obtain ⟨i1, i2, i3⟩ := e4 (p + split hs.length) (Nat.log2 (hs.length - 1))
          (by rw [ldrop]; show _ ≤ split hs.length; omega) (Nat.dvd_add ha (Nat.dvd_refl _))
        rw [show p + split hs.length + (num - split hs.length) = p + num by omega] at i2 i3
        refine ⟨⟨⟨Nat.log2 (hs.length - 1), ltake, ha⟩, by rw [ltake]; exact i1⟩, i2, ?_⟩
        rintro ⟨k, hk⟩
        apply i3
        rw [ldrop]
        cases k with
        | zero => simp at hk; omega
        | succ k =>
          have hk1 := Nat.one_le_two_pow (n := k)
          rw [Nat.pow_succ] at hk
          have := (split_unique (n := hs.length) (k := k) (by omega) (by rw [Nat.pow_succ]; omega)).1
          exact ⟨k, by omega⟩
    · rw [if_neg (by omega)]
      obtain ⟨ls, rs, e1, e2, e3, e4⟩ := ihl _ g5 hf.1 num (by omega) (by rw [ltake]; omega)
      have rlen : num + rs.flatten.length = split hs.length := by rw [e3, List.length_drop, ltake]; omega
      refine ⟨ls, rs ++ [hs.drop (split hs.length)], by rw [e1]; simp, ?_, ?_, ?_⟩
      · rw [e2, List.take_take]; congr 1; omega
      · rw [List.flatten_append, e3]
        simp only [List.flatten_cons, List.flatten_nil, List.append_nil]
        have : hs.drop num = (hs.take (split hs.length) ++ hs.drop (split hs.length)).drop num := by
          rw [List.take_append_drop]
        rw [this, List.drop_append_of_le_length (by rw [ltake]; omega)]
      · intro p c hc hp
        have ha := halign p c hc hp
        obtain ⟨i1, i2, i3⟩ := e4 p (Nat.log2 (hs.length - 1)) (by rw [ltake]; exact Nat.le_refl _) ha
        have i3' := i3 ⟨Nat.log2 (hs.length - 1), ltake⟩
        have hend : p + num + rs.flatten.length = p + split hs.length := by omega
        refine ⟨i1, chain_append _ _ _ i3' ?_, ?_⟩
        · rw [hend]
          refine ⟨?_, ⟨Nat.log2 (hs.length - 1), Nat.dvd_add ha (Nat.dvd_refl _), ?_⟩, Or.inl rfl, trivial⟩
          · exact g6.facts.1
          · rw [ldrop]; show _ ≤ split hs.length; omega
        · rintro ⟨k, hk⟩
          apply pchain_append _ _ _ i3'
          rw [hend]
          refine ⟨⟨Nat.log2 (hs.length - 1), ?_, Nat.dvd_add ha (Nat.dvd_refl _)⟩, trivial⟩
          rw [ldrop]
          show _ = split hs.length
          cases k with
          | zero => simp at hk; omega
          | succ k =>
            have hk1 := Nat.one_le_two_pow (n := k)
            rw [Nat.pow_succ] at hk
            have := (split_unique (n := hs.length) (k := k) (by omega) (by rw [Nat.pow_succ]; omega)).1
            omega

theorem foldl_count (cfg : Cfg) (M : Nat) (hc : CfgOk cfg M) (H : Bytes → Bytes) (a : List (List Bytes)) (s : Nat)
    (hM : s + a.flatten.length < M) :
    (a.map (blk H)).foldl (fun s x => cfg.wrap (s + x.num)) (s : Int) = ((s + a.flatten.length : Nat) : Int) := by
  induction a generalizing s with
  | nil => simp
  | cons x a ih =>
    simp only [List.map_cons, List.foldl_cons, blk, List.flatten_cons, List.length_append] at hM ⊢
    have := hc.wrap (s + x.length) (by omega)
    rw [show (s : Int) + (x.length : Int) = ((s + x.length : Nat) : Int) by simp, this]
    have := ih (s + x.length) (by omega)
    rw [← Nat.add_assoc]; exact this

theorem foldl_ones (cfg : Cfg) (M : Nat) (hc : CfgOk cfg M) (a : List Bytes) (s : Nat) (hM : s + a.length < M) :
    a.foldl (fun s _ => cfg.wrap (s + 1)) (s : Int) = ((s + a.length : Nat) : Int) := by
  induction a generalizing s with
  | nil => simp
  | cons x a ih =>
    simp only [List.foldl_cons, List.length_cons] at hM ⊢
    have := hc.wrap (s + 1) (by omega)
    rw [show (s : Int) + 1 = ((s + 1 : Nat) : Int) by simp, this, ih (s + 1) (by omega)]
    congr 1; omega

/-- Verification of any proof made of aligned blocks. -/
theorem proofRoot_chain (cfg : Cfg) (M : Nat) (hc : CfgOk cfg M) (H : Bytes → Bytes) (hH : ∀ x, H x ≠ []) (cs : List Bytes)
    (hne : cs ≠ []) (hM : cs.length < M) (b e : Nat) (hb : b ≤ e) (he : e ≤ cs.length)
    (ls rs : List (List Bytes)) (h1 : ls.flatten = (cs.map H).take b) (h2 : rs.flatten = (cs.map H).drop e)
    (h3 : PChain 0 ls) (h4 : Chain e rs) :
    proofRoot cfg H ⟨ls.map (blk H), (cs.take e).drop b, rs.map (blk H)⟩ = some (mroot H (cs.map H), (b : Int), (cs.length : Int)) := by
  have l1 : ls.flatten.length = b := by rw [h1]; simp; omega
  have l2 : rs.flatten.length = cs.length - e := by rw [h2]; simp
  have l3 : ((cs.take e).drop b).length = e - b := by simp; omega
  have hlp : 1 ≤ cs.length := List.length_pos_iff.mpr hne
  let segs := ls ++ (((cs.take e).drop b).map H).map (fun h => [h]) ++ rs
  have hflat : segs.flatten = cs.map H := by
    simp only [segs, List.flatten_append, flatten_single, h1, h2]
    rw [List.map_drop, List.map_take]
    have e1 : (cs.map H).take b = ((cs.map H).take e).take b := by rw [List.take_take]; congr 1; omega
    rw [e1, List.take_append_drop, List.take_append_drop]
  have hchain : Chain 0 segs := by
    refine chain_append 0 _ rs (pchain_append 0 _ _ h3 (pchain_single _ _)) ?_
    rw [List.flatten_append, flatten_single, List.length_append, List.length_map, l1, l3]
    rw [show 0 + (b + (e - b)) = e by omega]; exact h4
  have hsne : segs ≠ [] := by
    intro h0
    rw [h0] at hflat
    simp at hflat
    exact hne hflat
  have hg := addSegs_init cfg M hc H segs hsne hchain (by rw [hflat]; simpa using hM)
  rw [hflat] at hg
  obtain ⟨t', q1, q2, q3, _⟩ := hg.ensureHash H hH _ _ (by simp; intro a _; exact hH a)
  have q4 := q2.verify cfg M hc true H t' _ (by simpa using hM)
  have q5 := q2.facts.2.1
  unfold proofRoot
  simp only [addSegs_blk, addSegs_single, ← addSegs_append]
  rw [show ls ++ (List.map H (List.drop b (List.take e cs))).map (fun h => [h]) ++ rs = segs from rfl, q1]
  have c1 := foldl_count cfg M hc H ls 0 (by rw [l1]; omega)
  have c2 := foldl_ones cfg M hc ((cs.take e).drop b) 0 (by rw [l3]; omega)
  rw [l1] at c1
  rw [l3] at c2
  simp only [Nat.zero_add, Int.natCast_zero] at c1 c2
  have c3 := foldl_count cfg M hc H rs (e - b) (by rw [l2]; omega)
  rw [l2] at c3
  simp only [c1, c2, c3]
  have c4 := hc.wrap cs.length hM
  rw [show (b : Int) + ((e - b + (cs.length - e) : Nat) : Int) = (cs.length : Int) by omega, c4, q5, q3, q4]
  simp

/-- The proof built for a range of a bulk-built tree, in terms of segments. -/
theorem proof_segs (H : Bytes → Bytes) (hH : ∀ x, H x ≠ []) (cs : List Bytes) (hM : cs.length < 2 ^ 63) (t : Tree)
    (ht : newTree goCfg H (cs.map some) = some t) (b e : Nat) (h1 : 1 ≤ b) (h2 : b ≤ e) (h3 : e ≤ cs.length) :
    ∃ ls rs, t.proof b e = some ⟨ls.map (blk H), (cs.take e).drop (b - 1), rs.map (blk H)⟩ ∧
      ls.flatten = (cs.map H).take (b - 1) ∧ rs.flatten = (cs.map H).drop e ∧ PChain 0 ls ∧ Chain e rs := by
  have hne : cs ≠ [] := by intro h0; subst h0; simp at h3; omega
  obtain ⟨r, q1, q2, q3, q4⟩ := newTree_ok goCfg _ goOk H hH cs hne hM
  rw [q1] at ht
  simp at ht
  subst ht
  obtain ⟨ls, rs', a1, a2, a3, a4⟩ := q2.proof H r _ q3 b h1 (by simp; omega)
  obtain ⟨ls', rs, b1, b2, b3, b4⟩ := q2.proof H r _ q3 e (by omega) (by simp; omega)
  have hcap := le_two_pow_lvl (n := (cs.map H).length) (by simp; omega)
  obtain ⟨p1, _, _⟩ := a4 0 _ hcap (Nat.dvd_zero _)
  obtain ⟨_, p2, _⟩ := b4 0 _ hcap (Nat.dvd_zero _)
  rw [Nat.zero_add] at p2
  refine ⟨ls, rs, ?_, a2, b3, p1, p2⟩
  have hlsnil : b = 1 → ls = [] := fun hb => by
    subst hb
    exact pchain_nil_of_flatten ls 0 p1 (by rw [a2]; rfl)
  have hrsnil : e = cs.length → rs = [] := fun he => by
    exact flatten_nil_of_ne rs e p2 (by rw [b3, List.drop_of_length_le (by simp; omega)])
  unfold Tree.proof
  simp only
  rw [if_neg (by omega), if_neg (by omega)]
  by_cases hall : (b : Int) = 1 ∧ (e : Int) = cs.length
  · rw [if_pos hall, hlsnil (by omega), hrsnil (by omega)]
    have : b = 1 := by omega
    have : e = cs.length := by omega
    subst b e
    simp
  · rw [if_neg hall]
    have eb : ((b : Int) - 1).toNat = b - 1 := by omega
    have ee : (e : Int).toNat = e := by omega
    by_cases hb : b = 1
    · subst hb
      rw [hlsnil rfl, if_pos (by omega), b1, ee]
      simp
    · rw [if_neg (by omega), a1]
      simp only
      by_cases hbe : b = e
      · subst hbe
        have : rs' = rs ∨ True := Or.inr trivial
        rw [a1] at b1
        simp only [Option.some.injEq, Prod.mk.injEq] at b1
        rw [if_neg (by simp), b1.2]
        simp [eb]
      · rw [if_pos (by omega)]
        by_cases he : e = cs.length
        · rw [if_pos (by omega), hrsnil he, eb, ee]; simp
        · rw [if_neg (by omega), b1, eb, ee]; simp

/-- C13: the proof built for any range of any tree verifies to the root, the offset and the number of leaves, and
carries the contents of the range. -/
theorem C13_range_proof (H : Bytes → Bytes) (hH : ∀ x, H x ≠ []) (cs : List Bytes) (hM : cs.length < 2 ^ 63) (t : Tree)
    (ht : newTree goCfg H (cs.map some) = some t) (b e : Nat) (h1 : 1 ≤ b) (h2 : b ≤ e) (h3 : e ≤ cs.length) :
    ∃ p, t.proof b e = some p ∧ p.contents = (cs.take e).drop (b - 1) ∧
      proofRoot goCfg H p = some (t.rootHash, (b : Int) - 1, (cs.length : Int)) := by
  have hne : cs ≠ [] := by intro h0; subst h0; simp at h3; omega
  obtain ⟨ls, rs, e1, e2, e3, e4, e5⟩ := proof_segs H hH cs hM t ht b e h1 h2 h3
  obtain ⟨t', u1, u2, u3⟩ := C11_bulk_root H hH cs hM
  rw [ht] at u1; simp at u1; subst u1
  refine ⟨_, e1, rfl, ?_⟩
  rw [proofRoot_chain goCfg _ goOk H hH cs hne hM (b - 1) e (by omega) h3 ls rs e2 e3 e4 e5, u3]
  simp; omega

/-- C13: ranges outside the tree are rejected. -/
theorem C13_out_of_range (t : Tree) (b e : Int) (h : b < 1 ∨ e > t.contents.length ∨ b > e) : t.proof b e = none := by
  unfold Tree.proof
  simp only
  split
  · rfl
  · rw [if_pos (by omega)]

/-- C15, Java: every range proof of a tree with fewer than 2^31 messages is accepted by the ICON contract with the
same root, offset and total. -/
theorem C15_java_accepts (H : Bytes → Bytes) (hH : ∀ x, H x ≠ []) (cs : List Bytes) (hM : cs.length < 2 ^ 31) (t : Tree)
    (ht : newTree goCfg H (cs.map some) = some t) (b e : Nat) (h1 : 1 ≤ b) (h2 : b ≤ e) (h3 : e ≤ cs.length) :
    ∃ p, t.proof b e = some p ∧ proofRoot javaCfg H p = some (t.rootHash, (b : Int) - 1, (cs.length : Int)) := by
  have hne : cs ≠ [] := by intro h0; subst h0; simp at h3; omega
  obtain ⟨ls, rs, e1, e2, e3, e4, e5⟩ := proof_segs H hH cs (by omega) t ht b e h1 h2 h3
  obtain ⟨t', u1, u2, u3⟩ := C11_bulk_root H hH cs (by omega)
  rw [ht] at u1; simp at u1; subst u1
  refine ⟨_, e1, ?_⟩
  rw [proofRoot_chain javaCfg _ javaOk H hH cs hne hM (b - 1) e (by omega) h3 ls rs e2 e3 e4 e5, u3]
  simp; omega

example : (newTree goCfg (fun x => 1 :: x) ([[2], [3], [4], [5], [6]].map some)).bind (fun t => t.proof 2 4) =
    some ⟨[⟨1, [1, 2]⟩], [[3], [4], [5]], [⟨1, [1, 6]⟩]⟩ := by decide +kernel

end Verif.Mbt
