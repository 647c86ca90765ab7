import Verif.MbtProps
/-!
C14 (and the Java side of it): soundness of range proof verification.
-/
namespace Verif.Mbt
open Verif Verif.Merkle

/-- What a tree assembled by `lazyAdd` from positive leaf counts looks like. -/
def Built : Node → Prop
  | .leaf _ lev num => 1 ≤ num ∧ lev = lvl num.toNat
  | .br l r h lev num => h = [] ∧ lev = l.lev + 1 ∧ num = l.num + r.num ∧ Built l ∧ Built r

/-- The blocks a tree was assembled from. -/
def items : Node → List ProofNode
  | .leaf h _ num => [⟨num, h⟩]
  | .br l r _ _ _ => items l ++ items r

/-- Hash of a node computed from its leaves. -/
def hashN (H : Bytes → Bytes) : Node → Bytes
  | .leaf h _ _ => h
  | .br l r _ _ _ => H (hashN H l ++ hashN H r)

/-- The byte strings hashed on the way. -/
def calls (H : Bytes → Bytes) : Node → List Bytes
  | .leaf _ _ _ => []
  | .br l r _ _ _ => (hashN H l ++ hashN H r) :: (calls H l ++ calls H r)

/-- Sum of leaf counts. -/
def count (l : List ProofNode) : Int := (l.map (·.num)).sum

theorem count_append (a b : List ProofNode) : count (a ++ b) = count a + count b := by simp [count]

theorem Built.facts {t : Node} (h : Built t) : 1 ≤ t.num ∧ 1 ≤ t.lev ∧ t.num = count (items t) := by
  induction t with
  | leaf h' lev num =>
    obtain ⟨h1, h2⟩ := h
    have := lvl_pos (n := num.toNat) (by omega)
    simp [Node.num, Node.lev, count, items]; omega
  | br l r h' lev num ihl ihr =>
    obtain ⟨h1, h2, h3, h4, h5⟩ := h
    have := ihl h4; have := ihr h5
    simp only [Node.num, Node.lev, items, count_append]; omega

theorem Built.items_pos {t : Node} (h : Built t) : ∀ x ∈ items t, 1 ≤ x.num := by
  induction t with
  | leaf h' lev num => intro x hx; simp [items] at hx; subst hx; exact h.1
  | br l r h' lev num i1 i2 =>
    obtain ⟨_, _, _, q4, q5⟩ := h
    intro x hx
    simp only [items, List.mem_append] at hx
    rcases hx with hm | hm
    · exact i1 q4 x hm
    · exact i2 q5 x hm

theorem count_nonneg {l : List ProofNode} (h : ∀ x ∈ l, 1 ≤ x.num) : 0 ≤ count l := by
  induction l with
  | nil => simp [count]
  | cons b l ih =>
    have := h b (by simp)
    have := ih (fun x hx => h x (by simp [hx]))
    simp only [count, List.map_cons, List.sum_cons] at *; omega

theorem count_ones (H : Bytes → Bytes) (l : List Bytes) :
    count (l.map (fun c => (⟨1, H c⟩ : ProofNode))) = l.length := by
  induction l with
  | nil => rfl
  | cons a l ih =>
    simp only [count, List.map_cons, List.sum_cons, List.length_cons] at ih ⊢
    rw [ih]; simp; omega

theorem lazyAdd_built (cfg : Cfg) (M : Nat) (hc : CfgOk cfg M) (t : Node) (m : Int) (x : Bytes) (h : Built t) (hm : 1 ≤ m)
    (hM : t.num + m < M) :
    Built (t.lazyAdd cfg m x) ∧ items (t.lazyAdd cfg m x) = items t ++ [⟨m, x⟩] := by
  have hntl : cfg.ntl m = lvl m.toNat := by
    have hp := h.facts
    have := hc.ntl m.toNat (by omega) (by omega)
    rwa [show ((m.toNat : Nat) : Int) = m by omega] at this
  have hwrap : cfg.wrap (t.num + m) = t.num + m := by
    have hp := h.facts
    have := hc.wrap (t.num + m).toNat (by omega)
    rwa [show (((t.num + m).toNat : Nat) : Int) = t.num + m by omega] at this
  induction t with
  | leaf h' lev num =>
    have hl := h.facts.2.1
    simp only [Node.lev] at hl
    simp only [Node.num] at hwrap
    rw [Node.lazyAdd, if_neg (by omega), hntl, hwrap]
    exact ⟨⟨rfl, rfl, rfl, h, ⟨hm, rfl⟩⟩, rfl⟩
  | br l r h' lev num ihl ihr =>
    have hb := h
    have hl := h.facts.2.1
    simp only [Node.lev] at hl
    simp only [Node.num] at hwrap hM
    obtain ⟨h1, h2, h3, h4, h5⟩ := h
    have f1 := h4.facts; have f2 := h5.facts
    rw [Node.lazyAdd, if_neg (by omega), hwrap]
    split
    · have hwr : cfg.wrap (r.num + m) = r.num + m := by
        have := hc.wrap (r.num + m).toNat (by omega)
        rwa [show (((r.num + m).toNat : Nat) : Int) = r.num + m by omega] at this
      have ih := ihr h5 (by omega) hwr
      have := ih.1.facts
      refine ⟨⟨h1, h2, ?_, h4, ih.1⟩, by simp [items, ih.2]⟩
      rw [this.2.2, ih.2, count_append, ← f2.2.2]; simp [count]; omega
    · rw [hntl]
      exact ⟨⟨rfl, rfl, rfl, hb, ⟨hm, rfl⟩⟩, rfl⟩

theorem foldl_built (cfg : Cfg) (M : Nat) (hc : CfgOk cfg M) (l : List ProofNode) (t : Node) (h : Built t)
    (hp : ∀ x ∈ l, 1 ≤ x.num) (hM : t.num + count l < M) :
    Built (l.foldl (fun n x => Node.lazyAdd cfg n x.num x.value) t) ∧
      items (l.foldl (fun n x => Node.lazyAdd cfg n x.num x.value) t) = items t ++ l := by
  induction l generalizing t with
  | nil => exact ⟨h, by simp⟩
  | cons a l ih =>
    have ha := hp a (by simp)
    have hl : ∀ x ∈ l, 1 ≤ x.num := fun x hx => hp x (by simp [hx])
    have hcl : 0 ≤ count l := count_nonneg hl
    have hcc : count (a :: l) = a.num + count l := by simp [count]
    have h1 := lazyAdd_built cfg M hc t a.num a.value h ha (by omega)
    have f1 := h.facts
    have f2 := h1.1.facts
    rw [h1.2, count_append] at f2
    have : count [(⟨a.num, a.value⟩ : ProofNode)] = a.num := by simp [count]
    obtain ⟨e1, e2⟩ := ih _ h1.1 hl (by omega)
    refine ⟨e1, ?_⟩
    rw [List.foldl_cons, e2, h1.2]; simp

theorem foldl_init (cfg : Cfg) (M : Nat) (hc : CfgOk cfg M) (l : List ProofNode) (hne : l ≠ [])
    (hp : ∀ x ∈ l, 1 ≤ x.num) (hM : count l < M) :
    Built (l.foldl (fun n x => Node.lazyAdd cfg n x.num x.value) Node.init) ∧
      items (l.foldl (fun n x => Node.lazyAdd cfg n x.num x.value) Node.init) = l := by
  cases l with
  | nil => exact absurd rfl hne
  | cons a l =>
    have ha := hp a (by simp)
    have hcc : count (a :: l) = a.num + count l := by simp [count]
    have hcl : 0 ≤ count l := count_nonneg fun x hx => hp x (by simp [hx])
    have e : Node.init.lazyAdd cfg a.num a.value = .leaf a.value (cfg.ntl a.num) a.num := by simp [Node.init, Node.lazyAdd]
    have hb : Built (.leaf a.value (cfg.ntl a.num) a.num) := by
      refine ⟨ha, ?_⟩
      have := hc.ntl a.num.toNat (by omega) (by omega)
      rwa [show ((a.num.toNat : Nat) : Int) = a.num by omega] at this
    have := foldl_built cfg M hc l _ hb (fun x hx => hp x (by simp [hx])) (by simp only [Node.num]; omega)
    rw [List.foldl_cons, e]
    exact ⟨this.1, by rw [this.2]; simp [items]⟩

/-- Every branch splits its leaves as the honest tree does. -/
def HShape : Node → Prop
  | .leaf _ _ _ => True
  | .br l r _ _ num => l.num = split num.toNat ∧ HShape l ∧ HShape r

theorem verify_shape (cfg : Cfg) (M : Nat) (hc : CfgOk cfg M) (t : Node) (h : Built t) (hv : t.verify cfg = true)
    (hM : t.num < M) : t.lev = lvl t.num.toNat ∧ HShape t := by
  induction t with
  | leaf h' lev num => exact ⟨h.2, trivial⟩
  | br l r h' lev num ihl ihr =>
    obtain ⟨h1, h2, h3, h4, h5⟩ := h
    have fl := h4.facts
    have fr := h5.facts
    simp only [Node.num] at hM
    rw [Node.verify, if_neg (by omega)] at hv
    simp only [Bool.and_eq_true, decide_eq_true_eq] at hv
    obtain ⟨⟨⟨v1, v2⟩, v3⟩, v4⟩ := hv
    obtain ⟨il, sl⟩ := ihl h4 v2 (by omega)
    obtain ⟨ir, sr⟩ := ihr h5 v4 (by omega)
    generalize hnl : l.num.toNat = nl at *
    generalize hnr : r.num.toNat = nr at *
    have hlp := lvl_pos (n := nl) (by omega)
    -- the left child is a full subtree
    have hfull : nl = 2 ^ (lvl nl - 1) := by
      by_cases hl1 : nl ≤ 1
      · have : nl = 1 := by omega
        subst this; rfl
      · have e : lvl nl = Nat.log2 (nl - 1) + 2 := by rw [lvl, if_neg hl1]
        rw [if_pos (by omega)] at v3
        simp only [decide_eq_true_eq] at v3
        have hsl := split_lt (n := nl) (by omega)
        have hpow : 2 ^ (lvl nl - 1) = 2 * split nl := by
          rw [e, show Nat.log2 (nl - 1) + 2 - 1 = Nat.log2 (nl - 1) + 1 by omega, Nat.pow_succ, split]; omega
        have e2 : l.lev - 1 = ((lvl nl - 1 : Nat) : Int) := by omega
        rw [e2] at v3
        by_cases hlt : 2 ^ (lvl nl - 1) < M
        · rw [hc.shl _ hlt] at v3
          have := castPow2 (lvl nl - 1)
          omega
        · have := hc.shl' (lvl nl - 1) (by omega) hlt
          omega
    have hrle : nr ≤ nl := by
      have a := le_two_pow_lvl (n := nr) (by omega)
      have b : 2 ^ (lvl nr - 1) ≤ 2 ^ (lvl nl - 1) := Nat.pow_le_pow_right (by omega) (by omega)
      omega
    have hu := split_unique (n := num.toNat) (k := lvl nl - 1) (by omega) (by rw [Nat.pow_succ]; omega)
    refine ⟨?_, ?_, sl, sr⟩
    · simp only [Node.lev, Node.num]
      rw [hu.2]; omega
    · rw [hu.1]; omega

theorem ensureHash_hash (H : Bytes → Bytes) (t t' : Node) (h : Built t) (he : t.ensureHash H = some t') :
    t'.h = hashN H t ∧ t'.num = t.num ∧ t'.lev = t.lev ∧ ∀ cfg, t'.verify cfg = t.verify cfg := by
  induction t generalizing t' with
  | leaf h' lev num =>
    rw [Node.ensureHash] at he
    split at he
    · simp at he; subst he; exact ⟨rfl, rfl, rfl, fun _ => rfl⟩
    · split at he
      · simp at he
      · simp at he; subst he; exact ⟨rfl, rfl, rfl, fun _ => rfl⟩
  | br l r h' lev num ihl ihr =>
    obtain ⟨h1, h2, h3, h4, h5⟩ := h
    have fl := h4.facts
    rw [Node.ensureHash, if_neg (by omega), if_pos h1] at he
    split at he
    · rename_i l' r' hl hr
      simp at he
      subst he
      obtain ⟨a1, a2, a3, a4⟩ := ihl l' h4 hl
      obtain ⟨b1, b2, b3, b4⟩ := ihr r' h5 hr
      refine ⟨by show H (l'.h ++ r'.h) = H (hashN H l ++ hashN H r); rw [a1, b1], rfl, rfl, fun cfg => ?_⟩
      simp only [Node.verify, a2, a3, a4, b3, b4]
    · simp at he

theorem hashN_len (H : Bytes → Bytes) (L : Nat) (hH : ∀ x, (H x).length = L) (t : Node) :
    (hashN H t).length = L ∨ ∃ h lev num, t = .leaf h lev num ∧ h.length ≠ L := by
  cases t with
  | leaf h lev num =>
    by_cases hl : h.length = L
    · exact Or.inl hl
    · exact Or.inr ⟨h, lev, num, rfl, hl⟩
  | br l r h lev num => left; exact hH _

/-- Two lists of byte strings contain different elements with the same hash. -/
def Collision (H : Bytes → Bytes) (xs ys : List Bytes) : Prop := ∃ x ∈ xs, ∃ y ∈ ys, x ≠ y ∧ H x = H y

theorem sound_node (H : Bytes → Bytes) (L : Nat) (hH : ∀ x, (H x).length = L) (t : Node) (hb : Built t) (hs : List Bytes)
    (hsh : HShape t) (hroot : hashN H t = mroot H hs) (hn : t.num = hs.length) (hl : ∀ h ∈ hs, h.length = L) :
    Collision H (calls H t) (inputs H hs) ∨
      ∀ A it B, items t = A ++ it :: B → it.num = 1 → it.value.length = L → hs[(count A).toNat]? = some it.value := by
  induction t generalizing hs with
  | leaf h lev num =>
    right
    intro A it B hi h1 h2
    simp only [items] at hi
    cases A with
    | nil =>
      simp at hi
      obtain ⟨rfl, _⟩ := hi
      simp only [Node.num] at hn
      simp only at h1
      have : hs.length = 1 := by omega
      match hs, this with
      | [a], _ =>
        rw [mroot_one] at hroot
        simp [count]
        exact hroot.symm
    | cons a A => simp at hi
  | br l r h lev num ihl ihr =>
    obtain ⟨b1, b2, b3, b4, b5⟩ := hb
    obtain ⟨s1, s2, s3⟩ := hsh
    have fl := b4.facts; have fr := b5.facts
    simp only [Node.num] at hn
    have hlen : num.toNat = hs.length := by omega
    rw [hlen] at s1
    have h2 : 2 ≤ hs.length := by omega
    have hlt := split_lt h2
    have ltake : (hs.take (split hs.length)).length = split hs.length := by simp; omega
    have ldrop : (hs.drop (split hs.length)).length = hs.length - split hs.length := by simp
    have hlt1 : ∀ h ∈ hs.take (split hs.length), h.length = L := fun x hx => hl x (List.mem_of_mem_take hx)
    have hlt2 : ∀ h ∈ hs.drop (split hs.length), h.length = L := fun x hx => hl x (List.mem_of_mem_drop hx)
    have m1 := mroot_length H L hH _ (by intro h0; rw [h0] at ltake; simp at ltake; have := split_pos hs.length; omega) hlt1
    have m2 := mroot_length H L hH _ (by intro h0; rw [h0] at ldrop; simp at ldrop; omega) hlt2
    rw [mroot_two H hs h2] at hroot
    simp only [hashN] at hroot
    by_cases hcat : hashN H l ++ hashN H r = mroot H (hs.take (split hs.length)) ++ mroot H (hs.drop (split hs.length))
    · have hsum := congrArg List.length hcat
      simp only [List.length_append, m1, m2] at hsum
      by_cases hll : (hashN H l).length = L
      · obtain ⟨el, er⟩ := List.append_inj hcat (by rw [hll, m1])
        rcases ihl b4 _ s2 el (by rw [ltake]; exact s1) hlt1 with ⟨x, x1, y, y1, xy⟩ | hL
        · left
          exact ⟨x, by simp [calls, x1], y, by rw [inputs_two H hs h2]; simp [y1], xy⟩
        rcases ihr b5 _ s3 er (by rw [ldrop]; omega) hlt2 with ⟨x, x1, y, y1, xy⟩ | hR
        · left
          exact ⟨x, by simp [calls, x1], y, by rw [inputs_two H hs h2]; simp [y1], xy⟩
        right
        intro A it B hi i1 i2
        simp only [items] at hi
        rcases List.append_eq_append_iff.mp hi with ⟨A', e1, e2⟩ | ⟨B', e1, e2⟩
        · -- in the right part
          have := hR A' it B e2 i1 i2
          rw [List.getElem?_drop] at this
          rw [← this]
          have hcA : count A = l.num + count A' := by rw [e1, count_append, ← fl.2.2]
          have hcnn : 0 ≤ count A' :=
            count_nonneg fun x hx => b5.items_pos x (by rw [e2]; simp [hx])
          congr 1
          omega
        · cases B' with
          | nil =>
            simp at e2
            have := hR [] it B (by simpa using e2.symm) i1 i2
            rw [List.getElem?_drop] at this
            rw [← this]
            have hcA : count A = l.num := by
              rw [fl.2.2, e1]; simp
            congr 1
            simp [count] at *; omega
          | cons b B' =>
            simp at e2
            have := hL A it B' (by rw [e1, e2.1]) i1 i2
            rw [List.getElem?_take] at this
            split at this
            · exact this
            · simp at this
      · -- the left child has a hash of the wrong length: both children are opaque
        right
        rcases hashN_len H L hH l with h' | ⟨lh, ll, ln, rfl, hlne⟩
        · exact absurd h' hll
        rcases hashN_len H L hH r with h' | ⟨rh, rl, rn, rfl, hrne⟩
        · omega
        intro A it B hi i1 i2
        simp only [items] at hi
        have hmem : it ∈ [(⟨ln, lh⟩ : ProofNode)] ++ [⟨rn, rh⟩] := by rw [hi]; simp
        simp at hmem
        rcases hmem with rfl | rfl
        · exact absurd i2 hlne
        · exact absurd i2 hrne
    · left
      exact ⟨_, by simp [calls], _, by rw [inputs_two H hs h2]; simp, hcat, hroot⟩

/-! ### C14 -/

/-- Blocks of a proof in order. -/
def blocks (H : Bytes → Bytes) (p : Proof) : List ProofNode :=
  p.lefts ++ p.contents.map (fun c => ⟨1, H c⟩) ++ p.rights

/-- Everything hashed in the honest tree. -/
def treeCalls (H : Bytes → Bytes) (cs : List Bytes) : List Bytes := cs ++ inputs H (cs.map H)

theorem sound_contents (H : Bytes → Bytes) (L : Nat) (hH : ∀ x, (H x).length = L) (cs : List Bytes)
    (A B : List ProofNode) (contents : List Bytes) (t : Node) (t1 : Built t) (hsh : HShape t)
    (t2 : items t = A ++ contents.map (fun c => ⟨1, H c⟩) ++ B) (hr : hashN H t = mroot H (cs.map H))
    (hn : t.num = cs.length) (hA : 0 ≤ count A) :
    Collision H (contents ++ calls H t) (treeCalls H cs) ∨ contents = (cs.drop (count A).toNat).take contents.length := by
  rcases sound_node H L hH t t1 (cs.map H) hsh hr
    (by rw [List.length_map]; omega) (by simp; intro a _; exact hH a) with ⟨x, x1, y, y1, xy⟩ | hall
  · left
    exact ⟨x, by simp [x1], y, by simp [treeCalls, y1], xy⟩
  · -- every content has the hash of the honest one
    have hpt : ∀ i (hi : i < contents.length), (cs.map H)[(count A).toNat + i]? = some (H contents[i]) := by
      intro i hi
      have hsplit : contents = contents.take i ++ contents[i] :: contents.drop (i + 1) := by
        rw [List.getElem_cons_drop, List.take_append_drop]
      have := hall (A ++ (contents.take i).map (fun c => ⟨1, H c⟩)) ⟨1, H contents[i]⟩
        ((contents.drop (i + 1)).map (fun c => ⟨1, H c⟩) ++ B) (by
          rw [t2]
          have : A ++ contents.map (fun c => (⟨1, H c⟩ : ProofNode)) ++ B =
              A ++ (contents.take i ++ contents[i] :: contents.drop (i + 1)).map (fun c => ⟨1, H c⟩) ++ B := by
            rw [← hsplit]
          rw [this, List.map_append, List.map_cons]; simp only [List.append_assoc, List.cons_append]) rfl (hH _)
      rw [← this]
      congr 1
      rw [count_append]
      have : count ((contents.take i).map (fun c => (⟨1, H c⟩ : ProofNode))) = i := by
        rw [count_ones, List.length_take]; omega
      omega
    by_cases heq : contents = (cs.drop (count A).toNat).take contents.length
    · exact Or.inr heq
    · left
      -- some content differs
      have hex : ∃ i, ∃ hi : i < contents.length, cs[(count A).toNat + i]? ≠ some contents[i] := by
        apply Classical.byContradiction
        intro hno
        apply heq
        apply List.ext_getElem?
        intro i
        by_cases hi : i < contents.length
        · have : cs[(count A).toNat + i]? = some contents[i] := by
            apply Classical.byContradiction
            intro hc'
            exact hno ⟨i, hi, hc'⟩
          rw [List.getElem?_take, if_pos hi, List.getElem?_drop, this]
          simp [hi]
        · rw [List.getElem?_take, if_neg hi]
          simp; omega
      obtain ⟨i, hi, hd⟩ := hex
      have hm := hpt i hi
      rw [List.getElem?_map] at hm
      cases hcs : cs[(count A).toNat + i]? with
      | none => simp [hcs] at hm
      | some c =>
        simp [hcs] at hm hd
        refine ⟨contents[i], by simp, c, ?_, fun h' => hd h'.symm, hm.symm⟩
        simp only [treeCalls, List.mem_append]
        exact Or.inl (List.mem_of_getElem? hcs)

/-- Tree assembled by the verifier. -/
def proofTree (cfg : Cfg) (H : Bytes → Bytes) (p : Proof) : Node :=
  (blocks H p).foldl (fun n x => Node.lazyAdd cfg n x.num x.value) Node.init

/-- Everything the verifier hashes. -/
def proofCalls (cfg : Cfg) (H : Bytes → Bytes) (p : Proof) : List Bytes := p.contents ++ calls H (proofTree cfg H p)

theorem foldl_wrap (cfg : Cfg) (M : Nat) (hc : CfgOk cfg M) (l : List ProofNode) (s : Int) (hs : 0 ≤ s)
    (hp : ∀ x ∈ l, 1 ≤ x.num) (hM : s + count l < M) :
    l.foldl (fun s x => cfg.wrap (s + x.num)) s = s + count l ∧ 0 ≤ count l := by
  induction l generalizing s with
  | nil => simp [count]
  | cons a l ih =>
    have ha := hp a (by simp)
    have hcc : count (a :: l) = a.num + count l := by simp [count]
    have h0 : 0 ≤ count l := count_nonneg fun x hx => hp x (by simp [hx])
    have hw := hc.wrap (s + a.num).toNat (by omega)
    rw [show (((s + a.num).toNat : Nat) : Int) = s + a.num by omega] at hw
    have := ih (s + a.num) (by omega) (fun x hx => hp x (by simp [hx])) (by omega)
    rw [List.foldl_cons, hw, this.1]
    omega

theorem proof_sound (cfg : Cfg) (M : Nat) (hc : CfgOk cfg M) (H : Bytes → Bytes) (L : Nat)
    (hH : ∀ x, (H x).length = L) (cs : List Bytes) (p : Proof) (hp : ∀ x ∈ p.lefts ++ p.rights, 1 ≤ x.num)
    (hM : count (blocks H p) < M) (left : Int) (hne : p.contents ≠ [])
    (h : proofRoot cfg H p = some (mroot H (cs.map H), left, (cs.length : Int))) :
    0 ≤ left ∧ (Collision H (proofCalls cfg H p) (treeCalls H cs) ∨
      p.contents = (cs.drop left.toNat).take p.contents.length) := by
  have hpos : ∀ x ∈ blocks H p, 1 ≤ x.num := by
    intro x hx
    simp only [blocks, List.mem_append, List.mem_map] at hx
    rcases hx with (hx | ⟨c, _, rfl⟩) | hx
    · exact hp x (by simp [hx])
    · simp
    · exact hp x (by simp [hx])
  have hbne : blocks H p ≠ [] := by simp [blocks, hne]
  obtain ⟨t1, t2⟩ := foldl_init cfg M hc (blocks H p) hbne hpos hM
  -- unfold the verifier
  have hfold : p.rights.foldl (fun n x => Node.lazyAdd cfg n x.num x.value)
      (p.contents.foldl (fun n c => Node.lazyAdd cfg n 1 (H c))
        (p.lefts.foldl (fun n x => Node.lazyAdd cfg n x.num x.value) Node.init)) = proofTree cfg H p := by
    simp [proofTree, blocks, List.foldl_append, List.foldl_map]
  have hcnt : count (blocks H p) = count p.lefts + (p.contents.length : Int) + count p.rights := by
    simp only [blocks, count_append, count_ones]
  have hlp : ∀ x ∈ p.lefts, 1 ≤ x.num := fun x hx => hp x (by simp [hx])
  have hrp : ∀ x ∈ p.rights, 1 ≤ x.num := fun x hx => hp x (by simp [hx])
  have hr0 : 0 ≤ count p.rights := count_nonneg hrp
  have w1 := foldl_wrap cfg M hc p.lefts 0 (by omega) hlp (by omega)
  have w2 := foldl_ones cfg M hc p.contents 0 (by omega)
  simp only [Nat.zero_add, Int.natCast_zero] at w2
  have w3 := foldl_wrap cfg M hc p.rights p.contents.length (by omega) hrp (by omega)
  unfold proofRoot at h
  simp only [hfold] at h
  rw [w1.1, w2, w3.1] at h
  rw [show proofTree cfg H p = (blocks H p).foldl (fun n x => Node.lazyAdd cfg n x.num x.value) Node.init from rfl] at h
  generalize ht : (blocks H p).foldl (fun n x => Node.lazyAdd cfg n x.num x.value) Node.init = t at *
  cases he : t.ensureHash H with
  | none => simp [he] at h
  | some t' =>
    simp only [he] at h
    obtain ⟨g1, g2, g3, g4⟩ := ensureHash_hash H t t' t1 he
    split at h
    · simp at h
    · split at h
      · rename_i hnum hver
        simp only [Option.some.injEq, Prod.mk.injEq] at h
        obtain ⟨k1, k2, k3⟩ := h
        simp only [Decidable.not_not] at hnum
        rw [g4] at hver
        have ft := t1.facts
        rw [t2] at ft
        have hsh := verify_shape cfg M hc t t1 hver (by omega)
        have hleft : left = count p.lefts := by omega
        have hr0' : 0 ≤ count p.lefts := by omega
        refine ⟨by omega, ?_⟩
        have hpt : proofTree cfg H p = t := ht
        rcases sound_contents H L hH cs p.lefts p.rights p.contents t t1 hsh.2 t2 (by rw [← g1]; exact k1) (by omega)
          hr0' with ⟨x, x1, y, y1, xy⟩ | he
        · left
          exact ⟨x, by simpa only [proofCalls, hpt] using x1, y, y1, xy⟩
        · right
          rw [hleft]; exact he
      · simp at h

/-- C14, part: if all leaf counts of a proof are positive (and their sum fits an `int`), a proof that verifies to the
root and the size of an honest tree carries exactly the honest contents at the reported offset, or two different
byte strings with the same hash have been exhibited. -/
theorem C14_soundness_partial (H : Bytes → Bytes) (L : Nat) (hH : ∀ x, (H x).length = L) (cs : List Bytes) (p : Proof)
    (hp : ∀ x ∈ p.lefts ++ p.rights, 1 ≤ x.num) (hM : count (blocks H p) < 2 ^ 63) (left : Int) (hne : p.contents ≠ [])
    (h : proofRoot goCfg H p = some (mroot H (cs.map H), left, (cs.length : Int))) :
    0 ≤ left ∧ (Collision H (proofCalls goCfg H p) (treeCalls H cs) ∨
      p.contents = (cs.drop left.toNat).take p.contents.length) :=
  proof_sound goCfg (2 ^ 63) goOk H L hH cs p hp (by simpa using hM) left hne h

/-- C65, part: the same for the verifier of the ICON contract. -/
theorem C65_java_soundness_partial (H : Bytes → Bytes) (L : Nat) (hH : ∀ x, (H x).length = L) (cs : List Bytes) (p : Proof)
    (hp : ∀ x ∈ p.lefts ++ p.rights, 1 ≤ x.num) (hM : count (blocks H p) < 2 ^ 31) (left : Int) (hne : p.contents ≠ [])
    (h : proofRoot javaCfg H p = some (mroot H (cs.map H), left, (cs.length : Int))) :
    0 ≤ left ∧ (Collision H (proofCalls javaCfg H p) (treeCalls H cs) ∨
      p.contents = (cs.drop left.toNat).take p.contents.length) :=
  proof_sound javaCfg (2 ^ 31) javaOk H L hH cs p hp (by simpa using hM) left hne h

/-- A hash of fixed length for the examples. -/
def toyH (x : Bytes) : Bytes := [x.foldl (fun a b => 3 * a + b) 1]

/-- A proof of messages 2 to 4 out of 5 that meets the hypotheses of the two theorems. -/
example : ∃ p : Proof, (∀ x ∈ p.lefts ++ p.rights, 1 ≤ x.num) ∧ count (blocks toyH p) < 2 ^ 31 ∧ p.contents = [[3], [4], [5]] ∧
    proofRoot goCfg toyH p = some (mroot toyH ([[2], [3], [4], [5], [6]].map toyH), 1, 5) ∧
    proofRoot javaCfg toyH p = some (mroot toyH ([[2], [3], [4], [5], [6]].map toyH), 1, 5) := by
  obtain ⟨t, h1, h2, h3⟩ := C11_bulk_root toyH (by simp [toyH]) [[2], [3], [4], [5], [6]] (by simp)
  obtain ⟨p, a1, a2⟩ := C15_java_accepts toyH (by simp [toyH]) [[2], [3], [4], [5], [6]] (by simp) t h1 2 4
    (by simp) (by simp) (by simp)
  obtain ⟨q, b1, b2, b3⟩ := C13_range_proof toyH (by simp [toyH]) [[2], [3], [4], [5], [6]] (by simp) t h1 2 4
    (by simp) (by simp) (by simp)
  rw [a1] at b1; simp at b1; subst b1
  rw [h3] at a2 b3
  have : p = ⟨[⟨1, toyH [2]⟩], [[3], [4], [5]], [⟨1, toyH [6]⟩]⟩ := by
    have : (newTree goCfg toyH ([[2], [3], [4], [5], [6]].map some)).bind (fun t => t.proof 2 4) =
      some ⟨[⟨1, toyH [2]⟩], [[3], [4], [5]], [⟨1, toyH [6]⟩]⟩ := by decide +kernel
    rw [h1, Option.bind_some] at this
    exact Option.some.inj (a1.symm.trans this)
  refine ⟨p, ?_, ?_, b2, b3, a2⟩
  · rw [this]; simp
  · rw [this]; simp [count, blocks]

/-- The forged proof below: an honest left block declared with 32 leaves, an honest right block with -20. -/
def forged (H : Bytes → Bytes) (a c d : List Bytes) : Proof :=
  ⟨[⟨32, mroot H (a.map H)⟩], c, [⟨-20, mroot H (d.map H)⟩]⟩

theorem forged_root (H : Bytes → Bytes) (a c d : List Bytes) (ha : a.length = 8) (hc : c.length = 4) (hd : d.length = 4) :
    mroot H ((a ++ c ++ d).map H) =
      H (mroot H (a.map H) ++ H (mroot H (c.map H) ++ mroot H (d.map H))) := by
  rw [List.append_assoc, List.map_append, List.map_append,
    mroot_append H _ _ 3 (by simp [ha]) (by intro h; have := congrArg List.length h; simp [hc, hd] at this)
      (by simp [ha, hc, hd]),
    mroot_append H _ _ 2 (by simp [hc]) (by intro h; have := congrArg List.length h; simp [hd] at this)
      (by simp [hc, hd])]

theorem forged_ok (cfg : Cfg) (n1 : cfg.ntl 32 = 6) (v : Int) (n2 : cfg.ntl (-20) = v) (hv : v ≤ 3) (hv1 : v ≠ 1)
    (n3 : cfg.ntl 1 = 1) (hw : ∀ x : Int, -100 ≤ x → x ≤ 100 → cfg.wrap x = x) (s5 : cfg.shl 5 = 32) (s2 : cfg.shl 2 = 4)
    (s1 : cfg.shl 1 = 2)
    (H : Bytes → Bytes) (L : Nat) (hL : 1 ≤ L) (hH : ∀ x, (H x).length = L)
    (a c d : List Bytes) (ha : a.length = 8) (hc : c.length = 4) (hd : d.length = 4) :
    proofRoot cfg H (forged H a c d) = some (mroot H ((a ++ c ++ d).map H), 32, 16) := by
  have ma := mroot_length H L hH (a.map H) (by intro h; simp at h; simp [h] at ha) (by simp; intro x _; exact hH x)
  have md := mroot_length H L hH (d.map H) (by intro h; simp at h; simp [h] at hd) (by simp; intro x _; exact hH x)
  rw [forged_root H a c d ha hc hd]
  match c, hc with
  | [c1, c2, c3, c4], _ =>
    have mc : mroot H ([c1, c2, c3, c4].map H) = H (H (H c1 ++ H c2) ++ H (H c3 ++ H c4)) := by
      rw [show [c1, c2, c3, c4].map H = [H c1, H c2] ++ [H c3, H c4] from rfl,
        mroot_append H _ _ 1 (by simp) (by simp) (by simp)]
      rw [show [H c1, H c2] = [H c1] ++ [H c2] from rfl, mroot_append H _ _ 0 (by simp) (by simp) (by simp),
        show [H c3, H c4] = [H c3] ++ [H c4] from rfl, mroot_append H _ _ 0 (by simp) (by simp) (by simp)]
      simp only [mroot_one]
    rw [mc, forged]
    generalize mroot H (a.map H) = A at ma
    generalize mroot H (d.map H) = D at md
    have hA : A ≠ [] := by intro h; simp [h] at ma; omega
    have hD : D ≠ [] := by intro h; simp [h] at md; omega
    by_cases h2 : v < 2
    · simp [proofRoot, Node.lazyAdd, Node.init, n1, n2, n3, hw, s1, s2, s5, Node.num, Node.lev, Node.h,
        Node.ensureHash, Node.verify, hA, h2, hv1, hv]
    · simp [proofRoot, Node.lazyAdd, Node.init, n1, n2, n3, hw, s1, s2, s5, Node.num, Node.lev, Node.h,
        Node.ensureHash, Node.verify, hA, hD, h2, hv1, hv]

/-- C14 is false as stated: from any 16 honest contents a proof can be made that verifies to the honest root and the
honest size 16 and places contents 9 to 12 at offset 32, outside the tree. It uses a negative leaf count. -/
theorem C14_negative_count_forgery (H : Bytes → Bytes) (L : Nat) (hL : 1 ≤ L) (hH : ∀ x, (H x).length = L)
    (a c d : List Bytes) (ha : a.length = 8) (hc : c.length = 4) (hd : d.length = 4) :
    proofRoot goCfg H (forged H a c d) = some (mroot H ((a ++ c ++ d).map H), 32, 16) :=
  forged_ok goCfg (by simp [goCfg, goNumberToLevel, halvings]) 3 (by simp [goCfg, goNumberToLevel, halvings])
    (by omega) (by omega) (by simp [goCfg, goNumberToLevel])
    (by intro x h1 h2; simp only [goCfg, i64]; omega) (by decide) (by decide) (by decide) H L hL hH a c d ha hc hd

/-- C65, negation of the full statement: the same forgery passes the verifier of the ICON contract. -/
theorem C65_negative_count_forgery (H : Bytes → Bytes) (L : Nat) (hL : 1 ≤ L) (hH : ∀ x, (H x).length = L)
    (a c d : List Bytes) (ha : a.length = 8) (hc : c.length = 4) (hd : d.length = 4) :
    proofRoot javaCfg H (forged H a c d) = some (mroot H ((a ++ c ++ d).map H), 32, 16) :=
  forged_ok javaCfg (by simp [javaCfg, javaNumberToLevel, halvings]) (-20) (by simp [javaCfg, javaNumberToLevel])
    (by omega) (by omega) (by simp [javaCfg, javaNumberToLevel])
    (by intro x h1 h2; simp only [javaCfg, i32]; omega) (by decide) (by decide) (by decide) H L hL hH a c d ha hc hd

/-- C14 again: with a right node of leaf count zero a message that is not in the tree is accepted, if the tree's only
message is the concatenation of the hash of the forged one and any other string. -/
theorem C14_zero_count_forgery (H : Bytes → Bytes) (m' z : Bytes) :
    proofRoot goCfg H ⟨[], [m'], [⟨0, z⟩]⟩ = some (mroot H ([H m' ++ z].map H), 0, 1) := by
  have n0 : goNumberToLevel 0 = 0 := by simp [goNumberToLevel]
  have n1 : goNumberToLevel 1 = 1 := by simp [goNumberToLevel]
  simp [proofRoot, Node.lazyAdd, Node.init, goCfg, n0, n1, i64, Node.num, Node.lev, Node.h,
    Node.ensureHash, Node.verify, mroot_one]

/-- The same for the ICON contract. -/
theorem C65_zero_count_forgery (H : Bytes → Bytes) (m' z : Bytes) :
    proofRoot javaCfg H ⟨[], [m'], [⟨0, z⟩]⟩ = some (mroot H ([H m' ++ z].map H), 0, 1) := by
  have n0 : javaNumberToLevel 0 = 0 := by simp [javaNumberToLevel]
  have n1 : javaNumberToLevel 1 = 1 := by simp [javaNumberToLevel]
  simp [proofRoot, Node.lazyAdd, Node.init, javaCfg, n0, n1, i32, Node.num, Node.lev, Node.h,
    Node.ensureHash, Node.verify, mroot_one]

end Verif.Mbt
