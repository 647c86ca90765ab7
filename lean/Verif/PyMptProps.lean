import Verif.PyMpt
import Verif.PyRlpProps
import Verif.JavaMptProps
/-!
C119: proofs of the receipt and event tries in the Python verifier for ICON blocks.
-/
namespace Verif.PyMpt
open Verif Verif.Rlp Verif.Mbt
open Verif.JavaMpt (Trie toNibbles matchCount)

/-! ### Tries as bytes, independently of the verifier -/

def isEmpty : Trie → Bool
  | .empty => true
  | _ => false

/-- How a node is named in its parent: by nothing, by itself or by its hash; `emb` tells which nodes are put into their parent. -/
def link (H : Bytes → Bytes) (emb : Bytes → Bool) (e : Bool) (s : Bytes) : Bytes := if e = true ∨ emb s = true then s else wBytes (H s)

/-- The serialized form of a node. -/
def ser (H : Bytes → Bytes) (emb : Bytes → Bool) : Trie → Bytes
  | .empty => wBytes []
  | .leaf p v => wList [wBytes (JavaMpt.header true p), wBytes v].flatten
  | .ext p t => wList [wBytes (JavaMpt.header false p), link H emb (isEmpty t) (ser H emb t)].flatten
  | .branch c v => wList (List.ofFn (fun i => link H emb (isEmpty (c i)) (ser H emb (c i))) ++ [wBytes v]).flatten

def root (H : Bytes → Bytes) (emb : Bytes → Bool) (t : Trie) : Bytes := if isEmpty t = true then [] else H (ser H emb t)

/-- The node itself, if it is stored under its hash. -/
def own (H : Bytes → Bytes) (emb : Bytes → Bool) (t : Trie) : List Bytes := if isEmpty t = true ∨ emb (ser H emb t) = true then [] else [ser H emb t]

/-- The nodes stored under their hashes on the way to a path, below the first one. -/
def below (H : Bytes → Bytes) (emb : Bytes → Bool) : Trie → Bytes → List Bytes
  | .empty, _ => []
  | .leaf _ _, _ => []
  | .ext p t, key => if key.take p.length = p then own H emb t ++ below H emb t (key.drop p.length) else []
  | .branch c _, key =>
    match key with
    | [] => []
    | n :: key => if h : n.toNat < 16 then own H emb (c ⟨n.toNat, h⟩) ++ below H emb (c ⟨n.toNat, h⟩) key else []

/-- No serialized node is longer than the lengths that can be written. -/
def Short (H : Bytes → Bytes) (emb : Bytes → Bool) : Trie → Prop
  | .empty => True
  | .leaf p v => (ser H emb (.leaf p v)).length < 2 ^ 64
  | .ext p t => (ser H emb (.ext p t)).length < 2 ^ 64 ∧ Short H emb t
  | .branch c v => (ser H emb (.branch c v)).length < 2 ^ 64 ∧ ∀ i, Short H emb (c i)

/-! ### Reading nodes -/

theorem parse_header (b : Bool) (p : Bytes) (hn : ∀ n ∈ p, n.toNat < 16) : parse (some (JavaMpt.header b p)) = some (b, p) := by
  unfold JavaMpt.header
  by_cases h : p.length % 2 = 1
  · match p, h with
    | a :: l, h =>
      rw [if_pos h]
      obtain ⟨i, hi⟩ := JavaMpt.nib_fin a (hn a (by simp))
      obtain ⟨⟨e1, e2, e3⟩, f1, f2, f3⟩ := JavaMpt.nib_head i
      have hp := JavaMpt.toNibbles_pack [a] l (by simp only [List.length_cons] at h; omega) (fun n hh => hn n (by simp [hh]))
      cases b
      · simp only [parse, List.headD_cons, List.tail_cons, Bool.false_eq_true, if_false]
        rw [hi, if_pos f1, f3, ← hi, hp, hi, f2]; simp
      · simp only [parse, List.headD_cons, List.tail_cons, if_true]
        rw [hi, if_pos e1, e3, ← hi, hp, hi, decide_eq_true e2]; simp
  · rw [if_neg h]
    have hp := JavaMpt.toNibbles_pack [] p (by omega) hn
    cases b
    · simp only [parse, Bool.false_eq_true, if_false]
      rw [if_neg (by decide), hp]; simp
    · simp only [parse, if_true]
      rw [if_neg (by decide), hp]; simp

theorem rawBytes_w (b : Bytes) (h : b.length < 2 ^ 64) : rawBytes (wBytes b) = some (some b) := by
  unfold rawBytes; rw [PyRlp.whole_wBytes b h]

theorem rawBytes_l (l : List Bytes) (h : l.flatten.length < 2 ^ 64) (hl : ∀ e ∈ l, PyRlp.IsItem e) : rawBytes (wList l.flatten) = none := by
  unfold rawBytes; rw [PyRlp.whole_wList l h hl]

theorem rawList_l (l : List Bytes) (h : l.flatten.length < 2 ^ 64) (hl : ∀ e ∈ l, PyRlp.IsItem e) : rawList (wList l.flatten) = some l := by
  unfold rawList; rw [PyRlp.whole_wList l h hl]

theorem wBytes_len (b : Bytes) : b.length ≤ (wBytes b).length := by
  rcases wBytes_cases b with ⟨c, h1, h2, h3⟩ | ⟨h1, h2⟩ | ⟨h1, h2⟩
  · rw [h3, h1]; exact Nat.le_refl _
  · rw [h2]; simp
  · rw [h2]; simp; omega

theorem wList_len (b : Bytes) : b.length < (wList b).length := by
  rcases wList_cases b with ⟨h1, h2⟩ | ⟨h1, h2⟩
  · rw [h2]; simp
  · rw [h2]; simp; omega

theorem wList_node (b : Bytes) (h : b.length < 2 ^ 64) : isNode (wList b) = true := by
  obtain ⟨ts, h1, _⟩ := PyRlp.header_wList b [] h
  rw [List.append_nil] at h1
  unfold isNode
  cases hw : wList b with
  | nil => exact absurd hw (wList_ne_nil b)
  | cons t r =>
    rw [hw] at h1
    simp only [PyRlp.header] at h1
    split at h1
    · cases h1
    · simp only [Option.some.injEq] at h1
      simp only [List.headD_cons]
      apply decide_eq_true
      have : (PyRlp.tag t.toNat r).1 = true := by rw [h1]
      unfold PyRlp.tag at this
      by_cases c1 : t.toNat < 0x80
      · rw [if_pos c1] at this; cases this
      rw [if_neg c1] at this
      by_cases c2 : t.toNat < 0xB8
      · rw [if_pos c2] at this; cases this
      rw [if_neg c2] at this
      by_cases c3 : t.toNat < 0xC0
      · rw [if_pos c3] at this; cases this
      · omega

theorem wBytes_not_node (b : Bytes) (h : b.length < 2 ^ 64) : isNode (wBytes b) = false := by
  obtain ⟨ts, h1, _⟩ := PyRlp.header_wBytes b [] h
  rw [List.append_nil] at h1
  unfold isNode
  cases hw : wBytes b with
  | nil => exact absurd hw (wBytes_ne_nil b)
  | cons t r =>
    rw [hw] at h1
    simp only [PyRlp.header] at h1
    split at h1
    · cases h1
    · simp only [Option.some.injEq] at h1
      simp only [List.headD_cons]
      apply decide_eq_false
      have : (PyRlp.tag t.toNat r).1 = false := by rw [h1]
      unfold PyRlp.tag at this
      intro hc
      rw [if_neg (by omega), if_neg (by omega), if_neg (by omega)] at this
      split at this <;> cases this

theorem short_len (H : Bytes → Bytes) (emb : Bytes → Bool) (t : Trie) (h : Short H emb t) : (ser H emb t).length < 2 ^ 64 := by
  cases t with
  | empty => show (wBytes []).length < _; decide
  | leaf p v => exact h
  | ext p t => exact h.1
  | branch c v => exact h.1

theorem ser_item (H : Bytes → Bytes) (emb : Bytes → Bool) (t : Trie) (h : Short H emb t) : PyRlp.IsItem (ser H emb t) := by
  have hs := short_len H emb t h
  cases t with
  | empty => exact PyRlp.IsItem.bytes [] (by decide)
  | leaf p v => exact PyRlp.IsItem.list _ (Nat.lt_of_lt_of_le (Nat.lt_trans (wList_len _) (by exact hs)) (Nat.le_refl _))
  | ext p t => exact PyRlp.IsItem.list _ (Nat.lt_trans (wList_len _) (by exact hs))
  | branch c v => exact PyRlp.IsItem.list _ (Nat.lt_trans (wList_len _) (by exact hs))

theorem link_item {H : Bytes → Bytes} (hH : ∀ x, (H x).length = 32) (emb : Bytes → Bool) (t : Trie) (h : Short H emb t) :
    PyRlp.IsItem (link H emb (isEmpty t) (ser H emb t)) := by
  unfold link
  split
  · exact ser_item H emb t h
  · exact PyRlp.IsItem.bytes _ (by rw [hH]; decide)

theorem mem_len {e : Bytes} {l : List Bytes} (h : e ∈ l) : e.length ≤ l.flatten.length := PyRlp.mem_flatten_len e l h

theorem shape_leaf (H : Bytes → Bytes) (emb : Bytes → Bool) (p v : Bytes) (hn : ∀ n ∈ p, n.toNat < 16) (h : Short H emb (.leaf p v)) :
    shape (ser H emb (.leaf p v)) = some (.leaf p (some v)) := by
  have hl : [wBytes (JavaMpt.header true p), wBytes v].flatten.length < 2 ^ 64 := Nat.lt_trans (wList_len _) (by exact h)
  have h1 : (JavaMpt.header true p).length < 2 ^ 64 :=
    Nat.lt_of_le_of_lt (Nat.le_trans (wBytes_len _) (mem_len (l := [wBytes (JavaMpt.header true p), wBytes v]) (by simp))) hl
  have h2 : v.length < 2 ^ 64 :=
    Nat.lt_of_le_of_lt (Nat.le_trans (wBytes_len _) (mem_len (l := [wBytes (JavaMpt.header true p), wBytes v]) (by simp))) hl
  show (rawList (wList _)).bind ofItems = _
  rw [rawList_l _ hl (by
    intro e he
    simp only [List.mem_cons, List.not_mem_nil, or_false] at he
    rcases he with rfl | rfl
    · exact PyRlp.IsItem.bytes _ h1
    · exact PyRlp.IsItem.bytes _ h2)]
  show (rawBytes (wBytes (JavaMpt.header true p))).bind _ = _
  rw [rawBytes_w _ h1]
  show (parse (some (JavaMpt.header true p))).bind _ = _
  rw [parse_header true p hn]
  show (rawBytes (wBytes v)).bind _ = _
  rw [rawBytes_w _ h2]
  rfl

/-- What an extension is read as: with a node embedded in it, it is not read. -/
theorem shape_ext {H : Bytes → Bytes} (hH : ∀ x, (H x).length = 32) (emb : Bytes → Bool) (p : Bytes) (t : Trie) (hn : ∀ n ∈ p, n.toNat < 16)
    (h : Short H emb (.ext p t)) :
    shape (ser H emb (.ext p t)) = if isEmpty t = false ∧ emb (ser H emb t) = true then none else some (.ext p (root H emb t)) := by
  have hl : [wBytes (JavaMpt.header false p), link H emb (isEmpty t) (ser H emb t)].flatten.length < 2 ^ 64 := Nat.lt_trans (wList_len _) (by exact h.1)
  have h1 : (JavaMpt.header false p).length < 2 ^ 64 :=
    Nat.lt_of_le_of_lt (Nat.le_trans (wBytes_len _) (mem_len (l := [wBytes (JavaMpt.header false p), link H emb (isEmpty t) (ser H emb t)]) (by simp))) hl
  show (rawList (wList _)).bind ofItems = _
  rw [rawList_l _ hl (by
    intro e he
    simp only [List.mem_cons, List.not_mem_nil, or_false] at he
    rcases he with rfl | rfl
    · exact PyRlp.IsItem.bytes _ h1
    · exact link_item hH emb t h.2)]
  show (rawBytes (wBytes (JavaMpt.header false p))).bind _ = _
  rw [rawBytes_w _ h1]
  show (parse (some (JavaMpt.header false p))).bind _ = _
  rw [parse_header false p hn]
  show (rawBytes (link H emb (isEmpty t) (ser H emb t))).bind _ = _
  unfold link root
  cases he : isEmpty t with
  | true =>
    have ht : t = .empty := by cases t <;> first | rfl | cases he
    subst ht
    rw [if_pos (Or.inl rfl), if_neg (by simp), if_pos rfl]
    show (rawBytes (wBytes [])).bind _ = _
    rw [rawBytes_w [] (by decide)]
    rfl
  | false =>
    cases hb : emb (ser H emb t) with
    | true =>
      rw [if_pos (Or.inr rfl), if_pos ⟨rfl, rfl⟩]
      have : rawBytes (ser H emb t) = none := by
        have hs := short_len H emb t h.2
        cases t with
        | empty => cases he
        | leaf q v =>
          have := shape_leaf
          have hl : [wBytes (JavaMpt.header true q), wBytes v].flatten.length < 2 ^ 64 := Nat.lt_trans (wList_len _) (by exact hs)
          refine rawBytes_l _ hl ?_
          intro e he
          simp only [List.mem_cons, List.not_mem_nil, or_false] at he
          rcases he with rfl | rfl
          · exact PyRlp.IsItem.bytes _ (Nat.lt_of_le_of_lt (Nat.le_trans (wBytes_len _) (mem_len (by simp))) hl)
          · exact PyRlp.IsItem.bytes _ (Nat.lt_of_le_of_lt (Nat.le_trans (wBytes_len _) (mem_len (by simp))) hl)
        | ext q t' =>
          have hl : [wBytes (JavaMpt.header false q), link H emb (isEmpty t') (ser H emb t')].flatten.length < 2 ^ 64 := Nat.lt_trans (wList_len _) (by exact hs)
          refine rawBytes_l _ hl ?_
          intro e he
          simp only [List.mem_cons, List.not_mem_nil, or_false] at he
          rcases he with rfl | rfl
          · exact PyRlp.IsItem.bytes _ (Nat.lt_of_le_of_lt (Nat.le_trans (wBytes_len _) (mem_len (by simp))) hl)
          · exact link_item hH emb t' h.2.2
        | branch c v =>
          have hl : (List.ofFn (fun i => link H emb (isEmpty (c i)) (ser H emb (c i))) ++ [wBytes v]).flatten.length < 2 ^ 64 :=
            Nat.lt_trans (wList_len _) (by exact hs)
          refine rawBytes_l _ hl ?_
          intro e he
          rw [List.mem_append, List.mem_ofFn, List.mem_singleton] at he
          rcases he with ⟨i, rfl⟩ | rfl
          · exact link_item hH emb (c i) (h.2.2 i)
          · exact PyRlp.IsItem.bytes _ (Nat.lt_of_le_of_lt (Nat.le_trans (wBytes_len _) (mem_len (by simp))) hl)
      rw [this]
      rfl
    | false =>
      rw [if_neg (by simp), if_neg (by simp), if_neg (by simp), rawBytes_w _ (by rw [hH]; decide)]
      show (if hashOk (H (ser H emb t)) = true then _ else _) = _
      rw [if_pos (by unfold hashOk; rw [hH]; rfl)]

theorem ofItems_17 (l : List Bytes) (h : l.length = 17) : ofItems l = some (.branch (l.take 16) (l.getD 16 [])) := by
  match l, h with
  | a :: b :: c :: l', h =>
    show (if (a :: b :: c :: l').length = 17 then _ else _) = _
    rw [if_pos h]

theorem shape_branch {H : Bytes → Bytes} (hH : ∀ x, (H x).length = 32) (emb : Bytes → Bool) (c : Fin 16 → Trie) (v : Bytes)
    (h : Short H emb (.branch c v)) :
    shape (ser H emb (.branch c v)) = some (.branch (List.ofFn (fun i => link H emb (isEmpty (c i)) (ser H emb (c i)))) (wBytes v)) := by
  have hl : (List.ofFn (fun i => link H emb (isEmpty (c i)) (ser H emb (c i))) ++ [wBytes v]).flatten.length < 2 ^ 64 :=
    Nat.lt_trans (wList_len _) (by exact h.1)
  show (rawList (wList _)).bind ofItems = _
  rw [rawList_l _ hl (by
    intro e he
    rw [List.mem_append, List.mem_ofFn, List.mem_singleton] at he
    rcases he with ⟨i, rfl⟩ | rfl
    · exact link_item hH emb (c i) (h.2 i)
    · exact PyRlp.IsItem.bytes _ (Nat.lt_of_le_of_lt (Nat.le_trans (wBytes_len _) (mem_len (by simp))) hl))]
  rw [Option.bind_some, ofItems_17 _ (by simp)]
  rw [List.take_append_of_le_length (by simp), List.take_of_length_le (by simp), List.getD_eq_getElem?_getD, List.getElem?_append_right (by simp)]
  simp

theorem ser_list {H : Bytes → Bytes} (emb : Bytes → Bool) (t : Trie) (he : isEmpty t = false) : ∃ b, ser H emb t = wList b := by
  cases t with
  | empty => cases he
  | leaf p v => exact ⟨_, rfl⟩
  | ext p t => exact ⟨_, rfl⟩
  | branch c v => exact ⟨_, rfl⟩

/-- What a link is taken for. -/
theorem link_cases {H : Bytes → Bytes} (hH : ∀ x, (H x).length = 32) (emb : Bytes → Bool) (t : Trie) (h : Short H emb t) :
    (isEmpty t = false ∧ emb (ser H emb t) = true ∧ isNode (link H emb (isEmpty t) (ser H emb t)) = true ∧ link H emb (isEmpty t) (ser H emb t) = ser H emb t ∧ own H emb t = []) ∨
    (isNode (link H emb (isEmpty t) (ser H emb t)) = false ∧ linkHash (link H emb (isEmpty t) (ser H emb t)) = some (root H emb t) ∧
      own H emb t = if isEmpty t = true then [] else [ser H emb t]) := by
  unfold link root own
  cases he : isEmpty t with
  | true =>
    have ht : t = .empty := by cases t <;> first | rfl | cases he
    subst ht
    right
    rw [if_pos (Or.inl rfl), if_pos rfl, if_pos (Or.inl rfl)]
    refine ⟨wBytes_not_node [] (by decide), ?_, rfl⟩
    show (rawBytes (wBytes [])).bind _ = _
    rw [rawBytes_w [] (by decide)]
    rfl
  | false =>
    cases hb : emb (ser H emb t) with
    | true =>
      left
      rw [if_pos (Or.inr rfl)]
      obtain ⟨b, hb⟩ := ser_list (H := H) emb t he
      have hs := short_len H emb t h
      refine ⟨rfl, rfl, ?_, rfl, by simp⟩
      rw [hb] at hs ⊢
      exact wList_node b (Nat.lt_trans (wList_len b) hs)
    | false =>
      right
      rw [if_neg (by simp), if_neg (by simp), if_neg (by simp)]
      refine ⟨wBytes_not_node _ (by rw [hH]; decide), ?_, by simp⟩
      unfold linkHash
      rw [rawBytes_w _ (by rw [hH]; decide)]
      show (if hashOk (H (ser H emb t)) = true then _ else _) = _
      rw [if_pos (by unfold hashOk; rw [hH]; rfl)]

/-! ### Steps -/

/-- The rest of a proof from a node on. -/
def goOn (H : Bytes → Bytes) (ps : List Bytes) : W → Option Bytes
  | .done v => some v
  | .next h key => prove H h key ps
  | .fail => none

theorem prove_some {H : Bytes → Bytes} {h key : Bytes} {ps : List Bytes} {v : Bytes} (hp : prove H h key ps = some v) :
    ∃ p qs, ps = p :: qs ∧ H p = h ∧ h ≠ [] ∧ wf p.length p = true ∧ goOn H qs (walk p.length p key) = some v := by
  cases h with
  | nil => cases ps <;> cases hp
  | cons a l =>
    cases ps with
    | nil => cases hp
    | cons p qs =>
      have e : prove H (a :: l) key (p :: qs) = if H p ≠ a :: l then none else if wf p.length p = false then none
        else goOn H qs (walk p.length p key) := by
        rw [prove]
        cases walk p.length p key <;> rfl
      rw [e] at hp
      by_cases c1 : H p = a :: l
      · rw [if_neg (by simp [c1])] at hp
        cases c2 : wf p.length p with
        | false => rw [if_pos c2] at hp; cases hp
        | true => rw [if_neg (by simp [c2])] at hp; exact ⟨p, qs, rfl, c1, by simp, c2, hp⟩
      · rw [if_pos c1] at hp; cases hp

theorem prove_intro {H : Bytes → Bytes} {key : Bytes} {p : Bytes} {qs : List Bytes} {v : Bytes} (hne : H p ≠ []) (hw : wf p.length p = true)
    (hg : goOn H qs (walk p.length p key) = some v) : prove H (H p) key (p :: qs) = some v := by
  cases hh : H p with
  | nil => exact absurd hh hne
  | cons a l =>
    rw [prove, if_neg (by simp [hh]), if_neg (by simp [hw])]
    revert hg
    cases walk p.length p key <;> exact id

theorem walk_leaf {n : Nat} {bs key nib v : Bytes} (h : shape bs = some (.leaf nib (some v))) :
    walk (n + 1) bs key = if matchCount nib key < key.length then .fail else .done v := by
  rw [walk, h]

theorem walk_ext {n : Nat} {bs key nib c : Bytes} (h : shape bs = some (.ext nib c)) :
    walk (n + 1) bs key = if matchCount nib key < nib.length then .fail else .next c (key.drop (matchCount nib key)) := by
  rw [walk, h]

theorem walk_branch {n : Nat} {bs d : Bytes} {links : List Bytes} (h : shape bs = some (.branch links d)) :
    walk (n + 1) bs [] = .done d ∧ ∀ k key, walk (n + 1) bs (k :: key) = match links[k.toNat]? with
        | none => .fail
        | some l => if isNode l then walk n l key else match linkHash l with | some h => .next h key | none => .fail := by
  constructor
  · rw [walk, h]
  · intro k key; rw [walk, h]; rfl

/-! ### Theorems -/

/-- **C119**, uniqueness: two accepted proofs for the same root and key give the same value, or two different nodes of them have the same
hash. -/
theorem C119_unique (H : Bytes → Bytes) (ps : List Bytes) : ∀ (qs : List Bytes) (h key v w : Bytes),
    prove H h key ps = some v → prove H h key qs = some w → v = w ∨ Collision H ps qs := by
  induction ps with
  | nil => intro qs h key v w h1 _; obtain ⟨_, _, hc, _⟩ := prove_some h1; cases hc
  | cons p ps ih =>
    intro qs h key v w h1 h2
    obtain ⟨p1, l1, e1, hp, _, _, g1⟩ := prove_some h1
    cases e1
    obtain ⟨q, qs', rfl, hq, _, _, g2⟩ := prove_some h2
    by_cases hpq : p = q
    · subst hpq
      cases hw : walk p.length p key with
      | done x => rw [hw] at g1 g2; cases g1; cases g2; exact Or.inl rfl
      | fail => rw [hw] at g1; cases g1
      | next h' k' =>
        rw [hw] at g1 g2
        rcases ih qs' h' k' v w g1 g2 with h | ⟨x, hx, y, hy, h⟩
        · exact Or.inl h
        · exact Or.inr ⟨x, by simp [hx], y, by simp [hy], h⟩
    · exact Or.inr ⟨p, by simp, q, by simp, hpq, by rw [hp, hq]⟩

/-- What is shown about a value. -/
def Shown (H : Bytes → Bytes) (t : Trie) (key v : Bytes) (ps ns : List Bytes) : Prop :=
  (∃ rest, t.lookup (key ++ rest) = some v) ∨ (∃ w, v = wBytes w ∧ (t.lookup key = some w ∨ w = [])) ∨ Collision H ps ns

theorem hashed_sound {H : Bytes → Bytes} (emb : Bytes → Bool) (t : Trie)
    (ih : ∀ (n : Nat) (key : Bytes) (ps : List Bytes) (v : Bytes), goOn H ps (walk n (ser H emb t) key) = some v → Shown H t key v ps (below H emb t key))
    (key : Bytes) (ps : List Bytes) (v : Bytes) (h : prove H (root H emb t) key ps = some v) :
    isEmpty t = false ∧ Shown H t key v ps (ser H emb t :: below H emb t key) := by
  obtain ⟨p, qs, rfl, hp, hne, _, hg⟩ := prove_some h
  unfold root at hp hne
  cases he : isEmpty t with
  | true => rw [he] at hne; simp at hne
  | false =>
    rw [he, if_neg (by simp)] at hp
    refine ⟨rfl, ?_⟩
    by_cases e : p = ser H emb t
    · subst e
      rcases ih _ _ _ _ hg with h1 | h2 | ⟨x, hx, y, hy, hc⟩
      · exact Or.inl h1
      · exact Or.inr (Or.inl h2)
      · exact Or.inr (Or.inr ⟨x, by simp [hx], y, by simp [hy], hc⟩)
    · exact Or.inr (Or.inr ⟨p, by simp, _, by simp, e, hp⟩)

theorem node_sound {H : Bytes → Bytes} (hH : ∀ x, (H x).length = 32) (emb : Bytes → Bool) (t : Trie) : t.Nib → Short H emb t →
    ∀ (n : Nat) (key : Bytes) (ps : List Bytes) (v : Bytes), goOn H ps (walk n (ser H emb t) key) = some v → Shown H t key v ps (below H emb t key) := by
  induction t with
  | empty =>
    intro _ _ n key ps v hg
    cases n with
    | zero => cases hg
    | succ n =>
      exfalso
      have : shape (ser H emb .empty) = none := by
        show (rawList (wBytes [])).bind _ = _
        unfold rawList
        rw [PyRlp.whole_wBytes [] (by decide)]; rfl
      rw [walk, this] at hg
      cases hg
  | leaf p v0 =>
    intro hw hsh n key ps v hg
    cases n with
    | zero => cases hg
    | succ n =>
      rw [walk_leaf (shape_leaf H emb p v0 hw hsh)] at hg
      split at hg
      · cases hg
      · cases hg
        left
        obtain ⟨m1, m2, m3⟩ := JavaMpt.matchCount_le p key
        have hm : matchCount p key = key.length := by omega
        rw [hm, List.take_length] at m3
        refine ⟨p.drop key.length, ?_⟩
        unfold Trie.lookup
        rw [if_pos]
        conv => lhs; lhs; rw [← m3]
        rw [List.take_append_drop]
  | ext p t ih =>
    intro hw hsh n key ps v hg
    cases n with
    | zero => cases hg
    | succ n =>
      have hs := shape_ext hH emb p t hw.1 hsh
      by_cases hemb : isEmpty t = false ∧ emb (ser H emb t) = true
      · rw [if_pos hemb] at hs
        rw [walk, hs] at hg
        cases hg
      · rw [if_neg hemb] at hs
        rw [walk_ext hs] at hg
        split at hg
        · cases hg
        · obtain ⟨m1, m2, m3⟩ := JavaMpt.matchCount_le p key
          have hm : matchCount p key = p.length := by omega
          rw [hm, List.take_length] at m3
          rw [hm] at hg m2
          obtain ⟨he, hs⟩ := hashed_sound emb t (ih hw.2 hsh.2) _ _ _ hg
          have hb : below H emb (.ext p t) key = ser H emb t :: below H emb t (key.drop p.length) := by
            rw [below, if_pos m3.symm]
            unfold own
            rw [if_neg (by rintro (x | x); (rw [he] at x; cases x); exact hemb ⟨he, x⟩)]
            rfl
          rw [hb]
          have hlook : ∀ rest, (Trie.ext p t).lookup (key ++ rest) = t.lookup (key.drop p.length ++ rest) := fun rest => by
            rw [JavaMpt.Trie.lookup, List.take_append_of_le_length m2, if_pos m3.symm, List.drop_append_of_le_length m2]
          rcases hs with ⟨rest, hr⟩ | ⟨w, h1, h2⟩ | hc
          · exact Or.inl ⟨rest, by rw [hlook]; exact hr⟩
          · refine Or.inr (Or.inl ⟨w, h1, h2.imp (fun h => ?_) id⟩)
            have := hlook []
            rw [List.append_nil, List.append_nil] at this
            rw [this]; exact h
          · exact Or.inr (Or.inr hc)
  | branch c v0 ih =>
    intro hw hsh n key ps v hg
    cases n with
    | zero => cases hg
    | succ n =>
      obtain ⟨b1, b2⟩ := walk_branch (n := n) (shape_branch hH emb c v0 hsh)
      cases key with
      | nil =>
        rw [b1] at hg
        cases hg
        refine Or.inr (Or.inl ⟨v0, rfl, ?_⟩)
        by_cases hv : v0 = []
        · exact Or.inr hv
        · left; unfold Trie.lookup; rw [if_neg hv]
      | cons k key =>
        rw [b2] at hg
        by_cases hk : k.toNat < 16
        · rw [List.getElem?_ofFn, dif_pos hk] at hg
          have hlook : ∀ rest, (Trie.branch c v0).lookup (k :: key ++ rest) = (c ⟨k.toNat, hk⟩).lookup (key ++ rest) := fun rest => by
            rw [List.cons_append, JavaMpt.Trie.lookup, dif_pos hk]
          have hb : below H emb (.branch c v0) (k :: key) = own H emb (c ⟨k.toNat, hk⟩) ++ below H emb (c ⟨k.toNat, hk⟩) key := by
            rw [below, dif_pos hk]
          rw [hb]
          have lift : ∀ ns, Shown H (c ⟨k.toNat, hk⟩) key v ps ns → Shown H (.branch c v0) (k :: key) v ps ns := by
            intro ns hs
            rcases hs with ⟨rest, hr⟩ | ⟨w, h1, h2⟩ | hc
            · exact Or.inl ⟨rest, by rw [hlook]; exact hr⟩
            · refine Or.inr (Or.inl ⟨w, h1, h2.imp (fun h => ?_) id⟩)
              have := hlook []
              rw [List.append_nil, List.append_nil] at this
              rw [this]; exact h
            · exact Or.inr (Or.inr hc)
          rcases link_cases hH emb (c ⟨k.toNat, hk⟩) (hsh.2 _) with ⟨_, _, l1, l2, l3⟩ | ⟨l1, l2, l3⟩
          · simp only [l1, if_true] at hg
            rw [l2] at hg
            rw [l3]
            exact lift _ (ih _ (hw _) (hsh.2 _) n key ps v hg)
          · simp only [l1, l2, Bool.false_eq_true, if_false] at hg
            obtain ⟨he, hs⟩ := hashed_sound emb _ (ih _ (hw _) (hsh.2 _)) _ _ _ hg
            rw [l3, he, if_neg (by simp)]
            exact lift _ hs
        · rw [List.getElem?_ofFn, dif_neg hk] at hg
          cases hg

/-- **C119**, what an accepted proof shows in general: the value is stored under a path that the key is a prefix of, or it is the encoding
of the value of a branch, or a node of the proof and a different node of the trie have the same hash. -/
theorem C119_extension_partial {H : Bytes → Bytes} (hH : ∀ x, (H x).length = 32) (emb : Bytes → Bool) (t : Trie) (ht : t.Nib) (hs : Short H emb t)
    (key : Bytes) (ps : List Bytes) (v : Bytes) (h : prove H (root H emb t) key ps = some v) :
    (∃ rest, t.lookup (key ++ rest) = some v) ∨ (∃ w, v = wBytes w ∧ (t.lookup key = some w ∨ w = [])) ∨
      Collision H ps (ser H emb t :: below H emb t key) :=
  (hashed_sound emb t (node_sound hH emb t ht hs) key ps v h).2

/-- **C119**, soundness for values that are lists (receipts and events are): in a trie where no stored path properly extends the key, an
accepted list is the value stored under the key, or a node of the proof and a different node of the trie have the same hash. -/
theorem C119_sound_partial {H : Bytes → Bytes} (hH : ∀ x, (H x).length = 32) (emb : Bytes → Bool) (t : Trie) (ht : t.Nib) (hs : Short H emb t)
    (key : Bytes) (ps : List Bytes) (v : Bytes) (l : List Bytes) (hl : PyRlp.whole v = some (.items l)) (hvl : v.length < 2 ^ 64)
    (hfree : ∀ rest w, t.lookup (key ++ rest) = some w → rest = []) (h : prove H (root H emb t) key ps = some v) :
    t.lookup key = some v ∨ Collision H ps (ser H emb t :: below H emb t key) := by
  rcases C119_extension_partial hH emb t ht hs key ps v h with ⟨rest, hr⟩ | ⟨w, rfl, _⟩ | hc
  · left
    have := hfree rest v hr
    subst this
    simpa using hr
  · rw [PyRlp.whole_wBytes w (Nat.lt_of_le_of_lt (wBytes_len w) hvl)] at hl
    cases hl
  · exact Or.inr hc

/-- **C119**, the tries of ICON: all keys are RLP encodings (of the index); then an accepted list for an index is the value of this index. -/
theorem C119_index_partial {H : Bytes → Bytes} (hH : ∀ x, (H x).length = 32) (emb : Bytes → Bool) (t : Trie) (ht : t.Nib) (hs : Short H emb t)
    (hkeys : ∀ k w, t.lookup k = some w → ∃ ty x, k = toNibbles [] (Rlp.enc ty x) ∧ (Rlp.enc ty x).length < 2 ^ 63)
    (ty : Rlp.Ty) (x : Rlp.Val ty) (hx : (Rlp.enc ty x).length < 2 ^ 63)
    (ps : List Bytes) (v : Bytes) (l : List Bytes) (hl : PyRlp.whole v = some (.items l)) (hvl : v.length < 2 ^ 64)
    (h : proveKey H (root H emb t) (Rlp.enc ty x) ps = some v) :
    t.lookup (toNibbles [] (Rlp.enc ty x)) = some v ∨ Collision H ps (ser H emb t :: below H emb t (toNibbles [] (Rlp.enc ty x))) := by
  unfold proveKey at h
  split at h
  · refine C119_sound_partial hH emb t ht hs _ ps v l hl hvl ?_ h
    intro rest w hr
    obtain ⟨ty', x', e, hx'⟩ := hkeys _ _ hr
    obtain ⟨r, h1, h2⟩ := JavaMpt.prefix_bytes _ _ _ e
    have := (Rlp.C07_prefix_free ty ty' x x' r [] hx hx' (by rw [h1]; simp)).2
    rw [h2, this]
    rfl
  · cases h

/-! ### Completeness -/

/-- Nothing is stored at a branch: so it is when no key is a prefix of another. -/
def NoVals : Trie → Prop
  | .empty => True
  | .leaf _ _ => True
  | .ext _ t => NoVals t
  | .branch c v => v = [] ∧ ∀ i, NoVals (c i)

/-- No node is embedded in an extension. -/
def NoEmbExt (H : Bytes → Bytes) (emb : Bytes → Bool) : Trie → Prop
  | .empty => True
  | .leaf _ _ => True
  | .ext _ t => emb (ser H emb t) = false ∧ NoEmbExt H emb t
  | .branch c _ => ∀ i, NoEmbExt H emb (c i)

theorem ser_wf {H : Bytes → Bytes} (hH : ∀ x, (H x).length = 32) (emb : Bytes → Bool) (t : Trie) : t.Nib → Short H emb t → NoEmbExt H emb t →
    isEmpty t = false → ∀ n, (ser H emb t).length ≤ n → wf n (ser H emb t) = true := by
  induction t with
  | empty => intro _ _ _ he; cases he
  | leaf p v =>
    intro hn hs _ _ n hl
    cases n with
    | zero =>
      have := wList_len [wBytes (JavaMpt.header true p), wBytes v].flatten
      have e : (ser H emb (.leaf p v)).length = (wList [wBytes (JavaMpt.header true p), wBytes v].flatten).length := rfl
      omega
    | succ n => rw [wf, shape_leaf H emb p v hn hs]
  | ext p t _ =>
    intro hn hs hx _ n hl
    cases n with
    | zero =>
      have := wList_len [wBytes (JavaMpt.header false p), link H emb (isEmpty t) (ser H emb t)].flatten
      have e : (ser H emb (.ext p t)).length = (wList [wBytes (JavaMpt.header false p), link H emb (isEmpty t) (ser H emb t)].flatten).length := rfl
      omega
    | succ n => rw [wf, shape_ext hH emb p t hn.1 hs, if_neg (by rw [hx.1]; simp)]
  | branch c v ih =>
    intro hn hs hx _ n hl
    have hlen := wList_len (List.ofFn (fun i => link H emb (isEmpty (c i)) (ser H emb (c i))) ++ [wBytes v]).flatten
    have e : (ser H emb (.branch c v)).length = (wList (List.ofFn (fun i => link H emb (isEmpty (c i)) (ser H emb (c i))) ++ [wBytes v]).flatten).length := rfl
    cases n with
    | zero => omega
    | succ n =>
      rw [wf, shape_branch hH emb c v hs]
      show List.all _ _ = true
      rw [List.all_eq_true]
      intro l hm
      obtain ⟨i, rfl⟩ := (List.mem_ofFn).1 hm
      have hml : (link H emb (isEmpty (c i)) (ser H emb (c i))).length ≤ _ :=
        mem_len (l := List.ofFn (fun i => link H emb (isEmpty (c i)) (ser H emb (c i))) ++ [wBytes v]) (List.mem_append_left _ hm)
      rcases link_cases hH emb (c i) (hs.2 i) with ⟨l0, _, l1, l2, _⟩ | ⟨l1, l2, _⟩
      · simp only [l1, if_true]
        rw [l2] at hml ⊢
        exact ih i (hn i) (hs.2 i) (hx i) l0 n (by omega)
      · simp only [l1, l2, Bool.false_eq_true, if_false, Option.isSome_some]

theorem ser_pos {H : Bytes → Bytes} (emb : Bytes → Bool) (t : Trie) (hs : Short H emb t) : 0 < (ser H emb t).length :=
  List.length_pos_iff.2 (ser_item H emb t hs).1

theorem hashed_complete {H : Bytes → Bytes} (hH : ∀ x, (H x).length = 32) (emb : Bytes → Bool) (t : Trie) (ht : t.Nib) (hs : Short H emb t)
    (hx : NoEmbExt H emb t) (he : isEmpty t = false) (key v : Bytes) (more : List Bytes)
    (ih : ∀ n, (ser H emb t).length ≤ n → goOn H (below H emb t key ++ more) (walk n (ser H emb t) key) = some v) :
    prove H (root H emb t) key (ser H emb t :: below H emb t key ++ more) = some v := by
  unfold root
  rw [he, if_neg (by simp)]
  exact prove_intro (by intro h0; have := hH (ser H emb t); rw [h0] at this; simp at this) (ser_wf hH emb t ht hs hx he _ (Nat.le_refl _)) (ih _ (Nat.le_refl _))

theorem lookup_nonempty {t : Trie} {key v : Bytes} (h : t.lookup key = some v) : isEmpty t = false := by
  cases t with
  | empty => cases h
  | leaf _ _ => rfl
  | ext _ _ => rfl
  | branch _ _ => rfl

theorem node_complete {H : Bytes → Bytes} (hH : ∀ x, (H x).length = 32) (emb : Bytes → Bool) (t : Trie) : t.Nib → Short H emb t → NoEmbExt H emb t → NoVals t →
    ∀ (key v : Bytes) (more : List Bytes), t.lookup key = some v → ∀ n, (ser H emb t).length ≤ n →
      goOn H (below H emb t key ++ more) (walk n (ser H emb t) key) = some v := by
  induction t with
  | empty => intro _ _ _ _ key v more h; cases h
  | leaf p v0 =>
    intro hn hs _ _ key v more h n hl
    obtain ⟨n, rfl⟩ : ∃ k, n = k + 1 := ⟨n - 1, by have := ser_pos emb _ hs; omega⟩
    rw [JavaMpt.Trie.lookup] at h
    by_cases e : key = p
    · rw [if_pos e] at h
      cases h
      subst e
      have := JavaMpt.matchCount_prefix key []
      rw [List.append_nil] at this
      rw [walk_leaf (shape_leaf H emb key v0 hn hs), this, if_neg (by omega)]
      rfl
    · rw [if_neg e] at h; cases h
  | ext p t ih =>
    intro hn hs hx hv key v more h n hl
    obtain ⟨n, rfl⟩ : ∃ k, n = k + 1 := ⟨n - 1, by have := ser_pos emb _ hs; omega⟩
    rw [JavaMpt.Trie.lookup] at h
    by_cases e : key.take p.length = p
    · rw [if_pos e] at h
      have he := lookup_nonempty h
      have hsh := shape_ext hH emb p t hn.1 hs
      rw [if_neg (by rw [hx.1]; simp)] at hsh
      have hm : matchCount p key = p.length := by
        have := JavaMpt.matchCount_prefix p (key.drop p.length)
        conv at this => lhs; rhs; lhs; rw [← e]
        rwa [List.take_append_drop] at this
      rw [walk_ext hsh, hm, if_neg (by omega)]
      have hb : below H emb (.ext p t) key = ser H emb t :: below H emb t (key.drop p.length) := by
        rw [below, if_pos e]
        unfold own
        rw [if_neg (by rw [he, hx.1]; simp)]
        rfl
      rw [hb]
      exact hashed_complete hH emb t hn.2 hs.2 hx.2 he _ v more (ih hn.2 hs.2 hx.2 hv _ v more h)
    · rw [if_neg e] at h; cases h
  | branch c v0 ih =>
    intro hn hs hx hv key v more h n hl
    obtain ⟨n, rfl⟩ : ∃ k, n = k + 1 := ⟨n - 1, by have := ser_pos emb _ hs; omega⟩
    cases key with
    | nil => rw [JavaMpt.Trie.lookup, if_pos hv.1] at h; cases h
    | cons k key =>
      rw [JavaMpt.Trie.lookup] at h
      by_cases hk : k.toNat < 16
      · rw [dif_pos hk] at h
        have he := lookup_nonempty h
        have hb : below H emb (.branch c v0) (k :: key) = own H emb (c ⟨k.toNat, hk⟩) ++ below H emb (c ⟨k.toNat, hk⟩) key := by
          rw [below, dif_pos hk]
        rw [hb, (walk_branch (n := n) (shape_branch hH emb c v0 hs)).2, List.getElem?_ofFn, dif_pos hk]
        have hlen := wList_len (List.ofFn (fun i => link H emb (isEmpty (c i)) (ser H emb (c i))) ++ [wBytes v0]).flatten
        have e : (ser H emb (.branch c v0)).length = (wList (List.ofFn (fun i => link H emb (isEmpty (c i)) (ser H emb (c i))) ++ [wBytes v0]).flatten).length := rfl
        have hml : (link H emb (isEmpty (c ⟨k.toNat, hk⟩)) (ser H emb (c ⟨k.toNat, hk⟩))).length ≤ _ :=
          mem_len (l := List.ofFn (fun i => link H emb (isEmpty (c i)) (ser H emb (c i))) ++ [wBytes v0]) (List.mem_append_left _ (List.mem_ofFn.2 ⟨_, rfl⟩))
        rcases link_cases hH emb (c ⟨k.toNat, hk⟩) (hs.2 _) with ⟨_, _, l1, l2, l3⟩ | ⟨l1, l2, l3⟩
        · simp only [l1, if_true]
          rw [l3, List.nil_append]
          rw [l2] at hml ⊢
          exact ih _ (hn _) (hs.2 _) (hx _) (hv.2 _) key v more h n (by omega)
        · simp only [l1, l2, Bool.false_eq_true, if_false]
          rw [l3, he, if_neg (by simp)]
          exact hashed_complete hH emb _ (hn _) (hs.2 _) (hx _) he key v more (ih _ (hn _) (hs.2 _) (hx _) (hv.2 _) key v more h)
      · rw [dif_neg hk] at h; cases h

/-- **C119**, completeness (partial: not for nodes embedded in extensions and values at branches): the stored nodes on the way to a value
are a proof of it, also with more nodes after them. -/
theorem C119_complete_partial {H : Bytes → Bytes} (hH : ∀ x, (H x).length = 32) (emb : Bytes → Bool) (t : Trie) (ht : t.Nib) (hs : Short H emb t)
    (hx : NoEmbExt H emb t) (hv : NoVals t) (key v : Bytes) (more : List Bytes) (h : t.lookup key = some v) :
    prove H (root H emb t) key (ser H emb t :: below H emb t key ++ more) = some v :=
  hashed_complete hH emb t ht hs hx (lookup_nonempty h) key v more (node_complete hH emb t ht hs hx hv key v more h)

/-- **C119** is false for nodes embedded in extensions: every proof through one is refused. -/
theorem C119_embedded_extension_refused {H : Bytes → Bytes} (hH : ∀ x, (H x).length = 32) (emb : Bytes → Bool) (p : Bytes) (t : Trie)
    (ht : (Trie.ext p t).Nib) (hs : Short H emb (.ext p t)) (he : isEmpty t = false) (hx : emb (ser H emb t) = true) (key : Bytes) (ps : List Bytes) :
    prove H (root H emb (.ext p t)) key (ser H emb (.ext p t) :: ps) = none := by
  cases h : prove H (root H emb (.ext p t)) key (ser H emb (.ext p t) :: ps) with
  | none => rfl
  | some v =>
    obtain ⟨q, qs, e, _, _, hw, _⟩ := prove_some h
    cases e
    have hsh := shape_ext hH emb p t ht.1 hs
    rw [if_pos ⟨he, hx⟩] at hsh
    have hp := ser_pos emb _ hs
    obtain ⟨n, hn⟩ : ∃ k, (ser H emb (.ext p t)).length = k + 1 := ⟨(ser H emb (.ext p t)).length - 1, by omega⟩
    rw [hn, wf, hsh] at hw
    cases hw

/-- **C119** is false for values at branches: what is given is their encoding. -/
theorem C119_branch_value_encoded {H : Bytes → Bytes} (hH : ∀ x, (H x).length = 32) (emb : Bytes → Bool) (c : Fin 16 → Trie) (v : Bytes)
    (ht : (Trie.branch c v).Nib) (hs : Short H emb (.branch c v)) (hx : NoEmbExt H emb (.branch c v)) (hv : v ≠ []) (ps : List Bytes) :
    (Trie.branch c v).lookup [] = some v ∧ prove H (root H emb (.branch c v)) [] (ser H emb (.branch c v) :: ps) = some (wBytes v) := by
  refine ⟨by rw [JavaMpt.Trie.lookup, if_neg hv], ?_⟩
  refine prove_intro (by intro h0; have := hH (ser H emb (.branch c v)); rw [h0] at this; simp at this) (ser_wf hH emb _ ht hs hx rfl _ (Nat.le_refl _)) ?_
  have hp := ser_pos emb _ hs
  obtain ⟨n, hn⟩ : ∃ k, (ser H emb (.branch c v)).length = k + 1 := ⟨(ser H emb (.branch c v)).length - 1, by omega⟩
  rw [hn, (walk_branch (n := n) (shape_branch hH emb c v hs)).1]
  rfl

/-- **C119** is false for keys that are prefixes of stored paths: the leaf of the longer path is accepted. -/
theorem C119_longer_path_accepted {H : Bytes → Bytes} (hH : ∀ x, (H x).length = 32) (emb : Bytes → Bool) (key rest v : Bytes) (hr : rest ≠ [])
    (hn : ∀ n ∈ key ++ rest, n.toNat < 16) (hs : Short H emb (.leaf (key ++ rest) v)) (ps : List Bytes) :
    (Trie.leaf (key ++ rest) v).lookup key = none ∧
      prove H (root H emb (.leaf (key ++ rest) v)) key (ser H emb (.leaf (key ++ rest) v) :: ps) = some v := by
  refine ⟨?_, ?_⟩
  · rw [JavaMpt.Trie.lookup, if_neg]
    intro e
    exact hr (List.append_right_eq_self.1 e.symm)
  · refine prove_intro (by intro h0; have := hH (ser H emb (.leaf (key ++ rest) v)); rw [h0] at this; simp at this)
      (ser_wf hH emb (.leaf (key ++ rest) v) hn hs trivial rfl _ (Nat.le_refl _)) ?_
    have hp := ser_pos emb _ hs
    obtain ⟨n, hk⟩ : ∃ k, (ser H emb (.leaf (key ++ rest) v)).length = k + 1 := ⟨(ser H emb (.leaf (key ++ rest) v)).length - 1, by omega⟩
    rw [hk, walk_leaf (shape_leaf H emb _ v hn hs), JavaMpt.matchCount_prefix', if_neg (by omega)]
    rfl

/-- The two verifiers: where the Java one fails on a node embedded in a branch (`C94_embedded_crash`), the Python one follows it. -/
theorem C119_embedded_followed {n : Nat} {bs d l : Bytes} {links : List Bytes} (h : shape bs = some (.branch links d)) (k : UInt8) (key : Bytes)
    (hl : links[k.toNat]? = some l) (hi : isNode l = true) : walk (n + 1) bs (k :: key) = walk n l key := by
  rw [(walk_branch h).2, hl]
  show (if isNode l = true then _ else _) = _
  rw [if_pos hi]

/-! ### Examples -/

def exEmb (b : Bytes) : Bool := decide (b.length < 32)
def exList (n : UInt8) (k : Nat) : Bytes := wList (wBytes (List.replicate k n))
/-- Three receipts under the indices 0, 1 and 0x82, the first short enough to be embedded. -/
def exTrie : Trie := .branch (fun i => if i.val = 0 then .branch (fun j => if j.val = 0 then .leaf [] (exList 10 5) else if j.val = 1 then .leaf [] (exList 11 40) else .empty) []
  else if i.val = 8 then .ext [1] (.leaf [8, 2] (exList 12 50)) else .empty) []
example : (below JavaMpt.exH exEmb exTrie (toNibbles [] [0x00])).length = 1 ∧ (below JavaMpt.exH exEmb exTrie (toNibbles [] [0x81, 0x82])).length = 2 := by decide +kernel
example : ∀ k ∈ [([0x00], exList 10 5), ([0x01], exList 11 40), ([0x81, 0x82], exList 12 50)],
    proveKey JavaMpt.exH (root JavaMpt.exH exEmb exTrie) k.1 (ser JavaMpt.exH exEmb exTrie :: below JavaMpt.exH exEmb exTrie (toNibbles [] k.1)) = some k.2 := by decide +kernel
example : proveKey JavaMpt.exH (root JavaMpt.exH exEmb exTrie) [0x02] (ser JavaMpt.exH exEmb exTrie :: below JavaMpt.exH exEmb exTrie (toNibbles [] [0x01])) = none := by decide +kernel
example : exTrie.Nib ∧ NoVals exTrie := by
  constructor
  · intro i
    dsimp only
    split
    · intro j; dsimp only; split
      · intro n hn; cases hn
      · split
        · intro n hn; cases hn
        · trivial
    · split
      · exact ⟨by decide, by show ∀ n ∈ _, _; decide⟩
      · trivial
  · refine ⟨rfl, fun i => ?_⟩
    dsimp only
    split
    · refine ⟨rfl, fun j => ?_⟩; dsimp only; split
      · trivial
      · split <;> trivial
    · split <;> trivial

end Verif.PyMpt
