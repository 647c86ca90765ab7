import Verif.JavaMpt
import Verif.RlpProps
/-!
C94: proofs of the receipt and event tries in the Java verifier for ICON blocks.
-/
namespace Verif.JavaMpt
open Verif Verif.Mbt

/-! ### Tries, independently of the verifier -/

/-- A Merkle Patricia trie; paths are lists of nibbles, an empty value of a branch is none. -/
inductive Trie where
  | empty
  | leaf (path v : Bytes)
  | ext (path : Bytes) (t : Trie)
  | branch (c : Fin 16 → Trie) (v : Bytes)

/-- The value stored under a path. -/
def Trie.lookup : Trie → Bytes → Option Bytes
  | .empty, _ => none
  | .leaf p v, key => if key = p then some v else none
  | .ext p t, key => if key.take p.length = p then t.lookup (key.drop p.length) else none
  | .branch _ v, [] => if v = [] then none else some v
  | .branch c _, n :: key => if h : n.toNat < 16 then (c ⟨n.toNat, h⟩).lookup key else none

/-- Two nibbles in each byte. -/
def pack : Bytes → Bytes
  | a :: b :: l => (16 * a + b) :: pack l
  | _ => []

/-- The header of a leaf or an extension: kind, parity, path. -/
def header (leaf : Bool) (p : Bytes) : Bytes :=
  if p.length % 2 = 1 then ((if leaf then 0x30 else 0x10) + p.headD 0) :: pack p.tail
  else (if leaf then 0x20 else 0x00) :: pack p

/-- The hash of a trie; every node is stored under its hash. -/
def Trie.root (H : Bytes → Bytes) (enc : List Bytes → Bytes) : Trie → Bytes
  | .empty => []
  | .leaf p v => H (enc [header true p, v])
  | .ext p t => H (enc [header false p, t.root H enc])
  | .branch c v => H (enc (List.ofFn (fun i => (c i).root H enc) ++ [v]))

/-- The serialized nodes on the way to a path. -/
def Trie.path (H : Bytes → Bytes) (enc : List Bytes → Bytes) : Trie → Bytes → List Bytes
  | .empty, _ => []
  | .leaf p v, _ => [enc [header true p, v]]
  | .ext p t, key => enc [header false p, t.root H enc] :: (if key.take p.length = p then t.path H enc (key.drop p.length) else [])
  | .branch c v, key => enc (List.ofFn (fun i => (c i).root H enc) ++ [v]) ::
      (match key with
       | [] => []
       | n :: key => if h : n.toNat < 16 then (c ⟨n.toNat, h⟩).path H enc key else [])

/-- Paths consist of nibbles. -/
def Trie.Nib : Trie → Prop
  | .empty => True
  | .leaf p _ => ∀ n ∈ p, n.toNat < 16
  | .ext p t => (∀ n ∈ p, n.toNat < 16) ∧ t.Nib
  | .branch c _ => ∀ i, (c i).Nib

/-! ### Nibbles and headers -/

theorem nib_pair : ∀ a b : Fin 16, ((16 * UInt8.ofNat a.val + UInt8.ofNat b.val) >>> 4) &&& 0x0F = UInt8.ofNat a.val ∧
    (16 * UInt8.ofNat a.val + UInt8.ofNat b.val) &&& 0x0F = UInt8.ofNat b.val := by decide +kernel

theorem nib_back : ∀ x : Fin 256, (16 : UInt8) * ((UInt8.ofNat x.val >>> 4) &&& 0x0F) + (UInt8.ofNat x.val &&& 0x0F) = UInt8.ofNat x.val ∧
    ((UInt8.ofNat x.val >>> 4) &&& 0x0F).toNat < 16 ∧ (UInt8.ofNat x.val &&& 0x0F).toNat < 16 := by decide +kernel

theorem nib_head : ∀ a : Fin 16,
    ((0x30 + UInt8.ofNat a.val : UInt8) &&& 0x10 ≠ 0 ∧ (0x30 + UInt8.ofNat a.val : UInt8) &&& 0x20 ≠ 0 ∧
      (0x30 + UInt8.ofNat a.val : UInt8) &&& 0x0F = UInt8.ofNat a.val) ∧
    ((0x10 + UInt8.ofNat a.val : UInt8) &&& 0x10 ≠ 0 ∧ (0x10 + UInt8.ofNat a.val : UInt8) &&& 0x20 = 0 ∧
      (0x10 + UInt8.ofNat a.val : UInt8) &&& 0x0F = UInt8.ofNat a.val) := by decide +kernel

theorem byte_fin (x : UInt8) : ∃ i : Fin 256, x = UInt8.ofNat i.val := ⟨⟨x.toNat, x.toNat_lt⟩, by simp⟩
theorem nib_fin (x : UInt8) (h : x.toNat < 16) : ∃ i : Fin 16, x = UInt8.ofNat i.val := ⟨⟨x.toNat, h⟩, by simp⟩

theorem toNibbles_cons (pre : Bytes) (x : UInt8) (b : Bytes) :
    toNibbles pre (x :: b) = pre ++ ((x >>> 4) &&& 0x0F) :: (x &&& 0x0F) :: toNibbles [] b := by
  simp [toNibbles]

theorem toNibbles_nib (b : Bytes) : ∀ n ∈ toNibbles [] b, n.toNat < 16 := by
  induction b with
  | nil => simp [toNibbles]
  | cons x b ih =>
    intro n hn
    rw [toNibbles_cons, List.nil_append] at hn
    obtain ⟨i, rfl⟩ := byte_fin x
    have := nib_back i
    rcases List.mem_cons.1 hn with rfl | hn
    · exact this.2.1
    · rcases List.mem_cons.1 hn with rfl | hn
      · exact this.2.2
      · exact ih n hn

theorem toNibbles_pack (pre : Bytes) : ∀ p : Bytes, p.length % 2 = 0 → (∀ n ∈ p, n.toNat < 16) → toNibbles pre (pack p) = pre ++ p := by
  intro p
  induction p using pack.induct with
  | case1 a b l ih =>
    intro h hn
    obtain ⟨i, hi⟩ := nib_fin a (hn a (by simp))
    obtain ⟨k, hk⟩ := nib_fin b (hn b (by simp))
    obtain ⟨e1, e2⟩ := nib_pair i k
    have ih := ih (by simp only [List.length_cons] at h; omega) (fun n hh => hn n (by simp [hh]))
    simp only [toNibbles, List.append_cancel_left_eq] at ih
    simp only [pack, toNibbles, List.flatMap_cons, List.append_cancel_left_eq]
    rw [ih, hi, hk, e1, e2]
    rfl
  | case2 p h =>
    intro hl hn
    match p, h with
    | [], _ => simp [pack, toNibbles]
    | [a], _ => simp at hl
    | a :: b :: l, h => exact absurd rfl (h a b l)

theorem prefix_bytes (a : Bytes) : ∀ (b rest : Bytes), toNibbles [] a ++ rest = toNibbles [] b → ∃ r, a ++ r = b ∧ rest = toNibbles [] r := by
  induction a with
  | nil => intro b rest h; exact ⟨b, rfl, by simpa [toNibbles] using h⟩
  | cons x a ih =>
    intro b rest h
    cases b with
    | nil => rw [toNibbles_cons] at h; simp [toNibbles] at h
    | cons y b =>
      rw [toNibbles_cons, toNibbles_cons] at h
      simp only [List.nil_append, List.cons_append, List.cons.injEq] at h
      obtain ⟨r, h1, h2⟩ := ih b rest h.2.2
      refine ⟨r, ?_, h2⟩
      obtain ⟨i, hi⟩ := byte_fin x
      obtain ⟨k, hk⟩ := byte_fin y
      have e1 := (nib_back i).1
      have e2 := (nib_back k).1
      rw [← hi] at e1
      rw [← hk] at e2
      rw [List.cons_append, h1, ← e1, ← e2, h.1, h.2.1]

theorem header_leaf (p v : Bytes) (hn : ∀ n ∈ p, n.toNat < 16) : ofItems [some (header true p), some v] = .ok (.leaf p v) := by
  unfold header
  by_cases h : p.length % 2 = 1
  · match p, h with
    | a :: l, h =>
      rw [if_pos h]
      obtain ⟨i, hi⟩ := nib_fin a (hn a (by simp))
      obtain ⟨⟨e1, e2, e3⟩, _⟩ := nib_head i
      simp only [ofItems, List.headD_cons, List.tail_cons, if_true]
      rw [hi, if_pos e2, if_pos e1, e3, toNibbles_pack _ l (by simp only [List.length_cons] at h; omega) (fun n hh => hn n (by simp [hh]))]
      rfl
  · rw [if_neg h]
    simp only [ofItems, if_true]
    rw [if_pos (by decide), if_neg (by decide), toNibbles_pack _ p (by omega) hn]
    rfl

theorem header_ext (p v : Bytes) (hn : ∀ n ∈ p, n.toNat < 16) : ofItems [some (header false p), some v] = .ok (.ext p v) := by
  unfold header
  by_cases h : p.length % 2 = 1
  · match p, h with
    | a :: l, h =>
      rw [if_pos h]
      obtain ⟨i, hi⟩ := nib_fin a (hn a (by simp))
      obtain ⟨_, e1, e2, e3⟩ := nib_head i
      simp only [ofItems, List.headD_cons, List.tail_cons, Bool.false_eq_true, if_false]
      rw [hi, if_neg (by rw [e2]; simp), if_pos e1, e3, toNibbles_pack _ l (by simp only [List.length_cons] at h; omega) (fun n hh => hn n (by simp [hh]))]
      rfl
  · rw [if_neg h]
    simp only [ofItems, Bool.false_eq_true, if_false]
    rw [if_neg (by decide), if_neg (by decide), toNibbles_pack _ p (by omega) hn]
    rfl

theorem ofItems_17 (l : List (Option Bytes)) (h : l.length = 17) :
    ofItems l = match l.getD 16 none with | some data => .ok (.branch ((l.take 16).map child) data) | none => .mpt := by
  match l, h with
  | a :: b :: c :: l', h =>
    have e : ofItems (a :: b :: c :: l') = (if 17 < (a :: b :: c :: l').length then D.crash
      else if (a :: b :: c :: l').length = 17 then
        match (a :: b :: c :: l').getD 16 none with
        | some data => .ok (.branch (((a :: b :: c :: l').take 16).map child) data)
        | none => .mpt
      else .mpt) := by cases a <;> cases b <;> rfl
    rw [e, h, if_neg (by omega), if_pos rfl]

theorem header_branch (r : Fin 16 → Bytes) (v : Bytes) :
    ofItems ((List.ofFn r ++ [v]).map some) = .ok (.branch (List.ofFn (fun i => child (some (r i)))) v) := by
  have hl : ((List.ofFn r ++ [v]).map some).length = 17 := by simp
  rw [ofItems_17 _ hl]
  have e1 : ((List.ofFn r ++ [v]).map some).getD 16 none = some v := by
    rw [List.getD_eq_getElem?_getD, List.map_append, List.getElem?_append_right (by simp)]
    simp
  have e2 : ((List.ofFn r ++ [v]).map some).take 16 = (List.ofFn r).map some := by
    rw [List.map_append, List.take_append_of_le_length (by simp), List.take_of_length_le (by simp)]
  rw [e1, e2]
  simp only [List.map_ofFn]
  rfl

theorem matchCount_le (a : Bytes) : ∀ b, matchCount a b ≤ a.length ∧ matchCount a b ≤ b.length ∧
    a.take (matchCount a b) = b.take (matchCount a b) := by
  induction a with
  | nil => intro b; simp [matchCount]
  | cons x a ih =>
    intro b
    cases b with
    | nil => simp [matchCount]
    | cons y b =>
      unfold matchCount
      by_cases h : x = y
      · rw [if_pos h]
        obtain ⟨h1, h2, h3⟩ := ih b
        exact ⟨by simp; omega, by simp; omega, by simp [h, h3]⟩
      · rw [if_neg h]; simp

theorem matchCount_prefix (a rest : Bytes) : matchCount a (a ++ rest) = a.length := by
  induction a with
  | nil => cases rest <;> rfl
  | cons x a ih => simp [matchCount, ih]

theorem matchCount_prefix' (a rest : Bytes) : matchCount (a ++ rest) a = a.length := by
  induction a with
  | nil => cases rest <;> rfl
  | cons x a ih => simp [matchCount, ih]

/-! ### One step of a proof -/

theorem prove_cons (H : Bytes → Bytes) (items : Bytes → Option (List (Option Bytes))) (h key p : Bytes) (ps : List Bytes) (hh : h ≠ []) :
    prove H items h key (p :: ps) = if H p ≠ h then .mpt
    else
      match decode items p with
      | .crash => .crash
      | .mpt => .mpt
      | .ok (.ext nib c) => if matchCount nib key < nib.length then .mpt else prove H items c (key.drop (matchCount nib key)) ps
      | .ok (.branch cs data) =>
        match key with
        | [] => .ok data
        | n :: key =>
          match cs[n.toNat]? with
          | some (.hash h) => prove H items h key ps
          | _ => .crash
      | .ok (.leaf nib data) => if matchCount nib key < key.length then .mpt else .ok data := by
  cases h with
  | nil => exact absurd rfl hh
  | cons a l => rfl

theorem prove_nonempty {H : Bytes → Bytes} {items : Bytes → Option (List (Option Bytes))} {h key : Bytes} {ps : List Bytes} {v : Bytes}
    (hp : prove H items h key ps = .ok v) : h ≠ [] ∧ ∃ p qs, ps = p :: qs ∧ H p = h := by
  cases h with
  | nil => cases ps <;> cases hp
  | cons a l =>
    cases ps with
    | nil => cases hp
    | cons p qs =>
      refine ⟨by simp, p, qs, rfl, ?_⟩
      rw [prove_cons _ _ _ _ _ _ (by simp)] at hp
      by_cases g : H p = a :: l
      · exact g
      · rw [if_pos g] at hp; cases hp

/-- **C94**, a node and a proof step for each shape. -/
theorem step_leaf {H : Bytes → Bytes} {items : Bytes → Option (List (Option Bytes))} {h key p : Bytes} {ps : List Bytes} {nib d : Bytes}
    (hh : h ≠ []) (hp : H p = h) (hd : decode items p = .ok (.leaf nib d)) :
    prove H items h key (p :: ps) = if matchCount nib key < key.length then .mpt else .ok d := by
  rw [prove_cons _ _ _ _ _ _ hh, if_neg (by simp [hp]), hd]

theorem step_ext {H : Bytes → Bytes} {items : Bytes → Option (List (Option Bytes))} {h key p : Bytes} {ps : List Bytes} {nib c : Bytes}
    (hh : h ≠ []) (hp : H p = h) (hd : decode items p = .ok (.ext nib c)) :
    prove H items h key (p :: ps) = if matchCount nib key < nib.length then .mpt else prove H items c (key.drop (matchCount nib key)) ps := by
  rw [prove_cons _ _ _ _ _ _ hh, if_neg (by simp [hp]), hd]

theorem step_branch {H : Bytes → Bytes} {items : Bytes → Option (List (Option Bytes))} {h p : Bytes} {ps : List Bytes} {cs : List Child}
    {d : Bytes} (hh : h ≠ []) (hp : H p = h) (hd : decode items p = .ok (.branch cs d)) :
    prove H items h [] (p :: ps) = .ok d ∧ ∀ n key, prove H items h (n :: key) (p :: ps) =
      match cs[n.toNat]? with | some (.hash h) => prove H items h key ps | _ => .crash := by
  constructor
  · rw [prove_cons _ _ _ _ _ _ hh, if_neg (by simp [hp]), hd]
  · intro n key
    rw [prove_cons _ _ _ _ _ _ hh, if_neg (by simp [hp]), hd]

/-! ### Theorems -/

theorem decode_of {items : Bytes → Option (List (Option Bytes))} {b : Bytes} {l : List Bytes} (h : items b = some (l.map some)) :
    decode items b = ofItems (l.map some) := by unfold decode; rw [h]

theorem path_ext {H : Bytes → Bytes} {enc : List Bytes → Bytes} {p key : Bytes} {t : Trie} (e : key.take p.length = p) :
    (Trie.ext p t).path H enc key = enc [header false p, t.root H enc] :: t.path H enc (key.drop p.length) := by
  show _ :: (if _ then _ else _) = _
  rw [if_pos e]

theorem path_head {H : Bytes → Bytes} {enc : List Bytes → Bytes} (c : Fin 16 → Trie) (v0 key : Bytes) :
    enc (List.ofFn (fun i => (c i).root H enc) ++ [v0]) ∈ (Trie.branch c v0).path H enc key := by
  cases key <;> exact List.mem_cons_self

theorem path_branch {H : Bytes → Bytes} {enc : List Bytes → Bytes} {c : Fin 16 → Trie} {v0 key : Bytes} {n : UInt8} (hn : n.toNat < 16) :
    (Trie.branch c v0).path H enc (n :: key) =
      enc (List.ofFn (fun i => (c i).root H enc) ++ [v0]) :: (c ⟨n.toNat, hn⟩).path H enc key := by
  show _ :: (if h : _ then _ else _) = _
  rw [dif_pos hn]

/-- **C94**, uniqueness: two accepted proofs for the same root and key give the same value, or two different nodes of them have the
same hash. -/
theorem C94_unique (H : Bytes → Bytes) (items : Bytes → Option (List (Option Bytes))) (ps : List Bytes) : ∀ (qs : List Bytes) (h key v w : Bytes),
    prove H items h key ps = .ok v → prove H items h key qs = .ok w → v = w ∨ Collision H ps qs := by
  induction ps with
  | nil => intro qs h key v w h1 _; obtain ⟨_, p, l, hc, _⟩ := prove_nonempty h1; cases hc
  | cons p ps ih =>
    intro qs h key v w h1 h2
    obtain ⟨hh, p', qs', rfl, hq⟩ := prove_nonempty h2
    obtain ⟨_, p0, l0, e0, hp⟩ := prove_nonempty h1
    cases e0
    by_cases hpp : p = p'
    · subst hpp
      have lift : ∀ {v w : Bytes}, (v = w ∨ Collision H ps qs') → (v = w ∨ Collision H (p :: ps) (p :: qs')) := by
        intro v w h
        rcases h with h | ⟨x, hx, y, hy, h⟩
        · exact Or.inl h
        · exact Or.inr ⟨x, by simp [hx], y, by simp [hy], h⟩
      cases hd : decode items p with
      | crash => rw [prove_cons _ _ _ _ _ _ hh, if_neg (by simp [hp]), hd] at h1; cases h1
      | mpt => rw [prove_cons _ _ _ _ _ _ hh, if_neg (by simp [hp]), hd] at h1; cases h1
      | ok n =>
        cases n with
        | leaf nib d =>
          rw [step_leaf hh hp hd] at h1 h2
          split at h1
          · cases h1
          · rename_i g; rw [if_neg g] at h2; cases h1; cases h2; exact Or.inl rfl
        | ext nib c =>
          rw [step_ext hh hp hd] at h1 h2
          split at h1
          · cases h1
          · rename_i g; rw [if_neg g] at h2
            exact lift (ih _ _ _ _ _ h1 h2)
        | branch cs d =>
          cases key with
          | nil =>
            rw [(step_branch hh hp hd).1] at h1 h2
            cases h1; cases h2; exact Or.inl rfl
          | cons n key =>
            rw [(step_branch hh hp hd).2] at h1 h2
            cases g : cs[n.toNat]? with
            | none => rw [g] at h1; cases h1
            | some c =>
              cases c with
              | none => rw [g] at h1; cases h1
              | embedded => rw [g] at h1; cases h1
              | hash h' =>
                rw [g] at h1 h2
                exact lift (ih _ _ _ _ _ h1 h2)
    · exact Or.inr ⟨p, by simp, p', by simp, hpp, by rw [hp, hq]⟩

/-- **C94**, what an accepted proof shows in general: the value is stored under a path that the key is a prefix of, or it is empty. -/
theorem C94_extension_partial {H : Bytes → Bytes} (enc : List Bytes → Bytes)
    (items : Bytes → Option (List (Option Bytes))) (t : Trie) :
    t.Nib → ∀ (key : Bytes) (ps : List Bytes) (v : Bytes), (∀ l, enc l ∈ t.path H enc key → items (enc l) = some (l.map some)) → prove H items (t.root H enc) key ps = .ok v →
      (∃ rest, t.lookup (key ++ rest) = some v) ∨ v = [] ∨ Collision H ps (t.path H enc key) := by
  induction t with
  | empty => intro _ key ps v _ h; exact absurd rfl (prove_nonempty h).1
  | leaf p v0 =>
    intro hw key ps v hdec h
    obtain ⟨hh, q, qs, rfl, hq⟩ := prove_nonempty h
    by_cases e : q = enc [header true p, v0]
    · subst e
      have hdd := decode_of (hdec [header true p, v0] (by simp [Trie.path]))
      rw [show [header true p, v0].map some = [some (header true p), some v0] from rfl, header_leaf p v0 hw] at hdd
      rw [step_leaf hh hq hdd] at h
      split at h
      · cases h
      · rename_i g
        cases h
        left
        obtain ⟨m1, m2, m3⟩ := matchCount_le p key
        have hm : matchCount p key = key.length := by omega
        rw [hm, List.take_length] at m3
        refine ⟨p.drop key.length, ?_⟩
        unfold Trie.lookup
        rw [if_pos]
        conv => lhs; lhs; rw [← m3]
        rw [List.take_append_drop]
    · exact Or.inr (Or.inr ⟨q, by simp, _, by simp [Trie.path], e, hq⟩)
  | ext p t ih =>
    intro hw key ps v hdec h
    obtain ⟨hh, q, qs, rfl, hq⟩ := prove_nonempty h
    by_cases e : q = enc [header false p, t.root H enc]
    · subst e
      have hdd := decode_of (hdec [header false p, t.root H enc] (by simp [Trie.path]))
      rw [show [header false p, t.root H enc].map some = [some (header false p), some (t.root H enc)] from rfl, header_ext p _ hw.1] at hdd
      rw [step_ext hh hq hdd] at h
      split at h
      · cases h
      · rename_i g
        obtain ⟨m1, m2, m3⟩ := matchCount_le p key
        have hm : matchCount p key = p.length := by omega
        rw [hm, List.take_length] at m3
        rw [hm] at h m2
        rw [path_ext m3.symm] at hdec
        rcases ih hw.2 _ _ _ (fun l hl => hdec l (List.mem_cons_of_mem _ hl)) h with ⟨rest, hr⟩ | hr | ⟨x, hx, y, hy, hc⟩
        · left
          refine ⟨rest, ?_⟩
          unfold Trie.lookup
          rw [List.take_append_of_le_length m2, if_pos m3.symm, List.drop_append_of_le_length m2]
          exact hr
        · exact Or.inr (Or.inl hr)
        · refine Or.inr (Or.inr ⟨x, by simp [hx], y, ?_, hc⟩)
          rw [path_ext m3.symm]
          simp [hy]
    · exact Or.inr (Or.inr ⟨q, by simp, _, by simp [Trie.path], e, hq⟩)
  | branch c v0 ih =>
    intro hw key ps v hdec h
    obtain ⟨hh, q, qs, rfl, hq⟩ := prove_nonempty h
    by_cases e : q = enc (List.ofFn (fun i => (c i).root H enc) ++ [v0])
    · subst e
      have hdd := decode_of (hdec (List.ofFn (fun i => (c i).root H enc) ++ [v0]) (path_head c v0 key))
      rw [header_branch] at hdd
      cases key with
      | nil =>
        rw [(step_branch hh hq hdd).1] at h
        cases h
        by_cases hv : v0 = []
        · exact Or.inr (Or.inl hv)
        · left
          refine ⟨[], ?_⟩
          rw [List.nil_append]
          unfold Trie.lookup
          rw [if_neg hv]
      | cons n key =>
        rw [(step_branch hh hq hdd).2] at h
        by_cases hn : n.toNat < 16
        · rw [List.getElem?_ofFn, dif_pos hn] at h
          unfold child at h
          dsimp only at h
          rw [path_branch hn] at hdec ⊢
          by_cases hc : ((c ⟨n.toNat, hn⟩).root H enc).length > 0
          · rw [if_pos hc] at h
            rcases ih ⟨n.toNat, hn⟩ (hw _) key qs v (fun l hl => hdec l (List.mem_cons_of_mem _ hl)) h with
              ⟨rest, hr⟩ | hr | ⟨x, hx, y, hy, hc⟩
            · left
              refine ⟨rest, ?_⟩
              rw [List.cons_append]
              unfold Trie.lookup
              rw [dif_pos hn]
              exact hr
            · exact Or.inr (Or.inl hr)
            · exact Or.inr (Or.inr ⟨x, by simp [hx], y, by simp [hy], hc⟩)
          · rw [if_neg hc] at h; cases h
        · rw [List.getElem?_ofFn, dif_neg hn] at h
          cases h
    · exact Or.inr (Or.inr ⟨q, by simp, _, path_head c v0 key, e, hq⟩)

/-- **C94**, soundness: in a trie where no stored path properly extends the key, an accepted non-empty value is the one stored under
the key, or a node of the proof and a different node of the trie have the same hash. -/
theorem C94_sound_partial {H : Bytes → Bytes} (enc : List Bytes → Bytes) (items : Bytes → Option (List (Option Bytes)))
    (t : Trie) (ht : t.Nib) (key : Bytes) (hdec : ∀ l, enc l ∈ t.path H enc key → items (enc l) = some (l.map some)) (ps : List Bytes) (v : Bytes) (hv : v ≠ [])
    (hfree : ∀ rest w, t.lookup (key ++ rest) = some w → rest = []) (h : prove H items (t.root H enc) key ps = .ok v) :
    t.lookup key = some v ∨ Collision H ps (t.path H enc key) := by
  rcases C94_extension_partial enc items t ht key ps v hdec h with ⟨rest, hr⟩ | hr | hr
  · left
    have := hfree rest v hr
    subst this
    simpa using hr
  · exact absurd hr hv
  · exact Or.inr hr

/-- **C94**, the tries of ICON: all keys are RLP encodings (of the index); then an accepted value for an index is the one of this
index. -/
theorem C94_index_partial {H : Bytes → Bytes} (enc : List Bytes → Bytes) (items : Bytes → Option (List (Option Bytes)))
    (t : Trie) (ht : t.Nib) (ps : List Bytes) (v : Bytes) (hv : v ≠ [])
    (hkeys : ∀ k w, t.lookup k = some w → ∃ ty x, k = toNibbles [] (Rlp.enc ty x) ∧ (Rlp.enc ty x).length < 2 ^ 63)
    (ty : Rlp.Ty) (x : Rlp.Val ty) (hx : (Rlp.enc ty x).length < 2 ^ 63)
    (hdec : ∀ l, enc l ∈ t.path H enc (toNibbles [] (Rlp.enc ty x)) → items (enc l) = some (l.map some))
    (h : proveKey H items (t.root H enc) (Rlp.enc ty x) ps = .ok v) :
    t.lookup (toNibbles [] (Rlp.enc ty x)) = some v ∨ Collision H ps (t.path H enc (toNibbles [] (Rlp.enc ty x))) := by
  refine C94_sound_partial enc items t ht _ hdec ps v hv ?_ h
  intro rest w hr
  obtain ⟨ty', x', e, hx'⟩ := hkeys _ _ hr
  obtain ⟨r, h1, h2⟩ := prefix_bytes _ _ _ e
  have := (Rlp.C07_prefix_free ty ty' x x' r [] hx hx' (by rw [h1]; simp)).2
  rw [h2, this]
  rfl

theorem root_ne {H : Bytes → Bytes} (hH : ∀ x, (H x).length = 32) (enc : List Bytes → Bytes) (t : Trie) (h : t ≠ .empty) :
    t.root H enc ≠ [] := by
  intro e
  cases t with
  | empty => exact h rfl
  | leaf p v => have := hH (enc [header true p, v]); rw [show H (enc [header true p, v]) = [] from e] at this; simp at this
  | ext p t => have := hH (enc [header false p, t.root H enc]); rw [show H (enc [header false p, t.root H enc]) = [] from e] at this; simp at this
  | branch c v =>
    have := hH (enc (List.ofFn (fun i => (c i).root H enc) ++ [v]))
    rw [show H (enc (List.ofFn (fun i => (c i).root H enc) ++ [v])) = [] from e] at this; simp at this

/-- **C94**, completeness: the nodes on the way to a stored value are a proof of it, also with more nodes after them. -/
theorem C94_complete {H : Bytes → Bytes} (hH : ∀ x, (H x).length = 32) (enc : List Bytes → Bytes)
    (items : Bytes → Option (List (Option Bytes))) (t : Trie) (more : List Bytes) :
    t.Nib → ∀ (key v : Bytes), (∀ l, enc l ∈ t.path H enc key → items (enc l) = some (l.map some)) → t.lookup key = some v → prove H items (t.root H enc) key (t.path H enc key ++ more) = .ok v := by
  induction t with
  | empty => intro _ key v _ h; cases h
  | leaf p v0 =>
    intro hw key v hdec h
    unfold Trie.lookup at h
    by_cases e : key = p
    · subst e
      rw [if_pos rfl] at h
      cases h
      have hdd := decode_of (hdec [header true key, v0] (by simp [Trie.path]))
      rw [show [header true key, v0].map some = [some (header true key), some v0] from rfl, header_leaf key v0 hw] at hdd
      show prove H items _ key (_ :: more) = _
      rw [step_leaf (root_ne hH enc (.leaf key v0) (by simp)) rfl hdd, if_neg]
      have := matchCount_prefix key []
      rw [List.append_nil] at this
      omega
    · rw [if_neg e] at h; cases h
  | ext p t ih =>
    intro hw key v hdec h
    unfold Trie.lookup at h
    by_cases e : key.take p.length = p
    · rw [if_pos e] at h
      have hdd := decode_of (hdec [header false p, t.root H enc] (by simp [Trie.path]))
      rw [show [header false p, t.root H enc].map some = [some (header false p), some (t.root H enc)] from rfl, header_ext p _ hw.1] at hdd
      rw [path_ext e] at hdec ⊢
      rw [List.cons_append, step_ext (root_ne hH enc (.ext p t) (by simp)) rfl hdd]
      have hm : matchCount p key = p.length := by
        have := matchCount_prefix p (key.drop p.length)
        conv at this => lhs; rhs; lhs; rw [← e]
        rwa [List.take_append_drop] at this
      rw [hm, if_neg (by omega)]
      exact ih hw.2 _ _ (fun l hl => hdec l (List.mem_cons_of_mem _ hl)) h
    · rw [if_neg e] at h; cases h
  | branch c v0 ih =>
    intro hw key v hdec h
    have hdd := decode_of (hdec (List.ofFn (fun i => (c i).root H enc) ++ [v0]) (path_head c v0 key))
    rw [header_branch] at hdd
    have hne := root_ne hH enc (.branch c v0) (by simp)
    cases key with
    | nil =>
      unfold Trie.lookup at h
      split at h
      · cases h
      · cases h
        exact (step_branch hne rfl hdd).1
    | cons n key =>
      unfold Trie.lookup at h
      by_cases hn : n.toNat < 16
      · rw [dif_pos hn] at h
        rw [path_branch hn] at hdec ⊢
        rw [List.cons_append, (step_branch hne rfl hdd).2, List.getElem?_ofFn, dif_pos hn]
        have hc : (c ⟨n.toNat, hn⟩).root H enc ≠ [] := by
          apply root_ne hH
          intro he
          rw [he] at h
          cases h
        unfold child
        dsimp only
        rw [if_pos (List.length_pos_iff.2 hc)]
        exact ih _ (hw _) key v (fun l hl => hdec l (List.mem_cons_of_mem _ hl)) h
      · rw [dif_neg hn] at h; cases h

/-- **C94** is false for keys that are prefixes of stored paths: the leaf of the longer path is accepted, though nothing is stored
under the key. -/
theorem C94_longer_path_accepted {H : Bytes → Bytes} (hH : ∀ x, (H x).length = 32) (enc : List Bytes → Bytes)
    (items : Bytes → Option (List (Option Bytes))) (key rest v : Bytes) (hr : rest ≠ [])
    (hdec : items (enc [header true (key ++ rest), v]) = some [some (header true (key ++ rest)), some v])
    (hn : ∀ n ∈ key ++ rest, n.toNat < 16) :
    (Trie.leaf (key ++ rest) v).lookup key = none ∧
      prove H items ((Trie.leaf (key ++ rest) v).root H enc) key [enc [header true (key ++ rest), v]] = .ok v := by
  constructor
  · unfold Trie.lookup
    rw [if_neg]
    intro e
    exact hr (List.append_right_eq_self.1 e.symm)
  · have hdd : decode items (enc [header true (key ++ rest), v]) = .ok (.leaf (key ++ rest) v) := by
      unfold decode
      rw [hdec]
      exact header_leaf _ _ hn
    rw [step_leaf (root_ne hH enc (.leaf (key ++ rest) v) (by simp)) rfl hdd, matchCount_prefix', if_neg (by omega)]

/-- **C94**, the value of a branch is returned also where nothing is stored: the proof of an empty value. -/
theorem C94_empty_value_accepted {H : Bytes → Bytes} (hH : ∀ x, (H x).length = 32) (enc : List Bytes → Bytes)
    (items : Bytes → Option (List (Option Bytes))) (c : Fin 16 → Trie) (ps : List Bytes)
    (hdec : items (enc (List.ofFn (fun i => (c i).root H enc) ++ [[]])) = some ((List.ofFn (fun i => (c i).root H enc) ++ [[]]).map some)) :
    (Trie.branch c []).lookup [] = none ∧
      prove H items ((Trie.branch c []).root H enc) [] (enc (List.ofFn (fun i => (c i).root H enc) ++ [[]]) :: ps) = .ok [] := by
  refine ⟨rfl, ?_⟩
  have hdd : decode items (enc (List.ofFn (fun i => (c i).root H enc) ++ [[]])) = .ok (.branch (List.ofFn (fun i => child (some ((c i).root H enc)))) []) := by
    unfold decode
    rw [hdec]
    exact header_branch _ _
  exact (step_branch (root_ne hH enc (.branch c []) (by simp)) rfl hdd).1

/-- **C94**, a node embedded in a branch is never proved: reading its hash fails with an exception. -/
theorem C94_embedded_crash (H : Bytes → Bytes) (items : Bytes → Option (List (Option Bytes))) (h p : Bytes) (ps : List Bytes) (hh : h ≠ [])
    (hp : H p = h) (cs : List Child) (d : Bytes) (hd : decode items p = .ok (.branch cs d)) (n : UInt8) (key : Bytes)
    (hc : cs[n.toNat]? = some .embedded) : prove H items h (n :: key) (p :: ps) = .crash := by
  rw [(step_branch hh hp hd).2, hc]

/-- **C94**, a key that is not stored: nothing but a collision or an empty value is accepted. -/
theorem C94_absent_partial {H : Bytes → Bytes} (enc : List Bytes → Bytes) (items : Bytes → Option (List (Option Bytes)))
    (t : Trie) (ht : t.Nib) (key : Bytes) (hdec : ∀ l, enc l ∈ t.path H enc key → items (enc l) = some (l.map some)) (ps : List Bytes)
    (hfree : ∀ rest, t.lookup (key ++ rest) = none) (v : Bytes) (h : prove H items (t.root H enc) key ps = .ok v) :
    v = [] ∨ Collision H ps (t.path H enc key) := by
  rcases C94_extension_partial enc items t ht key ps v hdec h with ⟨rest, hr⟩ | hr
  · rw [hfree rest] at hr; cases hr
  · exact hr

/-! ### Examples -/

/-- A self-delimiting encoding for the examples: each element with its length. -/
def exEnc : List Bytes → Bytes
  | [] => []
  | b :: l => UInt8.ofNat b.length :: b ++ exEnc l
def exItems : Nat → Bytes → List (Option Bytes)
  | n + 1, x :: b => some (b.take x.toNat) :: exItems n (b.drop x.toNat)
  | _, _ => []
def exDec (b : Bytes) : Option (List (Option Bytes)) := some (exItems b.length b)
def exH (x : Bytes) : Bytes := List.replicate 31 0 ++ [x.foldl (fun a b => 3 * a + 5 * b + 1) 7]

/-- Three receipts under the indices 0, 1 and 0x82. -/
def exTrie : Trie := .branch (fun i => if i.val = 0 then .branch (fun j => if j.val = 0 then .leaf [] [10] else if j.val = 1 then .leaf [] [11] else .empty) []
  else if i.val = 8 then .ext [1] (.leaf [8, 2] [12]) else .empty) []
example : exTrie.lookup (toNibbles [] [0x01]) = some [11] ∧ exTrie.lookup (toNibbles [] [0x81, 0x82]) = some [12] ∧
    exTrie.lookup (toNibbles [] [0x02]) = none := by decide +kernel
example : proveKey exH exDec (exTrie.root exH exEnc) [0x81, 0x82] (exTrie.path exH exEnc (toNibbles [] [0x81, 0x82])) = .ok [12] := by decide +kernel
example : proveKey exH exDec (exTrie.root exH exEnc) [0x01] (exTrie.path exH exEnc (toNibbles [] [0x01])) = .ok [11] := by decide +kernel
example : proveKey exH exDec (exTrie.root exH exEnc) [0x02] (exTrie.path exH exEnc (toNibbles [] [0x01])) = .crash := by decide +kernel
example : proveKey exH exDec (exTrie.root exH exEnc) [0x01] (exTrie.path exH exEnc (toNibbles [] [0x00])) = .mpt := by decide +kernel

end Verif.JavaMpt
