import Verif.MtaLemmas
/-!
Helpers about Flush and Recover of the accumulator.
-/
namespace Verif.Mta
open Verif Verif.Merkle

/-- Every hash-sized key holds nothing or the value `D` gives it. -/
def Sub (D db : Db) : Prop := ∀ x, x.length = 32 → db x = [] ∨ db x = D x

/-- `db'` keeps what `db` has under hash-sized keys. -/
def Ext (db db' : Db) : Prop := ∀ x, x.length = 32 → db x ≠ [] → db' x = db x

theorem Ext.refl (db : Db) : Ext db db := fun _ _ _ => rfl
theorem Ext.trans {a b c : Db} (h1 : Ext a b) (h2 : Ext b c) : Ext a c := fun x hx hne => by
  have e := h1 x hx hne
  rw [h2 x hx (by rw [e]; exact hne), e]

theorem write_append (db : Db) (a b : List Write) : db.write (a ++ b) = (db.write a).write b := by
  simp [Db.write, List.foldl_append]

theorem write_one (db : Db) (k v : Bytes) (x : Bytes) : db.write [(k, v)] x = if x = k then v else db x := rfl

theorem write_cases (db : Db) (ws : List Write) (x : Bytes) :
    (∃ v, (x, v) ∈ ws ∧ db.write ws x = v) ∨ (∀ w ∈ ws, w.1 ≠ x) ∧ db.write ws x = db x := by
  induction ws generalizing db with
  | nil => right; exact ⟨by simp, rfl⟩
  | cons w ws ih =>
    have e : db.write (w :: ws) = (db.write [w]).write ws := rfl
    rw [e]
    rcases ih (db.write [w]) with ⟨v, h1, h2⟩ | ⟨h1, h2⟩
    · left; exact ⟨v, by simp [h1], h2⟩
    · by_cases hk : w.1 = x
      · left
        refine ⟨w.2, by simp [← hk], ?_⟩
        rw [h2, show [w] = [(w.1, w.2)] from rfl, write_one, if_pos hk.symm]
      · right
        refine ⟨?_, ?_⟩
        · intro y hy
          simp at hy
          rcases hy with rfl | hy
          · exact hk
          · exact h1 y hy
        · rw [h2, show [w] = [(w.1, w.2)] from rfl, write_one, if_neg (fun h => hk h.symm)]

theorem Sub.write {D db : Db} (h : Sub D db) (ws : List Write) (hw : ∀ w ∈ ws, w.1.length = 32 → w.2 = D w.1) :
    Sub D (db.write ws) ∧ Ext db (db.write ws) := by
  constructor
  · intro x hx
    rcases write_cases db ws x with ⟨v, h1, h2⟩ | ⟨h1, h2⟩
    · right; rw [h2]; exact hw _ h1 hx
    · rw [h2]; exact h x hx
  · intro x hx hne
    rcases write_cases db ws x with ⟨v, h1, h2⟩ | ⟨h1, h2⟩
    · rw [h2]
      rcases h x hx with h3 | h3
      · exact absurd h3 hne
      · rw [h3]; exact hw _ h1 hx
    · exact h2

theorem Stored.mono {H : Bytes → Bytes} (hH : ∀ x, (H x).length = 32) {db db' : Db} (he : Ext db db') {k : Nat} {h : Bytes}
    {b : List Bytes} (hs : Stored H db k h b) : Stored H db' k h b := by
  induction k generalizing h b with
  | zero => exact hs
  | succ k ih =>
    obtain ⟨a, c, la, lc, h0, h1, h2, h3, h4, h5, h6, h7, h8⟩ := hs
    refine ⟨a, c, la, lc, h0, h1, h2, h3, h4, h5, ?_, ih h7, ih h8⟩
    rw [he h (by rw [h5]; exact hH _) ?_, h6]
    intro hn
    rw [hn] at h6
    have := congrArg List.length h6
    rw [List.length_append, h3] at this
    simp at this
    omega

theorem Rep.mono {H : Bytes → Bytes} (hH : ∀ x, (H x).length = 32) {db db' : Db} (he : Ext db db') {k : Nat} {n : Node}
    {b : List Bytes} (hr : Rep H db k n b) : Rep H db' k n b := by
  induction n generalizing k b with
  | hash h => exact Stored.mono hH he hr
  | data fl d => exact hr
  | br fl key l r ihl ihr =>
    obtain ⟨k', a, c, h0, h1, h2, h3, h4, h5, h6, h7⟩ := hr
    exact ⟨k', a, c, h0, h1, h2, h3, ihl h4, ihr h5, h6, fun hf => Stored.mono hH he (h7 hf)⟩

theorem Inv.mono {H : Bytes → Bytes} (hH : ∀ x, (H x).length = 32) {db db' : Db} (he : Ext db db') {k : Nat}
    {rs : List (Option Node)} {hs : List Bytes} (hr : Inv H db k rs hs) : Inv H db' k rs hs := by
  induction rs generalizing k hs with
  | nil => exact hr
  | cons o rs ih =>
    cases o with
    | none => exact ⟨ih hr.1, hr.2⟩
    | some n =>
      obtain ⟨a, b, h1, h2, h3⟩ := hr
      exact ⟨a, b, h1, h2.mono hH he, ih h3⟩

/-- Flushing a node: whatever the number of writes that succeed, the node still stands for its leaves; if all succeed
the subtree is in the database. -/
theorem flush_node {H : Bytes → Bytes} (hH : ∀ x, (H x).length = 32) (D : Db) (n : Node) (bud : Nat) (db : Db) (k : Nat)
    (b : List Bytes) (hr : Rep H db k n b) (hsub : Sub D db)
    (hw : ∀ w ∈ (n.flush H bud).2.1, w.2 = D w.1) :
    (∀ w ∈ (n.flush H bud).2.1, w.1.length = 32) ∧
    Rep H (db.write (n.flush H bud).2.1) k (n.flush H bud).1 b ∧
    ((n.flush H bud).2.2.2 = true → Stored H (db.write (n.flush H bud).2.1) k (n.hashOf H) b) := by
  induction n generalizing bud db k b with
  | hash h => exact ⟨by simp [Node.flush], hr, fun _ => hr⟩
  | data fl d =>
    obtain ⟨rfl, rfl⟩ := hr
    simp only [Node.flush] at hw ⊢
    split
    · exact ⟨by simp, ⟨rfl, rfl⟩, fun _ => ⟨rfl, hH _⟩⟩
    · split
      · exact ⟨by simp, ⟨rfl, rfl⟩, by simp⟩
      · exact ⟨by simp [hH], ⟨rfl, rfl⟩, fun _ => ⟨rfl, hH _⟩⟩
  | br fl key l r ihl ihr =>
    have hbr := hr.br_hash hH
    have hr0 := hr
    obtain ⟨k', a, c, rfl, rfl, h1, h2, h3, h4, h5, h6⟩ := hr
    simp only [Node.flush] at hw ⊢
    split
    · rename_i hfl
      refine ⟨by simp, hr0, fun _ => ?_⟩
      rw [hbr]; exact h6 hfl
    · rename_i hfl
      simp only [if_neg hfl] at hw
      have rl := h3.root hH; have rr := h4.root hH
      -- writes of the left child are among all writes
      have hwl : ∀ w ∈ (l.flush H bud).2.1, w.2 = D w.1 := by
        intro w hm
        apply hw
        split
        · split
          · split <;> simp [hm]
          · simp [hm]
        · exact hm
      obtain ⟨l1, l2, l3⟩ := ihl bud db k' a h3 hsub hwl
      obtain ⟨s1, x1⟩ := hsub.write _ (fun w hm _ => hwl w hm)
      have el : (l.flush H bud).1.hashOf H = l.hashOf H := by rw [(l2.root hH).1, rl.1]
      split
      · rename_i hokl
        simp only [if_pos hokl] at hw
        have hwr : ∀ w ∈ (r.flush H (l.flush H bud).2.2.1).2.1, w.2 = D w.1 := by
          intro w hm
          apply hw
          split
          · split <;> simp [hm]
          · simp [hm]
        obtain ⟨r1, r2, r3⟩ := ihr (l.flush H bud).2.2.1 _ k' c (h4.mono hH x1) s1 hwr
        obtain ⟨s2, x2⟩ := s1.write _ (fun w hm _ => hwr w hm)
        have er : (r.flush H (l.flush H bud).2.2.1).1.hashOf H = r.hashOf H := by rw [(r2.root hH).1, rr.1]
        split
        · rename_i hokr
          simp only [if_pos hokr] at hw
          split
          · rename_i hb0
            refine ⟨?_, ⟨k', a, c, rfl, rfl, h1, h2, ?_, ?_, by simpa only [el, er] using h5, fun hf => absurd hf hfl⟩, by simp⟩
            · intro w hm
              simp at hm
              rcases hm with hm | hm
              · exact l1 w hm
              · exact r1 w hm
            · rw [write_append]; exact l2.mono hH x2
            · rw [write_append]; exact r2
          · rename_i hb0
            simp only [if_neg hb0] at hw
            have hser : fix32 (l.hashOf H) ++ fix32 (r.hashOf H) = l.hashOf H ++ r.hashOf H := by
              rw [fix32_eq _ rl.2.1, fix32_eq _ rr.2.1]
            rw [hser] at hw ⊢
            have hw3 := hw ((Node.br fl key l r).hashOf H, l.hashOf H ++ r.hashOf H) (by simp)
            obtain ⟨s3, x3⟩ := s2.write [((Node.br fl key l r).hashOf H, l.hashOf H ++ r.hashOf H)]
              (fun w hm _ => by simp at hm; subst hm; exact hw3)
            have hst : Stored H (((db.write (l.flush H bud).2.1).write (r.flush H (l.flush H bud).2.2.1).2.1).write
                [((Node.br fl key l r).hashOf H, l.hashOf H ++ r.hashOf H)]) (k' + 1) ((Node.br fl key l r).hashOf H) (a ++ c) := by
              refine ⟨a, c, l.hashOf H, r.hashOf H, rfl, h1, h2, rl.2.1, rr.2.1, hbr, ?_, ?_, ?_⟩
              · rw [write_one, if_pos rfl]
              · exact Stored.mono hH (x2.trans x3) (l3 hokl)
              · exact Stored.mono hH x3 (r3 hokr)
            rw [write_append, write_append]
            refine ⟨?_, ⟨k', a, c, rfl, rfl, h1, h2, ?_, ?_, by simpa only [el, er] using h5, fun _ => ?_⟩, fun _ => hst⟩
            · intro w hm
              simp only [List.mem_append, List.mem_singleton] at hm
              rcases hm with (hm | hm) | hm
              · exact l1 w hm
              · exact r1 w hm
              · subst hm; simp only; rw [hbr]; exact hH _
            · exact l2.mono hH (x2.trans x3)
            · exact r2.mono hH x3
            · rw [el, er, ← hbr]; exact hst
        · rename_i hokr
          refine ⟨?_, ⟨k', a, c, rfl, rfl, h1, h2, ?_, ?_, by simpa only [el, er] using h5, fun hf => absurd hf hfl⟩, by simp⟩
          · intro w hm
            simp at hm
            rcases hm with hm | hm
            · exact l1 w hm
            · exact r1 w hm
          · rw [write_append]; exact l2.mono hH x2
          · rw [write_append]; exact r2
      · refine ⟨l1, ⟨k', a, c, rfl, rfl, h1, h2, l2, h4.mono hH x1, by simpa only [el] using h5, fun hf => absurd hf hfl⟩, by simp⟩

/-- The roots as they come back from the database. -/
def asHash (H : Bytes → Bytes) (rs : List (Option Node)) : List (Option Node) := rs.map (fun r => r.map (fun n => .hash (n.hashOf H)))

theorem flush_roots {H : Bytes → Bytes} (hH : ∀ x, (H x).length = 32) (D : Db) (rs : List (Option Node)) (bud : Nat) (db : Db) (k : Nat)
    (hs : List Bytes) (hr : Inv H db k rs hs) (hsub : Sub D db)
    (hw : ∀ w ∈ (flushRoots H rs bud).2.1, w.2 = D w.1) :
    (∀ w ∈ (flushRoots H rs bud).2.1, w.1.length = 32) ∧
    Inv H (db.write (flushRoots H rs bud).2.1) k (flushRoots H rs bud).1 hs ∧
    ((flushRoots H rs bud).2.2.2 = true → Inv H (db.write (flushRoots H rs bud).2.1) k (asHash H rs) hs) := by
  induction rs generalizing bud db k hs with
  | nil => exact ⟨by simp [flushRoots], hr, fun _ => hr⟩
  | cons o rs ih =>
    cases o with
    | none =>
      simp only [flushRoots] at hw ⊢
      obtain ⟨i1, i2, i3⟩ := ih bud db (k + 1) hs hr.1 hsub hw
      exact ⟨i1, ⟨i2, hr.2⟩, fun h => ⟨i3 h, hr.2⟩⟩
    | some n =>
      obtain ⟨a, b, rfl, h1, h2⟩ := hr
      simp only [flushRoots] at hw ⊢
      have hwn : ∀ w ∈ (n.flush H bud).2.1, w.2 = D w.1 := by
        intro w hm
        apply hw
        split
        · simp [hm]
        · exact hm
      obtain ⟨n1, n2, n3⟩ := flush_node hH D n bud db k b h1 hsub hwn
      obtain ⟨s1, x1⟩ := hsub.write _ (fun w hm _ => hwn w hm)
      split
      · rename_i hok
        simp only [if_pos hok] at hw
        have hwr : ∀ w ∈ (flushRoots H rs (n.flush H bud).2.2.1).2.1, w.2 = D w.1 := fun w hm => hw w (by simp [hm])
        obtain ⟨i1, i2, i3⟩ := ih (n.flush H bud).2.2.1 _ (k + 1) a (h2.mono hH x1) s1 hwr
        obtain ⟨s2, x2⟩ := s1.write _ (fun w hm _ => hwr w hm)
        refine ⟨?_, ⟨a, b, rfl, ?_, ?_⟩, fun h => ⟨a, b, rfl, ?_, ?_⟩⟩
        · intro w hm
          simp at hm
          rcases hm with hm | hm
          · exact n1 w hm
          · exact i1 w hm
        · rw [write_append]; exact n2.mono hH x2
        · rw [write_append]; exact i2
        · rw [write_append]; exact Stored.mono hH x2 (n3 hok)
        · rw [write_append]; exact i3 h
      · exact ⟨n1, ⟨a, b, rfl, n2, h2.mono hH x1⟩, by simp⟩

/-- Enough writes make a flush succeed. -/
theorem flush_node_total (H : Bytes → Bytes) (n : Node) : ∃ N, ∀ b, N ≤ b → (n.flush H b).2.2.2 = true ∧ b ≤ (n.flush H b).2.2.1 + N := by
  induction n with
  | hash h => exact ⟨0, fun b _ => by simp [Node.flush]⟩
  | data fl d =>
    refine ⟨1, fun b hb => ?_⟩
    simp only [Node.flush]
    split
    · simp
    · rw [if_neg (by omega)]; simp; omega
  | br fl key l r ihl ihr =>
    obtain ⟨N1, h1⟩ := ihl; obtain ⟨N2, h2⟩ := ihr
    refine ⟨N1 + N2 + 1, fun b hb => ?_⟩
    have a1 := h1 b (by omega)
    have a2 := h2 (l.flush H b).2.2.1 (by omega)
    simp only [Node.flush]
    split
    · simp
    · rw [if_pos a1.1, if_pos a2.1, if_neg (by omega)]
      simp only [true_and]
      omega

theorem flush_roots_total (H : Bytes → Bytes) (rs : List (Option Node)) :
    ∃ N, ∀ b, N ≤ b → (flushRoots H rs b).2.2.2 = true ∧ b ≤ (flushRoots H rs b).2.2.1 + N := by
  induction rs with
  | nil => exact ⟨0, fun b _ => by simp [flushRoots]⟩
  | cons o rs ih =>
    obtain ⟨N2, h2⟩ := ih
    cases o with
    | none => exact ⟨N2, fun b hb => by simpa only [flushRoots] using h2 b hb⟩
    | some n =>
      obtain ⟨N1, h1⟩ := flush_node_total H n
      refine ⟨N1 + N2, fun b hb => ?_⟩
      have a1 := h1 b (by omega)
      have a2 := h2 (n.flush H b).2.2.1 (by omega)
      simp only [flushRoots]
      rw [if_pos a1.1]
      simp only
      exact ⟨a2.1, by omega⟩

/-! ### Histories -/

/-- What happens to an accumulator: additions, witness queries (which resolve nodes), a `Flush` of which only `b` writes
succeed, a crash after `b` writes of a `Flush` (`b = 0`: outside of one) followed by `Recover` in a new process. -/
inductive Op where
  | addHash (h : Bytes)
  | addData (d : Bytes)
  | witness (i : Int)
  | flush (b : Nat)
  | crash (b : Nat)

/-- Accumulator, database, all writes so far; and, only to state the properties, the leaves added so far and the leaves
at the last complete flush. -/
structure St where
  acc : Acc
  db : Db
  log : List Write
  cur : List Bytes
  saved : List Bytes

def St.init : St := ⟨Acc.empty, fun _ => [], [], [], []⟩

/-- One event; `none` only if `Recover` fails. -/
def step (H : Bytes → Bytes) (F : Format) (key : Bytes) (s : St) : Op → Option St
  | .addHash h => some { s with acc := (s.acc.addHash H h).1, cur := s.cur ++ [h] }
  | .addData d => some { s with acc := (s.acc.addData H d).1, cur := s.cur ++ [H d] }
  | .witness i => some { s with acc := (s.acc.witnessFor H s.db i).1 }
  | .flush b =>
    let x := s.acc.flush H F key b
    some ⟨x.1, s.db.write x.2.1, s.log ++ x.2.1, s.cur, if x.2.2 then s.cur else s.saved⟩
  | .crash b =>
    let x := s.acc.flush H F key b
    match recover F key (s.db.write x.2.1) with
    | none => none
    | some a => some ⟨a, s.db.write x.2.1, s.log ++ x.2.1, if x.2.2 then s.cur else s.saved, if x.2.2 then s.cur else s.saved⟩

def run (H : Bytes → Bytes) (F : Format) (key : Bytes) (s : St) (ops : List Op) : Option St :=
  ops.foldl (fun s o => s.bind (step H F key · o)) (some s)

/-- Added hashes have 32 bytes. -/
def Op.Ok : Op → Prop
  | .addHash h => h.length = 32
  | _ => True

/-- No two different values were written under one key other than the state key: no hash collision among the nodes. -/
def LogOk (key : Bytes) (log : List Write) : Prop :=
  ∀ w ∈ log, ∀ w' ∈ log, w.1 ≠ key → w.1 = w'.1 → w.2 = w'.2

/-- What every reachable state satisfies. -/
structure Good (H : Bytes → Bytes) (F : Format) (key : Bytes) (D : Db) (s : St) : Prop where
  acc : s.acc.Ok H s.db s.cur
  len : ∀ h ∈ s.cur, h.length = 32
  slen : ∀ h ∈ s.saved, h.length = 32
  sub : Sub D s.db
  saved : ∃ a, recover F key s.db = some a ∧ a.Ok H s.db s.saved

theorem good_init (H : Bytes → Bytes) (F : Format) (key : Bytes) (D : Db) : Good H F key D St.init :=
  ⟨⟨rfl, rfl⟩, by simp [St.init], by simp [St.init], fun _ _ => Or.inl rfl, ⟨⟨[], 0⟩, rfl, rfl, rfl⟩⟩

theorem Acc.Ok.mono {H : Bytes → Bytes} (hH : ∀ x, (H x).length = 32) {db db' : Db} (he : Ext db db') {a : Acc} {hs : List Bytes}
    (h : a.Ok H db hs) : a.Ok H db' hs := ⟨h.1.mono hH he, h.2⟩

theorem Acc.Ok.add {H : Bytes → Bytes} (hH : ∀ x, (H x).length = 32) {db : Db} {a : Acc} {hs : List Bytes} (h : a.Ok H db hs)
    (n : Node) (x : Bytes) (hn : Rep H db 0 n [x]) : (a.add H n).1.Ok H db (hs ++ [x]) :=
  ⟨addNode_inv H hH db 0 a.roots n hs [x] h.1 hn, by simp [Acc.add, h.2]⟩

theorem node_witnessFor_neg_rep {H : Bytes → Bytes} (hH : ∀ x, (H x).length = 32) {db : Db} (k : Nat) (n : Node) (idx : Int)
    (b : List Bytes) (hr : Rep H db k n b) : Rep H db k (n.witnessFor H db k idx).1 b := by
  induction k generalizing n idx b with
  | zero =>
    cases n with
    | hash h => exact hr
    | data fl d => exact hr
    | br fl key l r => obtain ⟨k, _, _, h, _⟩ := hr; omega
  | succ k ih =>
    have hbr : ∀ fl key l r, Rep H db (k + 1) (.br fl key l r) b → Rep H db (k + 1) ((Node.br fl key l r).witnessFor H db (k + 1) idx).1 b := by
      intro fl key l r hr
      obtain ⟨k', a, c, hk, rfl, h1, h2, h3, h4, h5, h6⟩ := hr
      have : k' = k := by omega
      subst this
      simp only [Node.witnessFor]
      split
      · have w2 := ih l idx a h3
        have e : ((l.witnessFor H db k' idx).1).hashOf H = l.hashOf H := by rw [(w2.root hH).1, (h3.root hH).1]
        exact ⟨k', a, c, rfl, rfl, h1, h2, w2, h4, by simpa only [e] using h5, by simpa only [e] using h6⟩
      · have w2 := ih r (idx - 2 ^ k') c h4
        have e : ((r.witnessFor H db k' (idx - 2 ^ k')).1).hashOf H = r.hashOf H := by rw [(w2.root hH).1, (h4.root hH).1]
        exact ⟨k', a, c, rfl, rfl, h1, h2, h3, w2, by simpa only [e] using h5, by simpa only [e] using h6⟩
    cases n with
    | data fl d => exact absurd hr.1 (by omega)
    | br fl key l r => exact hbr fl key l r hr
    | hash h =>
      obtain ⟨n, e1, e2, e3, e4⟩ := resolve_rep hr
      rw [witnessFor_hash H db k h n _ e1 e4]
      obtain ⟨fl, key, l, r, rfl⟩ := e4
      exact hbr fl key l r e2

/-- Any query leaves a correct accumulator correct. -/
theorem Acc.Ok.query {H : Bytes → Bytes} (hH : ∀ x, (H x).length = 32) {db : Db} {a : Acc} {hs : List Bytes} (h : a.Ok H db hs)
    (i : Int) : (a.witnessFor H db i).1.Ok H db hs := by
  have key : ∀ o idx, Inv H db 0 (witLoop H db a.roots o idx).1 hs := by
    intro o
    induction o with
    | zero => intro idx; exact h.1
    | succ o ih =>
      intro idx
      rw [witLoop]
      split
      · rename_i n hn
        split
        · rcases (h.1.facts hH).2.2.2 o with ⟨n', a1, a2, a3, a4⟩ | ⟨_, a2, _⟩
          · rw [hn] at a1
            simp at a1
            subst a1
            exact h.1.set hH o n _ hn (node_witnessFor_neg_rep hH _ n idx _ (by simpa using a4) |> (by simpa using ·))
          · exact absurd hn (a2 n)
        · exact ih _
      · exact ih _
  rw [Acc.witnessFor]
  split
  · exact h
  · exact ⟨key _ _, h.2⟩

theorem recover_saved {H : Bytes → Bytes} (hH : ∀ x, (H x).length = 32) (F : Format) (hF : ∀ s, F.dec (F.enc s) = some s ∧ F.enc s ≠ [])
    (key : Bytes) (db dbx : Db) (rs : List (Option Node)) (n : Nat) (hs : List Bytes) (hinv : Inv H dbx 0 rs hs)
    (hk : db key = F.enc (rs.map (fun r => match r with | none => [] | some n => n.hashOf H), n)) :
    recover F key db = some ⟨asHash H rs, n⟩ := by
  have hlen : ∀ nd, some nd ∈ rs → (nd.hashOf H).length = 32 := by
    intro nd hnd
    obtain ⟨o, ho⟩ := List.getElem?_of_mem hnd
    rcases (hinv.facts hH).2.2.2 o with ⟨n', a1, a2, a3, a4⟩ | ⟨_, a2, _⟩
    · rw [ho] at a1
      simp at a1
      subst a1
      exact (a4.root hH).2.1
    · exact absurd ho (a2 nd)
  have hne := (hF (rs.map (fun r => match r with | none => [] | some n => n.hashOf H), n))
  rw [recover, if_neg (by rw [hk]; intro h0; exact hne.2 (List.length_eq_zero_iff.mp h0)), hk, hne.1]
  simp only [Option.some.injEq, Acc.mk.injEq, and_true, asHash, List.map_map]
  apply List.map_congr_left
  intro r hr
  cases r with
  | none => simp [hashSize]
  | some nd => simp [hashSize, hlen nd hr]

theorem recover_same {F : Format} {key : Bytes} {db db' : Db} (h : db' key = db key) : recover F key db' = recover F key db := by
  simp only [recover, h]

/-- The writes an event makes. -/
def writesOf (H : Bytes → Bytes) (F : Format) (key : Bytes) (s : St) : Op → List Write
  | .flush b => (s.acc.flush H F key b).2.1
  | .crash b => (s.acc.flush H F key b).2.1
  | _ => []

theorem good_step {H : Bytes → Bytes} (hH : ∀ x, (H x).length = 32) {F : Format} (hF : ∀ s, F.dec (F.enc s) = some s ∧ F.enc s ≠ [])
    {key : Bytes} (hkey : key.length ≠ 32) {D : Db} {s : St} (hg : Good H F key D s) (o : Op) (ho : o.Ok)
    (hD : ∀ w ∈ writesOf H F key s o, w.1 ≠ key → w.2 = D w.1) :
    ∃ s', step H F key s o = some s' ∧ Good H F key D s' ∧ s'.log = s.log ++ writesOf H F key s o := by
  -- effect of the writes of a flush
  have hfl : ∀ b, (∀ w ∈ (s.acc.flush H F key b).2.1, w.1 ≠ key → w.2 = D w.1) →
      (s.acc.flush H F key b).1.Ok H (s.db.write (s.acc.flush H F key b).2.1) s.cur ∧
      Sub D (s.db.write (s.acc.flush H F key b).2.1) ∧
      (∃ a, recover F key (s.db.write (s.acc.flush H F key b).2.1) = some a ∧
        a.Ok H (s.db.write (s.acc.flush H F key b).2.1) (if (s.acc.flush H F key b).2.2 then s.cur else s.saved)) := by
    intro b hb
    obtain ⟨⟨a1, a2⟩, g2, g3, g4, ⟨sa, g5, g6⟩⟩ := hg
    -- writes of the roots go to hash keys
    have hkeys : ∀ (rs : List (Option Node)) (bud k : Nat) (hs : List Bytes), Inv H s.db k rs hs →
        ∀ w ∈ (flushRoots H rs bud).2.1, w.1.length = 32 := by
      -- keys do not depend on the value condition: use the map given by the hash itself
      intro rs bud k hs hinv
      have hnode : ∀ (n : Node) (bud k : Nat) (b : List Bytes), Rep H s.db k n b → ∀ w ∈ (n.flush H bud).2.1, w.1.length = 32 := by
        intro n
        induction n with
        | hash h => intro bud k b _ w hw; simp [Node.flush] at hw
        | data fl d =>
          intro bud k b _ w hw
          simp only [Node.flush] at hw
          split at hw
          · simp at hw
          · split at hw
            · simp at hw
            · simp at hw; subst hw; exact hH _
        | br fl ky l r ihl ihr =>
          intro bud k b hr w hw
          have hbr := hr.br_hash hH
          obtain ⟨k', a, c, rfl, rfl, h1, h2, h3, h4, h5, h6⟩ := hr
          have il := ihl bud k' a h3
          have ir := ihr (l.flush H bud).2.2.1 k' c h4
          simp only [Node.flush] at hw
          split at hw
          · simp at hw
          · split at hw
            · split at hw
              · split at hw
                · simp at hw
                  rcases hw with hw | hw
                  · exact il w hw
                  · exact ir w hw
                · simp only [List.mem_append, List.mem_singleton] at hw
                  rcases hw with (hw | hw) | hw
                  · exact il w hw
                  · exact ir w hw
                  · subst hw; simp only; rw [hbr]; exact hH _
              · simp at hw
                rcases hw with hw | hw
                · exact il w hw
                · exact ir w hw
            · exact il w hw
      induction rs generalizing bud k hs with
      | nil => intro w hw; simp [flushRoots] at hw
      | cons o rs ih =>
        cases o with
        | none => intro w hw; exact ih bud (k + 1) hs hinv.1 w hw
        | some n =>
          obtain ⟨a, b, rfl, h1, h2⟩ := hinv
          intro w hw
          simp only [flushRoots] at hw
          split at hw
          · simp at hw
            rcases hw with hw | hw
            · exact hnode n bud k b h1 w hw
            · exact ih _ (k + 1) a h2 w hw
          · exact hnode n bud k b h1 w hw
    have hk32 := hkeys s.acc.roots b 0 s.cur a1
    have hroots : ∀ w ∈ (flushRoots H s.acc.roots b).2.1, w.2 = D w.1 := by
      intro w hw
      apply hb
      · unfold Acc.flush
        simp only
        split <;> simp [hw]
      · intro h0; exact hkey (by rw [← h0]; exact hk32 w hw)
    obtain ⟨f1, f2, f3⟩ := flush_roots hH D s.acc.roots b s.db 0 s.cur a1 g4 hroots
    obtain ⟨s1, x1⟩ := g4.write _ (fun w hw _ => hroots w hw)
    have hkeep : (s.db.write (flushRoots H s.acc.roots b).2.1) key = s.db key := by
      rcases write_cases s.db (flushRoots H s.acc.roots b).2.1 key with ⟨v, h1, _⟩ | ⟨_, h2⟩
      · exact absurd (hk32 _ h1) hkey
      · exact h2
    unfold Acc.flush
    simp only
    split
    · rename_i hok
      simp only [if_true]
      have x2 : Ext (s.db.write (flushRoots H s.acc.roots b).2.1)
          ((s.db.write (flushRoots H s.acc.roots b).2.1).write [(key, F.enc (s.acc.roots.map (fun r => match r with | none => [] | some n => n.hashOf H), s.acc.length))]) := by
        intro x hx _
        rw [write_one, if_neg (by intro h0; subst h0; exact hkey hx)]
      have s2 : Sub D ((s.db.write (flushRoots H s.acc.roots b).2.1).write [(key, F.enc (s.acc.roots.map (fun r => match r with | none => [] | some n => n.hashOf H), s.acc.length))]) := by
        intro x hx
        rw [write_one, if_neg (by intro h0; subst h0; exact hkey hx)]
        exact s1 x hx
      rw [write_append]
      refine ⟨⟨f2.mono hH x2, a2⟩, s2, ⟨⟨asHash H s.acc.roots, s.acc.length⟩, ?_, ?_, a2⟩⟩
      · exact recover_saved hH F hF key _ s.db s.acc.roots s.acc.length s.cur a1 (by rw [write_one, if_pos rfl]; rfl)
      · exact (f3 hok.1).mono hH x2
    · simp only [Bool.false_eq_true, if_false]
      exact ⟨⟨f2, a2⟩, s1, sa, by rw [recover_same hkeep]; exact g5, g6.mono hH x1⟩
  cases o with
  | addHash h =>
    refine ⟨_, rfl, ⟨hg.acc.add hH _ h ⟨rfl, ho⟩, ?_, hg.slen, hg.sub, hg.saved⟩, by simp [writesOf]⟩
    intro x hx
    simp at hx
    rcases hx with hx | rfl
    · exact hg.len x hx
    · exact ho
  | addData d =>
    refine ⟨_, rfl, ⟨hg.acc.add hH _ (H d) ⟨rfl, rfl⟩, ?_, hg.slen, hg.sub, hg.saved⟩, by simp [writesOf]⟩
    intro x hx
    simp at hx
    rcases hx with hx | rfl
    · exact hg.len x hx
    · exact hH _
  | witness i => exact ⟨_, rfl, ⟨hg.acc.query hH i, hg.len, hg.slen, hg.sub, hg.saved⟩, by simp [writesOf]⟩
  | flush b =>
    obtain ⟨e1, e2, e3⟩ := hfl b hD
    refine ⟨_, rfl, ⟨e1, hg.len, ?_, e2, e3⟩, rfl⟩
    simp only
    split
    · exact hg.len
    · exact hg.slen
  | crash b =>
    obtain ⟨e1, e2, ⟨a, e3, e4⟩⟩ := hfl b hD
    have hl : ∀ h ∈ (if (s.acc.flush H F key b).2.2 then s.cur else s.saved), h.length = 32 := by
      split
      · exact hg.len
      · exact hg.slen
    refine ⟨_, by simp only [step, e3]; rfl, ⟨e4, hl, hl, e2, ⟨a, e3, e4⟩⟩, rfl⟩


theorem run_cons (H : Bytes → Bytes) (F : Format) (key : Bytes) (s : St) (o : Op) (ops : List Op) :
    run H F key s (o :: ops) = (step H F key s o).bind (fun s' => run H F key s' ops) := by
  unfold run
  simp only [List.foldl_cons, Option.bind_some]
  cases hs : step H F key s o with
  | none =>
    simp only [Option.bind_none]
    induction ops with
    | nil => rfl
    | cons p ops ih => simpa using ih
  | some s' => rfl

theorem step_log {H : Bytes → Bytes} {F : Format} {key : Bytes} {s s' : St} {o : Op} (h : step H F key s o = some s') :
    s'.log = s.log ++ writesOf H F key s o := by
  cases o with
  | addHash x => simp [step] at h; subst h; simp [writesOf]
  | addData x => simp [step] at h; subst h; simp [writesOf]
  | witness x => simp [step] at h; subst h; simp [writesOf]
  | flush b => simp [step] at h; subst h; simp [writesOf]
  | crash b =>
    simp only [step] at h
    split at h
    · simp at h
    · simp at h; subst h; simp [writesOf]

theorem run_log {H : Bytes → Bytes} {F : Format} {key : Bytes} {s s' : St} {ops : List Op} (h : run H F key s ops = some s') :
    ∃ ws, s'.log = s.log ++ ws := by
  induction ops generalizing s with
  | nil => simp [run] at h; subst h; exact ⟨[], by simp⟩
  | cons o ops ih =>
    rw [run_cons] at h
    cases hs : step H F key s o with
    | none => rw [hs] at h; simp at h
    | some s1 =>
      rw [hs] at h
      obtain ⟨ws, hw⟩ := ih h
      exact ⟨writesOf H F key s o ++ ws, by rw [hw, step_log hs, List.append_assoc]⟩

theorem good_run {H : Bytes → Bytes} (hH : ∀ x, (H x).length = 32) {F : Format} (hF : ∀ s, F.dec (F.enc s) = some s ∧ F.enc s ≠ [])
    {key : Bytes} (hkey : key.length ≠ 32) {D : Db} {s s' : St} (hg : Good H F key D s) (ops : List Op) (ho : ∀ o ∈ ops, o.Ok)
    (hr : run H F key s ops = some s') (hD : ∀ w ∈ s'.log, w.1 ≠ key → w.2 = D w.1) : Good H F key D s' := by
  induction ops generalizing s with
  | nil => simp [run] at hr; subst hr; exact hg
  | cons o ops ih =>
    rw [run_cons] at hr
    cases hs : step H F key s o with
    | none => rw [hs] at hr; simp at hr
    | some s1 =>
      rw [hs] at hr
      simp only [Option.bind_some] at hr
      obtain ⟨ws, hw⟩ := run_log hr
      obtain ⟨s2, e1, e2, e3⟩ := good_step hH hF hkey hg o (ho o (by simp)) (fun w hm hk => hD w (by
        rw [hw, step_log hs]; simp [hm]) hk)
      rw [hs] at e1
      simp at e1
      subst e1
      exact ih e2 (fun o' h' => ho o' (by simp [h'])) hr

/-- The one value the log has under a key. -/
def logVal (log : List Write) (x : Bytes) : Bytes := (Db.write (fun _ => []) log) x

theorem logVal_eq {key : Bytes} {log : List Write} (h : LogOk key log) (w : Write) (hw : w ∈ log) (hk : w.1 ≠ key) :
    w.2 = logVal log w.1 := by
  rcases write_cases (fun _ => []) log w.1 with ⟨v, h1, h2⟩ | ⟨h1, h2⟩
  · rw [logVal, h2]; exact h w hw _ h1 hk rfl
  · exact absurd rfl (h1 w hw)

/-- Reached from an empty accumulator and database. -/
def Reach (H : Bytes → Bytes) (F : Format) (key : Bytes) (s : St) : Prop :=
  ∃ ops, (∀ o ∈ ops, Op.Ok o) ∧ run H F key St.init ops = some s ∧ LogOk key s.log

theorem Reach.good {H : Bytes → Bytes} (hH : ∀ x, (H x).length = 32) {F : Format} (hF : ∀ s, F.dec (F.enc s) = some s ∧ F.enc s ≠ [])
    {key : Bytes} (hkey : key.length ≠ 32) {s : St} (h : Reach H F key s) : Good H F key (logVal s.log) s := by
  obtain ⟨ops, h1, h2, h3⟩ := h
  exact good_run hH hF hkey (good_init H F key _) ops h1 h2 (fun w hw hk => logVal_eq h3 w hw hk)

end Verif.Mta
