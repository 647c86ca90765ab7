import Verif.MtaDb
import Verif.MbtSound
import Verif.SolProof
/-!
Properties of the Merkle tree accumulator (C16-C23, C67).

`Reach H F key s`: the state `s` comes from an empty accumulator and an empty database by any sequence of additions,
witness queries, (partially failing) flushes, and crashes with recovery, where no two node values written under one
hash key differ.
-/
namespace Verif.Mta
open Verif Verif.Merkle
open Verif.Mbt (Collision)

/-- What a state record format must satisfy. -/
def Format.Good (F : Format) : Prop := ∀ s, F.dec (F.enc s) = some s ∧ F.enc s ≠ []

section
variable {H : Bytes → Bytes} (hH : ∀ x, (H x).length = 32) {F : Format} (hF : F.Good) {key : Bytes} (hkey : key.length ≠ 32)

include hH hF hkey

/-- C16: there is one perfect subtree for each one bit of the number of leaves, it has the root of the corresponding
block of leaves, and the length is the number of additions. -/
theorem C16_structure (s : St) (hr : Reach H F key s) :
    s.acc.length = s.cur.length ∧
    ∀ o, if s.cur.length.testBit o then
        ∃ n, s.acc.roots[o]? = some (some n) ∧
          n.hashOf H = mroot H ((s.cur.drop (s.cur.length / 2 ^ (o + 1) * 2 ^ (o + 1))).take (2 ^ o))
      else s.acc.roots[o]? = some none ∨ s.acc.roots[o]? = none := by
  have hg := hr.good hH hF hkey
  refine ⟨hg.acc.2, fun o => ?_⟩
  rcases (hg.acc.1.facts hH).2.2.2 o with ⟨n, a1, a2, a3, a4⟩ | ⟨a1, a2, a3⟩
  · simp only [Nat.zero_add] at a2 a4
    rw [if_pos ((testBit_iff _ _).mpr a2)]
    exact ⟨n, a1, (a4.root hH).1⟩
  · simp only [Nat.zero_add] at a3
    rw [if_neg (by rw [testBit_iff, a3]; simp)]
    by_cases h : s.acc.roots[o]? = some none
    · exact Or.inl h
    · exact Or.inr (a1 h)

/-- C17: for every leaf `WitnessFor` gives a witness, the query keeps the accumulator correct, and `Verify` accepts the
witness with that leaf before and after the query. -/
theorem C17_witness (s : St) (hr : Reach H F key s) (i : Nat) (x : Bytes) (hx : s.cur[i]? = some x) :
    ∃ a' w, s.acc.witnessFor H s.db i = (a', some w) ∧ s.acc.verify H w x = .ok ∧ a'.verify H w x = .ok ∧
      Reach H F key { s with acc := a' } := by
  have hg := hr.good hH hF hkey
  have hi : i < s.cur.length := (List.getElem?_eq_some_iff.mp hx).1
  obtain ⟨d, a', h1, h2, h3⟩ := hg.acc.witness hH i hi
  refine ⟨a', _, h2, hg.acc.verify_wit hH hg.len i d h1 x hx, h3.verify_wit hH hg.len i d h1 x hx, ?_⟩
  obtain ⟨ops, o1, o2, o3⟩ := hr
  refine ⟨ops ++ [.witness i], ?_, ?_, o3⟩
  · intro o ho
    simp at ho
    rcases ho with ho | rfl
    · exact o1 o ho
    · trivial
  · unfold run at o2 ⊢
    rw [List.foldl_append, o2]
    simp [step, h2]

omit hF hkey in
theorem addNode_wit (db : Db) (k : Nat) (rs : List (Option Node)) (n : Node) (hs b : List Bytes) (h : Inv H db k rs hs)
    (hn : Rep H db k n b) :
    ∃ n', (addNode H rs n).1[(addNode H rs n).2.length]? = some (some n') ∧
      n'.hashOf H = (addNode H rs n).2.foldl (vstep H) (n.hashOf H) ∧
      (∀ w ∈ (addNode H rs n).2, w.hash.length = 32) := by
  induction rs generalizing k n hs b with
  | nil => exact ⟨n, rfl, rfl, by simp [addNode]⟩
  | cons o rs ih =>
    cases o with
    | none => exact ⟨n, rfl, rfl, by simp [addNode]⟩
    | some r =>
      obtain ⟨a, c, rfl, h1, h2⟩ := h
      have hr := h1.root hH
      have hnr := hn.root hH
      have hbr : Rep H db (k + 1) (.br false none r n) (c ++ b) :=
        ⟨k, c, b, rfl, rfl, hr.2.2, hnr.2.2, h1, hn, by simp, by simp⟩
      obtain ⟨n', e1, e2, e3⟩ := ih (k + 1) (.br false none r n) a (c ++ b) h2 hbr
      simp only [addNode]
      rw [if_neg (by rw [hr.2.1]; decide)]
      refine ⟨n', by simpa using e1, ?_, ?_⟩
      · rw [e2, hbr.br_hash hH]
        simp [vstep]
      · intro w hw
        simp at hw
        rcases hw with rfl | hw
        · exact hr.2.1
        · exact e3 w hw

/-- C17: the witness that `AddHash` (or `AddData`) returns verifies the new leaf against the new accumulator. -/
theorem C17_add_witness (s : St) (hr : Reach H F key s) (x : Bytes) :
    (x.length = 32 → (s.acc.addHash H x).1.verify H (s.acc.addHash H x).2 x = .ok) ∧
    (s.acc.addData H x).1.verify H (s.acc.addData H x).2 (H x) = .ok := by
  have hg := hr.good hH hF hkey
  have gen : ∀ n y, Rep H s.db 0 n [y] → n.hashOf H = y → (s.acc.add H n).1.verify H (s.acc.add H n).2 y = .ok := by
    intro n y hn he
    obtain ⟨n', e1, e2, e3⟩ := addNode_wit hH s.db 0 s.acc.roots n s.cur [y] hg.acc.1 hn
    have hv := vloop_eq hH (addNode H s.acc.roots n).2 (List.replicate 64 0) y (by simp) (by rw [← he]; exact (hn.root hH).2.1) e3
    show (match (addNode H s.acc.roots n).1[(addNode H s.acc.roots n).2.length]? with
      | some (some n') => if n'.hashOf H = vloop H (addNode H s.acc.roots n).2 (List.replicate 64 0) y then Res.ok else Res.err
      | _ => Res.err) = .ok
    rw [e1]
    exact if_pos (by rw [hv, e2, he])
  exact ⟨fun h => gen (.hash x) x ⟨rfl, h⟩ rfl, gen (.data false x) (H x) ⟨rfl, rfl⟩ rfl⟩

end

/-! ### Soundness -/

@[elab_as_elim]
theorem snocInd {α : Type} {P : List α → Prop} (l : List α) (h0 : P []) (h1 : ∀ l x, P l → P (l ++ [x])) : P l := by
  have : ∀ n, ∀ l : List α, l.length = n → P l := by
    intro n
    induction n with
    | zero => intro l hl; rw [List.length_eq_zero_iff.mp hl]; exact h0
    | succ n ih =>
      intro l hl
      have hne : l ≠ [] := by intro h; rw [h] at hl; simp at hl
      rw [← List.dropLast_concat_getLast hne]
      exact h1 _ _ (ih _ (by simp; omega))
  exact this _ l rfl


/-- The 64-byte buffers `Verify` hashes. -/
def vcalls (H : Bytes → Bytes) : List W → Bytes → Bytes → List Bytes
  | [], _, _ => []
  | w :: ws, buf, h => vbuf buf h w :: vcalls H ws (vbuf buf h w) (H (vbuf buf h w))

/-- The buffer after the loop. -/
def lastBuf (H : Bytes → Bytes) : List W → Bytes → Bytes → Bytes
  | [], buf, _ => buf
  | w :: ws, buf, h => lastBuf H ws (vbuf buf h w) (H (vbuf buf h w))

theorem cpL_len (buf h : Bytes) (hb : buf.length = 64) : (cpL buf h).length = 64 := by simp [cpL, hb]; omega
theorem cpR_len (buf h : Bytes) (hb : buf.length = 64) : (cpR buf h).length = 64 := by simp [cpR, hb]; omega
theorem vbuf_len (buf h : Bytes) (w : W) (hb : buf.length = 64) : (vbuf buf h w).length = 64 := by
  unfold vbuf
  split <;> exact cpR_len _ _ (cpL_len _ _ hb)

theorem lastBuf_len (H : Bytes → Bytes) (ws : List W) (buf h : Bytes) (hb : buf.length = 64) : (lastBuf H ws buf h).length = 64 := by
  induction ws generalizing buf h with
  | nil => exact hb
  | cons w ws ih => exact ih _ _ (vbuf_len _ _ _ hb)

theorem vloop_snoc (H : Bytes → Bytes) (ws : List W) (w : W) (buf h : Bytes) :
    vloop H (ws ++ [w]) buf h = H (vbuf (lastBuf H ws buf h) (vloop H ws buf h) w) ∧
    vcalls H (ws ++ [w]) buf h = vcalls H ws buf h ++ [vbuf (lastBuf H ws buf h) (vloop H ws buf h) w] := by
  induction ws generalizing buf h with
  | nil => exact ⟨rfl, rfl⟩
  | cons v ws ih =>
    obtain ⟨e1, e2⟩ := ih (vbuf buf h v) (H (vbuf buf h v))
    exact ⟨e1, by simp only [List.cons_append, vcalls, e2, lastBuf, vloop]⟩

theorem vloop_len {H : Bytes → Bytes} (hH : ∀ x, (H x).length = 32) (ws : List W) (buf h : Bytes) (hh : h.length = 32) :
    (vloop H ws buf h).length = 32 := by
  induction ws generalizing buf h with
  | nil => exact hh
  | cons w ws ih => exact ih _ _ (hH _)

theorem vbuf_halves (buf h : Bytes) (w : W) (hb : buf.length = 64) (hh : h.length = 32) :
    (w.dir = 0 → (vbuf buf h w).drop 32 = h) ∧ (w.dir ≠ 0 → (vbuf buf h w).take 32 = h) := by
  have t64 : ∀ x : Bytes, (cpL buf x).length = 64 := fun x => cpL_len _ _ hb
  constructor
  · intro hd
    rw [vbuf, if_pos hd, cpR, List.take_of_length_le (l := h) (by omega), List.drop_of_length_le (l := (cpL buf w.hash).drop 32) (by simp [t64, hh])]
    rw [List.append_assoc, List.drop_append, List.drop_of_length_le (by simp; omega)]
    simp [t64]
  · intro hd
    rw [vbuf, if_neg hd, cpR, List.append_assoc, List.take_append]
    simp only [List.length_take, t64]
    simp only [cpL, List.take_of_length_le (l := h) (show h.length ≤ 32 by omega)]
    rw [List.drop_of_length_le (l := buf.take 32) (by simp [hb, hh])]
    have e : (h ++ [] ++ buf.drop 32).take 32 = h := by rw [List.append_nil, ← hh, List.take_left']; rfl
    rw [e, List.take_of_length_le (by omega)]
    simp

theorem inputs_half (H : Bytes → Bytes) (a b : List Bytes) (k : Nat) (ha : a.length = 2 ^ k) (hb : b.length = 2 ^ k) :
    mroot H (a ++ b) = H (mroot H a ++ mroot H b) ∧ mroot H a ++ mroot H b ∈ inputs H (a ++ b) ∧
    (∀ x ∈ inputs H a, x ∈ inputs H (a ++ b)) ∧ (∀ x ∈ inputs H b, x ∈ inputs H (a ++ b)) := by
  have hp := Nat.one_le_two_pow (n := k)
  have hl : (a ++ b).length = 2 ^ k + 2 ^ k := by rw [List.length_append, ha, hb]
  have hsp : split (a ++ b).length = 2 ^ k := by
    rw [hl]; exact (split_unique (k := k) (by omega) (by rw [Nat.pow_succ]; omega)).1
  have e1 : (a ++ b).take (split (a ++ b).length) = a := by rw [hsp, ← ha]; simp
  have e2 : (a ++ b).drop (split (a ++ b).length) = b := by rw [hsp, ← ha]; simp
  have e3 := inputs_two H (a ++ b) (by omega)
  rw [e1, e2] at e3
  refine ⟨mroot_append H a b k ha (by intro h; rw [h] at hb; simp at hb; omega) (by omega), ?_, ?_, ?_⟩
  · rw [e3]; simp
  · intro x hx; rw [e3]; simp [hx]
  · intro x hx; rw [e3]; simp [hx]

/-- Core of soundness: what the loop accepts against the root of `2^d` leaves is a leaf at the place the directions say,
or there is a collision. -/
theorem vloop_sound {H : Bytes → Bytes} (hH : ∀ x, (H x).length = 32) (ws : List W) :
    ∀ (b : List Bytes) (h : Bytes), b.length = 2 ^ ws.length → (∀ x ∈ b, x.length = 32) → h.length = 32 →
      vloop H ws (List.replicate 64 0) h = mroot H b →
      Collision H (vcalls H ws (List.replicate 64 0) h) (inputs H b) ∨
      ∃ p, p < 2 ^ ws.length ∧ b[p]? = some h ∧ ∀ j w, ws[j]? = some w → (w.dir = 0 ↔ p / 2 ^ j % 2 = 1) := by
  -- from the last (top) element downwards
  refine snocInd ws ?_ ?_
  · intro b h hb _ hh hv
    right
    simp at hb
    match b, hb with
    | [x], _ =>
      rw [mroot_one] at hv
      exact ⟨0, by simp, by simpa [vloop] using hv.symm, by simp⟩
  · intro ws w ih b h hb hbl hh hv
    rw [List.length_append, List.length_singleton, Nat.pow_succ] at hb
    have hpk := Nat.one_le_two_pow (n := ws.length)
    have hsplit : b = b.take (2 ^ ws.length) ++ b.drop (2 ^ ws.length) := (List.take_append_drop _ _).symm
    have ha : (b.take (2 ^ ws.length)).length = 2 ^ ws.length := by simp; omega
    have hc : (b.drop (2 ^ ws.length)).length = 2 ^ ws.length := by simp; omega
    have hal : ∀ x ∈ b.take (2 ^ ws.length), x.length = 32 := fun x hx => hbl x (List.mem_of_mem_take hx)
    have hcl : ∀ x ∈ b.drop (2 ^ ws.length), x.length = 32 := fun x hx => hbl x (List.mem_of_mem_drop hx)
    obtain ⟨m1, m2, m3, m4⟩ := inputs_half H _ _ ws.length ha hc
    rw [← hsplit] at m1 m2 m3 m4
    have la := mroot_length H 32 hH (b.take (2 ^ ws.length)) (by intro h0; rw [h0] at ha; simp at ha; omega) hal
    have lc := mroot_length H 32 hH (b.drop (2 ^ ws.length)) (by intro h0; rw [h0] at hc; simp at hc; omega) hcl
    obtain ⟨s1, s2⟩ := vloop_snoc H ws w (List.replicate 64 0) h
    have hbuf := lastBuf_len H ws (List.replicate 64 0) h (by simp)
    have hcur := vloop_len hH ws (List.replicate 64 0) h hh
    rw [s1, m1] at hv
    rw [s2]
    by_cases heq : vbuf (lastBuf H ws (List.replicate 64 0) h) (vloop H ws (List.replicate 64 0) h) w =
        mroot H (b.take (2 ^ ws.length)) ++ mroot H (b.drop (2 ^ ws.length))
    · obtain ⟨v1, v2⟩ := vbuf_halves _ _ w hbuf hcur
      rw [heq] at v1 v2
      have tk : (mroot H (b.take (2 ^ ws.length)) ++ mroot H (b.drop (2 ^ ws.length))).take 32 = mroot H (b.take (2 ^ ws.length)) := by
        rw [← la, List.take_left']; rfl
      have dr : (mroot H (b.take (2 ^ ws.length)) ++ mroot H (b.drop (2 ^ ws.length))).drop 32 = mroot H (b.drop (2 ^ ws.length)) := by
        rw [← la, List.drop_left']; rfl
      rw [dr] at v1; rw [tk] at v2
      by_cases hd : w.dir = 0
      · rcases ih _ h hc hcl hh (v1 hd).symm with ⟨x, hx, y, hy, hne, he⟩ | ⟨p, p1, p2, p3⟩
        · left; exact ⟨x, List.mem_append_left _ hx, y, m4 y hy, hne, he⟩
        · right
          refine ⟨2 ^ ws.length + p, by rw [List.length_append, List.length_singleton, Nat.pow_succ]; omega, ?_, ?_⟩
          · rw [List.getElem?_drop] at p2; exact p2
          · intro j v hj
            by_cases hjl : j < ws.length
            · rw [List.getElem?_append_left hjl] at hj
              rw [p3 j v hj]
              have : (2 ^ ws.length + p) / 2 ^ j % 2 = p / 2 ^ j % 2 := by
                obtain ⟨e, he⟩ : ∃ e, ws.length = j + 1 + e := ⟨ws.length - (j + 1), by omega⟩
                have : 2 ^ ws.length + p = p + 2 ^ j * (2 * 2 ^ e) := by
                  rw [he, Nat.pow_add, Nat.pow_succ, Nat.mul_assoc, Nat.add_comm]
                rw [this, Nat.add_mul_div_left _ _ (by exact Nat.two_pow_pos j), Nat.add_mul_mod_self_left]
              rw [this]
            · have hjl' : j = ws.length := by
                have := (List.getElem?_eq_some_iff.mp hj).1
                simp at this; omega
              subst hjl'
              simp at hj; subst hj
              have : (2 ^ ws.length + p) / 2 ^ ws.length = 1 := by
                rw [Nat.add_div_left _ (by omega), Nat.div_eq_of_lt p1]
              simp [hd, this]
      · rcases ih _ h ha hal hh (v2 hd).symm with ⟨x, hx, y, hy, hne, he⟩ | ⟨p, p1, p2, p3⟩
        · left; exact ⟨x, List.mem_append_left _ hx, y, m3 y hy, hne, he⟩
        · right
          refine ⟨p, by rw [List.length_append, List.length_singleton, Nat.pow_succ]; omega, ?_, ?_⟩
          · rw [List.getElem?_take] at p2; simpa [p1] using p2
          · intro j v hj
            by_cases hjl : j < ws.length
            · rw [List.getElem?_append_left hjl] at hj
              exact p3 j v hj
            · have hjl' : j = ws.length := by
                have := (List.getElem?_eq_some_iff.mp hj).1
                simp at this; omega
              subst hjl'
              simp at hj; subst hj
              simp [hd, Nat.div_eq_of_lt p1]
    · left
      exact ⟨_, by simp, _, m2, heq, hv⟩

/-- The sum `GetHeightFromWitness` subtracts, when right siblings belong to the zero bits of `i`. -/
theorem heightLoop_eq (n i : Nat) (ws : List W) (hd : ∀ j w, ws[j]? = some w → (w.dir = 1 ↔ i / 2 ^ j % 2 = 0)) :
    heightLoop n ws 0 + 1 + i % 2 ^ ws.length = n % 2 ^ ws.length + 2 ^ ws.length := by
  have snoc : ∀ (ws : List W) (w : W) (k : Nat), heightLoop n (ws ++ [w]) k =
      heightLoop n ws k + ((if w.dir = 1 then 2 ^ (k + ws.length) else 0) + (if n.testBit (k + ws.length) then 2 ^ (k + ws.length) else 0)) := by
    intro ws w
    induction ws with
    | nil => intro k; simp [heightLoop]
    | cons v ws ih =>
      intro k
      rw [List.cons_append, heightLoop, heightLoop, ih]
      simp only [List.length_cons]
      rw [show k + 1 + ws.length = k + (ws.length + 1) by omega]
      omega
  revert hd
  refine snocInd ws ?_ ?_
  · intro _; simp [heightLoop, Nat.mod_one]
  · intro ws w ih hd
    have h1 := ih (fun j v hj => hd j v (by rw [List.getElem?_append_left (List.getElem?_eq_some_iff.mp hj).1]; exact hj))
    have h2 := hd ws.length w (by simp)
    rw [snoc, List.length_append, List.length_singleton, mod_pow_succ', mod_pow_succ', Nat.pow_succ, Nat.zero_add, Nat.mul_two]
    have hb := testBit_iff n ws.length
    have a0 := Nat.mod_two_eq_zero_or_one (i / 2 ^ ws.length)
    have b0 := Nat.mod_two_eq_zero_or_one (n / 2 ^ ws.length)
    rcases a0 with a0 | a0 <;> rcases b0 with b0 | b0 <;> simp only [h2, hb, a0, b0] <;> simp <;> omega

theorem getHeight_eq (n i : Nat) (ws : List W) (hd : ∀ j w, ws[j]? = some w → (w.dir = 1 ↔ i / 2 ^ j % 2 = 0))
    (hdep : IsDepth n i ws.length) : getHeight ws n = i := by
  have h1 := heightLoop_eq n i ws hd
  obtain ⟨h2, h3⟩ := hdep
  have h4 := Nat.div_add_mod n (2 ^ ws.length)
  have h5 := Nat.div_add_mod i (2 ^ ws.length)
  rw [← h3, Nat.mul_add, Nat.mul_one] at h4
  unfold getHeight
  omega

/-- A witness accepted by `Verify` of a correct accumulator. -/
theorem Acc.Ok.verify_sound {H : Bytes → Bytes} (hH : ∀ x, (H x).length = 32) {db : Db} {a : Acc} {hs : List Bytes}
    (hok : a.Ok H db hs) (hl : ∀ h ∈ hs, h.length = 32) (ws : List W) (h : Bytes) (hh : h.length = 32)
    (hv : a.verify H ws h = .ok) :
    (∃ s, Collision H (vcalls H ws (List.replicate 64 0) h) (inputs H ((hs.drop s).take (2 ^ ws.length)))) ∨
    ∃ i, hs[i]? = some h ∧ IsDepth hs.length i ws.length ∧ (∀ j w, ws[j]? = some w → (w.dir = 0 ↔ i / 2 ^ j % 2 = 1)) := by
  rw [Acc.verify] at hv
  rcases (hok.1.facts hH).2.2.2 ws.length with ⟨n, a1, a2, a3, a4⟩ | ⟨_, a2, _⟩
  · rw [a1] at hv
    simp only [Nat.zero_add] at hv a2 a3 a4
    split at hv
    · rename_i heq
      have hroot := a4.root hH
      rw [hroot.1] at heq
      rcases vloop_sound hH ws _ h hroot.2.2 (fun x hx => hl x (List.mem_of_mem_drop (List.mem_of_mem_take hx))) hh heq.symm with hc | ⟨p, p1, p2, p3⟩
      · left; exact ⟨_, hc⟩
      · right
        rw [blk, List.getElem?_take, if_pos p1, List.getElem?_drop] at p2
        have hmul : hs.length / 2 ^ (ws.length + 1) * 2 ^ (ws.length + 1) = 2 ^ ws.length * (2 * (hs.length / 2 ^ (ws.length + 1))) := by
          rw [Nat.pow_succ, Nat.mul_comm, Nat.mul_assoc]
        refine ⟨_, p2, ⟨a2, ?_⟩, ?_⟩
        · rw [hmul, Nat.mul_add_div (Nat.two_pow_pos _), Nat.div_eq_of_lt p1, div_pow_succ]
          omega
        · intro j w hj
          rw [p3 j w hj]
          have hjl : j < ws.length := (List.getElem?_eq_some_iff.mp hj).1
          obtain ⟨e, he⟩ : ∃ e, ws.length = j + 1 + e := ⟨ws.length - (j + 1), by omega⟩
          have : (hs.length / 2 ^ (ws.length + 1) * 2 ^ (ws.length + 1) + p) / 2 ^ j % 2 = p / 2 ^ j % 2 := by
            rw [hmul]
            generalize 2 * (hs.length / 2 ^ (ws.length + 1)) = q
            have : 2 ^ ws.length * q + p = p + 2 ^ j * (2 * (2 ^ e * q)) := by
              rw [he, Nat.pow_add, Nat.pow_succ, Nat.add_comm, Nat.mul_assoc, Nat.mul_assoc]
            rw [this, Nat.add_mul_div_left _ _ (Nat.two_pow_pos j), Nat.add_mul_mod_self_left]
          rw [this]
    · simp at hv
  · split at hv
    · rename_i n hn
      exact absurd hn (a2 n)
    · simp at hv

section
variable {H : Bytes → Bytes} (hH : ∀ x, (H x).length = 32) {F : Format} (hF : F.Good) {key : Bytes} (hkey : key.length ≠ 32)
include hH hF hkey

/-- C18: an accepted witness of a 32-byte hash names the position of that hash among the leaves, unless two different
inputs of the hash function that occur in the check and in the tree collide. With proper directions the position is
the height `GetHeightFromWitness` computes. -/
theorem C18_sound_partial (s : St) (hr : Reach H F key s) (ws : List W) (h : Bytes) (hh : h.length = 32)
    (hv : s.acc.verify H ws h = .ok) :
    (∃ k, Collision H (vcalls H ws (List.replicate 64 0) h) (inputs H ((s.cur.drop k).take (2 ^ ws.length)))) ∨
    ∃ i : Nat, s.cur[i]? = some h ∧ (∀ j w, ws[j]? = some w → (w.dir = 0 ↔ i / 2 ^ j % 2 = 1)) ∧
      ((∀ w ∈ ws, w.dir = 0 ∨ w.dir = 1) → getHeight ws s.acc.length = i) := by
  have hg := hr.good hH hF hkey
  rcases hg.acc.verify_sound hH hg.len ws h hh hv with hc | ⟨i, h1, h2, h3⟩
  · exact Or.inl hc
  · right
    refine ⟨i, h1, h3, fun hd => ?_⟩
    rw [hg.acc.2]
    refine getHeight_eq _ i ws (fun j w hj => ?_) h2
    have e := h3 j w hj
    rcases hd w (List.mem_of_getElem? hj) with h0 | h0
    · have := e.mp h0; simp [h0, this]
    · have : ¬ (i / 2 ^ j % 2 = 1) := fun h' => by have := e.mpr h'; omega
      have := Nat.mod_two_eq_zero_or_one (i / 2 ^ j)
      simp only [h0, true_iff]; omega

omit hH hF hkey in
/-- C18 is false of the code without the length condition: anything appended to an accepted hash is accepted as well
when the witness is not empty. -/
theorem C18_long_hash_accepted (a : Acc) (ws : List W) (h e : Bytes) (hh : h.length = 32) (hne : ws ≠ [])
    (hv : a.verify H ws h = .ok) : a.verify H ws (h ++ e) = .ok := by
  match ws, hne with
  | w :: ws, _ =>
    have hb : vbuf (List.replicate 64 0) (h ++ e) w = vbuf (List.replicate 64 0) h w := by
      have t : (h ++ e).take 32 = h.take 32 := by rw [List.take_append_of_le_length (by omega)]
      have l : ∀ y : Bytes, cpL y (h ++ e) = cpL y h := by
        intro y
        simp only [cpL, t]
        rw [List.drop_of_length_le (l := y.take 32) (by simp; omega), List.drop_of_length_le (l := y.take 32) (by simp; omega)]
      have r : ∀ y : Bytes, y.length = 64 → cpR y (h ++ e) = cpR y h := by
        intro y hy
        simp only [cpR, t]
        rw [List.drop_of_length_le (l := y.drop 32) (by simp; omega), List.drop_of_length_le (l := y.drop 32) (by simp; omega)]
      unfold vbuf
      split
      · rw [r _ (cpL_len _ _ (by simp))]
      · rw [l]
    simp only [Acc.verify, vloop, hb] at hv ⊢
    exact hv

end

/-! ### Accumulators of other lengths -/

theorem depthLoop_eq (n i : Nat) (o : Nat) (heq : i / 2 ^ o = n / 2 ^ o) (hi : i < n) :
    IsDepth n i (depthLoop n o ((i % 2 ^ o : Nat) : Int)) := by
  induction o with
  | zero => simp at heq; omega
  | succ o ih =>
    have hp := Nat.one_le_two_pow (n := o)
    rw [div_pow_succ, div_pow_succ] at heq
    have hbn := Nat.mod_two_eq_zero_or_one (n / 2 ^ o)
    have hbi := Nat.mod_two_eq_zero_or_one (i / 2 ^ o)
    have hle : i / 2 ^ o ≤ n / 2 ^ o := Nat.div_le_div_right (by omega)
    have hm := mod_pow_succ' i o
    have hlt := Nat.mod_lt i (show 2 ^ o > 0 by omega)
    have hz := Mbt.castPow2 o
    rw [depthLoop]
    have hb := testBit_iff n o
    rcases hbn with hbn | hbn
    · rw [if_neg (by rw [hb, hbn]; simp)]
      have hb0 : i / 2 ^ o % 2 = 0 := by omega
      rw [hm, hb0, Nat.mul_zero, Nat.add_zero]
      exact ih (by omega)
    · rw [if_pos (hb.mpr hbn)]
      rcases hbi with hbi | hbi
      · rw [hm, hbi, Nat.mul_zero, Nat.add_zero, if_pos (by rw [← hz]; exact Int.ofNat_lt.mpr hlt)]
        exact ⟨hbn, by omega⟩
      · rw [hm, hbi, Nat.mul_one, if_neg (by rw [← hz]; exact Int.not_lt.mpr (Int.ofNat_le.mpr (by omega)))]
        have : ((i % 2 ^ o + 2 ^ o : Nat) : Int) - 2 ^ o = ((i % 2 ^ o : Nat) : Int) := by
          rw [Int.natCast_add, hz]; omega
        rw [this]
        exact ih (by omega)

theorem getDepth_eq (n i : Nat) (hi : i < n) : IsDepth n i (getDepth i n) := by
  have hl := SolProof.lt_two_pow_halvings n
  have h1 : i / 2 ^ Mbt.halvings n = n / 2 ^ Mbt.halvings n := by
    rw [Nat.div_eq_of_lt hl, Nat.div_eq_of_lt (by omega)]
  have := depthLoop_eq n i (Mbt.halvings n) h1 hi
  rw [Nat.mod_eq_of_lt (by omega)] at this
  exact this

theorem IsDepth.mono {n m i d e : Nat} (hm : IsDepth m i d) (hn : IsDepth n i e) (hle : m ≤ n) : d ≤ e := by
  refine Nat.le_of_not_lt (fun hlt => ?_)
  obtain ⟨c, rfl⟩ : ∃ c, d = e + 1 + c := ⟨d - (e + 1), by omega⟩
  obtain ⟨a1, a2⟩ := hm
  obtain ⟨b1, b2⟩ := hn
  have e1 : ∀ x : Nat, x / 2 ^ (e + 1 + c) = x / 2 ^ e / 2 / 2 ^ c := by
    intro x; rw [Nat.pow_add, ← Nat.div_div_eq_div_mul, div_pow_succ]
  have h1 : i / 2 ^ e / 2 = n / 2 ^ e / 2 := by omega
  have h2 : m / 2 ^ (e + 1 + c) ≤ n / 2 ^ (e + 1 + c) := Nat.div_le_div_right hle
  rw [e1 n, ← h1, ← e1] at h2
  omega

theorem IsDepth.lt {n i d : Nat} (h : IsDepth n i d) : i < n := by
  refine Nat.lt_of_not_le (fun hle => ?_)
  have : n / 2 ^ d ≤ i / 2 ^ d := Nat.div_le_div_right hle
  have := h.2
  omega

/-- The block of leaf `i` at its depth lies within the leaves. -/
theorem IsDepth.block {n i d : Nat} (h : IsDepth n i d) : i / 2 ^ d * 2 ^ d + 2 ^ d ≤ n := by
  have h1 := Nat.div_mul_le_self n (2 ^ d)
  rw [← h.2, Nat.add_mul, Nat.one_mul] at h1
  exact h1

theorem entry_take (H : Bytes → Bytes) (hs : List Bytes) (m i j d : Nat) (hj : j < d) (hlen : i / 2 ^ d * 2 ^ d + 2 ^ d ≤ m) :
    entry H (hs.take m) i j = entry H hs i j := by
  have hp := Nat.one_le_two_pow (n := j)
  have hb : (i / 2 ^ j + 1 + (1 - i / 2 ^ j % 2)) * 2 ^ j ≤ m := by
    obtain ⟨e, rfl⟩ : ∃ e, d = j + 1 + e := ⟨d - (j + 1), by omega⟩
    have h1 : i / 2 ^ (j + 1 + e) = i / 2 ^ j / 2 / 2 ^ e := by
      rw [Nat.pow_add, ← Nat.div_div_eq_div_mul, div_pow_succ]
    have h2 := Nat.div_add_mod (i / 2 ^ j / 2) (2 ^ e)
    have h3 := Nat.mod_lt (i / 2 ^ j / 2) (Nat.two_pow_pos e)
    have h4 : i / 2 ^ (j + 1 + e) * 2 ^ (j + 1 + e) + 2 ^ (j + 1 + e) = (i / 2 ^ j / 2 / 2 ^ e * 2 ^ e + 2 ^ e) * 2 * 2 ^ j := by
      rw [h1, Nat.pow_add, Nat.pow_succ]
      generalize 2 ^ j = a; generalize 2 ^ e = b; generalize i / a / 2 / b = q
      rw [Nat.add_mul, Nat.add_mul, Nat.mul_assoc q, Nat.mul_assoc q]
      congr 1
      · congr 1
        rw [Nat.mul_comm (a * 2) b, Nat.mul_assoc, Nat.mul_comm a 2]
      · rw [Nat.mul_comm (a * 2) b, Nat.mul_assoc, Nat.mul_comm a 2]
    rw [h4] at hlen
    refine Nat.le_trans (Nat.mul_le_mul_right _ ?_) hlen
    rw [Nat.mul_comm (2 ^ e)] at h2
    generalize 2 ^ e = p at h2 h3 ⊢
    generalize i / 2 ^ j / 2 / p * p = r at h2 ⊢
    omega
  unfold entry
  split
  · rename_i h0
    rw [h0] at hb
    rw [blk_take hs m _ _ (by rw [Nat.add_mul] at hb; omega)]
  · rename_i h0
    have h1 : i / 2 ^ j % 2 = 1 := by omega
    have h2 : 1 ≤ i / 2 ^ j := by
      generalize i / 2 ^ j = q at h1
      omega
    rw [h1] at hb
    rw [blk_take hs m _ _ (by
      have := Nat.sub_mul (i / 2 ^ j) 1 (2 ^ j)
      simp only [Nat.sub_self, Nat.add_zero, Nat.add_mul, Nat.one_mul] at hb
      have : 2 ^ j ≤ i / 2 ^ j * 2 ^ j := Nat.le_mul_of_pos_left _ h2
      omega)]

theorem wit_take (H : Bytes → Bytes) (hs : List Bytes) (m i d : Nat) (h : IsDepth m i d) : wit H (hs.take m) i d = wit H hs i d := by
  unfold wit
  apply List.map_congr_left
  intro j hj
  exact entry_take H hs m i j d (List.mem_range.mp hj) h.block

theorem wit_le (H : Bytes → Bytes) (hs : List Bytes) (i d e : Nat) (h : d ≤ e) : (wit H hs i e).take d = wit H hs i d := by
  obtain ⟨c, rfl⟩ : ∃ c, e = d + c := ⟨e - d, by omega⟩
  unfold wit
  rw [List.range_add, List.map_append, List.take_append_of_le_length (by simp)]
  simp [← List.map_take, List.take_range]

theorem entry_dir (H : Bytes → Bytes) (hs : List Bytes) (i j : Nat) : (entry H hs i j).dir = 1 ↔ i / 2 ^ j % 2 = 0 := by
  unfold entry
  split <;> simp_all

theorem wit_dir (H : Bytes → Bytes) (hs : List Bytes) (i d : Nat) : ∀ j w, (wit H hs i d)[j]? = some w → (w.dir = 1 ↔ i / 2 ^ j % 2 = 0) := by
  intro j w hj
  simp only [wit, List.getElem?_map, Option.map_eq_some_iff] at hj
  obtain ⟨a, ha, rfl⟩ := hj
  obtain ⟨h1, h2⟩ := List.getElem?_eq_some_iff.mp ha
  simp at h2
  subst h2
  exact entry_dir H hs i j

/-- The witness of a correct accumulator is the honest one. -/
theorem Acc.Ok.witnessLen {H : Bytes → Bytes} (hH : ∀ x, (H x).length = 32) {db : Db} {a : Acc} {hs : List Bytes}
    (h : a.Ok H db hs) (i m : Nat) (hi : i < m) (hm : m ≤ hs.length) :
    ∃ a' d, IsDepth m i d ∧ a.witnessForLen H db i m = (a', some (wit H hs i d)) ∧ a'.Ok H db hs := by
  obtain ⟨e, a', h1, h2, h3⟩ := h.witness hH i (by omega)
  have hd := getDepth_eq m i hi
  have hle := hd.mono h1 hm
  refine ⟨a', _, hd, ?_, h3⟩
  simp only [Acc.witnessForLen, h2, Option.bind_some, wit_length]
  rw [if_pos hle, wit_le H hs i _ e hle]

section
variable {H : Bytes → Bytes} (hH : ∀ x, (H x).length = 32) {F : Format} (hF : F.Good) {key : Bytes} (hkey : key.length ≠ 32)
include hH hF hkey

/-- C19: `WitnessForWithAccLength` for an earlier length gives the witness the accumulator of the first `m` leaves gives
and accepts. -/
theorem C19_prefix_witness (s t : St) (hs : Reach H F key s) (ht : Reach H F key t) (m : Nat) (hm : m ≤ s.cur.length)
    (hpre : t.cur = s.cur.take m) (i : Nat) (x : Bytes) (hx : t.cur[i]? = some x) :
    ∃ a' w, s.acc.witnessForLen H s.db i m = (a', some w) ∧ (t.acc.witnessFor H t.db i).2 = some w ∧ t.acc.verify H w x = .ok := by
  have hg := hs.good hH hF hkey
  have hg' := ht.good hH hF hkey
  have hi : i < t.cur.length := (List.getElem?_eq_some_iff.mp hx).1
  have hlen : t.cur.length = m := by rw [hpre]; simp; omega
  obtain ⟨a', d, h1, h2, h3⟩ := hg.acc.witnessLen hH i m (by omega) hm
  obtain ⟨e, b', g1, g2, g3⟩ := hg'.acc.witness hH i hi
  rw [hlen] at g1
  have := h1.unique g1
  subst this
  have hw : wit H t.cur i d = wit H s.cur i d := by rw [hpre]; exact wit_take H s.cur m i d h1
  refine ⟨a', _, h2, by rw [g2, hw], ?_⟩
  rw [← hw]
  exact hg'.acc.verify_wit hH hg'.len i d (by rw [hlen]; exact h1) x hx

/-- C20, accumulator newer than the witness: accepted. -/
theorem C20_newer_accepts (s t : St) (hs : Reach H F key s) (ht : Reach H F key t) (m : Nat) (hm : m ≤ s.cur.length)
    (hpre : t.cur = s.cur.take m) (i : Nat) (x : Bytes) (hx : t.cur[i]? = some x) (a' : Acc) (w : List W)
    (hw : t.acc.witnessFor H t.db i = (a', some w)) :
    (s.acc.verifyLen H s.db w x m).2 = .ok := by
  have hg := hs.good hH hF hkey
  have hg' := ht.good hH hF hkey
  have hi : i < t.cur.length := (List.getElem?_eq_some_iff.mp hx).1
  have hlen : t.cur.length = m := by rw [hpre]; simp; omega
  obtain ⟨d, b', g1, g2, g3⟩ := hg'.acc.witness hH i hi
  rw [hw] at g2
  simp at g2
  obtain ⟨_, rfl⟩ := g2
  rw [hlen] at g1
  have hws : wit H t.cur i d = wit H s.cur i d := by rw [hpre]; exact wit_take H s.cur m i d g1
  have hxs : s.cur[i]? = some x := by rw [hpre, List.getElem?_take, if_pos (by omega)] at hx; exact hx
  rw [hws, Acc.verifyLen, hg.acc.2]
  split
  · rename_i heq
    exact hg.acc.verify_wit hH hg.len i d (by rw [heq]; exact g1) x hxs
  · rename_i hne
    rw [getHeight_eq m i _ (wit_dir H s.cur i d) (by rw [wit_length]; exact g1)]
    simp only
    rw [if_neg (by omega), if_pos (by omega)]
    obtain ⟨e, c', k1, k2, k3⟩ := hg.acc.witness hH i (by omega)
    rw [k2]
    have hle := g1.mono k1 hm
    simp only [wit_length]
    rw [if_neg (by omega)]
    have : wit H s.cur i d ++ (wit H s.cur i e).drop d = wit H s.cur i e := by
      rw [← wit_le H s.cur i d e hle, List.take_append_drop]
    rw [this]
    exact k3.verify_wit hH hg.len i e k1 x hxs

end

/-- The depth computed for an accumulator older than the witness. -/
theorem oldDepth_ones (n i : Nat) (d : Nat) (hd : IsDepth n i d) (o : Nat) (hdo : d < o) (hones : ∀ j, d < j → j < o → n.testBit j = true) :
    oldDepth o ((i % 2 ^ o : Nat) : Int) = d := by
  induction o with
  | zero => omega
  | succ o ih =>
    have hz := Mbt.castPow2 o
    have hp := Nat.one_le_two_pow (n := o)
    have hm := mod_pow_succ' i o
    have hlt := Nat.mod_lt i (show 2 ^ o > 0 by omega)
    rw [oldDepth]
    by_cases h0 : o = d
    · subst h0
      split
      · omega
      · have : i / 2 ^ o % 2 = 0 := by have := hd.1; have := hd.2; omega
        rw [hm, this, Nat.mul_zero, Nat.add_zero, if_pos (by rw [← hz]; exact Int.ofNat_lt.mpr hlt)]
    · rw [if_neg (by omega)]
      have hbit : i / 2 ^ o % 2 = 1 := by
        have h1 := (testBit_iff n o).mp (hones o (by omega) (by omega))
        obtain ⟨c, rfl⟩ : ∃ c, o = d + 1 + c := ⟨o - (d + 1), by omega⟩
        have e1 : ∀ x : Nat, x / 2 ^ (d + 1 + c) = x / 2 ^ d / 2 / 2 ^ c := by
          intro x; rw [Nat.pow_add, ← Nat.div_div_eq_div_mul, div_pow_succ]
        have h2 : i / 2 ^ d / 2 = n / 2 ^ d / 2 := by have := hd.1; have := hd.2; omega
        rw [e1, h2, ← e1]; exact h1
      rw [hm, hbit, Nat.mul_one, if_neg (by rw [← hz]; exact Int.not_lt.mpr (Int.ofNat_le.mpr (by omega)))]
      have : ((i % 2 ^ o + 2 ^ o : Nat) : Int) - 2 ^ o = ((i % 2 ^ o : Nat) : Int) := by
        rw [Int.natCast_add, hz]; omega
      rw [this]
      exact ih (by omega) (fun j h1 h2 => hones j h1 (by omega))

theorem oldDepth_zero (n i : Nat) (d : Nat) (hd : IsDepth n i d) (o : Nat) (j : Nat) (hj : d < j) (hjo : j < o) (hz : n.testBit j = false) :
    ∃ k, d < k ∧ k < o ∧ n.testBit k = false ∧ oldDepth o ((i % 2 ^ o : Nat) : Int) = k := by
  induction o with
  | zero => omega
  | succ o ih =>
    have hc := Mbt.castPow2 o
    have hp := Nat.one_le_two_pow (n := o)
    have hm := mod_pow_succ' i o
    have hlt := Nat.mod_lt i (show 2 ^ o > 0 by omega)
    have hbit : i / 2 ^ o % 2 = n / 2 ^ o % 2 := by
      obtain ⟨c, rfl⟩ : ∃ c, o = d + 1 + c := ⟨o - (d + 1), by omega⟩
      have e1 : ∀ x : Nat, x / 2 ^ (d + 1 + c) = x / 2 ^ d / 2 / 2 ^ c := by
        intro x; rw [Nat.pow_add, ← Nat.div_div_eq_div_mul, div_pow_succ]
      have h2 : i / 2 ^ d / 2 = n / 2 ^ d / 2 := by have := hd.1; have := hd.2; omega
      rw [e1, h2, ← e1]
    rw [oldDepth, if_neg (by omega)]
    cases hb : n.testBit o with
    | false =>
      have h0 : n / 2 ^ o % 2 = 0 := by
        have := testBit_iff n o
        rw [hb] at this
        simp at this
        omega
      rw [hm, hbit, h0, Nat.mul_zero, Nat.add_zero, if_pos (by rw [← hc]; exact Int.ofNat_lt.mpr hlt)]
      exact ⟨o, by omega, by omega, hb, rfl⟩
    | true =>
      have h1 := (testBit_iff n o).mp hb
      have hjo' : j < o := by
        refine Nat.lt_of_le_of_ne (by omega) (fun h => ?_)
        subst h; rw [hb] at hz; simp at hz
      rw [hm, hbit, h1, Nat.mul_one, if_neg (by rw [← hc]; exact Int.not_lt.mpr (Int.ofNat_le.mpr (by omega)))]
      have : ((i % 2 ^ o + 2 ^ o : Nat) : Int) - 2 ^ o = ((i % 2 ^ o : Nat) : Int) := by
        rw [Int.natCast_add, hc]; omega
      rw [this]
      obtain ⟨k, k1, k2, k3, k4⟩ := ih hjo'
      exact ⟨k, k1, by omega, k3, k4⟩

section
variable {H : Bytes → Bytes} (hH : ∀ x, (H x).length = 32) {F : Format} (hF : F.Good) {key : Bytes} (hkey : key.length ≠ 32)
include hH hF hkey

/-- C20, accumulator older than the witness: accepted exactly if the length of the accumulator has no zero bit between
the depth of the leaf and its top bit. So the property holds in part only. -/
theorem C20_older_iff_partial (s t : St) (hs : Reach H F key s) (ht : Reach H F key t) (m : Nat) (hm : m < s.cur.length)
    (hpre : t.cur = s.cur.take m) (i : Nat) (x : Bytes) (hx : t.cur[i]? = some x) (a' : Acc) (w : List W)
    (hw : s.acc.witnessFor H s.db i = (a', some w)) :
    (t.acc.verifyLen H t.db w x s.cur.length).2 = .ok ↔
      ∀ d, IsDepth m i d → ∀ j, d < j → 2 ^ j ≤ m → m.testBit j = true := by
  have hg := hs.good hH hF hkey
  have hg' := ht.good hH hF hkey
  have hi : i < t.cur.length := (List.getElem?_eq_some_iff.mp hx).1
  have hlen : t.cur.length = m := by rw [hpre]; simp; omega
  obtain ⟨e, b', g1, g2, g3⟩ := hg.acc.witness hH i (by omega)
  rw [hw] at g2
  simp at g2
  obtain ⟨_, rfl⟩ := g2
  obtain ⟨d, hd⟩ := IsDepth.exists m i (by omega)
  have hle := hd.mono g1 (by omega)
  have hf := hg'.acc.1.facts hH
  simp only [Nat.pow_zero, Nat.div_one, Nat.zero_add, hlen] at hf
  -- the roots reach up to the top bit
  have htop : ∀ j, j < t.acc.roots.length ↔ 2 ^ j ≤ m := by
    intro j
    constructor
    · intro hj
      have h1 := hf.2.2.1 (by intro h0; rw [h0] at hj; simp at hj)
      exact Nat.le_trans (Nat.pow_le_pow_right (by omega) (by omega)) h1
    · intro hj
      refine Nat.lt_of_not_le (fun h0 => ?_)
      have := Nat.pow_le_pow_right (n := 2) (by omega) h0
      omega
  have hdR : d < t.acc.roots.length := by
    rw [htop]
    have h1 := hd.block
    omega
  have hmod : i % 2 ^ t.acc.roots.length = i := Nat.mod_eq_of_lt (by omega)
  have hv : (t.acc.verifyLen H t.db (wit H s.cur i e) x s.cur.length).2 =
      if oldDepth t.acc.roots.length i > e then .panic else t.acc.verify H (wit H s.cur i e |>.take (oldDepth t.acc.roots.length i)) x := by
    rw [Acc.verifyLen, hg'.acc.2, hlen, if_neg (by omega)]
    rw [getHeight_eq _ i _ (wit_dir H s.cur i e) (by rw [wit_length]; exact g1)]
    simp only
    rw [if_neg (by omega), if_neg (by omega), wit_length]
    split <;> rfl
  rw [hv]
  constructor
  · intro hok d' hd' j hj hjm
    rw [hd'.unique hd] at hj
    cases hb : m.testBit j with
    | true => rfl
    | false =>
      exfalso
      obtain ⟨k, k1, k2, k3, k4⟩ := oldDepth_zero m i d hd t.acc.roots.length j hj ((htop j).mpr hjm) hb
      rw [hmod] at k4
      rw [k4] at hok
      split at hok
      · simp at hok
      · rename_i hke
        rw [Acc.verify, wit_le H s.cur i k e (by omega), wit_length] at hok
        rcases hf.2.2.2 k with ⟨n, a1, a2, _⟩ | ⟨_, a2, _⟩
        · rw [(testBit_iff m k).mpr a2] at k3; simp at k3
        · split at hok
          · rename_i n hn; exact absurd hn (a2 n)
          · simp at hok
  · intro h
    have hold := oldDepth_ones m i d hd t.acc.roots.length hdR (fun j h1 h2 => h d hd j h1 ((htop j).mp h2))
    rw [hmod] at hold
    rw [hold, if_neg (by omega), wit_le H s.cur i d e hle]
    have hws : wit H t.cur i d = wit H s.cur i d := by rw [hpre]; exact wit_take H s.cur m i d hd
    rw [← hws]
    exact hg'.acc.verify_wit hH hg'.len i d (by rw [hlen]; exact hd) x hx

end

section
variable {H : Bytes → Bytes} (hH : ∀ x, (H x).length = 32) {F : Format} (hF : F.Good) {key : Bytes} (hkey : key.length ≠ 32)
include hH hF hkey

omit hH hF hkey in
theorem vcalls_take (ws : List W) : ∀ (n : Nat) (buf h : Bytes), ∀ x ∈ vcalls H (ws.take n) buf h, x ∈ vcalls H ws buf h := by
  induction ws with
  | nil => intro n buf h x hx; simpa using hx
  | cons w ws ih =>
    intro n buf h x hx
    cases n with
    | zero => simp [vcalls] at hx
    | succ n =>
      rw [List.take_succ_cons] at hx
      unfold vcalls at hx ⊢
      rcases List.mem_cons.1 hx with rfl | hx
      · simp
      · exact List.mem_cons_of_mem _ (ih n _ _ x hx)

/-- The witness that is folded: for an older accumulator it is continued with the witness of the current one. -/
def lenWit (H : Bytes → Bytes) (s : St) (ws : List W) (m : Nat) : List W :=
  if s.acc.length > m then ws ++ ((s.acc.witnessFor H s.db (getHeight ws m)).2.getD []).drop ws.length else ws

/-- C68: whatever the claimed length, `VerifyWithAccLength` accepts a 32-byte hash only if it is a leaf (or an input of the
hash function when the witness is folded collides with one of the tree). -/
theorem C68_verify_len_sound (s : St) (hr : Reach H F key s) (ws : List W) (h : Bytes) (hh : h.length = 32) (m : Nat)
    (hv : (s.acc.verifyLen H s.db ws h m).2 = .ok) :
    (∃ k n, Collision H (vcalls H (lenWit H s ws m) (List.replicate 64 0) h) (inputs H ((s.cur.drop k).take n))) ∨ h ∈ s.cur := by
  have hg := hr.good hH hF hkey
  have fin : ∀ (a : Acc) ws', a.Ok H s.db s.cur → a.verify H ws' h = .ok →
      (∀ x ∈ vcalls H ws' (List.replicate 64 0) h, x ∈ vcalls H (lenWit H s ws m) (List.replicate 64 0) h) →
      (∃ k n, Collision H (vcalls H (lenWit H s ws m) (List.replicate 64 0) h) (inputs H ((s.cur.drop k).take n))) ∨ h ∈ s.cur := by
    intro a ws' ha hv hsub
    rcases ha.verify_sound hH hg.len ws' h hh hv with ⟨k, x, hx, hc⟩ | ⟨i, h1, _⟩
    · exact Or.inl ⟨k, _, x, hsub x hx, hc⟩
    · exact Or.inr (List.mem_of_getElem? h1)
  rw [Acc.verifyLen] at hv
  split at hv
  · rename_i hl
    refine fin s.acc ws hg.acc hv ?_
    unfold lenWit
    rw [if_neg (by omega)]
    exact fun _ h => h
  · simp only at hv
    split at hv
    · simp at hv
    · split at hv
      · rename_i hgt
        split at hv
        · simp at hv
        · rename_i nws hn
          split at hv
          · simp at hv
          · refine fin _ _ (hg.acc.query hH _) hv ?_
            unfold lenWit
            rw [if_pos hgt, hn]
            exact fun _ h => h
      · rename_i hgt
        split at hv
        · simp at hv
        · refine fin s.acc _ hg.acc hv ?_
          unfold lenWit
          rw [if_neg hgt]
          exact vcalls_take ws _ _ h

end

/-! ### Witness wire form -/

theorem hashesToWitness_range (H : Bytes → Bytes) (hs : List Bytes) (i n j : Nat) :
    hashesToWitness ((List.range' j n).map (fun k => (entry H hs i k).hash)) (i / 2 ^ j) = (List.range' j n).map (entry H hs i) := by
  induction n generalizing j with
  | zero => rfl
  | succ n ih =>
    rw [List.range'_succ, List.map_cons, List.map_cons, hashesToWitness, ← div_pow_succ, ih]
    congr 1
    unfold entry
    split <;> rfl

section
variable {H : Bytes → Bytes} (hH : ∀ x, (H x).length = 32) {F : Format} (hF : F.Good) {key : Bytes} (hkey : key.length ≠ 32)
include hH hF hkey

/-- C21: the hash list and the leaf index give back the witness, for the full witness and for that of any earlier length. -/
theorem C21_wire (s : St) (hr : Reach H F key s) (i m : Nat) (hi : i < m) (hm : m ≤ s.cur.length) :
    ∃ a' w, s.acc.witnessForLen H s.db i m = (a', some w) ∧ hashesToWitness (witnessesToHashes w) i = w := by
  have hg := hr.good hH hF hkey
  obtain ⟨a', d, h1, h2, h3⟩ := hg.acc.witnessLen hH i m hi hm
  refine ⟨a', _, h2, ?_⟩
  have := hashesToWitness_range H s.cur i d 0
  simp only [Nat.pow_zero, Nat.div_one] at this
  rw [wit, witnessesToHashes, List.range_eq_range', List.map_map]
  exact this

/-! ### Flush and Recover -/

/-- C22: an event in a history never fails, whatever the number of database writes that take effect; after a crash the
new process has the leaves of the flush that was completed last. -/
theorem C22_progress (s : St) (hr : Reach H F key s) (o : Op) (ho : o.Ok) (hlog : LogOk key (s.log ++ writesOf H F key s o)) :
    ∃ s', step H F key s o = some s' ∧ Reach H F key s' := by
  have hok : LogOk key s.log := fun w hw w' hw' => hlog w (by simp [hw]) w' (by simp [hw'])
  obtain ⟨ops, o1, o2, o3⟩ := hr
  have hg : Good H F key (logVal (s.log ++ writesOf H F key s o)) s :=
    good_run hH hF hkey (good_init H F key _) ops o1 o2 (fun w hw hk => logVal_eq hlog w (by simp [hw]) hk)
  obtain ⟨s', e1, e2, e3⟩ := good_step hH hF hkey hg o ho (fun w hw hk => logVal_eq hlog w (by simp [hw]) hk)
  refine ⟨s', e1, ops ++ [o], ?_, ?_, by rw [e3]; exact hlog⟩
  · intro p hp
    simp at hp
    rcases hp with hp | rfl
    · exact o1 p hp
    · exact ho
  · unfold run at o2 ⊢
    rw [List.foldl_append, o2]
    simpa using e1

/-- C22: `Recover` after `b` writes of a `Flush` gives the leaves of this flush if all its writes were done, and those
of the last complete flush otherwise; every witness the recovered accumulator gives verifies. -/
theorem C22_crash (s : St) (hr : Reach H F key s) (b : Nat)
    (hlog : LogOk key (s.log ++ (s.acc.flush H F key b).2.1)) :
    ∃ a, recover F key (s.db.write (s.acc.flush H F key b).2.1) = some a ∧
      a.length = (if (s.acc.flush H F key b).2.2 then s.cur else s.saved).length ∧
      ∀ (i : Nat) x, (if (s.acc.flush H F key b).2.2 then s.cur else s.saved)[i]? = some x →
        ∃ a' w, a.witnessFor H (s.db.write (s.acc.flush H F key b).2.1) i = (a', some w) ∧ a.verify H w x = .ok := by
  obtain ⟨s', e1, e2⟩ := C22_progress hH hF hkey s hr (.crash b) trivial hlog
  simp only [step] at e1
  split at e1
  · simp at e1
  · rename_i a ha
    simp at e1
    subst e1
    refine ⟨a, ha, (e2.good hH hF hkey).acc.2, fun i x hx => ?_⟩
    obtain ⟨a', w, w1, w2, _⟩ := C17_witness hH hF hkey _ e2 i x hx
    exact ⟨a', w, w1, w2⟩

omit hH hF hkey in
/-- C22: with enough successful writes `Flush` completes; there is one write more than those of the nodes. -/
theorem C22_flush_total (a : Acc) : ∃ N, ∀ b, N ≤ b → (a.flush H F key b).2.2 = true := by
  obtain ⟨N, h⟩ := flush_roots_total H a.roots
  refine ⟨N + 1, fun b hb => ?_⟩
  have := h b (by omega)
  unfold Acc.flush
  simp only
  rw [if_pos ⟨this.1, by omega⟩]

end

/-! ### ExtAccumulator -/

theorem witnessFor_neg (H : Bytes → Bytes) (db : Db) (d : Nat) (n : Node) (i : Int) (hi : i ≤ 0) :
    n.witnessFor H db d i = n.witnessFor H db d 0 := by
  induction d generalizing n with
  | zero => cases n <;> rfl
  | succ d ih =>
    have hp : (0 : Int) < 2 ^ d := by rw [← Mbt.castPow2 d]; exact Int.ofNat_lt.mpr (Nat.two_pow_pos d)
    have hbr : ∀ fl k l r, (Node.br fl k l r).witnessFor H db (d + 1) i = (Node.br fl k l r).witnessFor H db (d + 1) 0 := by
      intro fl k l r
      simp only [Node.witnessFor]
      rw [if_pos (by omega), if_pos hp, ih l]
    cases n with
    | br fl k l r => exact hbr fl k l r
    | data fl x => rfl
    | hash h =>
      cases hres : resolve db h with
      | none => simp only [Node.witnessFor, hres, Option.getD_none]
      | some n' =>
        have hb : ∃ fl key l r, n' = .br fl key l r := by
          unfold resolve at hres
          simp only at hres
          split at hres
          · simp at hres
          · simp at hres; exact ⟨_, _, _, _, hres.symm⟩
        rw [witnessFor_hash H db d h n' _ hres hb, witnessFor_hash H db d h n' _ hres hb]
        obtain ⟨fl, k, l, r, rfl⟩ := hb
        exact hbr fl k l r

theorem witLoop_neg (H : Bytes → Bytes) (db : Db) (rs : List (Option Node)) (o : Nat) (i : Int) (hi : i ≤ 0) :
    witLoop H db rs o i = witLoop H db rs o 0 := by
  induction o with
  | zero => rfl
  | succ o ih =>
    have hp : (0 : Int) < 2 ^ o := by rw [← Mbt.castPow2 o]; exact Int.ofNat_lt.mpr (Nat.two_pow_pos o)
    simp only [witLoop]
    split
    · rw [if_pos (by omega), if_pos hp, witnessFor_neg H db o _ i hi]
    · exact ih

theorem depthLoop_neg (n : Nat) (o : Nat) (i : Int) (hi : i ≤ 0) : depthLoop n o i = depthLoop n o 0 := by
  induction o with
  | zero => rfl
  | succ o ih =>
    have hp : (0 : Int) < 2 ^ o := by rw [← Mbt.castPow2 o]; exact Int.ofNat_lt.mpr (Nat.two_pow_pos o)
    have hi' : i < 2 ^ o := by omega
    simp only [depthLoop, hi', hp, if_true, ih]

section
variable {H : Bytes → Bytes} (hH : ∀ x, (H x).length = 32) {F : Format} (hF : F.Good) {key : Bytes} (hkey : key.length ≠ 32)

include hH hF hkey in
/-- C23: with offset `off`, the leaf of height `off + i + 1` as of height `at` (clamped to the current height): the
witness is that of leaf `i` for the clamped length, and `VerifyAt` of the same accumulator accepts it. -/
theorem C23_ext_partial (s : St) (hr : Reach H F key s) (off at_ : Int) (i : Nat) (x : Bytes) (hx : s.cur[i]? = some x)
    (hat : off + i < at_) :
    ∃ a' at' w, witnessForAt H s.db s.acc off (off + i + 1) at_ off = (a', some (at', w)) ∧
      at' = min at_ (off + s.cur.length) ∧
      w = wit H s.cur i (getDepth i (min (at_ - off) s.cur.length)) ∧
      (verifyAt H s.db s.acc off w x at' off).2 = .ok := by
  have hg := hr.good hH hF hkey
  have hi : i < s.cur.length := (List.getElem?_eq_some_iff.mp hx).1
  have hal := hg.acc.2
  obtain ⟨m, hm⟩ : ∃ m : Nat, (m : Int) = min (at_ - off) s.cur.length := ⟨(min (at_ - off) s.cur.length).toNat, by omega⟩
  have hm1 : i < m := by omega
  have hm2 : m ≤ s.cur.length := by omega
  obtain ⟨a', d, h1, h2, h3⟩ := hg.acc.witnessLen hH i m hm1 hm2
  have hd : d = getDepth i m := h1.unique (getDepth_eq m i hm1)
  have e1 : (if at_ - off > (s.acc.length : Int) then (s.acc.length : Int) else at_ - off) = m := by
    rw [hm, hal]; split <;> omega
  have e2 : (if at_ - off > (s.acc.length : Int) then (s.acc.length : Int) + off else at_) = min at_ (off + s.cur.length) := by
    rw [hal]; split <;> omega
  refine ⟨a', min at_ (off + s.cur.length), wit H s.cur i d, ?_, rfl, by rw [hd, hm], ?_⟩
  · rw [witnessForAt, if_neg (by simp)]
    simp only [e1, e2]
    rw [show off + i + 1 - 1 - off = (i : Int) by omega, h2]
    rfl
  · rw [verifyAt, if_neg (by simp)]
    have e3 : (if min at_ (off + s.cur.length) - off > (s.acc.length : Int) then (s.acc.length : Int) else min at_ (off + s.cur.length) - off) = m := by
      rw [hm, hal]; split <;> omega
    simp only [e3, Int.toNat_natCast]
    rw [Acc.verifyLen, hal]
    split
    · rename_i heq
      exact hg.acc.verify_wit hH hg.len i d (by rw [heq]; exact h1) x hx
    · rename_i hne
      rw [getHeight_eq m i _ (wit_dir H s.cur i d) (by rw [wit_length]; exact h1)]
      simp only
      rw [if_neg (by omega), if_pos (by omega)]
      obtain ⟨e, c', k1, k2, k3⟩ := hg.acc.witness hH i hi
      rw [k2]
      have hle := h1.mono k1 hm2
      simp only [wit_length]
      rw [if_neg (by omega)]
      have : wit H s.cur i d ++ (wit H s.cur i e).drop d = wit H s.cur i e := by
        rw [← wit_le H s.cur i d e hle, List.take_append_drop]
      rw [this]
      exact k3.verify_wit hH hg.len i e k1 x hx

/-- C23: any other offset is refused. -/
theorem C23_other_offset (db : Db) (a : Acc) (off off' height at_ : Int) (w : List W) (x : Bytes) (h : off ≠ off') :
    (witnessForAt H db a off height at_ off').2 = none ∧ (verifyAt H db a off w x at_ off').2 = .err := by
  simp [witnessForAt, verifyAt, h]

/-- C23 is false of the code for heights at or below the offset: they are not refused, the answer is the witness of the
first height. -/
theorem C23_low_height (db : Db) (a : Acc) (off height at_ : Int) (hl : height ≤ off) (hne : 0 < a.length) :
    (witnessForAt H db a off height at_ off).2 = (witnessForAt H db a off (off + 1) at_ off).2 := by
  have key : ∀ m : Int, a.witnessForLen H db (height - 1 - off) m = a.witnessForLen H db (off + 1 - 1 - off) m := by
    intro m
    have h0 : off + 1 - 1 - off = 0 := by omega
    have hw : a.witnessFor H db (height - 1 - off) = a.witnessFor H db 0 := by
      simp only [Acc.witnessFor]
      rw [if_neg (by omega), if_neg (by omega), witLoop_neg H db _ _ _ (by omega)]
    have hd : getDepth (height - 1 - off) m = getDepth 0 m := depthLoop_neg _ _ _ (by omega)
    simp only [Acc.witnessForLen, h0, hw, hd]
  simp only [witnessForAt, ne_eq, not_true, if_false, key]

/-- C23: `Recover` with the offset of the stored state restores it; with another offset it reports an error, but the
accumulator now has the roots and the length of the other offset. -/
theorem C23_recover (F : ExtFormat) (hF : ∀ s, F.dec (F.enc s) = some s ∧ F.enc s ≠ []) (db : Db) (a b : Acc) (hs : List Bytes)
    (hH : ∀ x, (H x).length = 32) (ha : a.Ok H db hs) (off off' limit : Int) (n : Nat) (hok : (extFlush H F key a off limit n).2.2 = true) :
    ∃ c, extRecover F key (db.write (extFlush H F key a off limit n).2.1) b off' = (c, decide (off' = off)) ∧
      c.length = hs.length ∧ c.roots.map (fun r => r.map (Node.hashOf H)) = a.roots.map (fun r => r.map (Node.hashOf H)) := by
  have hlen : ∀ nd, some nd ∈ a.roots → (nd.hashOf H).length = 32 := by
    intro nd hnd
    obtain ⟨o, ho⟩ := List.getElem?_of_mem hnd
    rcases (ha.1.facts hH).2.2.2 o with ⟨n', a1, a2, a3, a4⟩ | ⟨_, a2, _⟩
    · rw [ho] at a1
      simp at a1
      subst a1
      exact (a4.root hH).2.1
    · exact absurd ho (a2 nd)
  unfold extFlush at hok ⊢
  simp only at hok ⊢
  split at hok
  · rename_i h
    rw [if_pos h]
    simp only
    rw [write_append]
    generalize hw : F.enc _ = v
    have hne := hF ((a.length : Int) + off, a.roots.map (fun r => match r with | none => [] | some n => n.hashOf H), off, limit)
    have hv : v = F.enc ((a.length : Int) + off, a.roots.map (fun r => match r with | none => [] | some n => n.hashOf H), off, limit) := hw.symm
    rw [extRecover, write_one, if_pos rfl, if_neg (by rw [hv]; intro h0; exact hne.2 (List.length_eq_zero_iff.mp h0)), hv, hne.1]
    refine ⟨_, rfl, ?_, ?_⟩
    · simp only; rw [ha.2]; omega
    · simp only [List.map_map]
      apply List.map_congr_left
      intro r hr
      cases r with
      | none => simp [hashSize]
      | some nd => simp [hashSize, hlen nd hr, Node.hashOf]
  · simp at hok

end

/-! ### GetNode -/

theorem getNode_hash (db : Db) (d : Nat) (h : Bytes) (n : Node) (idx : Int)
    (hr : resolve db h = some n) (hb : ∃ fl key l r, n = .br fl key l r) :
    Node.getNode db (d + 1) (.hash h) idx = Node.getNode db (d + 1) n idx := by
  obtain ⟨fl, key, l, r, rfl⟩ := hb
  simp only [Node.getNode, hr, Option.getD_some]

theorem Rep.getNode {H : Bytes → Bytes} {db : Db} (k : Nat) (n : Node) (b : List Bytes) (hr : Rep H db k n b) (i : Nat) (x : Bytes)
    (hx : b[i]? = some x) : ∃ m, n.getNode db k i = some m ∧ m.hashOf H = x := by
  induction k generalizing n b i with
  | zero =>
    cases n with
    | br fl key l r => obtain ⟨k, _, _, h, _⟩ := hr; omega
    | data fl d =>
      obtain ⟨_, rfl⟩ := hr
      have : i = 0 := by have := (List.getElem?_eq_some_iff.mp hx).1; simp at this; omega
      subst this
      simp at hx
      exact ⟨_, rfl, hx⟩
    | hash h =>
      obtain ⟨rfl, _⟩ := hr
      have : i = 0 := by have := (List.getElem?_eq_some_iff.mp hx).1; simp at this; omega
      subst this
      simp at hx
      exact ⟨_, rfl, hx⟩
  | succ k ih =>
    have hz := Mbt.castPow2 k
    have hbr : ∀ fl key l r, Rep H db (k + 1) (.br fl key l r) b → ∃ m, (Node.br fl key l r).getNode db (k + 1) i = some m ∧ m.hashOf H = x := by
      intro fl key l r hr
      obtain ⟨k', a, c, hk, rfl, h1, h2, h3, h4, h5, h6⟩ := hr
      have : k' = k := by omega
      subst this
      simp only [Node.getNode]
      by_cases hi : i < 2 ^ k'
      · rw [if_pos (by rw [← hz]; exact Int.ofNat_lt.mpr hi)]
        exact ih l a h3 i (by rw [List.getElem?_append_left (by omega)] at hx; exact hx)
      · rw [if_neg (by rw [← hz]; exact Int.not_lt.mpr (Int.ofNat_le.mpr (by omega)))]
        have : (i : Int) - 2 ^ k' = ((i - 2 ^ k' : Nat) : Int) := by rw [← hz]; omega
        rw [this]
        exact ih r c h4 _ (by rw [List.getElem?_append_right (by omega), h1] at hx; exact hx)
    cases n with
    | data fl d => exact absurd hr.1 (by omega)
    | br fl key l r => exact hbr fl key l r hr
    | hash h =>
      obtain ⟨n, e1, e2, e3, e4⟩ := resolve_rep hr
      rw [getNode_hash db k h n _ e1 e4]
      obtain ⟨fl, key, l, r, rfl⟩ := e4
      exact hbr fl key l r e2

theorem getLoop_ok {H : Bytes → Bytes} (hH : ∀ x, (H x).length = 32) {db : Db} (rs : List (Option Node)) (hs : List Bytes)
    (hinv : Inv H db 0 rs hs) (i : Nat) (hi : i < hs.length) (x : Bytes) (hx : hs[i]? = some x) (o : Nat) (heq : i / 2 ^ o = hs.length / 2 ^ o) :
    ∃ m, getLoop db rs o ((i % 2 ^ o : Nat) : Int) = some m ∧ m.hashOf H = x := by
  induction o with
  | zero => simp at heq; omega
  | succ o ih =>
    have hp := Nat.one_le_two_pow (n := o)
    rw [div_pow_succ, div_pow_succ] at heq
    have hbi := Nat.mod_two_eq_zero_or_one (i / 2 ^ o)
    have hle : i / 2 ^ o ≤ hs.length / 2 ^ o := Nat.div_le_div_right (by omega)
    have hm := mod_pow_succ' i o
    have hlt := Nat.mod_lt i (show 2 ^ o > 0 by omega)
    have hz := Mbt.castPow2 o
    rw [getLoop]
    rcases (hinv.facts hH).2.2.2 o with ⟨n, a1, a2, a3, a4⟩ | ⟨a1, a2, a3⟩
    · simp only [Nat.zero_add] at a2 a3 a4
      rw [a1]
      simp only
      rcases hbi with hbi | hbi
      · rw [hm, hbi, Nat.mul_zero, Nat.add_zero, if_pos (by rw [← hz]; exact Int.ofNat_lt.mpr hlt)]
        refine Rep.getNode o n _ a4 _ x ?_
        rw [blk, List.getElem?_take, if_pos hlt, List.getElem?_drop]
        have h1 : hs.length / 2 ^ (o + 1) * 2 ^ (o + 1) = 2 ^ o * (i / 2 ^ o) := by
          rw [div_pow_succ, ← heq, Nat.pow_succ]
          generalize i / 2 ^ o = q at *
          have : q / 2 * (2 ^ o * 2) = 2 ^ o * (q / 2 * 2) := by rw [Nat.mul_comm, Nat.mul_assoc, Nat.mul_comm 2]
          rw [this]
          congr 1; omega
        rw [h1, Nat.div_add_mod]
        exact hx
      · rw [hm, hbi, Nat.mul_one, if_neg (by rw [← hz]; exact Int.not_lt.mpr (Int.ofNat_le.mpr (by omega)))]
        have : ((i % 2 ^ o + 2 ^ o : Nat) : Int) - 2 ^ o = ((i % 2 ^ o : Nat) : Int) := by
          rw [Int.natCast_add, hz]; omega
        rw [this]
        exact ih (by omega)
    · simp only [Nat.zero_add] at a3
      have hb0 : i / 2 ^ o % 2 = 0 := by omega
      rw [hm, hb0, Nat.mul_zero, Nat.add_zero]
      have := ih (by omega)
      split
      · rename_i n hn; exact absurd hn (a2 n)
      · exact this

section
variable {H : Bytes → Bytes} (hH : ∀ x, (H x).length = 32) {F : Format} (hF : F.Good) {key : Bytes} (hkey : key.length ≠ 32)
include hH hF hkey

/-- C67: `GetNode` gives the node of the leaf at the index. -/
theorem C67_get_node (s : St) (hr : Reach H F key s) (i : Nat) :
    (∀ x, s.cur[i]? = some x → ∃ n, s.acc.getNode s.db i = some n ∧ n.hashOf H = x) ∧
    (s.cur[i]? = none → s.acc.getNode s.db i = none) := by
  have hg := hr.good hH hF hkey
  constructor
  · intro x hx
    have hi : i < s.cur.length := (List.getElem?_eq_some_iff.mp hx).1
    have hf := (hg.acc.1.facts hH).2.1
    simp only [Nat.pow_zero, Nat.div_one] at hf
    have := getLoop_ok hH s.acc.roots s.cur hg.acc.1 i hi x hx s.acc.roots.length
      (by rw [Nat.div_eq_of_lt hf, Nat.div_eq_of_lt (by omega)])
    rw [Nat.mod_eq_of_lt (by omega)] at this
    rw [Acc.getNode, hg.acc.2, if_neg (by omega)]
    exact this
  · intro hx
    rw [Acc.getNode, hg.acc.2, if_pos (by have := List.getElem?_eq_none_iff.mp hx; omega)]

end

/-! ### Instances -/

/-- Adding any 32-byte hashes reaches a state. -/
theorem reach_adds (H : Bytes → Bytes) (F : Format) (key : Bytes) (hs : List Bytes) (hl : ∀ h ∈ hs, h.length = 32) :
    ∃ s, Reach H F key s ∧ s.cur = hs ∧ s.log = [] := by
  suffices h : ∀ (hs : List Bytes) (s0 : St), (∀ h ∈ hs, h.length = 32) → s0.log = [] →
      ∃ s, run H F key s0 (hs.map .addHash) = some s ∧ s.cur = s0.cur ++ hs ∧ s.log = [] by
    obtain ⟨s, h1, h2, h3⟩ := h hs St.init hl rfl
    refine ⟨s, ⟨hs.map .addHash, ?_, h1, by rw [h3]; intro w hw; simp at hw⟩, by simpa [St.init] using h2, h3⟩
    intro o ho
    simp at ho
    obtain ⟨x, hx, rfl⟩ := ho
    exact hl x hx
  intro hs
  induction hs with
  | nil => intro s0 _ h0; exact ⟨s0, rfl, by simp, h0⟩
  | cons x hs ih =>
    intro s0 hl h0
    obtain ⟨s, h1, h2, h3⟩ := ih { s0 with acc := (s0.acc.addHash H x).1, cur := s0.cur ++ [x] } (fun h hh => hl h (by simp [hh])) h0
    refine ⟨s, ?_, by rw [h2]; simp, h3⟩
    rw [List.map_cons, run_cons]
    exact h1

/-- C20 is false of the code: for every hash function, a five-leaf accumulator refuses the witness that the six-leaf
accumulator gives for leaf 4. -/
theorem C20_older_refused {H : Bytes → Bytes} (hH : ∀ x, (H x).length = 32) {F : Format} (hF : F.Good) {key : Bytes} (hkey : key.length ≠ 32) :
    ∃ (s t : St) (a' : Acc) (w : List W) (x : Bytes), Reach H F key s ∧ Reach H F key t ∧ t.cur = s.cur.take 5 ∧
      t.cur[4]? = some x ∧ s.acc.witnessFor H s.db 4 = (a', some w) ∧
      (t.acc.verifyLen H t.db w x s.cur.length).2 ≠ .ok := by
  have hz : ∀ h ∈ List.replicate 6 (List.replicate 32 (0 : UInt8)), h.length = 32 := by simp
  obtain ⟨s, s1, s2, _⟩ := reach_adds H F key (List.replicate 6 (List.replicate 32 0)) hz
  obtain ⟨t, t1, t2, _⟩ := reach_adds H F key (List.replicate 5 (List.replicate 32 0)) (by simp)
  have hpre : t.cur = s.cur.take 5 := by rw [s2, t2]; rfl
  have hx : t.cur[4]? = some (List.replicate 32 0) := by rw [t2]; rfl
  have hsl : s.cur.length = 6 := by rw [s2]; simp
  obtain ⟨a', w, w1, _⟩ := C17_witness hH hF hkey s s1 4 (List.replicate 32 0) (by rw [s2]; rfl)
  refine ⟨s, t, a', w, _, s1, t1, hpre, hx, w1, ?_⟩
  intro hok
  have := (C20_older_iff_partial hH hF hkey s t s1 t1 5 (by omega) hpre 4 _ hx a' w w1).mp hok 0 ⟨by decide, by decide⟩ 1 (by decide) (by decide)
  exact absurd this (by decide)

/-- C20, worse: a nine-leaf accumulator panics (slice out of range) on the witness that the ten-leaf accumulator gives
for leaf 8. -/
theorem C20_older_panics {H : Bytes → Bytes} (hH : ∀ x, (H x).length = 32) {F : Format} (hF : F.Good) {key : Bytes} (hkey : key.length ≠ 32) :
    ∃ (s t : St) (a' : Acc) (w : List W) (x : Bytes), Reach H F key s ∧ Reach H F key t ∧ t.cur = s.cur.take 9 ∧
      t.cur[8]? = some x ∧ s.acc.witnessFor H s.db 8 = (a', some w) ∧
      (t.acc.verifyLen H t.db w x s.cur.length).2 = .panic := by
  obtain ⟨s, s1, s2, _⟩ := reach_adds H F key (List.replicate 10 (List.replicate 32 0)) (by simp)
  obtain ⟨t, t1, t2, _⟩ := reach_adds H F key (List.replicate 9 (List.replicate 32 0)) (by simp)
  have hpre : t.cur = s.cur.take 9 := by rw [s2, t2]; rfl
  have hx : t.cur[8]? = some (List.replicate 32 0) := by rw [t2]; rfl
  have hsl : s.cur.length = 10 := by rw [s2]; simp
  have htl : t.cur.length = 9 := by rw [t2]; simp
  have hg := s1.good hH hF hkey
  have hg' := t1.good hH hF hkey
  obtain ⟨e, b', g1, g2, g3⟩ := hg.acc.witness hH 8 (by omega)
  rw [hsl] at g1
  have he : e = 1 := g1.unique ⟨by decide, by decide⟩
  subst he
  have hf := hg'.acc.1.facts hH
  simp only [Nat.pow_zero, Nat.div_one, Nat.zero_add, htl] at hf
  have hR : t.acc.roots.length = 4 := by
    have h1 := hf.2.1
    have h2 := hf.2.2.1 (by intro h0; rw [h0] at h1; simp at h1)
    have h3 : 3 < t.acc.roots.length := by
      refine Nat.lt_of_not_le (fun h => ?_)
      have := Nat.pow_le_pow_right (n := 2) (by omega) h
      omega
    have h4 : t.acc.roots.length - 1 < 4 := by
      refine Nat.lt_of_not_le (fun h => ?_)
      have := Nat.pow_le_pow_right (n := 2) (by omega) h
      omega
    omega
  refine ⟨s, t, b', _, _, s1, t1, hpre, hx, g2, ?_⟩
  rw [Acc.verifyLen, hg'.acc.2, htl, hsl, if_neg (by omega)]
  rw [getHeight_eq 10 8 _ (wit_dir H s.cur 8 1) (by rw [wit_length]; exact g1), hR, wit_length]
  have : oldDepth 4 (8 : Int) = 2 := by decide
  simp [this]

/-- A state record format with the required properties. -/
def exEncB (b : Bytes) : Bytes := b.flatMap (fun x => [1, x]) ++ [0]
def exDecB : Bytes → Option (Bytes × Bytes)
  | 1 :: x :: t => (exDecB t).map (fun p => (x :: p.1, p.2))
  | 0 :: t => some ([], t)
  | _ => none
def exEncL (l : List Bytes) : Bytes := l.flatMap (fun b => 1 :: exEncB b) ++ [0]
def exDecL : Nat → Bytes → Option (List Bytes × Bytes)
  | f + 1, 1 :: t => (exDecB t).bind (fun p => (exDecL f p.2).map (fun q => (p.1 :: q.1, q.2)))
  | _, 0 :: t => some ([], t)
  | _, _ => none
def exFormat : Format where
  enc s := exEncL s.1 ++ List.replicate s.2 1
  dec b := (exDecL b.length b).map (fun p => (p.1, p.2.length))

theorem exFormat_good : exFormat.Good := by
  have hB : ∀ (b r : Bytes), exDecB (exEncB b ++ r) = some (b, r) := by
    intro b r
    induction b with
    | nil => rfl
    | cons x b ih =>
      have : exEncB (x :: b) ++ r = 1 :: x :: (exEncB b ++ r) := by simp [exEncB]
      rw [this, exDecB, ih]; rfl
  have hL : ∀ (l : List Bytes) (r : Bytes) (f : Nat), (exEncL l).length ≤ f → exDecL f (exEncL l ++ r) = some (l, r) := by
    intro l r
    induction l with
    | nil => intro f hf; cases f <;> rfl
    | cons b l ih =>
      intro f hf
      have e : ∀ r, exEncL (b :: l) ++ r = 1 :: (exEncB b ++ (exEncL l ++ r)) := by simp [exEncL]
      cases f with
      | zero => have := congrArg List.length (e []); simp at this; omega
      | succ f =>
        rw [e, exDecL, hB, Option.bind_some, ih f ?_]
        · rfl
        · have := congrArg List.length (e [])
          simp at this; omega
  intro s
  refine ⟨?_, ?_⟩
  · show (exDecL (exEncL s.1 ++ List.replicate s.2 1).length (exEncL s.1 ++ List.replicate s.2 1)).map _ = _
    rw [hL _ _ _ (by simp)]
    simp
  · show exEncL s.1 ++ _ ≠ []
    simp [exEncL]

/-- A hash function with 32-byte values. -/
def exH (x : Bytes) : Bytes := List.replicate 31 0 ++ [x.foldl (fun a b => 3 * a + 5 * b + 1) 7]
theorem exH_len (x : Bytes) : (exH x).length = 32 := by simp [exH]

def exHash (n : UInt8) : Bytes := List.replicate 31 n ++ [n]
theorem exHash_len (n : UInt8) : (exHash n).length = 32 := by simp [exHash]

/-- Three leaves, a complete flush, two more, a flush that fails after two writes, a query, a crash in a flush after one
write, one more leaf. -/
def exOps : List Op :=
  [.addHash (exHash 1), .addData [2, 3], .addHash (exHash 4), .flush 100, .addHash (exHash 9), .addData [7], .flush 2, .witness 3,
   .crash 1, .addHash (exHash 5)]

theorem ex_reach : ∃ s, Reach exH exFormat [97] s ∧ s.cur = [exHash 1, exH [2, 3], exHash 4, exHash 5] ∧ s.log.length = 6 ∧
    s.saved = [exHash 1, exH [2, 3], exHash 4] := by
  have h : (run exH exFormat [97] St.init exOps).elim false (fun s => decide (s.cur = [exHash 1, exH [2, 3], exHash 4, exHash 5] ∧
      s.log.length = 6 ∧ s.saved = [exHash 1, exH [2, 3], exHash 4] ∧
      ∀ w ∈ s.log, ∀ w' ∈ s.log, w.1 ≠ [97] → w.1 = w'.1 → w.2 = w'.2)) = true := by
    decide +kernel
  cases hr : run exH exFormat [97] St.init exOps with
  | none => rw [hr] at h; exact absurd h (by simp)
  | some s =>
    rw [hr] at h
    have h := of_decide_eq_true h
    refine ⟨s, ⟨exOps, ?_, hr, h.2.2.2⟩, h.1, h.2.1, h.2.2.1⟩
    intro o ho
    simp only [exOps, List.mem_cons, List.not_mem_nil, or_false] at ho
    rcases ho with rfl | rfl | rfl | rfl | rfl | rfl | rfl | rfl | rfl | rfl <;> first | exact True.intro | exact exHash_len _

/-- The hypotheses of C16-C19, C21-C23 and C67 hold for this history (which has a crash in it). -/
example : ∃ (s : St) (a' : Acc) (w : List W), Reach exH exFormat [97] s ∧ s.acc.length = 4 ∧
    s.acc.witnessFor exH s.db ((3 : Nat) : Int) = (a', some w) ∧ s.acc.verify exH w (exHash 5) = .ok ∧
    s.acc.verify exH w (exHash 5 ++ [1]) = .ok ∧
    (∃ a' w, s.acc.witnessForLen exH s.db ((2 : Nat) : Int) ((3 : Nat) : Int) = (a', some w) ∧ hashesToWitness (witnessesToHashes w) 2 = w) ∧
    (∃ a' at' w, witnessForAt exH s.db s.acc 10 (10 + ((1 : Nat) : Int) + 1) 13 10 = (a', some (at', w)) ∧ at' = 13 ∧
      (verifyAt exH s.db s.acc 10 w (exH [2, 3]) at' 10).2 = .ok) ∧
    (∃ n, s.acc.getNode s.db ((1 : Nat) : Int) = some n ∧ n.hashOf exH = exH [2, 3]) := by
  obtain ⟨s, h1, h2, h3, h4⟩ := ex_reach
  have hl : s.cur.length = 4 := by rw [h2]; rfl
  obtain ⟨a', w, w1, w2, w3, w4⟩ := C17_witness exH_len exFormat_good (by decide) s h1 3 (exHash 5) (by rw [h2]; rfl)
  have hne : w ≠ [] := by
    rintro rfl
    have hs := (C16_structure exH_len exFormat_good (by decide) s h1).2 0
    rw [hl, if_neg (by decide)] at hs
    rw [Acc.verify, List.length_nil] at w2
    rcases hs with hs | hs <;> rw [hs] at w2 <;> simp at w2
  obtain ⟨c', at', v, c1, c2, c3, c4⟩ := C23_ext_partial exH_len exFormat_good (by decide) s h1 10 13 1 (exH [2, 3]) (by rw [h2]; rfl) (by decide)
  refine ⟨s, a', w, h1, by rw [(C16_structure exH_len exFormat_good (by decide) s h1).1, hl], w1, w2,
    C18_long_hash_accepted s.acc w _ _ (exHash_len 5) hne w2,
    C21_wire exH_len exFormat_good (by decide) s h1 2 3 (by decide) (by omega), ⟨c', at', v, c1, by rw [c2, hl]; decide, c4⟩,
    (C67_get_node exH_len exFormat_good (by decide) s h1 1).1 _ (by rw [h2]; rfl)⟩

end Verif.Mta
