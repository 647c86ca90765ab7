import Verif.SolProof
/-!
C15 (Solidity side) and C66: the message proof check of the EVM contract accepts every proof of the relay, and is
sound if leaf counts are positive.
-/
namespace Verif.SolProof
open Verif Verif.Merkle Verif.Mbt

/-- C15, Solidity: every range proof of a tree with fewer than 2^63 messages is accepted by the EVM contract with the
same root and message count; the messages it yields are the range. -/
theorem C15_solidity_accepts (H : Bytes → Bytes) (hH : ∀ x, H x ≠ []) (cs : List Bytes) (hM : cs.length < 2 ^ 63) (t : Tree)
    (ht : newTree goCfg H (cs.map some) = some t) (b e : Nat) (h1 : 1 ≤ b) (h2 : b ≤ e) (h3 : e ≤ cs.length) :
    ∃ p, t.proof b e = some p ∧ (ofProof p).mesgs = (cs.take e).drop (b - 1) ∧
      calculate H (toQueue H (ofProof p)) = some (t.rootHash, cs.length) := by
  have hne : cs ≠ [] := by intro h0; subst h0; simp at h3; omega
  obtain ⟨ls, rs, e1, e2, e3, e4, e5⟩ := proof_segs H hH cs hM t ht b e h1 h2 h3
  obtain ⟨t', u1, u2, u3⟩ := C11_bulk_root H hH cs hM
  rw [ht] at u1; simp at u1; subst u1
  refine ⟨_, e1, rfl, ?_⟩
  have hflat : (ls ++ (((cs.take e).drop (b - 1)).map H).map (fun h => [h]) ++ rs).flatten = cs.map H := by
    rw [List.flatten_append, List.flatten_append, flatten_single, e2, e3, ← List.map_take, ← List.map_drop,
      ← List.map_append, ← List.map_append]
    congr 1
    have : (cs.take e).take (b - 1) = cs.take (b - 1) := by rw [List.take_take, Nat.min_eq_left (by omega)]
    rw [← this, List.take_append_drop, List.take_append_drop]
  have l1 : ls.flatten.length = b - 1 := by rw [e2]; simp; omega
  have l3 : ((cs.take e).drop (b - 1)).length = e - (b - 1) := by simp; omega
  have hchain : Chain 0 (ls ++ (((cs.take e).drop (b - 1)).map H).map (fun h => [h]) ++ rs) := by
    rw [List.append_assoc]
    apply chain_append 0 _ _ e4
    apply chain_append _ _ _ (pchain_single _ _)
    rw [flatten_single, List.length_map, l3, l1, show 0 + (b - 1) + (e - (b - 1)) = e by omega]
    exact e5
  have hq : toQueue H (ofProof ⟨ls.map (blk H), (cs.take e).drop (b - 1), rs.map (blk H)⟩) =
      (ls ++ (((cs.take e).drop (b - 1)).map H).map (fun h => [h]) ++ rs).map (seg H) := by
    have hb : ∀ s : List Bytes, s ≠ [] → s.length < 2 ^ 256 → toNode ((blk H s).num.toNat, (blk H s).value) = seg H s := by
      intro s hs hl
      simp only [toNode, blk, seg, Int.toNat_natCast]
      rw [levelOf_eq _ (List.length_pos_iff.mpr hs) hl]
    have hall : ∀ s ∈ ls ++ rs, s ≠ [] ∧ s.length < 2 ^ 256 := by
      intro s hs
      have hmem : s ∈ ls ++ (((cs.take e).drop (b - 1)).map H).map (fun h => [h]) ++ rs := by
        simp only [List.mem_append] at hs ⊢
        rcases hs with hs | hs
        · exact Or.inl (Or.inl hs)
        · exact Or.inr hs
      constructor
      · have : ∀ (l : List (List Bytes)) (p : Nat), Chain p l → ∀ s ∈ l, s ≠ [] := by
          intro l
          induction l with
          | nil => simp
          | cons a l ih =>
            intro p hc s hs
            simp at hs
            rcases hs with rfl | hs
            · exact hc.1
            · exact ih _ hc.2.2.2 s hs
        exact this _ _ hchain s hmem
      · have hle := List.sublist_flatten_of_mem hmem
        have := hle.length_le
        rw [hflat, List.length_map] at this
        omega
    simp only [toQueue, ofProof, List.map_append, List.map_map]
    congr 1
    · congr 1
      · apply List.map_congr_left
        intro s hs
        exact hb s (hall s (by simp [hs])).1 (hall s (by simp [hs])).2
      · apply List.map_congr_left
        intro m _
        simp [seg, mroot_one, lvl]
    · apply List.map_congr_left
      intro s hs
      exact hb s (hall s (by simp [hs])).1 (hall s (by simp [hs])).2
  rw [hq, calculate_segs H _ ?_ hchain (by rw [hflat, List.length_map]; omega), hflat, List.length_map, u3]
  intro h0
  rw [h0] at hflat
  simp at hflat
  exact hne hflat

/-- What the contract hashes while checking a proof. -/
def verifierCalls (H : Bytes → Bytes) (p : SProof) : List Bytes :=
  p.mesgs ++ roundsCalls H (1 + halvings ((toQueue H p).map (·.cnt)).sum) 1 (toQueue H p)

theorem le_sum_of_mem {l : List Nat} {a : Nat} (h : a ∈ l) : a ≤ l.sum := by
  induction l with
  | nil => simp at h
  | cons b l ih =>
    simp at h ⊢
    rcases h with rfl | h
    · omega
    · have := ih h; omega

/-- C66, part: if all leaf counts are positive, a proof whose root and message count are those of an honest message
list yields exactly the honest messages following the left nodes, or a hash collision has been exhibited. -/
theorem C66_solidity_soundness_partial (H : Bytes → Bytes) (hH : ∀ x, (H x).length = 32) (cs : List Bytes) (p : SProof)
    (hp : ∀ x ∈ p.lefts ++ p.rights, 1 ≤ x.1)
    (h : calculate H (toQueue H p) = some (mroot H (cs.map H), cs.length)) :
    Collision H (verifierCalls H p) (treeCalls H cs) ∨
      p.mesgs = (cs.drop (p.lefts.map (·.1)).sum).take p.mesgs.length := by
  unfold calculate at h
  simp only at h
  split at h
  · simp at h
  · rename_i htot
    have hsum : ((toQueue H p).map (·.cnt)).sum = ((sblocks H p).map (·.1)).sum := by
      rw [toQueue_blocks, List.map_map]; rfl
    have hall : ∀ x ∈ sblocks H p, 1 ≤ x.1 ∧ x.1 < 2 ^ 256 := by
      intro x hx
      constructor
      · simp only [sblocks, List.mem_append, List.mem_map] at hx
        rcases hx with (hx | ⟨m, _, rfl⟩) | hx
        · exact hp x (by simp [hx])
        · simp
        · exact hp x (by simp [hx])
      · have : x.1 ≤ ((sblocks H p).map (·.1)).sum := le_sum_of_mem (List.mem_map_of_mem hx)
        omega
    obtain ⟨ts, r1, r2, r3⟩ := toQueue_reps H (sblocks H p) hall
    rw [← toQueue_blocks] at r1
    split at h
    · rename_i x hx
      obtain ⟨ts', q1, q2, q3⟩ := rounds_reps H _ 1 _ _ ts r1 hx
      match ts', q1 with
      | [t], .cons hrep .nil =>
        simp only [Option.some.injEq, Prod.mk.injEq] at h
        have ft := hrep.built.facts
        have hit : items t = (sblocks H p).map asBlock := by simpa [r2] using q2
        have hcnt : ∀ l : List (Nat × Bytes), count (l.map asBlock) = ((l.map (·.1)).sum : Nat) := by
          intro l
          induction l with
          | nil => rfl
          | cons a l ih =>
            simp only [count, List.map_cons, List.sum_cons] at ih ⊢
            rw [ih]; simp [asBlock]
        have hsplit : items t = p.lefts.map asBlock ++ p.mesgs.map (fun c => ⟨1, H c⟩) ++ p.rights.map asBlock := by
          rw [hit, sblocks, List.map_append, List.map_append, List.map_map]; rfl
        rcases sound_contents H 32 hH cs _ _ p.mesgs t hrep.built hrep.shape hsplit (by rw [← hrep.hash]; exact h.1)
          (by rw [ft.2.2, hit, hcnt, ← hsum, h.2]) (by rw [hcnt]; omega) with ⟨x, x1, y, y1, xy⟩ | he
        · left
          refine ⟨x, ?_, y, y1, xy⟩
          simp only [List.mem_append, verifierCalls] at x1 ⊢
          rcases x1 with x1 | x1
          · exact Or.inl x1
          · rcases q3 x (by simpa using x1) with h' | h'
            · rw [r3] at h'; simp at h'
            · exact Or.inr h'
        · right
          rw [hcnt, Int.toNat_natCast] at he
          exact he
    · simp at h

/-- C66, negation of the full statement: with a right node of leaf count zero, the contract accepts a message `m'` that
is not in the block, if the block's only message is the 64 bytes `H m' ++ z`. -/
theorem C66_zero_count_forgery (H : Bytes → Bytes) (m' z : Bytes) :
    calculate H (toQueue H ⟨[], [m'], [(0, z)]⟩) = some (mroot H ([H m' ++ z].map H), [H m' ++ z].length) := by
  have h1 : halvings 1 = 1 := by simp [halvings]
  simp [calculate, toQueue, toNode, rounds, pass, concat, shl1, h1, mroot_one]

/-- With a 32-byte hash the forgery is about a 64-byte message, different from the accepted one if that is shorter. -/
example : ∃ (H : Bytes → Bytes) (m' z : Bytes), (∀ x, (H x).length = 32) ∧ z.length = 32 ∧ m' ≠ H m' ++ z :=
  ⟨fun _ => List.replicate 32 7, [1], List.replicate 32 0, by simp, by simp, by decide⟩

/-- A proof of messages 2 to 4 of 5 as it meets the hypotheses of the soundness theorem. -/
example : calculate (fun x => List.replicate 32 (x.foldl (fun a b => 3 * a + b) 1))
    (toQueue (fun x => List.replicate 32 (x.foldl (fun a b => 3 * a + b) 1))
      ⟨[(1, List.replicate 32 5)], [[3], [4], [5]], [(1, List.replicate 32 9)]⟩) =
    some (mroot (fun x => List.replicate 32 (x.foldl (fun a b => 3 * a + b) 1))
      ([[2], [3], [4], [5], [6]].map (fun x => List.replicate 32 (x.foldl (fun a b => 3 * a + b) 1))), 5) := by
  decide +kernel

end Verif.SolProof
