import Verif.Fragment
/-!
Fragments are reassembled (C24).
-/
namespace Verif.Fragment
open Verif

/-- The state while a message is being sent: `k` fragments of `n` are stored. -/
structure Mid (s : St) (n : Nat) (fs : List Bytes) : Prop where
  pos : 1 ≤ fs.length
  le : fs.length ≤ n
  last : s.last = n
  next : s.next = (n : Int) - fs.length
  stored : s.frags.take fs.length = fs

theorem Mid.len {s : St} {n : Nat} {fs : List Bytes} (h : Mid s n fs) : fs.length ≤ s.frags.length := by
  have := congrArg List.length h.stored
  simp at this
  omega

theorem mid_start (s : St) (n : Nat) (hn : 1 ≤ n) (f : Bytes) :
    ∃ s', handleFragment s (-(n : Int)) f = some (s', none) ∧ Mid s' n [f] := by
  refine ⟨⟨n, n - 1, f :: s.frags.drop 1⟩, ?_, ⟨by simp, by simpa using hn, rfl, by simp, by simp⟩⟩
  rw [handleFragment, if_pos (by omega)]
  have : (-(n : Int)) * -1 = n := by omega
  simp only [this]

theorem mid_next (s : St) (n : Nat) (fs : List Bytes) (h : Mid s n fs) (hlt : fs.length < n) (f : Bytes) :
    ∃ s', handleFragment s ((n : Int) - fs.length) f = some (s', none) ∧ Mid s' n (fs ++ [f]) := by
  have hl := h.len
  have hp := h.pos
  have hne : s.frags ≠ [] := by intro h0; rw [h0] at hl; simp at hl; rw [hl] at hp; simp at hp
  rw [handleFragment, if_neg (by omega), if_neg hne, if_neg (by rw [h.next]; simp), if_neg (by omega)]
  have hi : s.last - ((n : Int) - fs.length) = fs.length := by rw [h.last]; omega
  simp only [hi, Int.toNat_natCast]
  split
  · rename_i hlt'
    have hlt' : fs.length < s.frags.length := by omega
    refine ⟨_, rfl, ⟨by simp, by simp; omega, h.last, by simp; omega, ?_⟩⟩
    simp only [List.length_append, List.length_singleton]
    rw [List.take_add_one, List.take_set_of_le (by omega), h.stored, List.getElem?_set_self (by omega)]
    rfl
  · have heq : fs.length = s.frags.length := by omega
    refine ⟨_, rfl, ⟨by simp, by simp; omega, h.last, by simp; omega, ?_⟩⟩
    have := h.stored
    rw [heq, List.take_of_length_le (Nat.le_refl _)] at this
    rw [this, List.take_of_length_le (by simp)]

theorem mid_last (s : St) (n : Nat) (fs : List Bytes) (h : Mid s n fs) (hlt : fs.length = n) (f : Bytes) :
    handleFragment s 0 f = some (s, some (fs.flatten ++ f)) := by
  have hl := h.len
  have hp := h.pos
  have hne : s.frags ≠ [] := by intro h0; rw [h0] at hl; simp at hl; rw [hl] at hp; simp at hp
  have hg : getAll s.frags s.last = some fs := by
    rw [getAll, h.last, Int.toNat_natCast, if_pos (by omega), ← hlt, h.stored]
  rw [handleFragment, if_neg (by omega), if_neg hne, if_neg (by rw [h.next]; simp; omega), if_pos rfl, hg]

theorem exec_loop (limit n : Nat) (s : St) (k : Nat) (fs : List Bytes) (msg : Bytes) (h : Mid s n fs) (hk : fs.length + k = n) :
    ∃ s', execAll s (sendLoop limit k msg) = some (s', [fs.flatten ++ msg]) := by
  induction k generalizing s fs msg with
  | zero =>
    refine ⟨s, ?_⟩
    simp only [sendLoop, execAll, exec, mid_last s n fs h (by omega) msg]
    rfl
  | succ k ih =>
    obtain ⟨s1, h1, h2⟩ := mid_next s n fs h (by omega) (msg.take limit)
    obtain ⟨s2, h3⟩ := ih s1 (fs ++ [msg.take limit]) (msg.drop limit) h2 (by simp; omega)
    refine ⟨s2, ?_⟩
    have e : ((k + 1 : Nat) : Int) = (n : Int) - fs.length := by omega
    simp only [sendLoop, execAll, exec, e, h1, h3]
    simp [List.flatten_append, List.append_assoc]

/-- C24: whatever the message, the limit and what the contract had stored before, the transactions of `_relay` deliver
the message exactly once, unchanged. -/
theorem C24_roundtrip (limit : Nat) (msg : Bytes) (s : St) :
    ∃ s', execAll s (relayTxs limit msg) = some (s', [msg]) := by
  rw [relayTxs]
  by_cases h0 : msg.length / limit = 0
  · simp only [h0, if_true]
    exact ⟨s, rfl⟩
  · simp only [h0, if_false]
    have hpos : 1 ≤ msg.length / limit := Nat.pos_of_ne_zero h0
    generalize msg.length / limit = q at h0 hpos ⊢
    obtain ⟨s1, h1, h2⟩ := mid_start s q hpos (msg.take limit)
    obtain ⟨s2, h3⟩ := exec_loop limit q s1 (q - 1) [msg.take limit] (msg.drop limit) h2
      (by simp; omega)
    refine ⟨s2, ?_⟩
    simp only [execAll, exec, h1, h3]
    simp

/-- The data of a transaction. -/
def Tx.data : Tx → Bytes
  | .relay m => m
  | .frag _ f => f

theorem loop_size (limit : Nat) (k : Nat) (msg : Bytes) (h : msg.length ≤ limit * (k + 1)) :
    (∀ t ∈ sendLoop limit k msg, (Tx.data t).length ≤ limit) ∧ (sendLoop limit k msg).length = k + 1 := by
  induction k generalizing msg with
  | zero => simp [sendLoop, Tx.data]; omega
  | succ k ih =>
    have hd : (msg.drop limit).length ≤ limit * (k + 1) := by
      rw [List.length_drop]
      have : limit * (k + 1 + 1) = limit * (k + 1) + limit := by rw [Nat.mul_add limit (k + 1) 1, Nat.mul_one]
      omega
    obtain ⟨h1, h2⟩ := ih (msg.drop limit) hd
    constructor
    · intro t ht
      simp only [sendLoop, List.mem_cons] at ht
      rcases ht with rfl | ht
      · simp [Tx.data]; omega
      · exact h1 t ht
    · simp [sendLoop, h2]

/-- C24: every transaction carries at most `limit` bytes, there are `len / limit + 1` of them (one when the message is
shorter than the limit), and with the limit of the code the base64 text fits the data limit of the chain. -/
theorem C24_size (limit : Nat) (hl : 0 < limit) (msg : Bytes) :
    (∀ t ∈ relayTxs limit msg, (Tx.data t).length ≤ limit) ∧ (relayTxs limit msg).length = msg.length / limit + 1 ∧
    (limit = txSizeLimit → ∀ t ∈ relayTxs limit msg, 4 * (((Tx.data t).length + 2) / 3) ≤ txMaxDataSize) := by
  have main : (∀ t ∈ relayTxs limit msg, (Tx.data t).length ≤ limit) ∧ (relayTxs limit msg).length = msg.length / limit + 1 := by
    rw [relayTxs]
    have hmod := Nat.div_add_mod msg.length limit
    have hlt := Nat.mod_lt msg.length hl
    by_cases h0 : msg.length / limit = 0
    · simp only [h0, if_true]
      rw [h0] at hmod
      simp [Tx.data]; omega
    · simp only [h0, if_false]
      have hpos : 1 ≤ msg.length / limit := Nat.pos_of_ne_zero h0
      generalize msg.length / limit = q at h0 hpos hmod ⊢
      have hd : (msg.drop limit).length ≤ limit * (q - 1 + 1) := by
        rw [List.length_drop, show q - 1 + 1 = q by omega]; omega
      obtain ⟨h1, h2⟩ := loop_size limit (q - 1) (msg.drop limit) hd
      constructor
      · intro t ht
        simp only [List.mem_cons] at ht
        rcases ht with rfl | ht
        · simp [Tx.data]; omega
        · exact h1 t ht
      · simp [h2]; omega
  refine ⟨main.1, main.2, fun h t ht => ?_⟩
  have := main.1 t ht
  rw [h, txSizeLimit] at this
  rw [txMaxDataSize]
  omega

/-! ### Any calls -/

/-- The calls that send the first fragments of a message split in `n + 1`. -/
def seqCalls (n : Nat) (fs : List Bytes) : List (Int × Bytes) :=
  (fs.zipIdx).map (fun p => (if p.2 = 0 then -(n : Int) else (n : Int) - p.2, p.1))

theorem seqCalls_snoc (n : Nat) (fs : List Bytes) (f : Bytes) (h : 1 ≤ fs.length) :
    seqCalls n (fs ++ [f]) = seqCalls n fs ++ [((n : Int) - fs.length, f)] := by
  simp only [seqCalls, List.zipIdx_append, List.map_append, List.zipIdx_singleton, List.map_cons, List.map_nil]
  rw [if_neg (by omega)]
  simp

/-- What is known about the state after accepted calls. -/
def HistOk (s : St) (tr : List (Int × Bytes)) : Prop :=
  s.frags = [] ∨ ∃ A n fs Z, tr = A ++ seqCalls n fs ++ Z ∧ Mid s n fs ∧ (∀ c ∈ Z, c.1 = 0) ∧ (Z ≠ [] → fs.length = n)

theorem histOk_step (s s' : St) (tr : List (Int × Bytes)) (c : Int × Bytes) (m : Option Bytes) (h : HistOk s tr)
    (hc : handleFragment s c.1 c.2 = some (s', m)) :
    HistOk s' (tr ++ [c]) ∧ ∀ msg, m = some msg → c.1 = 0 ∧ ∃ A n fs Z, tr = A ++ seqCalls n fs ++ Z ∧ (∀ c ∈ Z, c.1 = 0) ∧
      fs.length = n ∧ 1 ≤ n ∧ msg = fs.flatten ++ c.2 := by
  obtain ⟨i, f⟩ := c
  simp only at hc ⊢
  by_cases hneg : i < 0
  · obtain ⟨n, hn⟩ : ∃ n : Nat, i = -(n : Int) := ⟨i.natAbs, by omega⟩
    obtain ⟨s1, e1, e2⟩ := mid_start s n (by omega) f
    rw [hn, e1] at hc
    simp at hc
    obtain ⟨rfl, rfl⟩ := hc
    refine ⟨Or.inr ⟨tr, n, [f], [], ?_, e2, by simp, by simp⟩, by simp⟩
    simp [seqCalls, hn]
  · rcases h with h0 | ⟨A, n, fs, Z, rfl, hm, hz, hzn⟩
    · rw [handleFragment, if_neg hneg, if_pos h0] at hc; simp at hc
    · have hp := hm.pos
      have hle := hm.le
      have hi : i = (n : Int) - fs.length := by
        have hl := hm.len
        have hne : s.frags ≠ [] := by intro h0; rw [h0] at hl; simp at hl; rw [hl] at hp; simp at hp
        rw [handleFragment, if_neg hneg, if_neg hne] at hc
        split at hc
        · simp at hc
        · rename_i h1
          rw [← hm.next]
          omega
      by_cases hk : fs.length = n
      · have hi0 : i = 0 := by omega
        rw [hi0, mid_last s n fs hm hk f] at hc
        simp at hc
        obtain ⟨rfl, rfl⟩ := hc
        refine ⟨Or.inr ⟨A, n, fs, Z ++ [(i, f)], by simp, hm, ?_, fun _ => hk⟩, ?_⟩
        · intro c hc
          simp at hc
          rcases hc with hc | rfl
          · exact hz c hc
          · exact hi0
        · intro msg hmsg
          simp at hmsg
          exact ⟨hi0, A, n, fs, Z, rfl, hz, hk, by omega, hmsg.symm⟩
      · have hZ : Z = [] := by
          cases Z with
          | nil => rfl
          | cons z Z => exact absurd (hzn (by simp)) hk
        subst hZ
        obtain ⟨s1, e1, e2⟩ := mid_next s n fs hm (by omega) f
        rw [hi, e1] at hc
        simp at hc
        obtain ⟨rfl, rfl⟩ := hc
        refine ⟨Or.inr ⟨A, n, fs ++ [f], [], ?_, e2, by simp, by simp⟩, by simp⟩
        rw [seqCalls_snoc n fs f hp, hi]
        simp

/-- C24: for every sequence of calls by a relay, every message handed to `handleRelayMessage` consists of one complete
run of fragments: those of the accepted calls `-n, n-1, ..., 1` that follow each other immediately, and the fragment of
this call with index 0; between them only other calls with index 0 were accepted. -/
theorem C24_history (calls : List (Int × Bytes)) (tr : List ((Int × Bytes) × Option Bytes)) (c : Int × Bytes) (msg : Bytes)
    (rest : List ((Int × Bytes) × Option Bytes))
    (h : (history St.empty calls).2 = tr ++ (c, some msg) :: rest) :
    c.1 = 0 ∧ ∃ A n fs Z, tr.map (·.1) = A ++ seqCalls n fs ++ Z ∧ (∀ z ∈ Z, z.1 = 0) ∧ fs.length = n ∧ 1 ≤ n ∧
      msg = fs.flatten ++ c.2 := by
  suffices gen : ∀ (calls : List (Int × Bytes)) (s : St) (tr0 : List (Int × Bytes)) (tr : List ((Int × Bytes) × Option Bytes)),
      HistOk s tr0 → (history s calls).2 = tr ++ (c, some msg) :: rest →
      c.1 = 0 ∧ ∃ A n fs Z, tr0 ++ tr.map (·.1) = A ++ seqCalls n fs ++ Z ∧ (∀ z ∈ Z, z.1 = 0) ∧ fs.length = n ∧ 1 ≤ n ∧
        msg = fs.flatten ++ c.2 by
    simpa using gen calls St.empty [] tr (Or.inl rfl) h
  intro calls
  induction calls with
  | nil => intro s tr0 tr _ hh; simp [history] at hh
  | cons d calls ih =>
    intro s tr0 tr hok hh
    rw [history] at hh
    split at hh
    · exact ih s tr0 tr hok hh
    · rename_i s' m hm
      obtain ⟨g1, g2⟩ := histOk_step s s' tr0 d m hok hm
      simp only at hh
      cases tr with
      | nil =>
        simp at hh
        obtain ⟨⟨rfl, rfl⟩, _⟩ := hh
        simpa using g2 msg rfl
      | cons x tr =>
        simp at hh
        obtain ⟨rfl, hh⟩ := hh
        have := ih s' (tr0 ++ [d]) tr g1 hh
        simpa using this

/-- Concrete: a message of 7 bytes with limit 3 goes out as -2, 1, 0 over left-overs of a longer message. -/
example : relayTxs 3 [1, 2, 3, 4, 5, 6, 7] = [.frag (-2) [1, 2, 3], .frag 1 [4, 5, 6], .frag 0 [7]] ∧
    (execAll ⟨5, 2, [[9], [9], [9]]⟩ (relayTxs 3 [1, 2, 3, 4, 5, 6, 7])).map (·.2) = some [[1, 2, 3, 4, 5, 6, 7]] ∧
    relayTxs 3 [1, 2, 3] = [.frag (-1) [1, 2, 3], .frag 0 []] := by decide

/-- Concrete history: out-of-order calls are refused, a repeated call 0 delivers again. -/
example : (history St.empty [(0, [1]), (-2, [1]), (0, [7]), (1, [2]), (0, [3]), (0, [4])]).2 =
    [((-2, [1]), none), ((1, [2]), none), ((0, [3]), some [1, 2, 3]), ((0, [4]), some [1, 2, 4])] := by decide

end Verif.Fragment
