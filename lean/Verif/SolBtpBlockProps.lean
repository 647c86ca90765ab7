import Verif.SolBtpBlock
import Verif.SolProofProps
import Verif.JavaBtpBlockProps
/-!
C50, C51, C52 and further properties of the EVM block verifier.
-/
namespace Verif.SolBtpBlock
open Verif Verif.IntConv Verif.Rlp Verif.BtpBlock Verif.SolProof Verif.Merkle Verif.Mbt
open Verif.JavaBtpBlock (GoodEntry collision_mono entries_match chain_append)

/-- The fields that are `bytes32` in the code. -/
structure Header.Typed (h : Header) : Prop where
  npch : h.npch.length = 32
  prev : h.prev.length = 32
  root : h.root.length = 32
  path : ∀ n ∈ h.path, n.2.length = 32

def optOf (b : Bytes) : Option Bytes := if b = zero32 then none else some b

/-- The section a header carries. -/
def Header.sec (h : Header) : Sec := ⟨h.nid, h.upd, optOf h.prev, h.cnt, optOf h.root⟩

theorem nulEnc_eq (b : Bytes) (h : b.length = 32) : nulEnc b = wNul (optOf b) := by
  unfold nulEnc optOf
  by_cases hb : b = zero32
  · rw [if_neg (by simp [hb]), if_pos hb]; rfl
  · rw [if_pos hb, if_neg hb]
    exact SolRlp.encodeBytes_eq b (by omega) (by intro h0; rw [h0] at h; simp at h)

theorem encodeUint_some {n : Nat} {b : Bytes} (h : SolRlp.encodeUint n = some b) : n < 2 ^ 128 - 1 ∧ b = wInt n := by
  rcases Nat.lt_or_ge n (2 ^ 128 - 1) with hn | hn
  · rw [(SolRlp.C59_uint n).1 hn] at h
    simp only [Option.some.injEq] at h
    exact ⟨hn, h.symm⟩
  · rw [(SolRlp.C59_uint n).2 hn] at h
    simp at h

theorem wInt_len (n : Nat) (h : n < 2 ^ 128 - 1) : (wInt n).length ≤ 26 := by
  have := SolRlp.uint_len n h
  have := SolRlp.wBytes_len_le (bigIntToBytes n) (by omega)
  unfold wInt
  omega

theorem wNul_len (b : Option Bytes) (h : ∀ x, b = some x → x.length = 32) : (wNul b).length ≤ 41 := by
  cases b with
  | none => simp [wNul, nullSeq]
  | some x =>
    have := h x rfl
    have := SolRlp.wBytes_len_le x (by omega)
    simp only [wNul]
    omega

theorem wList_len_le (b : Bytes) (hb : b.length < 2 ^ 64) : (wList b).length ≤ b.length + 9 := by
  rcases wList_cases b with ⟨_, h⟩ | ⟨_, h⟩
  · rw [h]; simp
  · rw [h]
    have := (C03_size_roundtrip b.length hb).2.2.2
    simp only [List.length_cons, List.length_append]
    omega

theorem optOf_len {b x : Bytes} (h : b.length = 32) (hx : optOf b = some x) : x.length = 32 := by
  unfold optOf at hx
  split at hx
  · simp at hx
  · simp at hx; rw [← hx]; exact h

/-- C59, C75: the string hashed for a section is the encoding the ICON side hashes. -/
theorem secEnc_eq (h : Header) (ht : h.Typed) {b : Bytes} (hb : h.secEnc = some b) :
    b = secBytes h.sec ∧ b.length < 2 ^ 63 ∧ h.nid < 2 ^ 128 - 1 ∧ h.upd < 2 ^ 128 - 1 ∧ h.cnt < 2 ^ 128 - 1 := by
  unfold Header.secEnc at hb
  cases e1 : SolRlp.encodeUint h.nid with
  | none => simp [e1] at hb
  | some a =>
  cases e2 : SolRlp.encodeUint h.upd with
  | none => simp [e1, e2] at hb
  | some c =>
  cases e3 : SolRlp.encodeUint h.cnt with
  | none => simp [e1, e2, e3] at hb
  | some d =>
  obtain ⟨n1, rfl⟩ := encodeUint_some e1
  obtain ⟨n2, rfl⟩ := encodeUint_some e2
  obtain ⟨n3, rfl⟩ := encodeUint_some e3
  simp only [e1, e2, e3, Option.bind_some, Option.map_some, Option.some.injEq] at hb
  have l1 := wInt_len _ n1
  have l2 := wInt_len _ n2
  have l3 := wInt_len _ n3
  have l4 := wNul_len (optOf h.prev) (fun x hx => optOf_len ht.prev hx)
  have l5 := wNul_len (optOf h.root) (fun x hx => optOf_len ht.root hx)
  rw [nulEnc_eq _ ht.prev, nulEnc_eq _ ht.root] at hb
  have hs : b = secBytes h.sec := by
    rw [← hb]
    unfold secBytes SolRlp.encodeList Header.sec
    rw [SolRlp.wList_form _ (by simp only [List.length_append, List.length_nil]; omega)]
    simp
  refine ⟨hs, ?_, n1, n2, n3⟩
  rw [hs]
  unfold secBytes
  have := wList_len_le (wInt h.sec.nid ++ (wInt h.sec.upd ++ (wNul h.sec.prev ++ (wInt h.sec.cnt ++ (wNul h.sec.root ++ [])))))
    (by unfold Header.sec; simp only [List.length_append, List.length_nil]; omega)
  unfold Header.sec at *
  simp only [List.length_append, List.length_nil] at this ⊢
  omega

/-! ### what acceptance means -/

theorem setMsgs_ok {s s' : St} {h : Header} {r r' : Nat} (hk : setMsgs s h r = some (s', r')) :
    s'.height = s.height ∧ s'.secHash = s.secHash ∧ s'.vals = s.vals ∧ s'.next = s.next ∧
      ((h.root = zero32 ∧ s'.root = s.root ∧ s'.first = s.first ∧ s'.cnt = s.cnt ∧ r' = r) ∨
       (h.root ≠ zero32 ∧ s.first + s.cnt = h.sn ∧ s'.root = h.root ∧ s'.first = h.sn ∧ s'.cnt = h.cnt ∧ r' = h.cnt)) := by
  unfold setMsgs at hk
  split at hk
  · rename_i h6
    cases hk
    exact ⟨rfl, rfl, rfl, rfl, Or.inl ⟨h6, rfl, rfl, rfl, rfl⟩⟩
  · rename_i h6
    split at hk
    · cases hk
    split at hk
    · cases hk
    rename_i h7 h8
    cases hk
    exact ⟨rfl, rfl, rfl, rfl, Or.inr ⟨h6, Decidable.not_not.mp h8, rfl, rfl, rfl, rfl⟩⟩

theorem handleUpdate_ok {E : Env} {C : Cfg} {s s' : St} {r r' : Nat} {h : Header} {sigs : List Bytes}
    (hk : handleUpdate E C s r h sigs = some (s', r')) :
    r = 0 ∧ h.nid = C.nid ∧ h.prev = s.secHash ∧ h.sn = s.next ∧
    ∃ d sec, decEnc E.H C.src C.ty h = some d ∧ h.secEnc = some sec ∧ checkBlockProof E (E.H d) sigs s.vals = true ∧
      s'.height = h.height ∧ s'.secHash = E.H sec ∧ s'.vals = (if h.flag = true then h.vals else s.vals) ∧ s'.next = s.next ∧
      ((h.root = zero32 ∧ s'.root = s.root ∧ s'.first = s.first ∧ s'.cnt = s.cnt ∧ r' = r) ∨
       (h.root ≠ zero32 ∧ s.first + s.cnt = h.sn ∧ s'.root = h.root ∧ s'.first = h.sn ∧ s'.cnt = h.cnt ∧ r' = h.cnt)) := by
  unfold handleUpdate at hk
  split at hk
  · cases hk
  split at hk
  · cases hk
  split at hk
  · cases hk
  split at hk
  · cases hk
  rename_i h1 h2 h3 h4
  split at hk
  · rename_i d sec hd hs
    split at hk
    · cases hk
    rename_i h5
    refine ⟨Decidable.not_not.mp h1, (Decidable.not_not.mp h2).symm, (Decidable.not_not.mp h3).symm,
      (Decidable.not_not.mp h4).symm, d, sec, hd, hs, by simpa using h5, ?_⟩
    exact setMsgs_ok hk
  · cases hk

theorem handleProof_ok {E : Env} {s s' : St} {r r' : Nat} {p : SProof} (hk : handleProof E s r p = some (s', r')) :
    calculate E.H (toQueue E.H p) = some (s.root, s.cnt) ∧ p.mesgs.length ≤ r ∧ r' = r - p.mesgs.length ∧
    s' = { s with next := s.next + p.mesgs.length } := by
  unfold handleProof at hk
  split at hk
  · cases hk
  split at hk
  · cases hk
  split at hk
  · cases hk
  rename_i h1 h2 h3
  cases hk
  exact ⟨Decidable.not_not.mp h1, by omega, rfl, rfl⟩

/-! ### C50 -/

/-- Accepted sections with the messages released from each, newest first. -/
abbrev Book := List (Sec × List Bytes)

def book : Book → Msg → Book
  | l, .upd h _ => (h.sec, []) :: l
  | (s, ms) :: t, .proof p => (s, ms ++ p.mesgs) :: t
  | [], .proof _ => []
  | l, .other => l

def hashed (H : Bytes → Bytes) : Msg → List Bytes
  | .upd h _ => [secBytes h.sec]
  | .proof p => verifierCalls H p
  | .other => []

def released (l : Book) : List Bytes := (l.reverse.map (·.2)).flatten

/-- A proof that says where it belongs: its left part counts exactly the `k` messages released before, and no part
counts nothing. The code checks neither. -/
def Placed (k : Nat) (p : SProof) : Prop := (p.lefts.map (·.1)).sum = k ∧ ∀ x ∈ p.lefts ++ p.rights, 1 ≤ x.1

/-- All accepted proofs are placed, and hashes have 32 bytes. -/
def PlacedMsgs (E : Env) (C : Cfg) : St → Nat → List Msg → Prop
  | _, _, [] => True
  | s, r, .upd h sigs :: t => h.Typed ∧ ∀ x, handleUpdate E C s r h sigs = some x → PlacedMsgs E C x.1 x.2 t
  | s, r, .proof p :: t => Placed (s.next - s.first) p ∧ ∀ x, handleProof E s r p = some x → PlacedMsgs E C x.1 x.2 t
  | s, r, .other :: t => PlacedMsgs E C s r t

def PlacedRun (E : Env) (C : Cfg) : St → List Call → Prop
  | _, [] => True
  | s, c :: t =>
    match handleRelay E C s c with
    | none => PlacedRun E C s t
    | some x => PlacedMsgs E C s (s.cnt - (s.next - s.first)) c.msgs ∧ PlacedRun E C x.1 t

structure Inv (E : Env) (prev : Option Bytes) (s : St) (r : Nat) (l : Book) (hs : List Bytes) : Prop where
  rem : s.first ≤ s.next ∧ r + (s.next - s.first) = s.cnt
  cur : ∃ sec ms t, l = (sec, ms) :: t ∧ s.secHash = E.H (secBytes sec) ∧
    (∀ e ∈ t, (e.1.root ≠ none → e.1.cnt = e.2.length) ∧ (e.1.root = none → e.1.cnt = 0 → e.2 = [])) ∧
    ((sec.root = optOf s.root ∧ sec.cnt = s.cnt ∧ s.next = s.first + ms.length) ∨
     (sec.root = none ∧ ms = [] ∧ s.next = s.first + s.cnt))
  linked : Linked E.H prev (l.map (·.1)).reverse
  good : ∀ e ∈ l, GoodEntry E.H hs e

theorem init_inv {E : Env} {bmc src : Bytes} {ty off : Nat} {h : Header} {C : Cfg} {s : St} (ht : h.Typed)
    (hi : init E bmc src ty off h = some (C, s)) : Inv E (optOf h.prev) s s.cnt [(h.sec, [])] [] ∧ s.next = s.first := by
  unfold init at hi
  split at hi
  · cases hi
  cases hs : h.secEnc with
  | none => simp [hs] at hi
  | some sec =>
    obtain ⟨e1, _⟩ := secEnc_eq h ht hs
    simp only [hs, Option.map_some, Option.some.injEq, Prod.mk.injEq] at hi
    obtain ⟨_, rfl⟩ := hi
    refine ⟨⟨by simp, ⟨h.sec, [], [], rfl, by rw [e1], by simp, Or.inl ⟨rfl, rfl, rfl⟩⟩, ⟨rfl, trivial⟩, ?_⟩, rfl⟩
    intro e he
    simp only [List.mem_singleton] at he
    subst he
    intro cs _ _ _
    exact Or.inr (by simp)

theorem update_inv {E : Env} {C : Cfg} {prev : Option Bytes} {s s' : St} {r r' : Nat} {l : Book} {hs : List Bytes} {h : Header}
    {sigs : List Bytes} (ht : h.Typed) (hz : ∀ e ∈ l, E.H (secBytes e.1) ≠ zero32) (hI : Inv E prev s r l hs)
    (hk : handleUpdate E C s r h sigs = some (s', r')) :
    Inv E prev s' r' ((h.sec, []) :: l) (hs ++ [secBytes h.sec]) := by
  obtain ⟨k1, k2, k3, k4, d, sec', k5, k6, k7, k8, k9, k10, k11, k12⟩ := handleUpdate_ok hk
  obtain ⟨e0, _⟩ := secEnc_eq h ht k6
  subst e0
  obtain ⟨r1, r2⟩ := hI.rem
  obtain ⟨sec, ms, t, e1, e2, e3, e4⟩ := hI.cur
  have hfull : (sec.root ≠ none → sec.cnt = ms.length) ∧ (sec.root = none → sec.cnt = 0 → ms = []) := by
    rcases e4 with ⟨a1, a2, a3⟩ | ⟨a1, a2, a3⟩
    · refine ⟨fun _ => by omega, fun _ h0 => List.length_eq_zero_iff.mp (by omega)⟩
    · exact ⟨fun h0 => absurd a1 h0, fun _ _ => a2⟩
  refine ⟨?_, ⟨h.sec, [], l, rfl, k9, ?_, ?_⟩, ?_, ?_⟩
  · rcases k12 with ⟨q1, q2, q3, q4, q5⟩ | ⟨q1, q2, q3, q4, q5, q6⟩
    · rw [q3, q4, k11, q5]; exact ⟨r1, r2⟩
    · rw [q4, q5, k11, q6]; omega
  · intro e he
    rw [e1] at he
    simp only [List.mem_cons] at he
    rcases he with rfl | he
    · exact hfull
    · exact e3 e he
  · rcases k12 with ⟨q1, q2, q3, q4, q5⟩ | ⟨q1, q2, q3, q4, q5, q6⟩
    · refine Or.inr ⟨by simp [Header.sec, optOf, q1], rfl, ?_⟩
      rw [q3, q4, k11]; omega
    · refine Or.inl ⟨by simp [Header.sec, q3], by simp [Header.sec, q5], ?_⟩
      rw [q4, k11, k4]; simp
  · simp only [List.map_cons, List.reverse_cons]
    refine linked_append.mpr ⟨hI.linked, ?_, trivial⟩
    have hz' := hz (sec, ms) (by rw [e1]; simp)
    rw [e1]
    simp only [List.map_cons, List.reverse_cons]
    rw [tip_snoc, ← e2]
    simp only [Header.sec, optOf, k3]
    rw [if_neg (by rw [e2]; exact hz')]
  · intro e he
    simp only [List.mem_cons] at he
    rcases he with rfl | he
    · intro cs _ _ _
      exact Or.inr (by simp)
    · exact (hI.good e he).mono (by intro x hx; simp [hx])

theorem proof_inv {E : Env} {prev : Option Bytes} {s s' : St} {r r' : Nat} {l : Book} {hs : List Bytes} {p : SProof}
    (hH : ∀ x, (E.H x).length = 32) (hI : Inv E prev s r l hs) (hf : Placed (s.next - s.first) p)
    (hk : handleProof E s r p = some (s', r')) : Inv E prev s' r' (book l (.proof p)) (hs ++ verifierCalls E.H p) := by
  obtain ⟨k1, k2, k3, k4⟩ := handleProof_ok hk
  obtain ⟨r1, r2⟩ := hI.rem
  obtain ⟨sec, ms, t, e1, e2, e3, e4⟩ := hI.cur
  subst e1
  subst k4
  simp only [book]
  refine ⟨by simp only; omega, ⟨sec, ms ++ p.mesgs, t, rfl, e2, e3, ?_⟩, hI.linked, ?_⟩
  · rcases e4 with ⟨a1, a2, a3⟩ | ⟨a1, a2, a3⟩
    · exact Or.inl ⟨a1, a2, by simp only [List.length_append]; omega⟩
    · have hp : p.mesgs = [] := List.length_eq_zero_iff.mp (by omega)
      exact Or.inr ⟨a1, by simp [a2, hp], by simp only [hp, List.length_nil]; omega⟩
  · intro e he
    simp only [List.mem_cons] at he
    rcases he with rfl | he
    · intro cs c1 c2 c3
      rcases hI.good (sec, ms) (by simp) cs c1 c2 c3 with hc | hc
      · exact Or.inl (collision_mono (by intro x hx; simp [hx]) (fun _ h => h) hc)
      · simp only at c1 c2 hc ⊢
        rcases e4 with ⟨a1, a2, a3⟩ | ⟨a1, a2, a3⟩
        · rw [c1] at a1
          unfold optOf at a1
          split at a1
          · simp at a1
          simp only [Option.some.injEq] at a1
          rw [← a1, show s.cnt = cs.length by omega] at k1
          rcases C66_solidity_soundness_partial E.H hH cs p hf.2 k1 with hc' | hc'
          · exact Or.inl (collision_mono (by intro x hx; simp [hx]) (fun _ h => h) hc')
          · refine Or.inr ?_
            rw [hf.1, show s.next - s.first = ms.length by omega] at hc'
            rw [List.length_append, List.take_add, ← hc, ← hc']
        · rw [c1] at a1; simp at a1
    · exact (hI.good e (by simp [he])).mono (by intro x hx; simp [hx])

theorem msgs_inv {E : Env} {C : Cfg} {prev : Option Bytes} (hH : ∀ x, (E.H x).length = 32) (msgs : List Msg) {s s' : St}
    {r r' : Nat} {l : Book} {hs out : List Bytes} (hI : Inv E prev s r l hs) (hf : PlacedMsgs E C s r msgs)
    (hz : ∀ e ∈ l, E.H (secBytes e.1) ≠ zero32) (hz' : ∀ h sigs, Msg.upd h sigs ∈ msgs → E.H (secBytes h.sec) ≠ zero32)
    (hk : handleMsgs E C s r msgs = some (s', r', out)) :
    Inv E prev s' r' (msgs.foldl book l) (hs ++ msgs.flatMap (hashed E.H)) ∧ released (msgs.foldl book l) = released l ++ out ∧
      ∀ e ∈ msgs.foldl book l, E.H (secBytes e.1) ≠ zero32 := by
  induction msgs generalizing s r l hs out with
  | nil =>
    simp only [handleMsgs] at hk
    cases hk
    exact ⟨by simpa using hI, by simp, hz⟩
  | cons m t ih =>
    cases m with
    | other =>
      simp only [handleMsgs] at hk
      obtain ⟨i1, i2, i3⟩ := ih hI hf hz (fun h sg hm => hz' h sg (by simp [hm])) hk
      exact ⟨by simpa [hashed, book] using i1, by simpa [book] using i2, by simpa [book] using i3⟩
    | upd h sigs =>
      obtain ⟨f1, f2⟩ := hf
      simp only [handleMsgs] at hk
      cases hu : handleUpdate E C s r h sigs with
      | none => simp [hu] at hk
      | some x =>
        simp only [hu, Option.bind_some] at hk
        obtain ⟨i1, i2, i3⟩ := ih (update_inv f1 hz hI hu) (f2 x hu) (by
          intro e he
          simp only [List.mem_cons] at he
          rcases he with rfl | he
          · exact hz' h sigs (by simp)
          · exact hz e he) (fun h sg hm => hz' h sg (by simp [hm])) hk
        refine ⟨by simpa [List.foldl_cons, book, hashed, List.append_assoc] using i1, ?_, by simpa [book] using i3⟩
        rw [List.foldl_cons]
        refine Eq.trans i2 ?_
        simp [released]
    | proof p =>
      obtain ⟨f1, f2⟩ := hf
      simp only [handleMsgs] at hk
      cases hu : handleProof E s r p with
      | none => simp [hu] at hk
      | some x =>
        simp only [hu, Option.bind_some, Option.map_eq_some_iff] at hk
        obtain ⟨y, h2, hy⟩ := hk
        obtain ⟨y1, y2, y3⟩ := y
        simp only [Prod.mk.injEq] at hy
        obtain ⟨rfl, rfl, rfl⟩ := hy
        have hp := proof_inv hH hI f1 hu
        obtain ⟨sec, ms, t', e1, _⟩ := hI.cur
        obtain ⟨i1, i2, i3⟩ := ih hp (f2 x hu) (by
          intro e he
          rw [e1] at he hz
          simp only [book, List.mem_cons] at he
          rcases he with rfl | he
          · exact hz (sec, ms) (by simp)
          · exact hz e (by simp [he])) (fun h sg hm => hz' h sg (by simp [hm])) h2
        refine ⟨by simpa [List.foldl_cons, hashed, List.append_assoc] using i1, ?_, i3⟩
        rw [List.foldl_cons]
        refine Eq.trans i2 ?_
        rw [e1]
        simp [released, book, List.append_assoc]

theorem handleRelay_ok {E : Env} {C : Cfg} {s s' : St} {c : Call} {out : List Bytes} (hk : handleRelay E C s c = some (s', out)) :
    c.caller = C.bmc ∧ c.net = C.src ∧ c.sn = C.off + s.next ∧ s.first ≤ s.next ∧ s.next - s.first ≤ s.cnt ∧
    ∃ x r g, handleMsgs E C s (s.cnt - (s.next - s.first)) c.msgs = some (x, r, out) ∧ s' = { x with height := g } := by
  unfold handleRelay at hk
  split at hk
  · cases hk
  split at hk
  · cases hk
  split at hk
  · cases hk
  split at hk
  · cases hk
  split at hk
  · cases hk
  split at hk
  · cases hk
  rename_i h1 h2 h3 h4 h5 h6
  rw [Option.map_eq_some_iff] at hk
  obtain ⟨⟨x, r, o⟩, hx, hy⟩ := hk
  simp only [Prod.mk.injEq] at hy
  obtain ⟨rfl, rfl⟩ := hy
  have h4' := Decidable.not_not.mp h4
  exact ⟨Decidable.not_not.mp h1, (Decidable.not_not.mp h2).symm, by omega, by omega, by omega, x, r, _, hx, rfl⟩

theorem Inv.height {E : Env} {prev : Option Bytes} {s : St} {r g : Nat} {l : Book} {hs : List Bytes} (h : Inv E prev s r l hs) :
    Inv E prev { s with height := g } r l hs := ⟨h.rem, h.cur, h.linked, h.good⟩

theorem run_inv {E : Env} {C : Cfg} {prev : Option Bytes} (hH : ∀ x, (E.H x).length = 32) (calls : List Call) {s : St} {r : Nat}
    {l : Book} {hs : List Bytes} (hI : Inv E prev s r l hs) (hf : PlacedRun E C s calls)
    (hz : ∀ e ∈ l, E.H (secBytes e.1) ≠ zero32)
    (hz' : ∀ h sigs, Msg.upd h sigs ∈ (run E C s calls).2.1 → E.H (secBytes h.sec) ≠ zero32) :
    ∃ r', Inv E prev (run E C s calls).1 r' ((run E C s calls).2.1.foldl book l) (hs ++ (run E C s calls).2.1.flatMap (hashed E.H)) ∧
      released ((run E C s calls).2.1.foldl book l) = released l ++ (run E C s calls).2.2 := by
  induction calls generalizing s r l hs with
  | nil => exact ⟨r, by simpa [run] using hI, by simp [run]⟩
  | cons c t ih =>
    unfold PlacedRun at hf
    unfold run at hz' ⊢
    cases hr : handleRelay E C s c with
    | none =>
      rw [hr] at hf hz'
      exact ih hI hf hz hz'
    | some x =>
      obtain ⟨s', out⟩ := x
      rw [hr] at hf hz'
      simp only at hf hz' ⊢
      obtain ⟨_, _, _, q1, q2, x, r', g, q3, rfl⟩ := handleRelay_ok hr
      have hrr : r = s.cnt - (s.next - s.first) := by have := hI.rem; omega
      rw [hrr] at hI
      obtain ⟨i1, i2, i3⟩ := msgs_inv hH c.msgs hI hf.1 hz (fun h sg hm => hz' h sg (by simp [hm])) q3
      obtain ⟨r2, j1, j2⟩ := ih (i1.height (g := g)) hf.2 i3 (fun h sg hm => hz' h sg (by simp [hm]))
      rw [List.foldl_append]
      refine ⟨r2, by simpa [List.append_assoc] using j1, ?_⟩
      rw [j2, i2, List.append_assoc]

theorem book_secs (ms : List Msg) (l : Book) : ∀ x ∈ (ms.foldl book l).map (·.1),
    x ∈ l.map (·.1) ∨ ∃ h sigs, Msg.upd h sigs ∈ ms ∧ x = h.sec := by
  induction ms generalizing l with
  | nil => intro x hx; exact Or.inl hx
  | cons m t ih =>
    intro x hx
    rw [List.foldl_cons] at hx
    rcases ih _ x hx with h | ⟨h, sg, h1, h2⟩
    · match l, m, h with
      | l, .upd h' sg, h =>
        simp only [book, List.map_cons, List.mem_cons] at h
        rcases h with h | h
        · exact Or.inr ⟨h', sg, by simp, h⟩
        · exact Or.inl h
      | (s, m) :: t, .proof p, h => simp only [book, List.map_cons, List.mem_cons] at h ⊢; exact Or.inl h
      | [], .proof _, h => simp [book] at h
      | [], .other, h => exact Or.inl h
      | _ :: _, .other, h => exact Or.inl h
    · exact Or.inr ⟨h, sg, by simp [h1], h2⟩

/-- The strings hashed by the honest chain. -/
def honestHashed (H : Bytes → Bytes) (nid : Int) (bs : List Block) : List Bytes :=
  (chain H nid none 0 bs).map secBytes ++ bs.flatMap (fun b => treeCalls H b.msgs)

theorem chain_mem {H : Bytes → Bytes} {nid : Int} {prev : Option Bytes} {sn : Nat} {bs : List Block} {x : Sec}
    (h : x ∈ chain H nid prev sn bs) : ∃ prev' sn' b, b ∈ bs ∧ x = secOf H nid prev' sn' b := by
  induction bs generalizing prev sn with
  | nil => simp [chain] at h
  | cons b t ih =>
    simp only [chain, List.mem_cons] at h
    rcases h with rfl | h
    · exact ⟨prev, sn, b, by simp, rfl⟩
    · obtain ⟨p, n, c, h1, h2⟩ := ih h
      exact ⟨p, n, c, by simp [h1], h2⟩

theorem mem_sec_small {E : Env} {C : Cfg} (calls : List Call) {s : St} (hf : PlacedRun E C s calls) (h : Header) (sigs : List Bytes)
    (hm : Msg.upd h sigs ∈ (run E C s calls).2.1) : (secBytes h.sec).length < 2 ^ 63 := by
  have hmsgs : ∀ (msgs : List Msg) (s : St) (r : Nat), PlacedMsgs E C s r msgs → (handleMsgs E C s r msgs).isSome →
      Msg.upd h sigs ∈ msgs → (secBytes h.sec).length < 2 ^ 63 := by
    intro msgs
    induction msgs with
    | nil => intro s r _ _ h; simp at h
    | cons m t ih =>
      intro s r hp hk hm
      cases m with
      | other => exact ih s r hp hk (by simpa using hm)
      | upd h' sg =>
        simp only [handleMsgs] at hk
        cases hu : handleUpdate E C s r h' sg with
        | none => simp [hu] at hk
        | some x =>
          simp only [hu, Option.bind_some] at hk
          simp only [List.mem_cons, Msg.upd.injEq] at hm
          rcases hm with ⟨rfl, rfl⟩ | hm
          · obtain ⟨_, _, _, _, d, sec, _, k6, _⟩ := handleUpdate_ok hu
            obtain ⟨e1, e2, _⟩ := secEnc_eq h hp.1 k6
            rw [← e1]; exact e2
          · exact ih _ _ (hp.2 x hu) hk hm
      | proof p =>
        simp only [handleMsgs] at hk
        cases hu : handleProof E s r p with
        | none => simp [hu] at hk
        | some x =>
          simp only [hu, Option.bind_some, Option.isSome_map] at hk
          exact ih _ _ (hp.2 x hu) hk (by simpa using hm)
  induction calls generalizing s with
  | nil => simp [run] at hm
  | cons c t ih =>
    unfold PlacedRun at hf
    unfold run at hm
    cases hr : handleRelay E C s c with
    | none => rw [hr] at hf hm; exact ih hf hm
    | some x =>
      rw [hr] at hf hm
      simp only [List.mem_append] at hf hm
      obtain ⟨_, _, _, _, _, y, r, g, q3, _⟩ := handleRelay_ok (s' := x.1) (out := x.2) hr
      rcases hm with hm | hm
      · exact hmsgs _ _ _ hf.1 (by rw [q3]; rfl) hm
      · exact ih hf.2 hm

/-- The oldest section of the book stays. -/
theorem book_last (ms : List Msg) (l : Book) (hl : l ≠ []) : (ms.foldl book l).map (·.1) ≠ [] ∧
    ((ms.foldl book l).map (·.1)).reverse.head? = (l.map (·.1)).reverse.head? := by
  induction ms generalizing l with
  | nil => exact ⟨by simpa using hl, rfl⟩
  | cons m t ih =>
    match l, hl with
    | (s, x) :: r, _ =>
      cases m with
      | upd h sg =>
        obtain ⟨h1, h2⟩ := ih (book ((s, x) :: r) (.upd h sg)) (by simp [book])
        refine ⟨h1, h2.trans ?_⟩
        simp [book, List.head?_append]
      | proof p => exact ih (book ((s, x) :: r) (.proof p)) (by simp [book])
      | other => exact ih (book ((s, x) :: r) .other) (by simp [book])

theorem chain_get (H : Bytes → Bytes) (nid : Int) (prev : Option Bytes) (sn : Nat) (a : List Block) (b : Block) (r : List Block) :
    ∃ p, (chain H nid prev sn (a ++ b :: r))[a.length]? = some (secOf H nid p (sn + (a.flatMap (·.msgs)).length) b) := by
  induction a generalizing prev sn with
  | nil => exact ⟨prev, rfl⟩
  | cons x t ih =>
    obtain ⟨p, h⟩ := ih (some (H (secBytes (secOf H nid prev sn x)))) (sn + x.msgs.length)
    refine ⟨p, ?_⟩
    simp only [List.cons_append, chain, List.length_cons, List.getElem?_cons_succ, List.flatMap_cons, List.length_append]
    rw [h, Nat.add_assoc]

/-- C50, part: whatever relay calls are made, if all accepted proofs are placed, the verifier was set up with a block of
an honest chain and the last accepted section is one of the chain, then the verifier has released, in order and each
once, all messages after the blocks `pre` up to the last block and the first ones of the last block, and its first number
is the number of messages before them - or a hash collision or a preimage of zero shows. -/
theorem C50_solidity_in_order_partial (E : Env) (hH : ∀ x, (E.H x).length = 32) (bmc src : Bytes) (ty off : Nat) (h0 : Header)
    (ht : h0.Typed) (C : Cfg) (s0 : St) (hi : init E bmc src ty off h0 = some (C, s0)) (calls : List Call)
    (hf : PlacedRun E C s0 calls) (nid : Int) (pre bs : List Block) (hb : ∀ b ∈ bs, b.msgs.length < 2 ^ 31)
    (hpre : optOf h0.prev = tip E.H none (chain E.H nid none 0 pre))
    (hsm : ∀ x ∈ chain E.H nid none 0 pre, (secBytes x).length < 2 ^ 63)
    (htip : tip E.H none (chain E.H nid none 0 bs) = some (run E C s0 calls).1.secHash) :
    (∃ x ∈ secBytes h0.sec :: (run E C s0 calls).2.1.flatMap (hashed E.H), E.H x = zero32) ∨
    Collision E.H ((chain E.H nid none 0 pre).map secBytes ++ secBytes h0.sec :: (run E C s0 calls).2.1.flatMap (hashed E.H))
      (honestHashed E.H nid bs) ∨
    ∃ pre' done last k, bs = pre' ++ done ++ [last] ∧ pre'.length = pre.length ∧ s0.next = (pre'.flatMap (·.msgs)).length ∧
      (run E C s0 calls).2.2 = done.flatMap (·.msgs) ++ last.msgs.take k := by
  by_cases hz : ∃ x ∈ secBytes h0.sec :: (run E C s0 calls).2.1.flatMap (hashed E.H), E.H x = zero32
  · exact Or.inl hz
  refine Or.inr ?_
  obtain ⟨iI, _⟩ := init_inv ht hi
  have hsec0 : (secBytes h0.sec).length < 2 ^ 63 := by
    unfold init at hi
    split at hi
    · cases hi
    cases hs : h0.secEnc with
    | none => simp [hs] at hi
    | some sec =>
      obtain ⟨e1, e2, _⟩ := secEnc_eq h0 ht hs
      rw [← e1]; exact e2
  have hsmall := mem_sec_small (E := E) (C := C) calls hf
  obtain ⟨r', jI, jr⟩ := run_inv hH calls iI hf (by
    intro e he h
    simp only [List.mem_singleton] at he
    subst he
    exact hz ⟨_, by simp, h⟩) (by
    intro h sg hm h0'
    refine hz ⟨_, ?_, h0'⟩
    simp only [List.mem_cons, List.mem_flatMap]
    exact Or.inr ⟨_, hm, by simp [hashed]⟩)
  generalize hrun : run E C s0 calls = r at *
  obtain ⟨s, acc, out⟩ := r
  simp only at hz hsmall htip jI jr ⊢
  simp only [released, List.reverse_cons, List.reverse_nil, List.nil_append, List.map_cons, List.map_nil, List.flatten_cons,
    List.flatten_nil] at jr
  have hmem : ∀ x ∈ (acc.foldl book [(h0.sec, [])]).map (·.1),
      (secBytes x).length < 2 ^ 63 ∧ secBytes x ∈ secBytes h0.sec :: acc.flatMap (hashed E.H) := by
    intro x hx
    rcases book_secs acc _ x hx with h | ⟨h, sg, h1, rfl⟩
    · simp only [List.map_cons, List.map_nil, List.mem_singleton] at h
      rw [h]
      exact ⟨hsec0, by simp⟩
    · refine ⟨hsmall h sg h1, ?_⟩
      simp only [List.mem_cons, List.mem_flatMap]
      exact Or.inr ⟨_, h1, by simp [hashed]⟩
  obtain ⟨sec, ms, t, e1, e2, e3, e4⟩ := jI.cur
  have hlink := jI.linked
  have hgood := jI.good
  rw [e1] at hlink hgood hmem jr
  rw [hpre] at hlink
  have hlink' : Linked E.H none (chain E.H nid none 0 pre ++ (((sec, ms) :: t).map (·.1)).reverse) :=
    linked_append.mpr ⟨chain_linked E.H nid none 0 pre, hlink⟩
  have htip' : tip E.H none (chain E.H nid none 0 pre ++ (((sec, ms) :: t).map (·.1)).reverse) = some s.secHash := by
    simp only [List.map_cons, List.reverse_cons]
    rw [← List.append_assoc, tip_snoc, e2]
  rcases linked_unique E.H _ _ hlink' (chain_linked E.H nid none 0 bs) (by
      intro x hx
      rcases List.mem_append.mp hx with hx | hx
      · exact hsm x hx
      · exact (hmem x (List.mem_reverse.mp hx)).1) (by rw [htip', htip]) with hc | hc
  · refine Or.inl (collision_mono ?_ ?_ hc)
    · intro x hx
      rw [List.map_append] at hx
      rcases List.mem_append.mp hx with hx | hx
      · exact List.mem_append.mpr (Or.inl hx)
      · obtain ⟨y, hy, rfl⟩ := List.mem_map.mp hx
        exact List.mem_append.mpr (Or.inr (hmem y (List.mem_reverse.mp hy)).2)
    · intro x hx; unfold honestHashed; simp only [List.mem_append]; exact Or.inl hx
  · have clen : ∀ (l : List Block) (p : Option Bytes) (n : Nat), (chain E.H nid p n l).length = l.length := by
      intro l
      induction l with
      | nil => intro p n; rfl
      | cons b l ih => intro p n; simp [chain, ih]
    have hbl : bs.length = pre.length + (t.length + 1) := by
      have := congrArg List.length hc
      rw [List.length_append, clen, clen] at this
      simp at this; omega
    -- cut the chain in the same places
    have hcut : ∃ pre' done last, bs = pre' ++ done ++ [last] ∧ pre'.length = pre.length ∧ done.length = t.length := by
      rcases List.eq_nil_or_concat (bs.drop pre.length) with h | ⟨d, x, h⟩
      · have := congrArg List.length h; simp at this; omega
      · refine ⟨bs.take pre.length, d, x, ?_, by simp; omega, ?_⟩
        · rw [List.append_assoc, ← List.concat_eq_append, ← h, List.take_append_drop]
        · have := congrArg List.length h; simp at this; omega
    obtain ⟨pre', done, last, rfl, hl1, hl2⟩ := hcut
    have hpos : s0.next = (pre'.flatMap (·.msgs)).length := by
      have hhead := (book_last acc [(h0.sec, [])] (by simp)).2
      rw [e1] at hhead
      have hsn : s0.next = h0.upd / 2 := by
        unfold init at hi
        split at hi
        · cases hi
        simp only [Option.map_eq_some_iff, Prod.mk.injEq] at hi
        obtain ⟨_, _, _, rfl⟩ := hi
        rfl
      have hget := congrArg (fun l => l[pre.length]?) hc
      rw [List.getElem?_append_right (by rw [clen]; exact Nat.le_refl _), clen, Nat.sub_self, ← List.head?_eq_getElem?, hhead] at hget
      have hbs : ∃ b r, pre' ++ done ++ [last] = pre' ++ b :: r := by
        cases done with
        | nil => exact ⟨last, [], by simp⟩
        | cons d ds => exact ⟨d, ds ++ [last], by simp⟩
      obtain ⟨b, r, hb'⟩ := hbs
      obtain ⟨p, hp⟩ := chain_get E.H nid none 0 pre' b r
      rw [hb', ← hl1, hp] at hget
      simp only [List.map_cons, List.map_nil, List.reverse_cons, List.reverse_nil, List.nil_append, List.head?_cons, Option.some.injEq,
        Nat.zero_add] at hget
      have hu : h0.sec.upd = (secOf E.H nid p (pre'.flatMap (·.msgs)).length b).upd := by rw [hget]
      simp only [Header.sec, secOf] at hu
      rw [hsn]
      split at hu <;> omega
    obtain ⟨p1, n1, hch1⟩ := chain_append E.H nid none 0 (pre' ++ done) [last]
    obtain ⟨p2, n2, hch2⟩ := chain_append E.H nid none 0 pre' done
    rw [hch1, hch2] at hc
    simp only [List.map_cons, List.reverse_cons, chain, ← List.append_assoc] at hc
    obtain ⟨hc1, hc2⟩ := List.append_inj' hc rfl
    simp only [List.cons.injEq, and_true] at hc2
    obtain ⟨_, hc3⟩ := List.append_inj hc1 (by rw [clen, clen, hl1])
    rw [← List.map_reverse] at hc3
    have hH0 : ∀ x, x ∈ [] ++ acc.flatMap (hashed E.H) →
        x ∈ (chain E.H nid none 0 pre).map secBytes ++ secBytes h0.sec :: acc.flatMap (hashed E.H) := by
      intro x hx
      simp only [List.nil_append] at hx
      exact List.mem_append.mpr (Or.inr (List.mem_cons_of_mem _ hx))
    have hfull : ∀ e ∈ t, e.1.cnt = e.2.length := by
      intro e he
      obtain ⟨f1, f2⟩ := e3 e he
      have : e.1 ∈ chain E.H nid p2 n2 done := by
        rw [← hc3]
        exact List.mem_map.mpr ⟨e, List.mem_reverse.mpr he, rfl⟩
      obtain ⟨p', n', b, _, hb2⟩ := chain_mem this
      by_cases hb0 : b.msgs = []
      · have c0 : e.1.cnt = 0 := by rw [hb2]; simp [secOf, hb0]
        rw [f2 (by rw [hb2]; simp [secOf, hb0]) c0, c0]; rfl
      · exact f1 (by rw [hb2]; simp [secOf, hb0])
    rcases entries_match E.H nid _ done p2 n2 t.reverse hc3 (by
      intro e he
      exact (hgood e (List.mem_cons_of_mem _ (List.mem_reverse.mp he))).mono hH0) (by
      intro e he
      exact hfull e (List.mem_reverse.mp he)) (fun b hb' => hb b (by simp [hb'])) with hcol | hdone
    · refine Or.inl (collision_mono (fun _ h => h) ?_ hcol)
      intro x hx; unfold honestHashed
      simp only [List.mem_append, List.flatMap_append]
      exact Or.inr (Or.inl (Or.inr hx))
    · have hlast : Collision E.H ((chain E.H nid none 0 pre).map secBytes ++ secBytes h0.sec :: acc.flatMap (hashed E.H))
          (treeCalls E.H last.msgs) ∨ ms = last.msgs.take ms.length := by
        by_cases hl0 : last.msgs = []
        · refine Or.inr ?_
          have hms : ms = [] := by
            rcases e4 with ⟨a1, a2, a3⟩ | ⟨_, a2, _⟩
            · have c0 : sec.cnt = 0 := by rw [hc2]; simp [secOf, hl0]
              have := jI.rem
              exact List.length_eq_zero_iff.mp (by omega)
            · exact a2
          rw [hms, hl0]; rfl
        · rcases hgood (sec, ms) (by simp) last.msgs (by rw [hc2]; simp [secOf, hl0]) (by rw [hc2]; simp [secOf])
            (hb last (by simp)) with h | h
          · exact Or.inl (collision_mono hH0 (fun _ h => h) h)
          · exact Or.inr h
      rcases hlast with hcol | hl
      · refine Or.inl (collision_mono (fun _ h => h) ?_ hcol)
        intro x hx; unfold honestHashed
        simp only [List.mem_append, List.flatMap_append, List.flatMap_cons, List.flatMap_nil, List.append_nil]
        exact Or.inr (Or.inr hx)
      · refine Or.inr ⟨pre', done, last, ms.length, rfl, hl1, hpos, ?_⟩
        rw [← hl, ← hdone]
        simp only [List.reverse_cons, List.map_append, List.flatten_append, List.map_cons, List.map_nil, List.flatten_cons,
          List.flatten_nil, List.append_nil] at jr
        exact jr.symm

end Verif.SolBtpBlock
