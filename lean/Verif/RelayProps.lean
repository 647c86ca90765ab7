import Verif.ReceiverProps
/-! The link together with the btp2 receiver: blocks that fit are delivered completely and in order (C84); two pending
blocks or a block that has to be cut crash the relay (C81). -/
namespace Verif.Receiver
open Verif Verif.Link Verif.Mbt

abbrev B2L := L B2 Proof (List (Item Proof))

/-! ### C81 for the btp2 receiver -/

theorem b2Updates_cons (E : B2Env) (b : Bls) (limit : Int) (rs : B2RS) (rest : List B2RS) (mh : Int) (len : Nat)
    (h : E.hdr rs.height = some (mh, len)) (hl : (len : Int) ≤ limit) (l : List (Item Proof))
    (hr : b2Updates E b limit rest = .ok l) : b2Updates E b limit (rs :: rest) = .ok (mkUpdate b mh len :: l) := by
  unfold b2Updates
  rw [h]
  simp only [if_neg (show ¬ limit < (len : Int) by omega), hr]

/-- C81 for btp2: if two blocks are pending when the link builds (the monitor has fetched a second block while the link
took the first) and their updates fit, the relay does not survive. -/
theorem C81_btp2_two_pending (E : B2Env) (n c : Nat) (s : B2L) (r1 r2 : B2RS) (m1 m2 : Int) (l1 l2 : Nat)
    (hd : b2Drop (s.cells c) s.r.rss = [r1, r2]) (h1 : E.hdr r1.height = some (m1, l1))
    (h2 : E.hdr r2.height = some (m2, l2)) (hs : s.size = 0) (f1 : (l1 : Int) ≤ s.limitSize)
    (f2 : (l2 : Int) ≤ s.limitSize) : ∀ t, buildRelayMessage (b2Rcv E) n c s ≠ (.ok (), t) := by
  have hz : (if s.rmis = [] then (0 : Int) else s.size) = 0 := by split <;> simp [hs]
  refine C81_build_two_fails (b2Rcv E) n c (mkUpdate (s.cells c) m1 l1) (mkUpdate (s.cells c) m2 l2) [] s
    { s.r with rss := [r1, r2] } ?_
  rw [hz, Int.sub_zero]
  show (b2Updates E (s.cells c) s.limitSize (b2Drop (s.cells c) s.r.rss),
    ({ s.r with rss := b2Drop (s.cells c) s.r.rss } : B2)) = _
  rw [hd, b2Updates_cons E _ _ r1 [r2] m1 l1 h1 f1 [mkUpdate (s.cells c) m2 l2]
    (b2Updates_cons E _ _ r2 [] m2 l2 h2 f2 [] rfl)]

/-- C81 for btp2: a block that is cut (a proof of its first messages exceeds what is left of the limit) crashes the
relay at the second part, after it has sent the first part over the limit. `txLimit = limitSize` is the sender's margin
of zero. -/
theorem C81_btp2_cut_panics (E : B2Env) (hH : ∀ x, E.H x ≠ []) (n c : Nat) (s : B2L) (bu : Item Proof)
    (cs : List Bytes) (hM : cs.length < 2 ^ 63) (items : List (Item Proof))
    (hit : ∀ it ∈ items, it.kind ≠ .proof) (hr : s.rmis = [items]) (hm : s.txLimit = s.limitSize)
    (hsz : s.size ≤ s.limitSize)
    (hst : statusAt s.rss (s.cells c).height = some ⟨(s.cells c).height, (s.cells c).rx + cs.length⟩)
    (hb : B2Block E s.r.rss (s.cells c).height ((s.cells c).rx + cs.length) cs)
    (it : Item Proof) (hcut : b2MsgProof E s.r (s.cells c) (s.limitSize - s.size) = .ok (some it))
    (hshort : it.next.rx < (s.cells c).rx + cs.length) :
    (buildProof (b2Rcv E) (n + 2) c (some bu) s).1 = .panic := by
  have hne : cs ≠ [] := by
    intro h0
    subst h0
    obtain ⟨t, ht, hat⟩ := hb
    unfold b2MsgProof at hcut
    rw [hat] at hcut
    simp at hcut
  have hpos : 0 < cs.length := List.length_pos_iff.mpr hne
  have hb0 : B2Block E s.r.rss (s.cells c).height ((s.cells c).rx - (0 : Nat) + cs.length) cs := by simpa using hb
  have hlen := C82_btp2_ignores_limit E hH s.r (s.cells c) (s.limitSize - s.size) cs hM 0 hpos hb0 it hcut hshort
  obtain ⟨j, p, q1, q2, q3, q4, q5⟩ := C33_btp2_part E hH s.r (s.cells c) (s.limitSize - s.size) cs hM 0 hpos hb0
  rw [q4] at hcut
  simp only [R.ok.injEq, Option.some.injEq] at hcut
  subst hcut
  dsimp only at hshort hlen
  have hj : j < cs.length := by omega
  unfold buildProof
  rw [hst]
  unfold proofLoop
  have c1 : ¬ (s.cells c).rx + (cs.length : Int) ≤ (s.cells c).rx := by omega
  have c2 : ¬ s.txLimit < s.size := by omega
  have q4' : (b2Rcv E).msgProof s.r (s.cells c) (s.limitSize - s.size) =
      .ok (some ⟨.message, E.plen p, ⟨(s.cells c).rx + j, (s.cells c).height⟩, 0, some p⟩) := q4
  simp only [if_neg c1, bnd, isOverLimit, if_neg c2, Bool.false_eq_true, if_false, buildMessageProof, q4', push, hr,
    snocLast, updBls]
  -- the second round: over the limit, everything collected is sent, then the next part has nowhere to go
  unfold proofLoop
  have e1 : setCell s.cells c ⟨(s.cells c).rx + j, (s.cells c).height⟩ c = ⟨(s.cells c).rx + j, (s.cells c).height⟩ := by
    simp [setCell]
  have c3 : ¬ (s.cells c).rx + (cs.length : Int) ≤ (s.cells c).rx + j := by omega
  have c4 : s.txLimit < s.size + (E.plen p : Int) := by omega
  have henc : ∀ l : List (Item Proof), (∀ x ∈ l, x.kind ≠ .proof) → (b2Rcv E).encode l = .ok l := by
    intro l hl
    show b2Encode l = .ok l
    unfold b2Encode
    have : l.any (fun it => decide (it.kind = .proof)) = false := by
      rw [List.any_eq_false]; intro x hx; simpa using hl x hx
    rw [this]; simp
  have enc1 := henc (items ++ [⟨.message, E.plen p, ⟨(s.cells c).rx + j, (s.cells c).height⟩, 0, some p⟩]) (by
    intro x hx
    rcases List.mem_append.mp hx with hx | hx
    · exact hit x hx
    · simp only [List.mem_singleton] at hx; subst hx; simp)
  have enc2 := henc [] (by simp)
  obtain ⟨j2, p2, w1, w2, w3, w4, w5⟩ := C33_btp2_part E hH s.r ⟨(s.cells c).rx + j, (s.cells c).height⟩
    (s.limitSize - 0) cs hM j hj (by
      show B2Block E s.r.rss (s.cells c).height ((s.cells c).rx + (j : Int) - (j : Int) + cs.length) cs
      rw [show (s.cells c).rx + (j : Int) - j + cs.length = (s.cells c).rx + cs.length by omega]
      exact hb)
  have w4' : (b2Rcv E).msgProof s.r ⟨(s.cells c).rx + j, (s.cells c).height⟩ (s.limitSize - 0) =
      .ok (some ⟨.message, E.plen p2, ⟨(s.cells c).rx + j + j2, (s.cells c).height⟩, 0, some p2⟩) := w4
  simp only [e1, if_neg c3, bnd, isOverLimit, if_pos c4, if_true, ign, sendRelay, List.cons_append, List.nil_append,
    encodeAll, overLimitProof, buildBlockProof, b2Rcv, buildMessageProof]
  simp only [b2Rcv] at w4' enc1 enc2
  simp only [enc1, enc2, e1, w4', push, snocLast]

/-! ### C84: blocks that fit are delivered -/

/-- What comes to the relay: a block of the source chain, or a status of the destination. -/
inductive In where
  | block (h : Int) (ms : List Bytes)
  | status (b : Bls)

/-- The monitor takes the block and the link takes it over at once. -/
def b2Block (E : B2Env) (n : Nat) (first : Bool) (s : B2L) (h : Int) (ms : List Bytes) : R Unit × B2L :=
  match b2Monitor E s.r h ms with
  | none => (.err, s)
  | some (r', rs) => receive (b2Rcv E) n 0 first rs { s with r := r' }

/-- A whole run; it ends at the first failure. -/
def b2Run (E : B2Env) (n : Nat) : Bool → B2L → List In → R Unit × B2L
  | _, s, [] => (.ok (), s)
  | first, s, .block h ms :: ins =>
    match b2Block E n first s h ms with
    | (.ok _, s') => b2Run E n false s' ins
    | x => x
  | first, s, .status b :: ins =>
    match bnd (clearRelay b) (fun _ => clearStatus b) s with
    | (.ok _, s') => b2Run E n first s' ins
    | x => x

/-- The relay message for a block with messages `ms` at height `h`, when `rx` messages are delivered before it: the block
update, and one message proof of all messages, which verifies to the root of the block's message tree. -/
def Delivers (E : B2Env) (rx h0 h : Int) (ms : List Bytes) (items : List (Item Proof)) : Prop :=
  ∃ len : Nat, E.hdr h = some (h, len) ∧
    ((ms = [] ∧ items = [mkUpdate ⟨rx, h0⟩ h len]) ∨
     (∃ p t, ms ≠ [] ∧ items = [mkUpdate ⟨rx, h0⟩ h len, mkProof ⟨rx, h⟩ (rx + ms.length) (E.plen p) p] ∧ p.contents = ms ∧
        newTree goCfg E.H (ms.map some) = some t ∧ proofRoot goCfg E.H p = some (t.rootHash, 0, (ms.length : Int))))

/-- The relay messages of a run, block by block. -/
def DeliversAll (E : B2Env) : Int → Int → List In → List (List (Item Proof)) → Prop
  | _, _, [], out => out = []
  | rx, h0, .block h ms :: ins, out =>
    ∃ items rest, out = items :: rest ∧ Delivers E rx h0 h ms items ∧ DeliversAll E (rx + ms.length) h ins rest
  | rx, h0, .status _ :: ins, out => DeliversAll E rx h0 ins out

/-- The blocks come in ascending order, their headers can be fetched, and each fits: its update is within the limit and so
is, beside it, a proof of any proper prefix of its messages. -/
def Fitting (E : B2Env) (lim : Int) : Int → List In → Prop
  | _, [] => True
  | h0, .block h ms :: ins =>
    h0 < h ∧ ms.length < 2 ^ 63 ∧
    (∃ len : Nat, E.hdr h = some (h, len) ∧ (len : Int) ≤ lim ∧
      ∀ t p (i : Nat), newTree goCfg E.H (ms.map some) = some t → i < ms.length → t.proof 1 i = some p →
        (E.plen p : Int) ≤ lim - len) ∧
    Fitting E lim h ins
  | h0, .status _ :: ins => Fitting E lim h0 ins

/-- The state between two blocks: the builder's status is `(rx, h)`, nothing is collected, at most the last block is
remembered by the receiver. -/
structure Idle (first : Bool) (rx h : Int) (s : B2L) : Prop where
  cell : s.cells 0 = ⟨rx, h⟩
  seq : s.r.seq = rx
  rss : s.r.rss = [] ∨ ∃ r, s.r.rss = [r] ∧ r.height ≤ h ∧ r.seq ≤ rx
  fresh : first = true → s.r.rss = []
  rmis : s.rmis = [] ∨ s.rmis = [[]]
  size : s.size = 0
  lrss : ∀ r ∈ s.rss, r.height ≤ h
  lim : 0 ≤ s.limitSize ∧ s.limitSize ≤ s.txLimit

theorem b2Drop_new (b : Bls) (old : List B2RS) (new : B2RS) (hn : b.height < new.height)
    (ho : old = [] ∨ ∃ r, old = [r] ∧ r.height ≤ b.height ∧ r.seq ≤ b.rx) : b2Drop b (old ++ [new]) = [new] := by
  have hn' : ¬ (new.height ≤ b.height ∧ new.seq ≤ b.rx) := by omega
  rcases ho with rfl | ⟨r, rfl, h1, h2⟩
  · simp [b2Drop, dropThrough, hn']
  · simp [b2Drop, dropThrough, h1, h2]

theorem statusAt_new (l : List RS) (new : RS) (h0 : Int) (hl : ∀ r ∈ l, r.height ≤ h0) (hn : h0 < new.height) :
    statusAt (l ++ [new]) new.height = some new := by
  unfold statusAt
  rw [List.find?_append]
  have : l.find? (fun rs => decide (rs.height = new.height)) = none := by
    rw [List.find?_eq_none]
    intro r hr
    have := hl r hr
    simp only [decide_eq_true_eq]
    omega
  rw [this]
  simp

/-- One block. -/
theorem b2_block (E : B2Env) (hH : ∀ x, E.H x ≠ []) (n : Nat) (first : Bool) (s : B2L) (rx h0 h : Int) (ms : List Bytes)
    (hi : Idle first rx h0 s) (hh : h0 < h) (hM : ms.length < 2 ^ 63) (len : Nat) (hhdr : E.hdr h = some (h, len))
    (hlen : (len : Int) ≤ s.limitSize)
    (hfit : ∀ t p (i : Nat), newTree goCfg E.H (ms.map some) = some t → i < ms.length → t.proof 1 i = some p →
      (E.plen p : Int) ≤ s.limitSize - len) :
    ∃ s' items, b2Block E (n + 2) first s h ms = (.ok (), s') ∧ Idle false (rx + ms.length) h s' ∧
      s'.relayed.map (·.items) = s.relayed.map (·.items) ++ [items] ∧ Delivers E rx h0 h ms items ∧
      s'.limitSize = s.limitSize := by
  obtain ⟨i1, i2, i3, i4, i5, i6, i7, i8⟩ := hi
  obtain ⟨t, ht, _, _⟩ := C11_bulk_root E.H hH ms hM
  have hc := newTree_contents E.H hH ms hM t ht
  -- the monitor's part
  let new : B2RS := ⟨h, rx + ms.length, t⟩
  let s1 : B2L := { s with r := ⟨s.r.rss ++ [new], rx + ms.length⟩ }
  have hb : b2Block E (n + 2) first s h ms = receive (b2Rcv E) (n + 2) 0 first ⟨h, rx + ms.length⟩ s1 := by
    unfold b2Block b2Monitor
    rw [ht]
    simp only [i2]
    rfl
  -- the status check at the first block does nothing
  have hcheck : (if first then ign (checkStatus (b2Rcv E) (n + 2) 0) else ret ()) s1 = (.ok (), s1) := by
    cases first with
    | false => rfl
    | true =>
      have hr0 := i4 rfl
      have hloop : checkLoop (b2Rcv E) (n + 2) 0 rx (n + 2) s1 = (.ok (), s1) := by
        have hhs : (b2Rcv E).heightForSeq s1.r rx = 0 ∨ (b2Rcv E).heightForSeq s1.r rx = h := by
          show b2HeightForSeq s1.r rx = 0 ∨ b2HeightForSeq s1.r rx = h
          unfold b2HeightForSeq
          have : s1.r.rss = [new] := by show s.r.rss ++ [new] = [new]; rw [hr0]; rfl
          rw [this]
          by_cases hx : rx ≤ new.seq ∧ rx ≥ new.seq
          · right
            simp only [List.find?, decide_eq_true hx]
            rfl
          · left
            simp only [List.find?, decide_eq_false hx]
        have hcell : s1.cells 0 = ⟨rx, h0⟩ := i1
        unfold checkLoop
        dsimp only
        rcases hhs with hx | hx
        · rw [if_pos hx]
        · by_cases hz : (b2Rcv E).heightForSeq s1.r rx = 0
          · rw [if_pos hz]
          · have a1 : ¬ h = (⟨rx, h0⟩ : Bls).height := by show ¬ h = h0; omega
            have a2 : ¬ h < (⟨rx, h0⟩ : Bls).height := by show ¬ h < h0; omega
            rw [if_neg hz, hx, hcell, if_neg a1, if_neg a2]
      have hrx : (s1.cells 0).rx = rx := by show (s.cells 0).rx = rx; rw [i1]
      show ign (checkStatus (b2Rcv E) (n + 2) 0) s1 = (.ok (), s1)
      unfold ign checkStatus bnd
      rw [hrx, hloop]
      have : ¬ s1.size > 0 := by show ¬ s.size > 0; omega
      simp only [if_neg this]
  -- the builder
  let s2 : B2L := { s1 with rss := s.rss ++ [⟨h, rx + ms.length⟩] }
  have hrecv : receive (b2Rcv E) (n + 2) 0 first ⟨h, rx + ms.length⟩ s1 = ign (buildRelayMessage (b2Rcv E) (n + 2) 0) s2 := by
    unfold receive bnd
    simp only [hcheck]
    rfl
  let s3 : B2L := { s2 with rmis := [[]], size := 0 }
  have hcreate : (if s2.rmis = [] then createItem else ret ()) s2 = (.ok (), s3) := by
    have e6 : s2.size = 0 := i6
    rcases i5 with i5 | i5
    · have e5 : s2.rmis = [] := i5
      rw [if_pos e5]
      show (R.ok (), ({ s2 with rmis := s2.rmis ++ [[]], size := 0 } : B2L)) = _
      rw [e5]
      rfl
    · have e5 : s2.rmis = [[]] := i5
      rw [if_neg (by rw [e5]; simp)]
      show (R.ok (), s2) = (R.ok (), { s2 with rmis := [[]], size := 0 })
      rw [← e5, ← e6]
  let upd : Item Proof := mkUpdate ⟨rx, h0⟩ h len
  let s4 : B2L := { s3 with r := ⟨[new], rx + ms.length⟩ }
  have hget : getHeader (b2Rcv E) 0 (n + 2) s3 = (.ok [upd], s4) := by
    have hd : b2Drop ⟨rx, h0⟩ (s.r.rss ++ [new]) = [new] := b2Drop_new _ _ _ hh i3
    have hu : (b2Rcv E).update s3.r (s3.cells 0) (s3.limitSize - s3.size) = (.ok [upd], (⟨[new], rx + ms.length⟩ : B2)) := by
      show (b2Updates E (s.cells 0) (s.limitSize - 0) (b2Drop (s.cells 0) (s.r.rss ++ [new])),
        (⟨b2Drop (s.cells 0) (s.r.rss ++ [new]), rx + ms.length⟩ : B2)) = _
      rw [i1, hd, b2Updates_cons E _ _ new [] h len hhdr (by omega) [] rfl]
    exact C83_getHeader_partial (b2Rcv E) 0 s3 [upd] _ (by simp) hu (n + 1)
  -- after the update
  let s5 : B2L := { s4 with rmis := [[upd]], size := 0 + len, used := s.used ++ [upd], cells := setCell s.cells 0 ⟨rx, h⟩ }
  have hpush : push upd s4 = (.ok (), { s4 with rmis := [[upd]], size := 0 + len, used := s.used ++ [upd] }) := by
    unfold push
    rfl
  have hcell5 : s5.cells 0 = ⟨rx, h⟩ := by simp [s5, setCell]
  have hst : statusAt s5.rss (s5.cells 0).height = some ⟨h, rx + ms.length⟩ := by
    rw [hcell5]
    exact statusAt_new s.rss ⟨h, rx + ms.length⟩ h0 i7 hh
  have henc : ∀ l : List (Item Proof), (∀ x ∈ l, x.kind ≠ .proof) → (b2Rcv E).encode l = .ok l := by
    intro l hl
    show b2Encode l = .ok l
    unfold b2Encode
    have : l.any (fun it => decide (it.kind = .proof)) = false := by
      rw [List.any_eq_false]; intro x hx; simpa using hl x hx
    rw [this]; simp
  -- the proofs of the block
  have hproof : ∃ s6 items, buildProof (b2Rcv E) (n + 2) 0 (some upd) s5 = (.ok (), s6) ∧ Delivers E rx h0 h ms items ∧
      s6.rmis = [items] ∧ (∀ x ∈ items, x.kind ≠ .proof) ∧ s6.cells 0 = ⟨rx + ms.length, h⟩ ∧ s6.r = s5.r ∧ s6.rss = s5.rss ∧
      s6.relayed = s.relayed ∧ s6.limitSize = s.limitSize ∧ s6.txLimit = s.txLimit := by
    by_cases hms : ms = []
    · subst hms
      refine ⟨s5, [upd], ?_, ⟨len, hhdr, .inl ⟨rfl, rfl⟩⟩, rfl, ?_, ?_, rfl, rfl, rfl, rfl, rfl⟩
      · unfold buildProof
        rw [hst]
        unfold proofLoop
        simp only [hcell5]
        rw [if_pos (by simp)]
      · intro x hx; simp only [List.mem_singleton] at hx; subst hx; simp [upd, mkUpdate]
      · simp [hcell5]
    · have hpos : 0 < ms.length := List.length_pos_iff.mpr hms
      obtain ⟨j, p, q1, q2, q3, q4, q5, q6, q7, _⟩ := b2Loop_spec E hH ms hM t ht hc ⟨rx, h⟩ (s.limitSize - (0 + len)) 0
        (ms.length - 1) 1 (by omega) (by omega)
      have hj : j = ms.length := by
        by_cases hx : j < ms.length
        · have a1 := q7 hx
          have a2 := hfit t p j ht hx (by simpa using q4)
          omega
        · omega
      subst hj
      have hmp : (b2Rcv E).msgProof s5.r (s5.cells 0) (s5.limitSize - s5.size) =
          .ok (some (mkProof ⟨rx, h⟩ (rx + ms.length) (E.plen p) p)) := by
        rw [hcell5]
        show b2MsgProof E ⟨[new], rx + ms.length⟩ ⟨rx, h⟩ (s.limitSize - (0 + len)) = _
        unfold b2MsgProof
        have hat : b2At [new] h = some new := by simp [b2At, new]
        have hcn : new.mt.contents = ms := hc
        simp only [hat, hcn]
        show (if rx - (rx + (ms.length : Int)) = 0 then R.ok none else
          b2Loop E ⟨rx, h⟩ (s.limitSize - (0 + len)) t (rx - (rx + (ms.length : Int) - (ms.length : Int)))
            (if (ms.length : Int) > 0 then ((ms.length : Int) - (rx - (rx + (ms.length : Int) - (ms.length : Int)) + 1)).toNat
              else 0) (rx - (rx + (ms.length : Int) - (ms.length : Int)) + 1)) = _
        have b1 : rx - (rx + (ms.length : Int) - (ms.length : Int)) = 0 := by omega
        have b2 : ((ms.length : Int) - (0 + 1)).toNat = ms.length - 1 := by omega
        rw [if_neg (by omega), b1, if_pos (by omega), b2]
        exact q6
      let mp : Item Proof := mkProof ⟨rx, h⟩ (rx + ms.length) (E.plen p) p
      let s6 : B2L := { s5 with rmis := [[upd, mp]], size := 0 + len + E.plen p, used := s5.used ++ [mp],
                                cells := setCell s5.cells 0 ⟨rx + ms.length, h⟩ }
      have hbm : buildMessageProof (b2Rcv E) 0 s5 = (.ok (), s6) := by
        unfold buildMessageProof
        rw [hmp]
        rfl
      have hcell6 : s6.cells 0 = ⟨rx + ms.length, h⟩ := by simp [s6, setCell]
      obtain ⟨p', r1, r2, r3⟩ := C13_range_proof E.H hH ms hM t ht 1 ms.length (by omega) (by omega) (by omega)
      have hpp : p' = p := by
        have q4' : t.proof ((1 : Nat) : Int) (ms.length : Int) = some p := by simpa using q4
        rw [q4'] at r1
        simpa using r1.symm
      subst hpp
      refine ⟨s6, [upd, mp], ?_, ⟨len, hhdr, .inr ⟨p', t, hms, rfl, by simpa using r2, ht, by simpa using r3⟩⟩, rfl, ?_, hcell6,
        rfl, rfl, rfl, rfl, rfl⟩
      · unfold buildProof
        rw [hst]
        unfold proofLoop
        have a1 : ¬ rx + (ms.length : Int) ≤ rx := by omega
        have a2 : ¬ s5.txLimit < s5.size := by show ¬ s.txLimit < 0 + (len : Int); omega
        have hov : (isOverLimit s5.size : M B2 Proof (List (Item Proof)) Bool) s5 = (.ok false, s5) := by
          unfold isOverLimit; rw [if_neg a2]
        simp only [hcell5, if_neg a1, bnd, hov, Bool.false_eq_true, if_false, hbm]
        unfold proofLoop
        simp only [hcell6]
        rw [if_pos (by omega)]
      · intro x hx
        simp only [List.mem_cons, List.not_mem_nil, or_false] at hx
        rcases hx with rfl | rfl
        · simp [upd, mkUpdate]
        · simp [mp, mkProof]
  obtain ⟨s6, items, p1, p2, p3, p4, p5, p6, p7, p8, p9, p10⟩ := hproof
  let rm : RM Proof (List (Item Proof)) := ⟨s6.ids s6.nid, 0, (b2Rcv E).heightForSeq s6.r (s6.cells 0).rx, items, items⟩
  let s7 : B2L := { s6 with rmis := [], size := 0, nid := s6.nid + 1, rms := s6.rms ++ [rm], relayed := s6.relayed ++ [rm] }
  have hsend : sendRelay (b2Rcv E) 0 s6 = (.ok (), s7) := by
    unfold sendRelay
    rw [p3]
    simp only [encodeAll, henc items p4]
    rfl
  have hbuild : buildRelayMessage (b2Rcv E) (n + 2) 0 s2 = (.ok (), s7) := by
    unfold buildRelayMessage
    have hov : ¬ s7.txLimit < s7.size := by show ¬ s6.txLimit < 0; rw [p10]; omega
    have k : ∀ {α β : Type} (m : M B2 Proof (List (Item Proof)) α) (f : α → M B2 Proof (List (Item Proof)) β) (a : α)
        (x y : B2L), m x = (.ok a, y) → bnd m f x = f a y := by
      intro α β m f a x y hm
      unfold bnd
      rw [hm]
    rw [k _ _ _ _ _ hcreate, k _ _ _ _ _ hget]
    have hup : updates (b2Rcv E) (n + 2) 0 [upd] s4 = (.ok (), s7) := by
      unfold updates
      rw [k _ _ _ _ _ hpush]
      have hbls : (updBls 0 upd : M B2 Proof (List (Item Proof)) Unit)
          { s4 with rmis := [[upd]], size := 0 + len, used := s.used ++ [upd] } = (.ok (), s5) := rfl
      rw [k _ _ _ _ _ hbls, k _ _ _ _ _ p1, k _ _ _ _ _ hsend]
      rfl
    rw [k _ _ _ _ _ hup]
    have hover : (isOverLimit s7.size : M B2 Proof (List (Item Proof)) Bool) s7 = (.ok false, s7) := by
      unfold isOverLimit; rw [if_neg hov]
    rw [k _ _ _ _ _ hover]
    rfl
  refine ⟨s7, items, ?_, ?_, ?_, p2, p9⟩
  · rw [hb, hrecv]
    unfold ign
    rw [hbuild]
  · refine ⟨p5, ?_, .inr ⟨new, ?_, Int.le_refl h, Int.le_refl _⟩, fun hf => (by cases hf), .inl rfl, rfl, ?_, ?_⟩
    · show s6.r.seq = _
      rw [p6]
    · show s6.r.rss = _
      rw [p6]
    · show ∀ r ∈ s6.rss, r.height ≤ h
      rw [p7]
      intro r hr
      rcases List.mem_append.mp hr with hr | hr
      · have := i7 r hr; omega
      · simp only [List.mem_singleton] at hr; subst hr; exact Int.le_refl h
    · show 0 ≤ s6.limitSize ∧ s6.limitSize ≤ s6.txLimit
      rw [p9, p10]; exact i8
  · show (s6.relayed ++ [rm]).map (·.items) = _
    rw [p8]
    simp [rm]

theorem dropThrough_sub {α : Type} (p : α → Bool) (w l : List α) (hl : ∀ x ∈ l, x ∈ w) : ∀ x ∈ dropThrough p w l, x ∈ w := by
  induction l with
  | nil => intro x hx; exact hx
  | cons y ys ih =>
    unfold dropThrough
    split
    · intro x hx; exact hl x (by simp [hx])
    · exact ih (fun x hx => hl x (by simp [hx]))

/-- C84: the link with the btp2 receiver, started with any status `(rx, h0)`: for every sequence of blocks in ascending order
that each fit into one message, with destination statuses arriving in between, the run succeeds and the relay sends
exactly one message for every block, in order: the block's update followed by one proof of all its messages, numbered from
where the previous block ended. Missing: blocks that have to be cut and blocks that pile up (C81), and the calls of the
sender's result handler (C30). -/
theorem C84_btp2_delivers_partial (E : B2Env) (hH : ∀ x, E.H x ≠ []) (n : Nat) (ins : List In) (first : Bool) (s : B2L)
    (rx h0 : Int) (hi : Idle first rx h0 s) (hf : Fitting E s.limitSize h0 ins) :
    ∃ s' out, b2Run E (n + 2) first s ins = (.ok (), s') ∧
      s'.relayed.map (·.items) = s.relayed.map (·.items) ++ out ∧ DeliversAll E rx h0 ins out := by
  induction ins generalizing first s rx h0 with
  | nil => exact ⟨s, [], rfl, by simp, rfl⟩
  | cons x ins ih =>
    cases x with
    | block h ms =>
      obtain ⟨f1, f2, ⟨len, f3, f4, f5⟩, f6⟩ := hf
      obtain ⟨s1, items, b1, b2, b3, b4, b5⟩ := b2_block E hH n first s rx h0 h ms hi f1 f2 len f3 f4 f5
      obtain ⟨s', out, c1, c2, c3⟩ := ih false s1 (rx + ms.length) h b2 (by rw [b5]; exact f6)
      refine ⟨s', items :: out, ?_, ?_, ⟨items, out, rfl, b4, c3⟩⟩
      · unfold b2Run
        rw [b1]
        exact c1
      · rw [c2, b3]; simp
    | status b =>
      obtain ⟨i1, i2, i3, i4, i5, i6, i7, i8⟩ := hi
      have hstep : ∃ s1 : B2L, bnd (clearRelay b) (fun _ => clearStatus b) s = (.ok (), s1) ∧ Idle first rx h0 s1 ∧
          s1.relayed = s.relayed ∧ s1.limitSize = s.limitSize := by
        refine ⟨_, rfl, ⟨i1, i2, i3, i4, i5, i6, ?_, i8⟩, rfl, rfl⟩
        intro r hr
        exact i7 r (dropThrough_sub _ s.rss s.rss (fun _ h => h) r hr)
      obtain ⟨s1, b1, b2, b3, b4⟩ := hstep
      obtain ⟨s', out, c1, c2, c3⟩ := ih first s1 rx h0 b2 (by rw [b4]; exact hf)
      refine ⟨s', out, ?_, by rw [c2, b3], c3⟩
      unfold b2Run
      rw [b1]
      exact c1

/-- The messages of an item. -/
def itemMsgs (it : Item Proof) : List Bytes := match it.body with | some p => p.contents | none => []

/-- The messages of a run's blocks. -/
def inMsgs : In → List Bytes
  | .block _ ms => ms
  | .status _ => []

theorem deliversAll_msgs (E : B2Env) (ins : List In) (rx h0 : Int) (out : List (List (Item Proof)))
    (h : DeliversAll E rx h0 ins out) : out.flatten.flatMap itemMsgs = ins.flatMap inMsgs := by
  induction ins generalizing rx h0 out with
  | nil => simp only [DeliversAll] at h; subst h; rfl
  | cons x ins ih =>
    cases x with
    | block hh ms =>
      obtain ⟨items, rest, rfl, hd, hr⟩ := h
      rw [List.flatten_cons, List.flatMap_append, ih _ _ _ hr, List.flatMap_cons]
      congr 1
      obtain ⟨len, _, (⟨h1, h2⟩ | ⟨p, t, _, h2, h3, _, _⟩)⟩ := hd
      · subst h1 h2; rfl
      · subst h2
        simp [itemMsgs, mkUpdate, mkProof, h3, inMsgs]
    | status b => rw [ih _ _ _ h]; rfl

/-- C84, the messages alone: what the relay sends is the concatenation of the blocks' messages, each exactly once, in
order. Missing: as in `C84_btp2_delivers_partial`. -/
theorem C84_btp2_messages_partial (E : B2Env) (hH : ∀ x, E.H x ≠ []) (n : Nat) (ins : List In) (rx h0 : Int)
    (lim tx : Int) (hl : 0 ≤ lim ∧ lim ≤ tx) (ids : Nat → Int) (hf : Fitting E lim h0 ins) :
    ∃ s', b2Run E (n + 2) true (start ⟨[], rx⟩ lim tx (fun _ => ⟨rx, h0⟩) ids) ins = (.ok (), s') ∧
      s'.relayed.flatMap (fun rm => rm.items.flatMap itemMsgs) = ins.flatMap inMsgs := by
  have hi : Idle true rx h0 (start ⟨[], rx⟩ lim tx (fun _ => ⟨rx, h0⟩) ids : B2L) :=
    ⟨rfl, rfl, .inl rfl, fun _ => rfl, .inr rfl, rfl, fun _ h => (by cases h), hl⟩
  obtain ⟨s', out, h1, h2, h3⟩ := C84_btp2_delivers_partial E hH n ins true _ rx h0 hi hf
  refine ⟨s', h1, ?_⟩
  have h4 : s'.relayed.map (·.items) = out := by rw [h2]; rfl
  rw [← deliversAll_msgs E ins rx h0 out h3, ← h4]
  generalize s'.relayed = l
  induction l with
  | nil => rfl
  | cons a l ih => simp [ih]

/-! ### C83 for the btp2 receiver -/

/-- C83 for btp2: when the update of the first pending block is over the limit, the relay goes round for ever: the header is
fetched again and again and nothing is sent, with any fuel. -/
theorem C83_btp2_big_update_spins (E : B2Env) (n c : Nat) (s : B2L) (rs : B2RS) (rest : List B2RS) (mh : Int) (len : Nat)
    (hr : s.r.rss = rs :: rest) (hn : ∀ r ∈ s.r.rss, ¬ (r.height ≤ (s.cells c).height ∧ r.seq ≤ (s.cells c).rx))
    (hh : E.hdr rs.height = some (mh, len)) (hl : s.limitSize < len) (hz : s.size = 0) :
    (buildRelayMessage (b2Rcv E) n c s).1 = .stuck ∧ (buildRelayMessage (b2Rcv E) n c s).2.relayed = s.relayed := by
  have hd : b2Drop (s.cells c) s.r.rss = s.r.rss := dropThrough_none _ _ _ (fun x hx => decide_eq_false (hn x hx))
  have hup : ∀ lim : Int, lim = s.limitSize → (b2Rcv E).update s.r (s.cells c) lim = (.ok [], s.r) := by
    intro lim hlim
    show (b2Updates E (s.cells c) lim (b2Drop (s.cells c) s.r.rss), ({ s.r with rss := b2Drop (s.cells c) s.r.rss } : B2)) = _
    rw [hd, hr]
    unfold b2Updates
    rw [hh]
    simp only [if_pos (show lim < (len : Int) by omega)]
    rw [← hr]
  have hg : ∀ (m : Nat) (t : B2L), t.r = s.r → t.cells = s.cells → t.limitSize = s.limitSize → t.size = 0 →
      getHeader (b2Rcv E) c m t = (.stuck, t) := by
    intro m t e1 e2 e3 e4
    induction m with
    | zero => rfl
    | succ m ih =>
      unfold getHeader
      have hu : (b2Rcv E).update t.r (t.cells c) (t.limitSize - t.size) = (.ok [], t.r) := by
        rw [e1, e2]; exact hup _ (by omega)
      rw [hu]
      simpa using ih
  unfold buildRelayMessage
  by_cases h0 : s.rmis = []
  · rw [if_pos h0]
    simp only [bnd, createItem]
    rw [hg n { s with rmis := s.rmis ++ [[]], size := 0 } rfl rfl rfl rfl]
    exact ⟨rfl, rfl⟩
  · rw [if_neg h0]
    simp only [bnd, ret]
    rw [hg n s rfl rfl rfl hz]
    exact ⟨rfl, rfl⟩

/-! ### Examples -/
section Examples

instance exDec3 : DecidableEq (Kind × Bls × List Bytes) := inferInstance
instance exDec4 : DecidableEq (List (List (Kind × Bls × List Bytes))) := inferInstance

/-- What was relayed: kind, next status and messages of every item. -/
def exSent (x : R Unit × B2L) : R Unit × List (List (Kind × Bls × List Bytes)) :=
  (x.1, x.2.relayed.map (fun rm => rm.items.map (fun it => (it.kind, it.next, itemMsgs it))))

def exStart (lim : Int) : B2L := start ⟨[], 5⟩ lim lim (fun _ => ⟨5, 10⟩) (fun k => k)

-- C84: three blocks with 2, 0 and 3 messages after number 5, with a status in between
def exIns : List In := [.block 11 [[1], [2]], .status ⟨6, 11⟩, .block 13 [], .block 14 [[3], [4], [5]]]
example : exSent (b2Run exE 9 true (exStart 50) exIns) =
    (.ok (), [[(.update, ⟨5, 11⟩, []), (.message, ⟨7, 11⟩, [[1], [2]])], [(.update, ⟨7, 13⟩, [])],
      [(.update, ⟨7, 14⟩, []), (.message, ⟨10, 14⟩, [[3], [4], [5]])]]) := by decide +kernel
example : Idle true 5 10 (exStart 50) :=
  ⟨rfl, rfl, .inl rfl, fun _ => rfl, .inr rfl, rfl, fun _ h => (by cases h), by decide⟩
theorem exFit (ms : List Bytes) (hM : ms.length < 4) :
    ∀ t p (i : Nat), newTree goCfg exE.H (ms.map some) = some t → i < ms.length → t.proof 1 i = some p →
      (exE.plen p : Int) ≤ 50 - (20 : Nat) := by
  intro t p i ht hi hp
  have hc := newTree_contents exE.H (fun x => by simp [exE, exH]) ms (by omega) t ht
  have h1 : 1 ≤ i := by
    unfold Tree.proof at hp
    dsimp only at hp
    split at hp
    · cases hp
    · omega
  obtain ⟨p', r1, r2, _⟩ := C13_range_proof exE.H (fun x => by simp [exE, exH]) ms (by omega) t ht 1 i (by omega) (by omega) (by omega)
  have hp' : t.proof ((1 : Nat) : Int) (i : Int) = some p := by simpa using hp
  rw [hp'] at r1
  simp only [Option.some.injEq] at r1
  subst r1
  show ((10 * p.contents.length : Nat) : Int) ≤ 50 - (20 : Nat)
  rw [r2]
  simp
  omega
example : Fitting exE 50 10 exIns :=
  ⟨by decide, by decide, ⟨20, rfl, by decide, exFit _ (by decide)⟩, by decide, by decide, ⟨20, rfl, by decide, exFit _ (by decide)⟩,
    by decide, by decide, ⟨20, rfl, by decide, exFit _ (by decide)⟩, trivial⟩

-- C81: the same three messages with a limit that makes the receiver cut the block: the first part goes out over the limit
-- together with an empty message, then the crash
example : exSent (b2Run exE 9 true (exStart 35) [.block 11 [[1], [2], [3]]]) =
    (.panic, [[(.update, ⟨5, 11⟩, []), (.message, ⟨7, 11⟩, [[1], [2]])], []]) := by decide +kernel
-- C81: a second block is fetched before the link takes the first
def exAhead : B2L :=
  match b2Monitor exE (exStart 50).r 11 [[1]] with
  | some (r1, _) => match b2Monitor exE r1 12 [[2]] with | some (r2, _) => { exStart 50 with r := r2 } | none => exStart 50
  | none => exStart 50
example : (receive (b2Rcv exE) 9 0 true ⟨11, 6⟩ exAhead).1 = .panic := by decide +kernel
example : (b2Drop (exAhead.cells 0) exAhead.r.rss).map (·.height) = [11, 12] := by decide +kernel
-- C83: a limit below the length of the update
example : exSent (b2Run exE 9 true (exStart 19) [.block 11 [[1]]]) = (.stuck, []) := by decide +kernel

end Examples
end Verif.Receiver
