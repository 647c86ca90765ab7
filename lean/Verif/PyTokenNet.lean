import Verif.PyTokenMsg
/-!
C132: the Python token services of two networks together. What one sends to the other is delivered later, in any order, each once; a message the
receiver refuses with an exception of the protocol comes back as an error; one it cannot handle otherwise is never delivered (it blocks the link).
-/
namespace Verif.PyToken
open Verif Verif.BtpAddress
open Verif.PyBmc (R)
open Verif.PyDb (upd)

/-- What is under way: requests, answers, answers to messages of unknown type, errors. -/
inductive Pkt where
  | req (sn : Int) (u : Nat) (con t : Str) (v : Int)
  | res (sn code : Int)
  | unk (sn : Int)
  | err (sn : Int)
deriving DecidableEq

/-- token_bsh.py:300-322 `_create_message`; `c` is the sender. -/
def jsonOf (c : Cfg) : Pkt → Json
  | .req _ u con t v => .obj [("type".toList, .str sReq), ("from".toList, .str (c.addrText u)), ("to".toList, .str con),
      ("args".toList, .obj [("name".toList, .str t), ("value".toList, .str (hex v))])]
  | .res _ code => .obj [("type".toList, .str sRes), ("code".toList, .int code)]
  | .unk _ => unknownJ
  | .err _ => .null

/-- What an event puts on the way to the network `to`. -/
def pktOf (to : Str) : Ev → Option Pkt
  | .start sn u t v net con => if net = to then some (.req sn u con t v) else none
  | .send net sn (some code) => if net = to then some (.res sn code) else none
  | .send net sn none => if net = to then some (.unk sn) else none
  | _ => none

/-- The packets sent by a call. -/
def emitted (to : Str) (s s' : St) : List Pkt := (s'.log.drop s.log.length).filterMap (pktOf to)

/-- The call of the message center for a packet from the network `src`; `b` are the bytes of the message. -/
def opOf (c : Cfg) (src : Str) (b : Bytes) (r : Sent) : Pkt → Op
  | .req sn _ _ _ _ => .message c.bmc src sn b r
  | .res sn _ => .message c.bmc src sn b r
  | .unk sn => .message c.bmc src sn b r
  | .err sn => .error c.bmc sn

/-- A refused message comes back as an error (bmc.py:548-549, 565-570); a refused error does not. -/
def bounce : Pkt → List Pkt
  | .req sn _ _ _ _ => [.err sn]
  | .res sn _ => [.err sn]
  | .unk sn => [.err sn]
  | .err _ => []

mutual
/-- Calls not made by the message center. -/
def Op.isLocal (c : Cfg) : Op → Bool
  | .message x _ _ _ _ => decide (x ≠ c.bmc)
  | .error x _ => decide (x ≠ c.bmc)
  | .reclaim _ _ _ acts _ => acts.isLocal c
  | _ => true
def Ops.isLocal (c : Cfg) : Ops → Bool
  | .nil => true
  | .cons o t => o.isLocal c && t.isLocal c
end

/-- One side: its state, what it has sent, what is on the way to it. `c` is its contract, `c'` the other one, `you` the other network. -/
inductive Half (c c' : Cfg) (you : Str) : St → List Pkt → List Pkt → St → List Pkt → List Pkt → Prop where
  | loc {s s' : St} {out inn : List Pkt} (o : Op) (hl : o.isLocal c = true) (h : exec c o s = .ok s') :
      Half c c' you s out inn s' (out ++ emitted you s s') inn
  | deliver {s s' : St} {out : List Pkt} (pre post : List Pkt) (p : Pkt) (b : Bytes) (r : Sent) (hb : (∃ sn, p = .err sn) ∨ c.parse b = some (jsonOf c' p))
      (h : exec c (opOf c you b r p) s = .ok s') : Half c c' you s out (pre ++ p :: post) s' (out ++ emitted you s s') (pre ++ post)
  | refuse {s : St} {out : List Pkt} (pre post : List Pkt) (p : Pkt) (b : Bytes) (r : Sent) (e : Int) (hb : (∃ sn, p = .err sn) ∨ c.parse b = some (jsonOf c' p))
      (h : exec c (opOf c you b r p) s = .btp e) : Half c c' you s out (pre ++ p :: post) s (out ++ bounce p) (pre ++ post)
  /-- an error whose handling fails is noted by the message center (bmc.py:557-558) -/
  | drop {s : St} {out : List Pkt} (pre post : List Pkt) (sn : Int) (h : exec c (.error c.bmc sn) s = .other) :
      Half c c' you s out (pre ++ .err sn :: post) s out (pre ++ post)

/-- Both sides: states and what is on the way from a to b and from b to a. -/
structure Net where
  a : St
  b : St
  ab : List Pkt
  ba : List Pkt

inductive Move (ca cb : Cfg) (na nb : Str) : Net → Net → Prop where
  | atA (x : Net) (a' : St) (ab' ba' : List Pkt) (h : Half ca cb nb x.a x.ab x.ba a' ab' ba') : Move ca cb na nb x ⟨a', x.b, ab', ba'⟩
  | atB (x : Net) (b' : St) (ab' ba' : List Pkt) (h : Half cb ca na x.b x.ba x.ab b' ba' ab') : Move ca cb na nb x ⟨x.a, b', ab', ba'⟩

inductive Reach (ca cb : Cfg) (na nb : Str) : Net → Prop where
  | init : Reach ca cb na nb ⟨initSt, initSt, [], []⟩
  | move {x y : Net} (h : Reach ca cb na nb x) (m : Move ca cb na nb x y) : Reach ca cb na nb y

/-! ### Counting -/

def cnt {α : Type} (f : α → Option Int) (l : List α) (sn : Int) : Nat := (l.filterMap f).count sn

theorem cnt_append {α : Type} (f : α → Option Int) (l m : List α) (sn : Int) : cnt f (l ++ m) sn = cnt f l sn + cnt f m sn := by
  simp [cnt, List.filterMap_append]

theorem cnt_cons {α : Type} (f : α → Option Int) (x : α) (l : List α) (sn : Int) : cnt f (x :: l) sn = (if f x = some sn then 1 else 0) + cnt f l sn := by
  unfold cnt
  cases h : f x with
  | none => rw [List.filterMap_cons_none h, if_neg (by simp)]; omega
  | some y =>
    rw [List.filterMap_cons_some h, List.count_cons]
    by_cases hy : y = sn
    · simp [hy]; omega
    · rw [if_neg (by simpa using hy), if_neg (by intro e; exact hy (Option.some.inj e))]; omega

theorem cnt_nil {α : Type} (f : α → Option Int) (sn : Int) : cnt f ([] : List α) sn = 0 := rfl

theorem cnt_mid {α : Type} (f : α → Option Int) (pre : List α) (x : α) (post : List α) (sn : Int) :
    cnt f (pre ++ x :: post) sn = cnt f (pre ++ post) sn + (if f x = some sn then 1 else 0) := by
  rw [cnt_append, cnt_cons, cnt_append]; omega

theorem cnt_pos {α : Type} (f : α → Option Int) (l : List α) (sn : Int) : 0 < cnt f l sn ↔ ∃ x ∈ l, f x = some sn := by
  unfold cnt
  rw [List.count_pos_iff, List.mem_filterMap]

def reqNum : Pkt → Option Int
  | .req sn _ _ _ _ => some sn
  | _ => none
def ansNum : Pkt → Option Int
  | .res sn _ => some sn
  | .err sn => some sn
  | _ => none
def okNum : Pkt → Option Int
  | .res sn code => if code = 0 then some sn else none
  | _ => none
/-- Transfers started to this network. -/
def toNum (net : Str) : Ev → Option Int
  | .start sn _ _ _ n _ => if n = net then some sn else none
  | _ => none
def endNum (e : Ev) : Option Int := (endOf e).map (·.1)
def settleNum : Ev → Option Int
  | .settle _ sn _ _ _ => some sn
  | _ => none
/-- Transfers received from this network. -/
def fromNum (net : Str) : Ev → Option Int
  | .receive n sn _ _ _ => if n = net then some sn else none
  | _ => none

/-- The transfers of a side (log `la`, network `na`) to the other (log `lb`, network `nb`). -/
structure Dir (cb : Cfg) (na nb : Str) (la lb : List Ev) (ab ba : List Pkt) : Prop where
  phase : ∀ sn, cnt (toNum nb) la sn = cnt reqNum ab sn + cnt ansNum ba sn + cnt endNum la sn
  got : ∀ sn, cnt (fromNum na) lb sn = cnt okNum ba sn + cnt settleNum la sn
  reqOk : ∀ sn u con t v, Pkt.req sn u con t v ∈ ab → Ev.start sn u t v nb con ∈ la
  gotOk : ∀ sn u t v, Ev.receive na sn u t v ∈ lb → ∃ u0 con, Ev.start sn u0 t v nb con ∈ la ∧ cb.addrOf con = some u
  noUnk : ∀ sn, Pkt.unk sn ∉ ba

theorem dir_init (cb : Cfg) (na nb : Str) : Dir cb na nb [] [] [] [] := by
  refine ⟨fun _ => rfl, fun _ => rfl, ?_, ?_, ?_⟩
  · intro _ _ _ _ _ h; cases h
  · intro _ _ _ _ h; cases h
  · intro _ h; cases h

/-! ### What calls log -/

/-- Events of calls not made by the message center. -/
def localEv : Ev → Bool
  | .deposit _ _ _ => true
  | .reclaim _ _ _ => true
  | .start _ _ _ _ _ _ => true
  | _ => false

def Adds (P : Ev → Prop) (s s' : St) : Prop := ∃ new, s'.log = s.log ++ new ∧ ∀ e ∈ new, P e

theorem Adds.trans {P : Ev → Prop} {a b d : St} (h1 : Adds P a b) (h2 : Adds P b d) : Adds P a d := by
  obtain ⟨n1, e1, p1⟩ := h1
  obtain ⟨n2, e2, p2⟩ := h2
  refine ⟨n1 ++ n2, by rw [e2, e1, List.append_assoc], ?_⟩
  intro e he
  rcases List.mem_append.1 he with he | he
  · exact p1 e he
  · exact p2 e he

theorem Adds.refl {P : Ev → Prop} (s : St) : Adds P s s := ⟨[], by simp, fun e h => by cases h⟩

variable {c : Cfg}

mutual
theorem exec_local (o : Op) (s s' : St) (hl : o.isLocal c = true) (h : exec c o s = .ok s') : Adds (fun e => localEv e = true) s s' := by
  cases o with
  | register x n a =>
    simp only [exec, register] at h
    split at h
    · cases h
    · split at h
      · cases h
      · cases h; exact ⟨[], by simp, fun e h => by cases h⟩
  | unregister x n =>
    simp only [exec, unregister] at h
    split at h
    · cases h
    · split at h
      · cases h
      · cases h; exact ⟨[], by simp, fun e h => by cases h⟩
  | tokenFallback x f v =>
    obtain ⟨_, t, _, _, _, hlog⟩ := C130_deposit s s' x f v h
    exact ⟨_, hlog, fun e he => by rw [List.mem_singleton] at he; rw [he]; rfl⟩
  | reclaim x t v acts ret =>
    simp only [exec] at h
    simp only [Op.isLocal] at hl
    split at h
    · rename_i s1 h1
      split at h
      · cases h
        refine Adds.trans ?_ (execOps_local acts s1 hl)
        unfold reclaim at h1
        split at h1
        · cases h1
        · split at h1
          · cases h1
          · obtain ⟨⟨a, b⟩, h2, h1⟩ := orOther_ok h1
            simp only at h1
            split at h1
            · cases h1
            · obtain ⟨s2, h3, h1⟩ := orOther_ok h1
              obtain ⟨m, rfl⟩ := updateBalance_eq h3
              cases h1
              exact ⟨_, rfl, fun e he => by rw [List.mem_singleton] at he; rw [he]; rfl⟩
      · cases h
    · rename_i hh; exact absurd h (hh s')
  | transfer x t to v r =>
    simp only [exec] at h
    obtain ⟨a, s1, y, z, _, _, _, h1, h2, h3, h4, rfl⟩ := transfer_ok h
    obtain ⟨m, rfl⟩ := updateBalance_eq h1
    exact ⟨_, rfl, fun e he => by rw [List.mem_singleton] at he; rw [he]; rfl⟩
  | message x src sn b r =>
    simp only [Op.isLocal, decide_eq_true_eq] at hl
    rw [(C131_only_center s x src sn b r hl).1] at h; cases h
  | error x sn =>
    simp only [Op.isLocal, decide_eq_true_eq] at hl
    rw [(C131_only_center s x [] sn [] .ok hl).2] at h; cases h
theorem execOps_local (l : Ops) (s : St) (hl : l.isLocal c = true) : Adds (fun e => localEv e = true) s (execOps c l s) := by
  cases l with
  | nil => simp only [execOps]; exact .refl s
  | cons o t =>
    simp only [Ops.isLocal, Bool.and_eq_true] at hl
    simp only [execOps]
    split
    · rename_i s1 h1; exact (exec_local o s s1 hl.1 h1).trans (execOps_local t s1 hl.2)
    · exact execOps_local t s hl.2
end

theorem emitted_eq {to : Str} {s s' : St} {new : List Ev} (h : s'.log = s.log ++ new) : emitted to s s' = new.filterMap (pktOf to) := by
  unfold emitted; rw [h, List.drop_left]

/-- What the other side's requests do here. -/
theorem request_result {c c' : Cfg} (L : Law c) {you : Str} {s s' : St} {b : Bytes} {r : Sent} {sn : Int} {u : Nat} {con t : Str} {v : Int}
    (hb : c.parse b = some (jsonOf c' (.req sn u con t v))) (h : exec c (opOf c you b r (.req sn u con t v)) s = .ok s') :
    (∃ u', c.addrOf con = some u' ∧ s'.log = s.log ++ [.receive you sn u' t v, .send you sn (some 0)]) ∨ s'.log = s.log ++ [.send you sn (some (-1))] := by
  have ft : field (jsonOf c' (.req sn u con t v)) "type".toList = some (.str sReq) := rfl
  have f1 : field (jsonOf c' (.req sn u con t v)) "to".toList = some (.str con) := rfl
  have f2 : (field (jsonOf c' (.req sn u con t v)) "args".toList).bind (field · "value".toList) = some (.str (hex v)) := rfl
  have f3 : (field (jsonOf c' (.req sn u con t v)) "args".toList).bind (field · "name".toList) = some (.str t) := rfl
  simp only [opOf, exec, onMessage] at h
  rw [if_neg (by simp), hb] at h
  simp only [orOther, ft, if_true] at h
  unfold onRequest at h
  obtain ⟨⟨u', v', t'⟩, h1, h⟩ := orOther_ok h
  unfold readRequest at h1
  rw [f1, f2, f3] at h1
  simp only [int16_hex L, keyOf] at h1
  split at h1
  · rename_i ha hv ht
    cases h1
    cases hv; cases ht
    simp only at h
    split at h
    · obtain ⟨s1, h2, h⟩ := orOther_ok h
      obtain ⟨_, rfl⟩ := sendMsg_ok h
      obtain ⟨m, rfl⟩ := updateBalance_eq h2
      exact .inl ⟨_, ha, by simp⟩
    · obtain ⟨_, rfl⟩ := sendMsg_ok h
      exact .inr rfl
  · cases h1

theorem answer_result {c c' : Cfg} {you : Str} {s s' : St} {b : Bytes} {r : Sent} {sn code : Int} (hb : c.parse b = some (jsonOf c' (.res sn code)))
    (h : exec c (opOf c you b r (.res sn code)) s = .ok s') :
    ∃ u t v, getPending c s sn = some (u, t, v) ∧ s'.log = s.log ++ [if code = 0 then .settle you sn u t v else .refund you sn u t v] := by
  have ft : field (jsonOf c' (.res sn code)) "type".toList = some (.str sRes) := rfl
  have fc : field (jsonOf c' (.res sn code)) "code".toList = some (.int code) := rfl
  simp only [opOf, exec, onMessage] at h
  rw [if_neg (by simp), hb] at h
  simp only [orOther, ft] at h
  rw [if_neg (by decide), if_pos trivial] at h
  unfold onResponse at h
  split at h
  · cases h
  · obtain ⟨⟨u, t, v⟩, h1, h⟩ := orOther_ok h
    obtain ⟨code', h2, h⟩ := orOther_ok h
    rw [fc] at h2; cases h2
    refine ⟨u, t, v, h1, ?_⟩
    by_cases h0 : code = 0
    · rw [if_pos (by simp [isOk, h0])] at h
      obtain ⟨s1, h3, h⟩ := orOther_ok h
      obtain ⟨m, rfl⟩ := updateBalance_eq h3
      cases h; rw [if_pos h0]
    · rw [if_neg (by simp [isOk, h0])] at h
      obtain ⟨s1, h3, h⟩ := orOther_ok h
      obtain ⟨m, rfl⟩ := updateBalance_eq h3
      rw [if_pos (show codeOk c (.int code) = true from rfl)] at h
      cases h; rw [if_neg h0]

theorem error_result {s s' : St} {sn : Int} (h : exec c (.error c.bmc sn) s = .ok s') :
    ∃ u t v, getPending c s sn = some (u, t, v) ∧ s'.log = s.log ++ [.rollback sn u t v] := by
  simp only [exec, onError] at h
  rw [if_neg (by simp)] at h
  split at h
  · cases h
  · obtain ⟨⟨u, t, v⟩, h1, h⟩ := orOther_ok h
    obtain ⟨s1, h2, h⟩ := orOther_ok h
    obtain ⟨m, rfl⟩ := updateBalance_eq h2
    cases h; exact ⟨u, t, v, h1, rfl⟩

/-- Answers and errors for pending transfers are taken. -/
theorem answer_ok {c c' : Cfg} {s : St} (I : Inv c s) {you : Str} {b : Bytes} {r : Sent} {sn code : Int} (hb : c.parse b = some (jsonOf c' (.res sn code)))
    (hp : s.pending sn ≠ none) : ∃ s', exec c (opOf c you b r (.res sn code)) s = .ok s' := by
  have ft : field (jsonOf c' (.res sn code)) "type".toList = some (.str sRes) := rfl
  have fc : field (jsonOf c' (.res sn code)) "code".toList = some (.int code) := rfl
  have hf := I.form sn hp
  obtain ⟨⟨u, t, v⟩, hg⟩ := Option.isSome_iff_exists.1 hf
  simp only [opOf, exec, onMessage]
  rw [if_neg (by simp), hb]
  simp only [orOther, ft]
  rw [if_neg (by decide), if_pos trivial]
  unfold onResponse
  rw [if_neg hp, hg]
  simp only [orOther, fc]
  by_cases h0 : code = 0
  · obtain ⟨s1, h1⟩ := updateBalance_ok (I.bal u t) 0 (-v)
    rw [if_pos (by simp [isOk, h0]), h1]
    exact ⟨_, rfl⟩
  · obtain ⟨s1, h1⟩ := updateBalance_ok (I.bal u t) v (-v)
    rw [if_neg (by simp [isOk, h0]), h1]
    exact ⟨_, rfl⟩

theorem error_ok {s : St} (I : Inv c s) {sn : Int} (hp : s.pending sn ≠ none) : ∃ s', exec c (.error c.bmc sn) s = .ok s' := by
  have hf := I.form sn hp
  obtain ⟨⟨u, t, v⟩, hg⟩ := Option.isSome_iff_exists.1 hf
  obtain ⟨s1, h1⟩ := updateBalance_ok (I.bal u t) v (-v)
  simp only [exec, onError]
  rw [if_neg (by simp), if_neg hp, hg]
  simp only [orOther, h1]
  exact ⟨_, rfl⟩

theorem count_map_fst (f : Ev → Option (Int × Nat × Str × Int)) (l : List Ev) (sn : Int) :
    cnt (fun e => (f e).map (·.1)) l sn = ((l.filterMap f).map (·.1)).count sn := by
  unfold cnt
  rw [List.map_filterMap]

theorem toNum_le (nb : Str) (l : List Ev) (sn : Int) : cnt (toNum nb) l sn ≤ cnt (fun e => (startOf e).map (·.1)) l sn := by
  induction l with
  | nil => exact Nat.le_refl _
  | cons e t ih =>
    rw [cnt_cons, cnt_cons]
    have : (if toNum nb e = some sn then 1 else 0) ≤ (if (startOf e).map (·.1) = some sn then 1 else 0) := by
      cases e with
      | start sn' u t' v n k =>
        by_cases hn : n = nb
        · simp [toNum, startOf, hn]
        · simp [toNum, hn]
      | _ => exact Nat.le_refl _
    omega

theorem starts_le_one {s : St} (I : Inv c s) (nb : Str) (sn : Int) : cnt (toNum nb) s.log sn ≤ 1 := by
  refine Nat.le_trans (toNum_le nb s.log sn) ?_
  rw [count_map_fst]
  have := nums_nodup I
  exact (List.nodup_iff_count).1 this sn

/-- An answer or error on the way is for a pending transfer. -/
theorem pending_of {cb : Cfg} {na nb : Str} {s : St} {lb : List Ev} {ab ba : List Pkt} (I : Inv c s) (D : Dir cb na nb s.log lb ab ba) {sn : Int}
    (h : 0 < cnt ansNum ba sn) : s.pending sn ≠ none := by
  have h1 := D.phase sn
  have h2 := starts_le_one I nb sn
  have h3 : cnt endNum s.log sn = 0 := by omega
  have h4 : 0 < cnt (toNum nb) s.log sn := by omega
  obtain ⟨e, he, hn⟩ := (cnt_pos _ _ _).1 h4
  cases e with
  | start sn' u t v n k =>
    simp only [toNum] at hn
    split at hn
    · injection hn with hn
      subst hn
      have hs : (sn', u, t, v) ∈ starts s := List.mem_filterMap.2 ⟨_, he, rfl⟩
      have hne : (sn', u, t, v) ∉ ends s := by
        intro hm
        obtain ⟨e', he', h'⟩ := List.mem_filterMap.1 hm
        have : 0 < cnt endNum s.log sn' := (cnt_pos _ _ _).2 ⟨e', he', by unfold endNum; rw [h']; rfl⟩
        omega
      have hg := (I.pend sn' u t v).2 ⟨hs, hne⟩
      intro hnone
      unfold getPending at hg
      rw [hnone] at hg; cases hg
    · cases hn
  | _ => cases hn

theorem exec_inv {o : Op} {s s' : St} (L : Law c) (I : Inv c s) (h : exec c o s = .ok s') : Inv c s' :=
  (exec_steps o s s' h).inv (inv_step L) I

/-! ### What a step of one side does -/

/-- New events, packets sent, packet taken. -/
inductive Eff (c : Cfg) (you : Str) (s : St) : List Ev → List Pkt → Option Pkt → Prop where
  | loc (new : List Ev) (h : ∀ e ∈ new, localEv e = true) : Eff c you s new (new.filterMap (pktOf you)) none
  | received (sn : Int) (u : Nat) (con t : Str) (v : Int) (u' : Nat) (h : c.addrOf con = some u') :
      Eff c you s [.receive you sn u' t v, .send you sn (some 0)] [.res sn 0] (some (.req sn u con t v))
  | rejected (sn : Int) (u : Nat) (con t : Str) (v : Int) : Eff c you s [.send you sn (some (-1))] [.res sn (-1)] (some (.req sn u con t v))
  | bounced (sn : Int) (u : Nat) (con t : Str) (v : Int) : Eff c you s [] [.err sn] (some (.req sn u con t v))
  | settled (sn : Int) (u : Nat) (t : Str) (v : Int) (h : getPending c s sn = some (u, t, v)) : Eff c you s [.settle you sn u t v] [] (some (.res sn 0))
  | refunded (sn code : Int) (u : Nat) (t : Str) (v : Int) (h0 : code ≠ 0) (h : getPending c s sn = some (u, t, v)) :
      Eff c you s [.refund you sn u t v] [] (some (.res sn code))
  | rolledBack (sn : Int) (u : Nat) (t : Str) (v : Int) (h : getPending c s sn = some (u, t, v)) : Eff c you s [.rollback sn u t v] [] (some (.err sn))

def Rem (inn : List Pkt) : Option Pkt → List Pkt → Prop
  | none, inn' => inn' = inn
  | some p, inn' => ∃ pre post, inn = pre ++ p :: post ∧ inn' = pre ++ post

theorem half_eff {c c' : Cfg} {you me : Str} (L : Law c) {s s' : St} {out inn out' inn' : List Pkt} (I : Inv c s) {cb : Cfg} {lb : List Ev}
    (D : Dir cb me you s.log lb out inn) (h : Half c c' you s out inn s' out' inn') :
    Inv c s' ∧ ∃ new more gone, Eff c you s new more gone ∧ s'.log = s.log ++ new ∧ out' = out ++ more ∧ Rem inn gone inn' := by
  cases h with
  | loc o hl h =>
    obtain ⟨new, hn, hp⟩ := exec_local o s s' hl h
    exact ⟨exec_inv L I h, new, _, none, .loc new hp, hn, by rw [emitted_eq hn], rfl⟩
  | deliver pre post p b r hb h =>
    refine ⟨exec_inv L I h, ?_⟩
    cases p with
    | req sn u con t v =>
      rcases hb with ⟨_, hb⟩ | hb
      · cases hb
      rcases request_result L hb h with ⟨u', hu, hl⟩ | hl
      · exact ⟨_, _, _, .received sn u con t v u' hu, hl, by rw [emitted_eq hl]; simp [pktOf, List.filterMap_cons], pre, post, rfl, rfl⟩
      · exact ⟨_, _, _, .rejected sn u con t v, hl, by rw [emitted_eq hl]; simp [pktOf], pre, post, rfl, rfl⟩
    | res sn code =>
      rcases hb with ⟨_, hb⟩ | hb
      · cases hb
      obtain ⟨u, t, v, hg, hl⟩ := answer_result hb h
      by_cases h0 : code = 0
      · subst h0
        rw [if_pos rfl] at hl
        exact ⟨_, _, _, .settled sn u t v hg, hl, by rw [emitted_eq hl]; simp [pktOf], pre, post, rfl, rfl⟩
      · rw [if_neg h0] at hl
        exact ⟨_, _, _, .refunded sn code u t v h0 hg, hl, by rw [emitted_eq hl]; simp [pktOf], pre, post, rfl, rfl⟩
    | unk sn => exact absurd (by simp) (D.noUnk sn)
    | err sn =>
      obtain ⟨u, t, v, hg, hl⟩ := error_result h
      exact ⟨_, _, _, .rolledBack sn u t v hg, hl, by rw [emitted_eq hl]; simp [pktOf], pre, post, rfl, rfl⟩
  | refuse pre post p b r e hb h =>
    refine ⟨I, ?_⟩
    cases p with
    | req sn u con t v => exact ⟨_, _, _, .bounced sn u con t v, by simp, rfl, pre, post, rfl, rfl⟩
    | res sn code =>
      rcases hb with ⟨_, hb⟩ | hb
      · cases hb
      have hp := pending_of I D (sn := sn) (by rw [cnt_mid]; simp [ansNum])
      obtain ⟨x, hx⟩ := answer_ok I (you := you) (r := r) hb hp
      rw [hx] at h; cases h
    | unk sn => exact absurd (by simp) (D.noUnk sn)
    | err sn =>
      have hp := pending_of I D (sn := sn) (by rw [cnt_mid]; simp [ansNum])
      obtain ⟨x, hx⟩ := error_ok I hp
      simp only [opOf] at h
      rw [hx] at h; cases h
  | drop pre post sn h =>
    have hp := pending_of I D (sn := sn) (by rw [cnt_mid]; simp [ansNum])
    obtain ⟨x, hx⟩ := error_ok I hp
    rw [hx] at h; cases h

/-! ### Steps keep the invariant -/

theorem cnt_zero {α : Type} (f : α → Option Int) (l : List α) (sn : Int) (h : ∀ x ∈ l, f x = none) : cnt f l sn = 0 := by
  rcases Nat.eq_zero_or_pos (cnt f l sn) with h0 | h0
  · exact h0
  · obtain ⟨x, hx, he⟩ := (cnt_pos _ _ _).1 h0
    rw [h x hx] at he; cases he

theorem cnt_loc (nb : Str) (sn : Int) : ∀ l : List Ev, cnt reqNum (l.filterMap (pktOf nb)) sn = cnt (toNum nb) l sn
  | [] => rfl
  | e :: t => by
    have ih := cnt_loc nb sn t
    rw [cnt_cons]
    cases e with
    | start sn' u t' v n k =>
      by_cases hn : n = nb
      · rw [List.filterMap_cons_some (b := .req sn' u k t' v) (by simp [pktOf, hn]), cnt_cons, ih]
        simp [toNum, hn, reqNum]
      · rw [List.filterMap_cons_none (by simp [pktOf, hn]), ih]
        simp [toNum, hn]
    | send n k m =>
      by_cases hn : n = nb
      · cases m with
        | none =>
          rw [List.filterMap_cons_some (b := .unk k) (by simp [pktOf, hn]), cnt_cons, ih]
          simp [toNum, reqNum]
        | some m =>
          rw [List.filterMap_cons_some (b := .res k m) (by simp [pktOf, hn]), cnt_cons, ih]
          simp [toNum, reqNum]
      · rw [List.filterMap_cons_none (by cases m <;> simp [pktOf, hn]), ih]
        simp [toNum]
    | _ => rw [List.filterMap_cons_none rfl, ih]; simp [toNum]

theorem loc_more {nb : Str} {new : List Ev} (h : ∀ e ∈ new, localEv e = true) {p : Pkt} (hp : p ∈ new.filterMap (pktOf nb)) :
    ∃ sn u con t v, p = .req sn u con t v ∧ Ev.start sn u t v nb con ∈ new := by
  obtain ⟨e, he, hq⟩ := List.mem_filterMap.1 hp
  clear hp
  have hl := h e he
  cases e with
  | start sn u t v n k =>
    simp only [pktOf] at hq
    split at hq
    · rename_i hn
      subst hn
      injection hq with hq
      exact ⟨sn, u, k, t, v, hq.symm, he⟩
    · cases hq
  | send n k m => cases hl
  | _ => cases hq

theorem rem_cnt {inn inn' : List Pkt} {p : Pkt} (h : Rem inn (some p) inn') (f : Pkt → Option Int) (sn : Int) :
    cnt f inn sn = cnt f inn' sn + (if f p = some sn then 1 else 0) := by
  obtain ⟨pre, post, rfl, rfl⟩ := h
  exact cnt_mid f pre p post sn

theorem rem_sub {inn inn' : List Pkt} {g : Option Pkt} (h : Rem inn g inn') {p : Pkt} (hp : p ∈ inn') : p ∈ inn := by
  cases g with
  | none => rw [show inn' = inn from h] at hp; exact hp
  | some q =>
    obtain ⟨pre, post, rfl, rfl⟩ := h
    rcases List.mem_append.1 hp with hp | hp
    · exact List.mem_append_left _ hp
    · exact List.mem_append_right _ (List.mem_cons_of_mem _ hp)

theorem rem_mem {inn inn' : List Pkt} {p : Pkt} (h : Rem inn (some p) inn') : p ∈ inn := by
  obtain ⟨pre, post, rfl, rfl⟩ := h; simp

/-- A step of the side that starts the transfers. -/
theorem dir_me {c cb : Cfg} {me you : Str} {s : St} {new lb : List Ev} {out inn more inn' : List Pkt} {gone : Option Pkt}
    (D : Dir cb me you s.log lb out inn) (e : Eff c you s new more gone) (hr : Rem inn gone inn') : Dir cb me you (s.log ++ new) lb (out ++ more) inn' := by
  have hreq : ∀ sn u con t v, Pkt.req sn u con t v ∈ more → Ev.start sn u t v you con ∈ new := by
    intro sn u con t v hm
    cases e with
    | loc _ h =>
      obtain ⟨_, _, _, _, _, he, hs⟩ := loc_more h hm
      cases he; exact hs
    | _ => simp at hm
  refine ⟨?_, ?_, ?_, ?_, fun sn h => D.noUnk sn (rem_sub hr h)⟩
  · intro sn
    have h0 := D.phase sn
    rw [cnt_append, cnt_append, cnt_append]
    cases e with
    | loc _ h =>
      rw [show inn' = inn from hr, cnt_loc]
      have : cnt endNum new sn = 0 := cnt_zero _ _ _ (fun x hx => by have := h x hx; cases x <;> first | rfl | cases this)
      omega
    | received sn' u con t v u' h => have := rem_cnt hr ansNum sn; simp [cnt_cons, cnt_nil, toNum, reqNum, ansNum, endNum, endOf] at this ⊢; omega
    | rejected sn' u con t v => have := rem_cnt hr ansNum sn; simp [cnt_cons, cnt_nil, toNum, reqNum, ansNum, endNum, endOf] at this ⊢; omega
    | bounced sn' u con t v => have := rem_cnt hr ansNum sn; simp [cnt_cons, cnt_nil, reqNum, ansNum] at this ⊢; omega
    | settled sn' u t v h => have := rem_cnt hr ansNum sn; simp [cnt_cons, cnt_nil, toNum, ansNum, endNum, endOf] at this ⊢; omega
    | refunded sn' code u t v h0 h => have := rem_cnt hr ansNum sn; simp [cnt_cons, cnt_nil, toNum, ansNum, endNum, endOf] at this ⊢; omega
    | rolledBack sn' u t v h => have := rem_cnt hr ansNum sn; simp [cnt_cons, cnt_nil, toNum, ansNum, endNum, endOf] at this ⊢; omega
  · intro sn
    have h0 := D.got sn
    rw [cnt_append]
    cases e with
    | loc _ h =>
      rw [show inn' = inn from hr]
      have : cnt settleNum new sn = 0 := cnt_zero _ _ _ (fun x hx => by have := h x hx; cases x <;> first | rfl | cases this)
      omega
    | received sn' u con t v u' h => have := rem_cnt hr okNum sn; simp [cnt_cons, cnt_nil, okNum, settleNum] at this ⊢; omega
    | rejected sn' u con t v => have := rem_cnt hr okNum sn; simp [cnt_cons, cnt_nil, okNum, settleNum] at this ⊢; omega
    | bounced sn' u con t v => have := rem_cnt hr okNum sn; simp [cnt_nil, okNum] at this ⊢; omega
    | settled sn' u t v h => have := rem_cnt hr okNum sn; simp [cnt_cons, cnt_nil, okNum, settleNum] at this ⊢; omega
    | refunded sn' code u t v h1 h => have := rem_cnt hr okNum sn; simp [cnt_cons, cnt_nil, okNum, settleNum, h1] at this ⊢; omega
    | rolledBack sn' u t v h => have := rem_cnt hr okNum sn; simp [cnt_cons, cnt_nil, okNum, settleNum] at this ⊢; omega
  · intro sn u con t v hm
    rcases List.mem_append.1 hm with hm | hm
    · exact List.mem_append_left _ (D.reqOk _ _ _ _ _ hm)
    · exact List.mem_append_right _ (hreq _ _ _ _ _ hm)
  · intro sn u t v hm
    obtain ⟨u0, con, h1, h2⟩ := D.gotOk sn u t v hm
    exact ⟨u0, con, List.mem_append_left _ h1, h2⟩

/-- A step of the side that receives them. -/
theorem dir_you {c : Cfg} {na nb : Str} {s : St} {new la : List Ev} {ab ba more ab' : List Pkt} {gone : Option Pkt}
    (D : Dir c na nb la s.log ab ba) (e : Eff c na s new more gone) (hr : Rem ab gone ab') : Dir c na nb la (s.log ++ new) ab' (ba ++ more) := by
  refine ⟨?_, ?_, fun sn u con t v h => D.reqOk sn u con t v (rem_sub hr h), ?_, ?_⟩
  · intro sn
    have h0 := D.phase sn
    rw [cnt_append]
    cases e with
    | loc _ h =>
      rw [show ab' = ab from hr]
      have : cnt ansNum (new.filterMap (pktOf na)) sn = 0 := cnt_zero _ _ _ (fun x hx => by
        obtain ⟨_, _, _, _, _, rfl, _⟩ := loc_more h hx; rfl)
      omega
    | received sn' u con t v u' h => have := rem_cnt hr reqNum sn; simp [cnt_cons, cnt_nil, reqNum, ansNum] at this ⊢; omega
    | rejected sn' u con t v => have := rem_cnt hr reqNum sn; simp [cnt_cons, cnt_nil, reqNum, ansNum] at this ⊢; omega
    | bounced sn' u con t v => have := rem_cnt hr reqNum sn; simp [cnt_cons, cnt_nil, reqNum, ansNum] at this ⊢; omega
    | settled sn' u t v h => have := rem_cnt hr reqNum sn; simp [cnt_nil, reqNum] at this ⊢; omega
    | refunded sn' code u t v h1 h => have := rem_cnt hr reqNum sn; simp [cnt_nil, reqNum] at this ⊢; omega
    | rolledBack sn' u t v h => have := rem_cnt hr reqNum sn; simp [cnt_nil, reqNum] at this ⊢; omega
  · intro sn
    have h0 := D.got sn
    rw [cnt_append, cnt_append]
    cases e with
    | loc _ h =>
      have h1 : cnt okNum (new.filterMap (pktOf na)) sn = 0 := cnt_zero _ _ _ (fun x hx => by
        obtain ⟨_, _, _, _, _, rfl, _⟩ := loc_more h hx; rfl)
      have h2 : cnt (fromNum na) new sn = 0 := cnt_zero _ _ _ (fun x hx => by have := h x hx; cases x <;> first | rfl | cases this)
      omega
    | received sn' u con t v u' h => simp [cnt_cons, cnt_nil, fromNum, okNum]; omega
    | rejected sn' u con t v => simp [cnt_cons, cnt_nil, fromNum, okNum]; omega
    | bounced sn' u con t v => simp [cnt_cons, cnt_nil, okNum]; omega
    | settled sn' u t v h => simp [cnt_cons, cnt_nil, fromNum]; omega
    | refunded sn' code u t v h1 h => simp [cnt_cons, cnt_nil, fromNum]; omega
    | rolledBack sn' u t v h => simp [cnt_cons, cnt_nil, fromNum]; omega
  · intro sn u t v hm
    rcases List.mem_append.1 hm with hm | hm
    · exact D.gotOk sn u t v hm
    · cases e with
      | loc _ h => exact absurd (h _ hm) (by simp [localEv])
      | received sn' u0 con t' v' u' h =>
        simp at hm
        obtain ⟨rfl, rfl, rfl, rfl⟩ := hm
        exact ⟨u0, con, D.reqOk _ _ _ _ _ (rem_mem hr), h⟩
      | _ => simp at hm
  · intro sn hm
    rcases List.mem_append.1 hm with hm | hm
    · exact D.noUnk sn hm
    · cases e with
      | loc _ h => obtain ⟨_, _, _, _, _, he, _⟩ := loc_more h hm; cases he
      | _ => simp at hm

/-! ### Values -/

/-- The value of the started transfer `sn` if it is of token `t`. -/
def valOf (l : List Ev) (t : Str) (sn : Int) : Int :=
  match (l.filterMap startOf).find? (fun e => decide (e.1 = sn)) with
  | some (_, _, t', v) => if t' = t then v else 0
  | none => 0

/-- What the received transfers from a network add up to. -/
def recvSum (net t : Str) (l : List Ev) : Int := total (fun e => match e with
  | .receive n _ _ t' v => if n = net ∧ t' = t then v else 0
  | _ => 0) l

/-- What the settled transfers add up to. -/
def settleSum (t : Str) (l : List Ev) : Int := total (fun e => match e with
  | .settle _ _ _ t' v => if t' = t then v else 0
  | _ => 0) l

/-- What the transfers with a good answer under way add up to; `l` is the log of the side that started them. -/
def flight (l : List Ev) (t : Str) (q : List Pkt) : Int := (q.map fun p => match okNum p with
  | some sn => valOf l t sn
  | none => 0).sum

theorem total_app (f : Ev → Int) (l m : List Ev) : total f (l ++ m) = total f l + total f m := by simp [total]

theorem total_zero (f : Ev → Int) (l : List Ev) (h : ∀ e ∈ l, f e = 0) : total f l = 0 := by
  unfold total
  induction l with
  | nil => rfl
  | cons a b ih => rw [List.map_cons, List.sum_cons, h a (by simp), ih (fun e he => h e (List.mem_cons_of_mem _ he))]; rfl

theorem valOf_start {s : St} (I : Inv c s) {sn : Int} {u : Nat} {t' : Str} {v : Int} (h : (sn, u, t', v) ∈ starts s) (t : Str) :
    valOf s.log t sn = if t' = t then v else 0 := by
  unfold valOf
  cases hf : (s.log.filterMap startOf).find? (fun e => decide (e.1 = sn)) with
  | none =>
    have := List.find?_eq_none.1 hf _ h
    simp at this
  | some e =>
    have h1 := List.mem_of_find?_eq_some hf
    have h2 : e.1 = sn := by simpa using List.find?_some hf
    have := starts_unique I h1 h h2
    rw [this]

theorem valOf_append (l new : List Ev) (t : Str) (sn : Int) (h : ∃ e ∈ l.filterMap startOf, e.1 = sn) : valOf (l ++ new) t sn = valOf l t sn := by
  unfold valOf
  rw [List.filterMap_append, List.find?_append]
  cases hf : (l.filterMap startOf).find? (fun e => decide (e.1 = sn)) with
  | none =>
    obtain ⟨e, he, hs⟩ := h
    have := List.find?_eq_none.1 hf _ he
    simp [hs] at this
  | some e => rfl

theorem flight_append (l : List Ev) (t : Str) (q r : List Pkt) : flight l t (q ++ r) = flight l t q + flight l t r := by simp [flight]

theorem flight_cons (l : List Ev) (t : Str) (p : Pkt) (q : List Pkt) : flight l t (p :: q) = (match okNum p with
  | some sn => valOf l t sn
  | none => 0) + flight l t q := by simp [flight]

theorem flight_nil (l : List Ev) (t : Str) : flight l t [] = 0 := rfl

theorem flight_zero (l : List Ev) (t : Str) (q : List Pkt) (h : ∀ p ∈ q, okNum p = none) : flight l t q = 0 := by
  induction q with
  | nil => rfl
  | cons p q ih => rw [flight_cons, h p (by simp), ih (fun x hx => h x (List.mem_cons_of_mem _ hx))]; rfl

theorem flight_rem {inn inn' : List Pkt} {p : Pkt} (h : Rem inn (some p) inn') (l : List Ev) (t : Str) :
    flight l t inn = flight l t inn' + (match okNum p with
      | some sn => valOf l t sn
      | none => 0) := by
  obtain ⟨pre, post, rfl, rfl⟩ := h
  rw [flight_append, flight_append, flight_cons]; omega

theorem flight_grow {l new : List Ev} {t : Str} {q : List Pkt} (h : ∀ sn, 0 < cnt okNum q sn → ∃ e ∈ l.filterMap startOf, e.1 = sn) :
    flight (l ++ new) t q = flight l t q := by
  induction q with
  | nil => rfl
  | cons p q ih =>
    rw [flight_cons, flight_cons, ih (fun sn hs => h sn (by rw [cnt_cons]; omega))]
    cases hp : okNum p with
    | none => rfl
    | some sn => simp only [valOf_append l new t sn (h sn (by rw [cnt_cons, if_pos hp]; omega))]

theorem ok_started {cb : Cfg} {na nb : Str} {la lb : List Ev} {ab ba : List Pkt} (D : Dir cb na nb la lb ab ba) {sn : Int} (h : 0 < cnt okNum ba sn) :
    ∃ e ∈ la.filterMap startOf, e.1 = sn := by
  obtain ⟨p, hp, ho⟩ := (cnt_pos _ _ _).1 h
  have ha : ansNum p = some sn := by
    cases p with
    | res k code => simp only [okNum] at ho; split at ho
                    · exact ho
                    · cases ho
    | _ => cases ho
  have h1 := (cnt_pos ansNum ba sn).2 ⟨p, hp, ha⟩
  have h2 : 0 < cnt (toNum nb) la sn := by have := D.phase sn; omega
  obtain ⟨e, he, hn⟩ := (cnt_pos _ _ _).1 h2
  cases e with
  | start k u t v n con =>
    simp only [toNum] at hn
    split at hn
    · injection hn with hn
      exact ⟨(k, u, t, v), List.mem_filterMap.2 ⟨_, he, rfl⟩, hn⟩
    · cases hn
  | _ => cases hn

/-- What b has credited of a's transfers is what a has released plus what good answers under way will release. -/
def Val (na : Str) (la lb : List Ev) (ba : List Pkt) : Prop := ∀ t, recvSum na t lb = settleSum t la + flight la t ba

theorem val_me {c cb : Cfg} {me you : Str} {s : St} {new lb : List Ev} {out inn more inn' : List Pkt} {gone : Option Pkt} (I : Inv c s)
    (D : Dir cb me you s.log lb out inn) (V : Val me s.log lb inn) (e : Eff c you s new more gone) (hr : Rem inn gone inn') : Val me (s.log ++ new) lb inn' := by
  intro t
  have h0 := V t
  have hg : flight (s.log ++ new) t inn' = flight s.log t inn' := flight_grow (fun sn hs => by
    refine ok_started D (sn := sn) ?_
    obtain ⟨p, hp, ho⟩ := (cnt_pos _ _ _).1 hs
    exact (cnt_pos _ _ _).2 ⟨p, rem_sub hr hp, ho⟩)
  rw [hg]
  unfold settleSum at h0 ⊢
  rw [total_app]
  cases e with
  | loc _ h =>
    rw [show inn' = inn from hr, total_zero (fun e => match e with
      | .settle _ _ _ t' v => if t' = t then v else 0
      | _ => 0) new (fun x hx => by have := h x hx; cases x <;> first | rfl | cases this)]
    omega
  | received sn' u con t' v u' h => have := flight_rem hr s.log t; simp [total, okNum] at this h0 ⊢; omega
  | rejected sn' u con t' v => have := flight_rem hr s.log t; simp [total, okNum] at this h0 ⊢; omega
  | bounced sn' u con t' v => have := flight_rem hr s.log t; simp [total, okNum] at this h0 ⊢; omega
  | settled sn' u t' v h =>
    have h1 := flight_rem hr s.log t
    have h2 := valOf_start I ((I.pend sn' u t' v).1 h).1 t
    simp only [okNum, if_true, h2] at h1
    simp only [total, List.map_cons, List.map_nil, List.sum_cons, List.sum_nil]
    simp only [total] at h0
    omega
  | refunded sn' code u t' v h1 h => have := flight_rem hr s.log t; simp [total, okNum, h1] at this h0 ⊢; omega
  | rolledBack sn' u t' v h => have := flight_rem hr s.log t; simp [total, okNum] at this h0 ⊢; omega

theorem val_you {ca c : Cfg} {na nb : Str} {a s : St} {new : List Ev} {ab ba more ab' : List Pkt} {gone : Option Pkt} (I : Inv ca a)
    (D : Dir c na nb a.log s.log ab ba) (V : Val na a.log s.log ba) (e : Eff c na s new more gone) (hr : Rem ab gone ab') :
    Val na a.log (s.log ++ new) (ba ++ more) := by
  intro t
  have h0 := V t
  rw [flight_append]
  unfold recvSum at h0 ⊢
  rw [total_app]
  cases e with
  | loc _ h =>
    rw [flight_zero a.log t (new.filterMap (pktOf na)) (fun p hp => by obtain ⟨_, _, _, _, _, rfl, _⟩ := loc_more h hp; rfl), total_zero (fun e => match e with
      | .receive n _ _ t' v => if n = na ∧ t' = t then v else 0
      | _ => 0) new (fun x hx => by have := h x hx; cases x <;> first | rfl | cases this)]
    omega
  | received sn' u con t' v u' h =>
    have hs := D.reqOk _ _ _ _ _ (rem_mem hr)
    have h2 := valOf_start I (List.mem_filterMap.2 ⟨_, hs, rfl⟩ : (sn', u, t', v) ∈ starts a) t
    simp only [total, flight_cons, flight_nil, okNum, if_true, h2, List.map_cons, List.map_nil, List.sum_cons, List.sum_nil, true_and]
    simp only [total] at h0
    omega
  | rejected sn' u con t' v => simp [total, flight_cons, flight_nil, okNum] at h0 ⊢; omega
  | bounced sn' u con t' v => simp [total, flight_cons, flight_nil, okNum] at h0 ⊢; omega
  | settled sn' u t' v h => simp [total, flight_nil] at h0 ⊢; omega
  | refunded sn' code u t' v h1 h => simp [total, flight_nil] at h0 ⊢; omega
  | rolledBack sn' u t' v h => simp [total, flight_nil] at h0 ⊢; omega

/-! ### The two networks -/

structure NInv (ca cb : Cfg) (na nb : Str) (x : Net) : Prop where
  ia : Inv ca x.a
  ib : Inv cb x.b
  dab : Dir cb na nb x.a.log x.b.log x.ab x.ba
  dba : Dir ca nb na x.b.log x.a.log x.ba x.ab
  vab : Val na x.a.log x.b.log x.ba
  vba : Val nb x.b.log x.a.log x.ab

variable {ca cb : Cfg} {na nb : Str}

theorem ninv_move (LA : Law ca) (LB : Law cb) {x y : Net} (N : NInv ca cb na nb x) (m : Move ca cb na nb x y) : NInv ca cb na nb y := by
  cases m with
  | atA a' ab' ba' h =>
    obtain ⟨hi, new, more, gone, he, hl, ho, hr⟩ := half_eff LA N.ia N.dab h
    subst ho
    exact ⟨hi, N.ib, by rw [hl]; exact dir_me N.dab he hr, by rw [hl]; exact dir_you N.dba he hr,
      by rw [hl]; exact val_me N.ia N.dab N.vab he hr, by rw [hl]; exact val_you N.ib N.dba N.vba he hr⟩
  | atB b' ab' ba' h =>
    obtain ⟨hi, new, more, gone, he, hl, ho, hr⟩ := half_eff LB N.ib N.dba h
    subst ho
    exact ⟨N.ia, hi, by rw [hl]; exact dir_you N.dab he hr, by rw [hl]; exact dir_me N.dba he hr,
      by rw [hl]; exact val_you N.ia N.dab N.vab he hr, by rw [hl]; exact val_me N.ib N.dba N.vba he hr⟩

theorem ninv (LA : Law ca) (LB : Law cb) {x : Net} (h : Reach ca cb na nb x) : NInv ca cb na nb x := by
  induction h with
  | init =>
    refine ⟨inv_init, inv_init, dir_init _ _ _, dir_init _ _ _, ?_, ?_⟩ <;> · intro t; rfl
  | move _ m ih => exact ninv_move LA LB ih m

theorem Reach.swap {x : Net} (h : Reach ca cb na nb x) : Reach cb ca nb na ⟨x.b, x.a, x.ba, x.ab⟩ := by
  induction h with
  | init => exact .init
  | move _ m ih =>
    cases m with
    | atA a' ab' ba' h => exact .move ih (.atB ⟨_, _, _, _⟩ a' ba' ab' h)
    | atB b' ab' ba' h => exact .move ih (.atA ⟨_, _, _, _⟩ b' ba' ab' h)

theorem started_here {nb : Str} {l : List Ev} {sn : Int} (h : 0 < cnt (toNum nb) l sn) : ∃ u t v con, Ev.start sn u t v nb con ∈ l := by
  obtain ⟨e, he, hn⟩ := (cnt_pos _ _ _).1 h
  cases e with
  | start k u t v n con =>
    simp only [toNum] at hn
    split at hn
    · rename_i hk
      injection hn with hn
      subst hn; subst hk
      exact ⟨u, t, v, con, he⟩
    · cases hn
  | _ => cases hn

theorem settle_le_end (l : List Ev) (sn : Int) : cnt settleNum l sn ≤ cnt endNum l sn := by
  induction l with
  | nil => exact Nat.le_refl _
  | cons e t ih =>
    rw [cnt_cons, cnt_cons]
    cases e <;> simp [settleNum, endNum, endOf] <;> first | exact ih | omega

theorem ok_le_ans (l : List Pkt) (sn : Int) : cnt okNum l sn ≤ cnt ansNum l sn := by
  induction l with
  | nil => exact Nat.le_refl _
  | cons e t ih =>
    rw [cnt_cons, cnt_cons]
    cases e with
    | res k code =>
      by_cases h0 : code = 0
      · simp [okNum, ansNum, h0]; exact ih
      · simp [okNum, ansNum, h0]; split <;> omega
    | _ => simp [okNum, ansNum] <;> omega

/-- C132: whatever the users of both networks do and in whatever order the packets arrive, a transfer number is received at most once on the other
network, only for a transfer started to it, and with its token, value and receiver. -/
theorem C132_received_once (LA : Law ca) (LB : Law cb) {x : Net} (h : Reach ca cb na nb x) (sn : Int) :
    cnt (fromNum na) x.b.log sn ≤ 1 ∧
    ∀ u t v, Ev.receive na sn u t v ∈ x.b.log → ∃ u0 con, Ev.start sn u0 t v nb con ∈ x.a.log ∧ cb.addrOf con = some u := by
  have N := ninv LA LB h
  refine ⟨?_, N.dab.gotOk sn⟩
  have h1 := N.dab.phase sn
  have h2 := N.dab.got sn
  have h3 := starts_le_one N.ia nb sn
  have h4 := settle_le_end x.a.log sn
  have h5 := ok_le_ans x.ba sn
  omega

/-- C132: a transfer is not both received on the other network and given back. -/
theorem C132_not_both (LA : Law ca) (LB : Law cb) {x : Net} (h : Reach ca cb na nb x) (sn : Int) (u : Nat) (t : Str) (v : Int)
    (hr : Ev.receive na sn u t v ∈ x.b.log) :
    (∀ src u' t' v', Ev.refund src sn u' t' v' ∉ x.a.log) ∧ ∀ u' t' v', Ev.rollback sn u' t' v' ∉ x.a.log := by
  have N := ninv LA LB h
  have h1 := N.dab.phase sn
  have h2 := N.dab.got sn
  have h3 := starts_le_one N.ia nb sn
  have h5 := ok_le_ans x.ba sn
  have h6 : 0 < cnt (fromNum na) x.b.log sn := (cnt_pos _ _ _).2 ⟨_, hr, by simp [fromNum]⟩
  have key : ∀ e ∈ x.a.log, endNum e = some sn → settleNum e = none → False := by
    intro e he h7 h8
    have h9 : cnt settleNum x.a.log sn + 1 ≤ cnt endNum x.a.log sn := by
      obtain ⟨pre, post, hs⟩ := List.append_of_mem he
      rw [hs, cnt_mid, cnt_mid, h7, h8]
      have := settle_le_end (pre ++ post) sn
      simp; omega
    omega
  exact ⟨fun src u' t' v' hm => key _ hm rfl rfl, fun u' t' v' hm => key _ hm rfl rfl⟩

/-- C132: a settled transfer was received on the other network, with its token and value. -/
theorem C132_settled_received (LA : Law ca) (LB : Law cb) {x : Net} (h : Reach ca cb na nb x) (src : Str) (sn : Int) (u : Nat) (t : Str) (v : Int)
    (hs : Ev.settle src sn u t v ∈ x.a.log) : ∃ u', Ev.receive na sn u' t v ∈ x.b.log := by
  have N := ninv LA LB h
  have h2 := N.dab.got sn
  have h6 : 0 < cnt settleNum x.a.log sn := (cnt_pos _ _ _).2 ⟨_, hs, rfl⟩
  obtain ⟨e, he, hn⟩ := (cnt_pos (fromNum na) x.b.log sn).1 (by omega)
  cases e with
  | receive n k u' t' v' =>
    simp only [fromNum] at hn
    split at hn
    · rename_i hk
      injection hn with hn
      subst hn; subst hk
      obtain ⟨u0, con, h7, _⟩ := N.dab.gotOk _ _ _ _ he
      have h8 : (k, u0, t', v') ∈ starts x.a := List.mem_filterMap.2 ⟨_, h7, rfl⟩
      have h9 : (k, u, t, v) ∈ starts x.a := N.ia.sub _ (List.mem_filterMap.2 ⟨_, hs, rfl⟩)
      have := starts_unique N.ia h8 h9 rfl
      cases this
      exact ⟨u', he⟩
    · cases hn
  | _ => cases hn

/-- C132: a transfer that nothing under way concerns any more is settled and received, or was given back and not received. -/
theorem C132_resolved (LA : Law ca) (LB : Law cb) {x : Net} (h : Reach ca cb na nb x) (sn : Int) (u : Nat) (t : Str) (v : Int) (con : Str)
    (hs : Ev.start sn u t v nb con ∈ x.a.log) (hq : cnt reqNum x.ab sn = 0) (ha : cnt ansNum x.ba sn = 0) :
    (∃ src u', Ev.settle src sn u t v ∈ x.a.log ∧ Ev.receive na sn u' t v ∈ x.b.log) ∨
    (((∃ src, Ev.refund src sn u t v ∈ x.a.log) ∨ Ev.rollback sn u t v ∈ x.a.log) ∧ ∀ u' t' v', Ev.receive na sn u' t' v' ∉ x.b.log) := by
  have N := ninv LA LB h
  have h1 := N.dab.phase sn
  have h2 : 0 < cnt (toNum nb) x.a.log sn := (cnt_pos _ _ _).2 ⟨_, hs, by simp [toNum]⟩
  obtain ⟨e, he, hn⟩ := (cnt_pos endNum x.a.log sn).1 (by omega)
  have h9 : (sn, u, t, v) ∈ starts x.a := List.mem_filterMap.2 ⟨_, hs, rfl⟩
  cases e with
  | settle src k u1 t1 v1 =>
    simp only [endNum, endOf, Option.map_some] at hn
    injection hn with hn
    subst hn
    have := starts_unique N.ia (N.ia.sub _ (List.mem_filterMap.2 ⟨_, he, rfl⟩ : (k, u1, t1, v1) ∈ ends x.a)) h9 rfl
    cases this
    obtain ⟨u', hu⟩ := C132_settled_received LA LB h _ _ _ _ _ he
    exact .inl ⟨src, u', he, hu⟩
  | refund src k u1 t1 v1 =>
    simp only [endNum, endOf, Option.map_some] at hn
    injection hn with hn
    subst hn
    have := starts_unique N.ia (N.ia.sub _ (List.mem_filterMap.2 ⟨_, he, rfl⟩ : (k, u1, t1, v1) ∈ ends x.a)) h9 rfl
    cases this
    exact .inr ⟨.inl ⟨src, he⟩, fun u' t' v' hm => (C132_not_both LA LB h _ _ _ _ hm).1 _ _ _ _ he⟩
  | rollback k u1 t1 v1 =>
    simp only [endNum, endOf, Option.map_some] at hn
    injection hn with hn
    subst hn
    have := starts_unique N.ia (N.ia.sub _ (List.mem_filterMap.2 ⟨_, he, rfl⟩ : (k, u1, t1, v1) ∈ ends x.a)) h9 rfl
    cases this
    exact .inr ⟨.inr he, fun u' t' v' hm => (C132_not_both LA LB h _ _ _ _ hm).2 _ _ _ he⟩
  | _ => cases hn

/-- What the deposits less the reclaims of a token add up to: the tokens the contract holds. -/
def held (t : Str) (l : List Ev) : Int := total (fun e => match e with
  | .deposit _ t' v => if t' = t then v else 0
  | .reclaim _ t' v => if t' = t then -v else 0
  | _ => 0) l

/-- The user an event changes the balance of. -/
def userOf : Ev → Option Nat
  | .deposit u _ _ => some u
  | .reclaim u _ _ => some u
  | .start _ u _ _ _ _ => some u
  | .receive _ _ u _ _ => some u
  | .settle _ _ u _ _ => some u
  | .refund _ _ u _ _ => some u
  | .rollback _ u _ _ => some u
  | .send _ _ _ => none

/-- What an event adds to all balances of a token together. -/
def allOf (t : Str) : Ev → Int
  | .deposit _ t' v => if t' = t then v else 0
  | .reclaim _ t' v => if t' = t then -v else 0
  | .receive _ _ _ t' v => if t' = t then v else 0
  | .settle _ _ _ t' v => if t' = t then -v else 0
  | _ => 0

theorem du_dl (u : Nat) (t : Str) (e : Ev) : du u t e + dl u t e = if userOf e = some u then allOf t e else 0 := by
  cases e with
  | deposit a b v => by_cases h1 : a = u <;> by_cases h2 : b = t <;> simp [du, dl, userOf, allOf, h1, h2]
  | reclaim a b v => by_cases h1 : a = u <;> by_cases h2 : b = t <;> simp [du, dl, userOf, allOf, h1, h2]
  | start k a b v n con => by_cases h1 : a = u <;> by_cases h2 : b = t <;> simp [du, dl, userOf, allOf, h1, h2] <;> omega
  | receive n k a b v => by_cases h1 : a = u <;> by_cases h2 : b = t <;> simp [du, dl, userOf, allOf, h1, h2]
  | settle n k a b v => by_cases h1 : a = u <;> by_cases h2 : b = t <;> simp [du, dl, userOf, allOf, h1, h2]
  | refund n k a b v => by_cases h1 : a = u <;> by_cases h2 : b = t <;> simp [du, dl, userOf, allOf, h1, h2] <;> omega
  | rollback k a b v => by_cases h1 : a = u <;> by_cases h2 : b = t <;> simp [du, dl, userOf, allOf, h1, h2] <;> omega
  | send n k m => simp [du, dl, userOf]

theorem sum_users (us : List Nat) (hn : us.Nodup) (t : Str) : ∀ l : List Ev, (∀ e ∈ l, ∀ u, userOf e = some u → u ∈ us) →
    (us.map fun u => total (du u t) l + total (dl u t) l).sum = total (allOf t) l
  | [], _ => by
    have : (us.map fun u => total (du u t) [] + total (dl u t) []) = us.map fun _ => (0 : Int) := List.map_congr_left (fun _ _ => rfl)
    rw [this, sum_zero]; rfl
  | e :: l, h => by
    have ih := sum_users us hn t l (fun x hx => h x (List.mem_cons_of_mem _ hx))
    have : (us.map fun u => total (du u t) (e :: l) + total (dl u t) (e :: l)) =
        us.map fun u => (if userOf e = some u then allOf t e else 0) + (total (du u t) l + total (dl u t) l) := by
      apply List.map_congr_left
      intro u _
      rw [← du_dl u t e]
      simp only [total, List.map_cons, List.sum_cons]; omega
    rw [this, sum_add, ih]
    have hh : (us.map fun u => if userOf e = some u then allOf t e else 0).sum = allOf t e := by
      cases hu : userOf e with
      | none =>
        have : (us.map fun u => if (none : Option Nat) = some u then allOf t e else 0) = us.map fun _ => (0 : Int) :=
          List.map_congr_left (fun u _ => by rw [if_neg (by simp)])
        rw [this, sum_zero]
        cases e with
        | send n k m => rfl
        | _ => cases hu
      | some u0 =>
        have : (us.map fun u => if some u0 = some u then allOf t e else 0) = us.map fun u => if u = u0 then (fun _ => allOf t e) u else 0 :=
          List.map_congr_left (fun u _ => by
            by_cases hq : u = u0
            · rw [if_pos (by rw [hq]), if_pos hq]
            · rw [if_neg (by intro he; injection he with he; exact hq he.symm), if_neg hq])
        rw [this, sum_if_eq (fun _ => allOf t e) u0 us hn (h e (by simp) u0 hu)]
    rw [hh]
    simp only [total, List.map_cons, List.sum_cons]

theorem all_split (net t : Str) : ∀ l : List Ev, (∀ n sn u t' v, Ev.receive n sn u t' v ∈ l → n = net) →
    total (allOf t) l = held t l + recvSum net t l - settleSum t l
  | [], _ => rfl
  | e :: l, h => by
    have ih := all_split net t l (fun n sn u t' v hm => h n sn u t' v (List.mem_cons_of_mem _ hm))
    unfold held recvSum settleSum total at ih ⊢
    simp only [List.map_cons, List.sum_cons]
    rw [ih]
    cases e with
    | receive n sn u t' v =>
      have := h n sn u t' v (by simp)
      simp only [allOf, this, true_and]; omega
    | settle n sn u t' v => simp only [allOf]; split <;> omega
    | _ => simp only [allOf]; omega

/-- All balances of a token, usable and locked, of these users together. -/
def claims (c : Cfg) (s : St) (us : List Nat) (t : Str) : Int := (us.map fun u => match getBalance c s u t with
  | some (x, y) => x + y
  | none => 0).sum

theorem claims_eq {s : St} (I : Inv c s) (us : List Nat) (hn : us.Nodup) (t : Str) (hu : ∀ e ∈ s.log, ∀ u, userOf e = some u → u ∈ us) :
    claims c s us t = total (allOf t) s.log := by
  rw [← sum_users us hn t s.log hu]
  unfold claims
  congr 1
  apply List.map_congr_left
  intro u _
  rw [I.bal u t]

theorem only_from (LA : Law ca) (LB : Law cb) {x : Net} (h : Reach ca cb na nb x) : ∀ n sn u t v, Ev.receive n sn u t v ∈ x.b.log → n = na := by
  induction h with
  | init => intro _ _ _ _ _ h; cases h
  | move h0 m ih =>
    have N := ninv LA LB h0
    cases m with
    | atA a' ab' ba' h => exact ih
    | atB b' ab' ba' h =>
      obtain ⟨hi, new, more, gone, he, hl, ho, hr⟩ := half_eff LB N.ib N.dba h
      intro n sn u t v hm
      rw [hl] at hm
      rcases List.mem_append.1 hm with hm | hm
      · exact ih n sn u t v hm
      · cases he with
        | loc _ h => exact absurd (h _ hm) (by simp [localEv])
        | received sn' u0 con t' v' u' h => simp at hm; exact hm.1
        | _ => simp at hm

theorem flight_nonneg {s : St} (I : Inv c s) (t : Str) (q : List Pkt) : 0 ≤ flight s.log t q := by
  unfold flight
  apply sum_nonneg
  intro p _
  cases okNum p with
  | none => exact Int.le_refl _
  | some sn =>
    show 0 ≤ valOf s.log t sn
    unfold valOf
    cases hf : (s.log.filterMap startOf).find? (fun e => decide (e.1 = sn)) with
    | none => exact Int.le_refl _
    | some e =>
      have := I.nonneg e (List.mem_of_find?_eq_some hf)
      obtain ⟨k, u, t', v⟩ := e
      show 0 ≤ if t' = t then v else 0
      split
      · exact this
      · exact Int.le_refl _

/-- C132: the balances of a token on both networks together are the tokens both contracts hold and the transfers under way back with a good answer,
which count on both sides until it arrives. -/
theorem C132_conserved (LA : Law ca) (LB : Law cb) {x : Net} (h : Reach ca cb na nb x) (usA usB : List Nat) (hA : usA.Nodup) (hB : usB.Nodup)
    (cA : ∀ e ∈ x.a.log, ∀ u, userOf e = some u → u ∈ usA) (cB : ∀ e ∈ x.b.log, ∀ u, userOf e = some u → u ∈ usB) (t : Str) :
    claims ca x.a usA t + claims cb x.b usB t =
      held t x.a.log + held t x.b.log + (flight x.a.log t x.ba + flight x.b.log t x.ab) := by
  have N := ninv LA LB h
  rw [claims_eq N.ia usA hA t cA, claims_eq N.ib usB hB t cB, all_split na t x.b.log (only_from LA LB h),
    all_split nb t x.a.log (only_from LB LA h.swap)]
  have h1 := N.vab t
  have h2 := N.vba t
  omega

/-- C132: with nothing under way the balances of a token on both networks together are the tokens both contracts hold; at other times they are no less. -/
theorem C132_backed (LA : Law ca) (LB : Law cb) {x : Net} (h : Reach ca cb na nb x) (usA usB : List Nat) (hA : usA.Nodup) (hB : usB.Nodup)
    (cA : ∀ e ∈ x.a.log, ∀ u, userOf e = some u → u ∈ usA) (cB : ∀ e ∈ x.b.log, ∀ u, userOf e = some u → u ∈ usB) (t : Str) :
    held t x.a.log + held t x.b.log ≤ claims ca x.a usA t + claims cb x.b usB t ∧
    (x.ab = [] → x.ba = [] → claims ca x.a usA t + claims cb x.b usB t = held t x.a.log + held t x.b.log) := by
  have N := ninv LA LB h
  rw [C132_conserved LA LB h usA usB hA hB cA cB t]
  have h1 := flight_nonneg N.ia t x.ba
  have h2 := flight_nonneg N.ib t x.ab
  refine ⟨by omega, ?_⟩
  intro e1 e2
  rw [e1, e2]; simp [flight]

/-- C132: among such services no received value is negative. -/
theorem C132_values (LA : Law ca) (LB : Law cb) {x : Net} (h : Reach ca cb na nb x) (n : Str) (sn : Int) (u : Nat) (t : Str) (v : Int)
    (hr : Ev.receive n sn u t v ∈ x.b.log) : 0 ≤ v := by
  have N := ninv LA LB h
  have := only_from LA LB h _ _ _ _ _ hr
  subst this
  obtain ⟨u0, con, hs, _⟩ := N.dab.gotOk _ _ _ _ hr
  exact N.ia.nonneg (sn, u0, t, v) (List.mem_filterMap.2 ⟨_, hs, rfl⟩)

theorem half_steps {c c' : Cfg} {you : Str} {s s' : St} {out inn out' inn' : List Pkt} (h : Half c c' you s out inn s' out' inn') : Steps c s s' := by
  cases h with
  | loc o hl h => exact exec_steps _ _ _ h
  | deliver pre post p b r hb h => exact exec_steps _ _ _ h
  | refuse pre post p b r e hb h => exact .refl _
  | drop pre post sn h => exact .refl _

theorem reach_steps {x : Net} (h : Reach ca cb na nb x) : Steps cb initSt x.b := by
  induction h with
  | init => exact .refl _
  | move _ m ih =>
    cases m with
    | atA a' ab' ba' h => exact ih
    | atB b' ab' ba' h => exact ih.trans (half_steps h)

/-- C132: among such services usable balances are never negative, on either side. -/
theorem C132_usable (LA : Law ca) (LB : Law cb) {x : Net} (h : Reach ca cb na nb x) (u : Nat) (t : Str) (p q : Int) :
    (getBalance ca x.a u t = some (p, q) → 0 ≤ p) ∧ (getBalance cb x.b u t = some (p, q) → 0 ≤ p) :=
  ⟨usable_steps LA (reach_steps h.swap) (C132_values LB LA h.swap) u t p q, usable_steps LB (reach_steps h) (C132_values LA LB h) u t p q⟩

/-! ### Examples -/

namespace NetEx
def parse : Bytes → Option Json
  | [1] => some (jsonOf Ex.cfg (.req 1 1 ['h', 'h'] ['T'] 30))
  | [2] => some (jsonOf Ex.cfg (.res 1 0))
  | [3] => some (jsonOf Ex.cfg (.req 2 1 ['h', 'h'] ['U'] 5))
  | [4] => some (jsonOf Ex.cfg (.res 1 (-1)))
  | _ => none
def cfg : Cfg := { Ex.cfg with parse := parse }
theorem law : Law cfg := ⟨fun _ _ => rfl, fun a => by simp [cfg, Ex.cfg]⟩

def isOkR : R St → Bool
  | .ok _ => true
  | _ => false
theorem ok_after {c : Cfg} {o : Op} {s : St} (h : isOkR (exec c o s) = true) : exec c o s = .ok (after c s o) := by
  unfold after
  cases he : exec c o s with
  | ok s' => rfl
  | btp e => rw [he] at h; cases h
  | other => rw [he] at h; cases h

def a1 : List Op := [.register 0 ['T'] 7, .register 0 ['U'] 8, .tokenFallback 7 1 100, .tokenFallback 8 1 5]
def b1 : List Op := [.register 0 ['T'] 7]
def a2 : St := after cfg (run cfg a1) (.transfer 1 ['T'] Ex.to 30 .ok)
def a3 : St := after cfg a2 (.transfer 1 ['U'] Ex.to 5 .ok)
def q1 : Pkt := .req 1 1 ['h', 'h'] ['T'] 30
def q2 : Pkt := .req 2 1 ['h', 'h'] ['U'] 5
/-- b takes the second request first: it has no token "U" and answers -1; then it takes the first. -/
def b2 : St := after cfg (run cfg b1) (opOf cfg ['a'] [3] .ok q2)
def b3 : St := after cfg b2 (opOf cfg ['a'] [1] .ok q1)
def a4 : St := after cfg a3 (opOf cfg ['b'] [2] .ok (.res 1 0))
def a5 : St := after cfg a4 (opOf cfg ['b'] [4] .ok (.res 2 (-1)))

theorem locA {a b : St} {ab ba : List Pkt} (h : Reach cfg cfg ['a'] ['b'] ⟨a, b, ab, ba⟩) (o : Op) (hl : o.isLocal cfg = true)
    (hk : isOkR (exec cfg o a) = true) (more : List Pkt) (he : emitted ['b'] a (after cfg a o) = more) :
    Reach cfg cfg ['a'] ['b'] ⟨after cfg a o, b, ab ++ more, ba⟩ := by
  subst he
  exact .move h (.atA ⟨a, b, ab, ba⟩ _ _ _ (.loc o hl (ok_after hk)))
theorem locB {a b : St} {ab ba : List Pkt} (h : Reach cfg cfg ['a'] ['b'] ⟨a, b, ab, ba⟩) (o : Op) (hl : o.isLocal cfg = true)
    (hk : isOkR (exec cfg o b) = true) (more : List Pkt) (he : emitted ['a'] b (after cfg b o) = more) :
    Reach cfg cfg ['a'] ['b'] ⟨a, after cfg b o, ab, ba ++ more⟩ := by
  subst he
  exact .move h (.atB ⟨a, b, ab, ba⟩ _ _ _ (.loc o hl (ok_after hk)))
theorem delA {a b : St} {ab pre post : List Pkt} {p : Pkt} (h : Reach cfg cfg ['a'] ['b'] ⟨a, b, ab, pre ++ p :: post⟩) (m : Bytes)
    (hm : cfg.parse m = some (jsonOf cfg p)) (hk : isOkR (exec cfg (opOf cfg ['b'] m .ok p) a) = true) (more : List Pkt)
    (he : emitted ['b'] a (after cfg a (opOf cfg ['b'] m .ok p)) = more) :
    Reach cfg cfg ['a'] ['b'] ⟨after cfg a (opOf cfg ['b'] m .ok p), b, ab ++ more, pre ++ post⟩ := by
  subst he
  exact .move h (.atA ⟨a, b, ab, pre ++ p :: post⟩ _ _ _ (.deliver pre post p m .ok (.inr hm) (ok_after hk)))
theorem delB {a b : St} {ba pre post : List Pkt} {p : Pkt} (h : Reach cfg cfg ['a'] ['b'] ⟨a, b, pre ++ p :: post, ba⟩) (m : Bytes)
    (hm : cfg.parse m = some (jsonOf cfg p)) (hk : isOkR (exec cfg (opOf cfg ['a'] m .ok p) b) = true) (more : List Pkt)
    (he : emitted ['a'] b (after cfg b (opOf cfg ['a'] m .ok p)) = more) :
    Reach cfg cfg ['a'] ['b'] ⟨a, after cfg b (opOf cfg ['a'] m .ok p), pre ++ post, ba ++ more⟩ := by
  subst he
  exact .move h (.atB ⟨a, b, pre ++ p :: post, ba⟩ _ _ _ (.deliver pre post p m .ok (.inr hm) (ok_after hk)))

/-- Both requests are under way. -/
theorem reach1 : Reach cfg cfg ['a'] ['b'] ⟨a3, run cfg b1, [q1, q2], []⟩ := by
  have h0 : Reach cfg cfg ['a'] ['b'] ⟨initSt, initSt, [], []⟩ := .init
  have h1 := locA h0 (.register 0 ['T'] 7) rfl (by decide +kernel) [] (by decide +kernel)
  have h2 := locA h1 (.register 0 ['U'] 8) rfl (by decide +kernel) [] (by decide +kernel)
  have h3 := locA h2 (.tokenFallback 7 1 100) rfl (by decide +kernel) [] (by decide +kernel)
  have h4 := locA h3 (.tokenFallback 8 1 5) rfl (by decide +kernel) [] (by decide +kernel)
  have h5 := locB h4 (.register 0 ['T'] 7) rfl (by decide +kernel) [] (by decide +kernel)
  have h6 := locA h5 (.transfer 1 ['T'] Ex.to 30 .ok) rfl (by decide +kernel) [q1] (by decide +kernel)
  exact locA h6 (.transfer 1 ['U'] Ex.to 5 .ok) rfl (by decide +kernel) [q2] (by decide +kernel)

/-- Both are answered, the answers are under way. -/
theorem reach2 : Reach cfg cfg ['a'] ['b'] ⟨a3, b3, [], [.res 2 (-1), .res 1 0]⟩ := by
  have h1 := delB (pre := [q1]) (post := []) reach1 [3] rfl (by decide +kernel) [.res 2 (-1)] (by decide +kernel)
  exact delB (pre := []) (post := []) h1 [1] rfl (by decide +kernel) [.res 1 0] (by decide +kernel)

/-- The answers arrive in the other order. -/
theorem reach3 : Reach cfg cfg ['a'] ['b'] ⟨a5, b3, [], []⟩ := by
  have h1 := delA (pre := [.res 2 (-1)]) (post := []) reach2 [2] rfl (by decide +kernel) [] (by decide +kernel)
  exact delA (pre := []) (post := []) h1 [4] rfl (by decide +kernel) [] (by decide +kernel)

example : getBalance cfg a5 1 ['T'] = some (70, 0) ∧ getBalance cfg a5 1 ['U'] = some (5, 0) ∧ getBalance cfg b3 2 ['T'] = some (30, 0) := by decide +kernel
example : getBalance cfg a3 1 ['T'] = some (70, 30) ∧ getBalance cfg b3 2 ['T'] = some (30, 0) ∧ flight a3.log ['T'] [.res 2 (-1), .res 1 0] = 30 := by
  decide +kernel
example : claims cfg a5 [0, 1, 2] ['T'] + claims cfg b3 [0, 1, 2] ['T'] = 100 ∧ held ['T'] a5.log = 100 ∧ held ['T'] b3.log = 0 := by decide +kernel
end NetEx

end Verif.PyToken
