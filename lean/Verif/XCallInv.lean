import Verif.XCall
import Verif.BtpAddressProps
/-!
C53, C54, C55 and further properties of the call service.
-/
namespace Verif.XCall
open Verif Verif.BtpAddress

/-! ### reading the log -/

def callId : Ev → Option Int
  | .call id _ => some id
  | _ => none

def undoSn : Ev → Option Int
  | .undo sn _ _ => some sn
  | _ => none

def recvId : Ev → Option Nat
  | .received id _ _ => some id
  | _ => none

def sentSn : Ev → Option Nat
  | .sent sn _ _ _ _ _ => some sn
  | _ => none

theorem mem_callId {l : List Ev} {id : Int} : id ∈ l.filterMap callId ↔ ∃ r, Ev.call id r ∈ l := by
  simp only [List.mem_filterMap]
  constructor
  · rintro ⟨e, he, h⟩
    cases e <;> simp [callId] at h
    exact ⟨_, h ▸ he⟩
  · rintro ⟨r, h⟩
    exact ⟨_, h, rfl⟩

theorem mem_undoSn {l : List Ev} {sn : Int} : sn ∈ l.filterMap undoSn ↔ ∃ d b, Ev.undo sn d b ∈ l := by
  simp only [List.mem_filterMap]
  constructor
  · rintro ⟨e, he, h⟩
    cases e <;> simp [undoSn] at h
    exact ⟨_, _, h ▸ he⟩
  · rintro ⟨d, b, h⟩
    exact ⟨_, h, rfl⟩

theorem mem_recvId {l : List Ev} {id : Nat} : id ∈ l.filterMap recvId ↔ ∃ n r, Ev.received id n r ∈ l := by
  simp only [List.mem_filterMap]
  constructor
  · rintro ⟨e, he, h⟩
    cases e <;> simp [recvId] at h
    exact ⟨_, _, h ▸ he⟩
  · rintro ⟨n, r, h⟩
    exact ⟨_, h, rfl⟩

theorem mem_sentSn {l : List Ev} {sn : Nat} : sn ∈ l.filterMap sentSn ↔ ∃ c n a d b, Ev.sent sn c n a d b ∈ l := by
  simp only [List.mem_filterMap]
  constructor
  · rintro ⟨e, he, h⟩
    cases e <;> simp [sentSn] at h
    exact ⟨_, _, _, _, _, h ▸ he⟩
  · rintro ⟨_, _, _, _, _, h⟩
    exact ⟨_, h, rfl⟩

/-- `1, …, n`. -/
def upTo (n : Nat) : List Nat := (List.range n).map (· + 1)

theorem upTo_succ (n : Nat) : upTo (n + 1) = upTo n ++ [n + 1] := by simp [upTo, List.range_succ]

theorem mem_upTo {n k : Nat} : k ∈ upTo n ↔ 1 ≤ k ∧ k ≤ n := by
  simp only [upTo, List.mem_map, List.mem_range]
  constructor
  · rintro ⟨a, h, rfl⟩; omega
  · rintro ⟨h1, h2⟩; exact ⟨k - 1, by omega, by omega⟩

theorem upTo_nodup (n : Nat) : (upTo n).Nodup := by
  induction n with
  | zero => simp [upTo]
  | succ n ih =>
    rw [upTo_succ, List.nodup_append]
    refine ⟨ih, by simp, ?_⟩
    intro a ha b hb
    simp only [List.mem_singleton] at hb
    have := (mem_upTo.mp ha).2
    omega

/-! ### the invariant -/

/-- A response to `sn` with code 0 came in while the request was kept, one with another code. -/
def Failed (l : List Ev) (sn : Int) : Prop := ∃ code, code ≠ 0 ∧ Ev.response sn code ∈ l
def Succeeded (l : List Ev) (sn : Int) : Prop := Ev.response sn 0 ∈ l

/-- The request under `id` is one received, with the network in front of the sender. -/
def FromNet (l : List Ev) (id : Int) (r : Req) : Prop :=
  ∃ (n : Nat) (net : Str) (q : Req), id = n ∧ Ev.received n net q ∈ l ∧ r = { q with src := solCompose net q.src }

structure Inv (C : Cfg) (s : St) : Prop where
  recv : s.log.filterMap recvId = upTo s.reqId
  sents : s.log.filterMap sentSn = upTo s.sn
  proxy : ∀ id r, s.proxy id = some r → FromNet s.log id r ∧ id ∉ s.log.filterMap callId
  calls : (s.log.filterMap callId).Nodup
  call : ∀ id r, Ev.call id r ∈ s.log → FromNet s.log id r
  reqs : ∀ sn c, s.reqs sn = some c → (∃ n net acct data, sn = (n : Nat) ∧ Ev.sent n c.src net acct data c.rollback ∈ s.log) ∧
    present C.lang c.rollback = true ∧ sn ∉ s.log.filterMap undoSn ∧ (c.enabled = true → Failed s.log sn) ∧ ¬ Succeeded s.log sn
  undo : ∀ sn d b, Ev.undo sn d b ∈ s.log → (∃ n net acct data, sn = (n : Nat) ∧ Ev.sent n d net acct data b ∈ s.log) ∧
    present C.lang b = true ∧ Failed s.log sn ∧ ¬ Succeeded s.log sn ∧ s.reqs sn = none
  undos : (s.log.filterMap undoSn).Nodup
  resp : ∀ sn code, Ev.response sn code ∈ s.log → ∃ n : Nat, sn = n ∧ n ≤ s.sn

theorem init_inv (C : Cfg) (b : Nat) : Inv C (init b) where
  recv := rfl
  sents := rfl
  proxy := by intro id r h; simp [init] at h
  calls := by simp [init]
  call := by intro id r h; simp [init] at h
  reqs := by intro sn c h; simp [init] at h
  undo := by intro sn d b h; simp [init] at h
  undos := by simp [init]
  resp := by intro sn c h; simp [init] at h

/-- Events the invariant does not speak of. -/
def Neutral : Ev → Prop
  | .executed _ _ | .undone _ _ | .out _ _ _ _ | .paid _ _ => True
  | _ => False

/-- The invariant looks at numbers, requests and the log only. -/
theorem Inv.congr {C : Cfg} {s s' : St} (h : Inv C s) (h1 : s'.sn = s.sn) (h2 : s'.reqId = s.reqId) (h3 : s'.reqs = s.reqs)
    (h4 : s'.proxy = s.proxy) (h5 : s'.log = s.log) : Inv C s' where
  recv := by rw [h5, h2]; exact h.recv
  sents := by rw [h5, h1]; exact h.sents
  proxy := by rw [h5, h4]; exact h.proxy
  calls := by rw [h5]; exact h.calls
  call := by rw [h5]; exact h.call
  reqs := by rw [h5, h3]; exact h.reqs
  undo := by rw [h5, h3]; exact h.undo
  undos := by rw [h5]; exact h.undos
  resp := by rw [h5, h1]; exact h.resp

theorem FromNet.mono {l : List Ev} {id : Int} {r : Req} (e : List Ev) (h : FromNet l id r) : FromNet (l ++ e) id r := by
  obtain ⟨n, net, q, h1, h2, h3⟩ := h
  exact ⟨n, net, q, h1, by simp [h2], h3⟩

theorem Failed.mono {l : List Ev} {sn : Int} (e : List Ev) (h : Failed l sn) : Failed (l ++ e) sn := by
  obtain ⟨c, h1, h2⟩ := h
  exact ⟨c, h1, by simp [h2]⟩

theorem Inv.neutral {C : Cfg} {s : St} {e : Ev} (he : Neutral e) (h : Inv C s) : Inv C { s with log := s.log ++ [e] } := by
  have f1 : callId e = none := by cases e <;> simp_all [Neutral, callId]
  have f2 : undoSn e = none := by cases e <;> simp_all [Neutral, undoSn]
  have f3 : recvId e = none := by cases e <;> simp_all [Neutral, recvId]
  have f4 : sentSn e = none := by cases e <;> simp_all [Neutral, sentSn]
  have f5 : ∀ sn c, Ev.response sn c ≠ e := by intro sn c h; subst h; simp [Neutral] at he
  have k1 : (s.log ++ [e]).filterMap callId = s.log.filterMap callId := by simp [f1]
  have k2 : (s.log ++ [e]).filterMap undoSn = s.log.filterMap undoSn := by simp [f2]
  have k5 : ∀ sn, Succeeded (s.log ++ [e]) sn → Succeeded s.log sn := by
    intro sn h
    simp only [Succeeded, List.mem_append, List.mem_singleton] at h
    exact h.elim id (fun h => absurd h (f5 _ _))
  constructor
  · simp only [List.filterMap_append, List.filterMap_cons, f3, List.filterMap_nil, List.append_nil]; exact h.recv
  · simp only [List.filterMap_append, List.filterMap_cons, f4, List.filterMap_nil, List.append_nil]; exact h.sents
  · intro id r hp
    simp only at hp ⊢
    rw [k1]
    exact ⟨(h.proxy id r hp).1.mono _, (h.proxy id r hp).2⟩
  · rw [k1]; exact h.calls
  · intro id r hm
    simp only [List.mem_append, List.mem_singleton] at hm
    rcases hm with hm | rfl
    · exact (h.call id r hm).mono _
    · simp [Neutral] at he
  · intro sn c hc
    obtain ⟨⟨n, net, acct, data, a1, a2⟩, a3, a4, a5, a6⟩ := h.reqs sn c hc
    refine ⟨⟨n, net, acct, data, a1, by simp [a2]⟩, a3, by rw [k2]; exact a4, fun h => (a5 h).mono _, fun h => a6 (k5 sn h)⟩
  · intro sn d b hm
    simp only [List.mem_append, List.mem_singleton] at hm
    rcases hm with hm | rfl
    · obtain ⟨⟨n, net, acct, data, a1, a2⟩, a3, a4, a5, a6⟩ := h.undo sn d b hm
      exact ⟨⟨n, net, acct, data, a1, by simp [a2]⟩, a3, a4.mono _, fun h => a5 (k5 sn h), a6⟩
    · simp [Neutral] at he
  · rw [k2]; exact h.undos
  · intro sn c hm
    simp only [List.mem_append, List.mem_singleton] at hm
    exact hm.elim (h.resp sn c) (fun h => absurd h (f5 _ _))

theorem payFee_inv {C : Cfg} {s s' : St} (h : Inv C s) (hk : payFee s = some s') : Inv C s' ∧ s'.sn = s.sn ∧ s'.fee = s.fee := by
  unfold payFee at hk
  split at hk
  · cases hk; exact ⟨h, rfl, rfl⟩
  · split at hk
    · cases hk; exact ⟨h, rfl, rfl⟩
    · split at hk
      · cases hk
      · cases hk
        exact ⟨(h.neutral (e := .paid _ _) trivial).congr rfl rfl rfl rfl rfl, rfl, rfl⟩

theorem sendBTP_ok {s s' : St} {value : Nat} {net : Str} {sn : Int} {m : Msg} {nsn : Option Int}
    (hk : sendBTP s value net sn m nsn = some s') :
    value ≤ s.bal ∧ s' = { s with bal := s.bal - value, log := s.log ++ [.out net sn m value] } := by
  unfold sendBTP at hk
  split at hk
  · cases hk
  · split at hk
    · cases hk
    · cases hk
      exact ⟨by omega, rfl⟩

theorem sendBTP_inv {C : Cfg} {s s' : St} {value : Nat} {net : Str} {sn : Int} {m : Msg} {nsn : Option Int} (h : Inv C s)
    (hk : sendBTP s value net sn m nsn = some s') : Inv C s' := by
  obtain ⟨_, rfl⟩ := sendBTP_ok hk
  exact (h.neutral (e := .out net sn m value) trivial).congr rfl rfl rfl rfl rfl

theorem next_ok {l : Lang} {n m : Nat} (h : next l n = some m) : m = n + 1 := by
  unfold next at h
  split at h
  · cases h; rfl
  · split at h
    · cases h; rfl
    · cases h

theorem keep_fields (l : Lang) (s : St) (sn : Nat) (caller to : Str) (rb : Option Bytes) :
    keep l s sn caller to rb = { s with reqs := (keep l s sn caller to rb).reqs } := by
  unfold keep
  split <;> rfl

theorem sendTail_ok {C : Cfg} {s s' : St} {caller to net acct : Str} {data : Bytes} {rb : Option Bytes} {value : Nat} {nsn : Option Int}
    (hk : sendTail C s caller to net acct data rb value nsn = some s') :
    s.fee ≤ value ∧ value - s.fee ≤ s.bal ∧
    s' = { s with
      sn := s.sn + 1
      reqs := (keep C.lang s (s.sn + 1) caller to rb).reqs
      bal := s.bal - (value - s.fee)
      log := s.log ++ [.out net (if present C.lang rb = true then posSn C.lang (s.sn + 1) else 0)
          (.req ⟨caller, acct, (s.sn + 1 : Nat), present C.lang rb, data⟩) (value - s.fee),
        .sent (s.sn + 1) caller net acct data (if present C.lang rb = true then rb else none)] } := by
  unfold sendTail at hk
  cases hn : next C.lang s.sn with
  | none => simp [hn] at hk
  | some sn =>
    have := next_ok hn
    subst this
    simp only [hn] at hk
    split at hk
    · cases hk
    rename_i hf
    simp only [Option.map_eq_some_iff] at hk
    obtain ⟨s2, h2, rfl⟩ := hk
    obtain ⟨hb, rfl⟩ := sendBTP_ok h2
    have kf := keep_fields C.lang { s with sn := s.sn + 1 } (s.sn + 1) caller to rb
    rw [kf] at hb ⊢
    refine ⟨by omega, hb, ?_⟩
    simp only [List.append_assoc, List.cons_append, List.nil_append]
    congr 1
    unfold keep
    split <;> rfl

theorem send_inv {C : Cfg} {s s' : St} {caller to net acct : Str} {data : Bytes} {rb : Option Bytes} {value : Nat} {nsn : Option Int}
    (h : Inv C s) (hk : sendTail C s caller to net acct data rb value nsn = some s') : Inv C s' := by
  obtain ⟨_, _, rfl⟩ := sendTail_ok hk
  generalize ho : Ev.out net (if present C.lang rb = true then posSn C.lang (s.sn + 1) else 0)
          (.req ⟨caller, acct, (s.sn + 1 : Nat), present C.lang rb, data⟩) (value - s.fee) = o
  have h0 : Inv C { s with log := s.log ++ [o] } := h.neutral (by subst ho; trivial)
  have hnew : ∀ (sn : Int) (n : Nat) d nt a dt b, sn = n → Ev.sent n d nt a dt b ∈ s.log ++ [o] → n ≤ s.sn := by
    intro sn n d nt a dt b _ hm
    have : n ∈ (s.log ++ [o]).filterMap sentSn := mem_sentSn.mpr ⟨_, _, _, _, _, hm⟩
    rw [h0.sents] at this
    exact (mem_upTo.mp this).2
  have e : s.log ++ [o, .sent (s.sn + 1) caller net acct data (if present C.lang rb = true then rb else none)] =
      (s.log ++ [o]) ++ [.sent (s.sn + 1) caller net acct data (if present C.lang rb = true then rb else none)] := by simp
  rw [e]
  generalize hl : s.log ++ [o] = l at *
  have k1 : ∀ x, (l ++ [Ev.sent (s.sn + 1) caller net acct data x]).filterMap callId = l.filterMap callId := by intro x; simp [callId]
  have k2 : ∀ x, (l ++ [Ev.sent (s.sn + 1) caller net acct data x]).filterMap undoSn = l.filterMap undoSn := by intro x; simp [undoSn]
  have k3 : ∀ x sn, Succeeded (l ++ [Ev.sent (s.sn + 1) caller net acct data x]) sn → Succeeded l sn := by
    intro x sn h; simpa [Succeeded] using h
  constructor
  · simp only [List.filterMap_append, List.filterMap_cons, recvId, List.filterMap_nil, List.append_nil]; exact h0.recv
  · simp only [List.filterMap_append, List.filterMap_cons, sentSn, List.filterMap_nil]
    rw [upTo_succ]
    exact congrArg (· ++ [s.sn + 1]) h0.sents
  · intro id r hp
    obtain ⟨a, b⟩ := h0.proxy id r hp
    exact ⟨a.mono _, by rw [k1]; exact b⟩
  · simp only; rw [k1]; exact h0.calls
  · intro id r hm
    simp only [List.mem_append, List.mem_singleton, reduceCtorEq, or_false] at hm
    exact (h0.call id r hm).mono _
  · intro sn c hc
    simp only at hc
    by_cases hnew' : present C.lang rb = true ∧ sn = ((s.sn + 1 : Nat) : Int)
    · obtain ⟨hp, rfl⟩ := hnew'
      unfold keep at hc
      rw [if_pos hp] at hc
      simp only [if_true, Option.some.injEq] at hc
      subst hc
      refine ⟨⟨s.sn + 1, net, acct, data, rfl, by rw [if_pos hp]; simp⟩, hp, ?_, by simp, ?_⟩
      · rw [k2]
        intro hm
        obtain ⟨d, b, hm⟩ := mem_undoSn.mp hm
        obtain ⟨⟨n, _, _, _, a1, a2⟩, _⟩ := h0.undo _ d b hm
        have := hnew _ n _ _ _ _ _ a1 a2
        omega
      · intro hs
        obtain ⟨n, a1, a2⟩ := h0.resp _ _ (k3 _ _ hs)
        simp only at a2
        omega
    · have hc' : s.reqs sn = some c := by
        unfold keep at hc
        by_cases hp : present C.lang rb = true
        · rw [if_pos hp] at hc
          simp only at hc
          rw [if_neg (fun h => hnew' ⟨hp, h⟩)] at hc
          exact hc
        · rw [if_neg hp] at hc
          exact hc
      obtain ⟨⟨n, nt, a, dt, a1, a2⟩, a3, a4, a5, a6⟩ := h0.reqs sn c hc'
      exact ⟨⟨n, nt, a, dt, a1, by simp [a2]⟩, a3, by rw [k2]; exact a4, fun h => (a5 h).mono _, fun h => a6 (k3 _ sn h)⟩
  · intro sn d b hm
    simp only [List.mem_append, List.mem_singleton, reduceCtorEq, or_false] at hm
    obtain ⟨⟨n, nt, a, dt, a1, a2⟩, a3, a4, a5, a6⟩ := h0.undo sn d b hm
    refine ⟨⟨n, nt, a, dt, a1, by simp [a2]⟩, a3, a4.mono _, fun h => a5 (k3 _ sn h), ?_⟩
    have hle := hnew _ n _ _ _ _ _ a1 a2
    simp only
    unfold keep
    split
    · simp only
      rw [if_neg (by omega)]
      exact a6
    · exact a6
  · simp only; rw [k2]; exact h0.undos
  · intro sn c hm
    simp only [List.mem_append, List.mem_singleton, reduceCtorEq, or_false] at hm
    obtain ⟨n, a1, a2⟩ := h0.resp sn c hm
    simp only at a2 ⊢
    exact ⟨n, a1, by omega⟩

theorem request_inv {C : Cfg} {s s' : St} {net : Str} {r : Req} (h : Inv C s) (hk : handleRequest C s net r = some s') : Inv C s' := by
  unfold handleRequest at hk
  simp only [Option.map_eq_some_iff] at hk
  obtain ⟨id, hid, rfl⟩ := hk
  have := next_ok hid
  subst this
  have k1 : (s.log ++ [Ev.received (s.reqId + 1) net r]).filterMap callId = s.log.filterMap callId := by simp [callId]
  have k2 : (s.log ++ [Ev.received (s.reqId + 1) net r]).filterMap undoSn = s.log.filterMap undoSn := by simp [undoSn]
  have k3 : ∀ sn, Succeeded (s.log ++ [Ev.received (s.reqId + 1) net r]) sn → Succeeded s.log sn := by
    intro sn h; simpa [Succeeded] using h
  have hold : ∀ id q, FromNet s.log id q → id ≤ (s.reqId : Int) := by
    rintro id q ⟨n, nt, q', rfl, h2, _⟩
    have : n ∈ s.log.filterMap recvId := mem_recvId.mpr ⟨_, _, h2⟩
    rw [h.recv] at this
    have := (mem_upTo.mp this).2
    omega
  constructor
  · simp only [List.filterMap_append, List.filterMap_cons, recvId, List.filterMap_nil]
    rw [upTo_succ, h.recv]
  · simp only [List.filterMap_append, List.filterMap_cons, sentSn, List.filterMap_nil, List.append_nil]; exact h.sents
  · intro id q hp
    simp only at hp ⊢
    rw [k1]
    by_cases hid : id = ((s.reqId + 1 : Nat) : Int)
    · rw [if_pos hid] at hp
      simp only [Option.some.injEq] at hp
      refine ⟨⟨s.reqId + 1, net, r, hid, by simp, hp.symm⟩, ?_⟩
      intro hm
      obtain ⟨q', hm⟩ := mem_callId.mp hm
      have := hold _ _ (h.call id q' hm)
      omega
    · rw [if_neg hid] at hp
      exact ⟨(h.proxy id q hp).1.mono _, (h.proxy id q hp).2⟩
  · simp only; rw [k1]; exact h.calls
  · intro id q hm
    simp only [List.mem_append, List.mem_singleton, reduceCtorEq, or_false] at hm
    exact (h.call id q hm).mono _
  · intro sn c hc
    obtain ⟨⟨n, nt, a, dt, a1, a2⟩, a3, a4, a5, a6⟩ := h.reqs sn c hc
    exact ⟨⟨n, nt, a, dt, a1, by simp [a2]⟩, a3, by rw [k2]; exact a4, fun h => (a5 h).mono _, fun h => a6 (k3 sn h)⟩
  · intro sn d b hm
    simp only [List.mem_append, List.mem_singleton, reduceCtorEq, or_false] at hm
    obtain ⟨⟨n, nt, a, dt, a1, a2⟩, a3, a4, a5, a6⟩ := h.undo sn d b hm
    exact ⟨⟨n, nt, a, dt, a1, by simp [a2]⟩, a3, a4.mono _, fun h => a5 (k3 sn h), a6⟩
  · simp only; rw [k2]; exact h.undos
  · intro sn c hm
    simp only [List.mem_append, List.mem_singleton, reduceCtorEq, or_false] at hm
    exact h.resp sn c hm

theorem response_ok {C : Cfg} {s s' : St} {sn code : Int} (hk : handleResponse C s sn code = some s') :
    (s.reqs sn = none ∧ s' = s) ∨
    ∃ c, s.reqs sn = some c ∧
      s' = { s with
        reqs := fun k => if k = sn then (if code = 0 then none else some { c with enabled := true }) else s.reqs k
        log := s.log ++ [.response sn code] } := by
  unfold handleResponse at hk
  split at hk
  · rename_i h0; cases hk; exact Or.inl ⟨h0, rfl⟩
  · rename_i c hc
    right
    refine ⟨c, hc, ?_⟩
    split at hk
    · rename_i h0; cases hk; simp [h0]
    · rename_i h0
      split at hk
      · cases hk
      · cases hk; simp [h0]

theorem response_inv {C : Cfg} {s s' : St} {sn code : Int} (h : Inv C s) (hk : handleResponse C s sn code = some s') : Inv C s' := by
  rcases response_ok hk with ⟨_, rfl⟩ | ⟨c, hc, rfl⟩
  · exact h
  obtain ⟨⟨n0, nt0, ac0, dt0, b1, b2⟩, b3, b4, b5, b6⟩ := h.reqs sn c hc
  have k1 : (s.log ++ [Ev.response sn code]).filterMap callId = s.log.filterMap callId := by simp [callId]
  have k2 : (s.log ++ [Ev.response sn code]).filterMap undoSn = s.log.filterMap undoSn := by simp [undoSn]
  have k3 : ∀ m, m ≠ sn ∨ code ≠ 0 → Succeeded (s.log ++ [Ev.response sn code]) m → Succeeded s.log m := by
    intro m hm h
    simp only [Succeeded, List.mem_append, List.mem_singleton, Ev.response.injEq] at h
    rcases h with h | ⟨h1, h2⟩
    · exact h
    · rcases hm with hm | hm
      · exact absurd h1 hm
      · exact absurd h2.symm hm
  have hn0 : n0 ≤ s.sn := by
    have : n0 ∈ s.log.filterMap sentSn := mem_sentSn.mpr ⟨_, _, _, _, _, b2⟩
    rw [h.sents] at this
    exact (mem_upTo.mp this).2
  constructor
  · simp only [List.filterMap_append, List.filterMap_cons, recvId, List.filterMap_nil, List.append_nil]; exact h.recv
  · simp only [List.filterMap_append, List.filterMap_cons, sentSn, List.filterMap_nil, List.append_nil]; exact h.sents
  · intro id q hp
    obtain ⟨a, b⟩ := h.proxy id q hp
    exact ⟨a.mono _, by rw [k1]; exact b⟩
  · simp only; rw [k1]; exact h.calls
  · intro id q hm
    simp only [List.mem_append, List.mem_singleton, reduceCtorEq, or_false] at hm
    exact (h.call id q hm).mono _
  · intro m c' hc'
    simp only at hc'
    by_cases hm : m = sn
    · subst hm
      rw [if_pos rfl] at hc'
      by_cases h0 : code = 0
      · rw [if_pos h0] at hc'; cases hc'
      · rw [if_neg h0] at hc'
        simp only [Option.some.injEq] at hc'
        subst hc'
        refine ⟨⟨n0, nt0, ac0, dt0, b1, by simp [b2]⟩, b3, by rw [k2]; exact b4, fun _ => ⟨code, h0, by simp⟩, ?_⟩
        intro hs
        exact b6 (k3 m (Or.inr h0) hs)
    · rw [if_neg hm] at hc'
      obtain ⟨⟨n, nt, a, dt, a1, a2⟩, a3, a4, a5, a6⟩ := h.reqs m c' hc'
      exact ⟨⟨n, nt, a, dt, a1, by simp [a2]⟩, a3, by rw [k2]; exact a4, fun h => (a5 h).mono _, fun h => a6 (k3 m (Or.inl hm) h)⟩
  · intro m d b hm
    simp only [List.mem_append, List.mem_singleton, reduceCtorEq, or_false] at hm
    obtain ⟨⟨n, nt, a, dt, a1, a2⟩, a3, a4, a5, a6⟩ := h.undo m d b hm
    have hne : m ≠ sn := by rintro rfl; rw [hc] at a6; cases a6
    refine ⟨⟨n, nt, a, dt, a1, by simp [a2]⟩, a3, a4.mono _, fun h => a5 (k3 m (Or.inl hne) h), ?_⟩
    simp only
    rw [if_neg hne]; exact a6
  · simp only; rw [k2]; exact h.undos
  · intro m c' hm
    simp only [List.mem_append, List.mem_singleton, Ev.response.injEq] at hm
    rcases hm with hm | ⟨rfl, _⟩
    · exact h.resp m c' hm
    · exact ⟨n0, b1, hn0⟩

theorem execStart_ok {C : Cfg} {s s1 : St} {id : Int} {r : Req} {net : Str} (hk : execStart C s id = some (r, net, s1)) :
    s.proxy id = some r ∧ (∃ a, parse C.lang r.src = some (net, a)) ∧
    s1 = { s with proxy := fun k => if k = id then none else s.proxy k, log := s.log ++ [.call id r] } := by
  unfold execStart at hk
  split at hk
  · cases hk
  · rename_i q hq
    split at hk
    · cases hk
    · rename_i a b hp
      simp only [Option.some.injEq, Prod.mk.injEq] at hk
      obtain ⟨rfl, rfl, rfl⟩ := hk
      exact ⟨hq, ⟨_, hp⟩, rfl⟩

theorem execStart_inv {C : Cfg} {s s1 : St} {id : Int} {r : Req} {net : Str} (h : Inv C s)
    (hk : execStart C s id = some (r, net, s1)) : Inv C s1 := by
  obtain ⟨hp, _, rfl⟩ := execStart_ok hk
  obtain ⟨p1, p2⟩ := h.proxy id r hp
  have k1 : (s.log ++ [Ev.call id r]).filterMap callId = s.log.filterMap callId ++ [id] := by simp [callId]
  have k2 : (s.log ++ [Ev.call id r]).filterMap undoSn = s.log.filterMap undoSn := by simp [undoSn]
  have k3 : ∀ sn, Succeeded (s.log ++ [Ev.call id r]) sn → Succeeded s.log sn := by intro sn h; simpa [Succeeded] using h
  constructor
  · simp only [List.filterMap_append, List.filterMap_cons, recvId, List.filterMap_nil, List.append_nil]; exact h.recv
  · simp only [List.filterMap_append, List.filterMap_cons, sentSn, List.filterMap_nil, List.append_nil]; exact h.sents
  · intro m q hq
    simp only at hq ⊢
    by_cases hm : m = id
    · rw [if_pos hm] at hq; cases hq
    · rw [if_neg hm] at hq
      obtain ⟨a, b⟩ := h.proxy m q hq
      refine ⟨a.mono _, ?_⟩
      rw [k1]
      simp only [List.mem_append, List.mem_singleton]
      rintro (h | h)
      · exact b h
      · exact hm h
  · simp only; rw [k1, List.nodup_append]
    refine ⟨h.calls, by simp, ?_⟩
    intro a ha b hb
    simp only [List.mem_singleton] at hb
    subst hb
    rintro rfl
    exact p2 ha
  · intro m q hm
    simp only [List.mem_append, List.mem_singleton, Ev.call.injEq] at hm
    rcases hm with hm | ⟨rfl, rfl⟩
    · exact (h.call m q hm).mono _
    · exact p1.mono _
  · intro sn c hc
    obtain ⟨⟨n, nt, a, dt, a1, a2⟩, a3, a4, a5, a6⟩ := h.reqs sn c hc
    exact ⟨⟨n, nt, a, dt, a1, by simp [a2]⟩, a3, by rw [k2]; exact a4, fun h => (a5 h).mono _, fun h => a6 (k3 sn h)⟩
  · intro sn d b hm
    simp only [List.mem_append, List.mem_singleton, reduceCtorEq, or_false] at hm
    obtain ⟨⟨n, nt, a, dt, a1, a2⟩, a3, a4, a5, a6⟩ := h.undo sn d b hm
    exact ⟨⟨n, nt, a, dt, a1, by simp [a2]⟩, a3, a4.mono _, fun h => a5 (k3 sn h), a6⟩
  · simp only; rw [k2]; exact h.undos
  · intro sn c hm
    simp only [List.mem_append, List.mem_singleton, reduceCtorEq, or_false] at hm
    exact h.resp sn c hm

theorem execEnd_inv {C : Cfg} {s s' : St} {id : Int} {r : Req} {net : Str} {out : Outcome} {nsn : Option Int} (h : Inv C s)
    (hk : execEnd C s id r net out nsn = some s') : Inv C s' := by
  unfold execEnd at hk
  have h1 := h.neutral (e := .executed id (respCode C.lang out)) trivial
  simp only at hk
  split at hk
  · cases hn : negSn C.lang r.sn with
    | none => simp [hn] at hk
    | some n =>
      simp only [hn, Option.bind_some] at hk
      exact sendBTP_inv h1 hk
  · cases hk; exact h1

theorem undoStart_ok {s s1 : St} {sn : Int} (hk : undoStart s sn = some s1) :
    ∃ c, s.reqs sn = some c ∧ c.enabled = true ∧
      s1 = { s with reqs := fun k => if k = sn then none else s.reqs k, log := s.log ++ [.undo sn c.src c.rollback] } := by
  unfold undoStart at hk
  split at hk
  · cases hk
  · rename_i c hc
    split at hk
    · cases hk
    · rename_i he
      cases hk
      exact ⟨c, hc, by simpa using he, rfl⟩

theorem undoStart_inv {C : Cfg} {s s1 : St} {sn : Int} (h : Inv C s) (hk : undoStart s sn = some s1) : Inv C s1 := by
  obtain ⟨c, hc, he, rfl⟩ := undoStart_ok hk
  obtain ⟨⟨n0, nt0, ac0, dt0, b1, b2⟩, b3, b4, b5, b6⟩ := h.reqs sn c hc
  have k1 : (s.log ++ [Ev.undo sn c.src c.rollback]).filterMap callId = s.log.filterMap callId := by simp [callId]
  have k2 : (s.log ++ [Ev.undo sn c.src c.rollback]).filterMap undoSn = s.log.filterMap undoSn ++ [sn] := by simp [undoSn]
  have k3 : ∀ m, Succeeded (s.log ++ [Ev.undo sn c.src c.rollback]) m → Succeeded s.log m := by intro m h; simpa [Succeeded] using h
  constructor
  · simp only [List.filterMap_append, List.filterMap_cons, recvId, List.filterMap_nil, List.append_nil]; exact h.recv
  · simp only [List.filterMap_append, List.filterMap_cons, sentSn, List.filterMap_nil, List.append_nil]; exact h.sents
  · intro id q hp
    obtain ⟨a, b⟩ := h.proxy id q hp
    exact ⟨a.mono _, by rw [k1]; exact b⟩
  · simp only; rw [k1]; exact h.calls
  · intro id q hm
    simp only [List.mem_append, List.mem_singleton, reduceCtorEq, or_false] at hm
    exact (h.call id q hm).mono _
  · intro m c' hc'
    simp only at hc' ⊢
    by_cases hm : m = sn
    · rw [if_pos hm] at hc'; cases hc'
    · rw [if_neg hm] at hc'
      obtain ⟨⟨n, nt, a, dt, a1, a2⟩, a3, a4, a5, a6⟩ := h.reqs m c' hc'
      refine ⟨⟨n, nt, a, dt, a1, by simp [a2]⟩, a3, ?_, fun h => (a5 h).mono _, fun h => a6 (k3 m h)⟩
      rw [k2]
      simp only [List.mem_append, List.mem_singleton]
      rintro (h | h)
      · exact a4 h
      · exact hm h
  · intro m d b hm
    simp only [List.mem_append, List.mem_singleton, Ev.undo.injEq] at hm
    rcases hm with hm | ⟨rfl, rfl, rfl⟩
    · obtain ⟨⟨n, nt, a, dt, a1, a2⟩, a3, a4, a5, a6⟩ := h.undo m d b hm
      refine ⟨⟨n, nt, a, dt, a1, by simp [a2]⟩, a3, a4.mono _, fun h => a5 (k3 m h), ?_⟩
      simp only
      split
      · rfl
      · exact a6
    · exact ⟨⟨n0, nt0, ac0, dt0, b1, by simp [b2]⟩, b3, (b5 he).mono _, fun h => b6 (k3 _ h), by simp⟩
  · simp only; rw [k2, List.nodup_append]
    refine ⟨h.undos, by simp, ?_⟩
    intro a ha b hb
    simp only [List.mem_singleton] at hb
    subst hb
    rintro rfl
    exact b4 ha
  · intro m c' hm
    simp only [List.mem_append, List.mem_singleton, reduceCtorEq, or_false] at hm
    exact h.resp m c' hm

mutual
theorem step_inv (C : Cfg) : ∀ (op : Op) (s s' : St), Inv C s → step C op s = some s' → Inv C s'
  | .send caller isC to data rb value fee nsn, s, s', h, hk => by
    simp only [step, send] at hk
    split at hk
    · cases hk
    split at hk
    · cases hk
    split at hk
    · cases hk
    split at hk
    · split at hk
      · cases hk
      split at hk
      · cases hk
      rename_i net acct f _ _ _ _
      cases hp : payFee { s with bal := s.bal + value } with
      | none => simp [hp] at hk
      | some s1 =>
        simp only [hp, Option.bind_some] at hk
        exact send_inv (payFee_inv (s := { s with bal := s.bal + value }) (h.congr rfl rfl rfl rfl rfl) hp).1 hk
    · cases hk
  | .exec id inner out nsn, s, s', h, hk => by
    simp only [step] at hk
    split at hk
    · cases hk
    · rename_i r net s1 hs
      have h1 := execStart_inv h hs
      refine execEnd_inv ?_ hk
      split
      · exact run_inv C inner s1 h1
      · exact h1
  | .undo sn inner out, s, s', h, hk => by
    simp only [step] at hk
    split at hk
    · cases hk
    · rename_i s1 hs
      have h1 := undoStart_inv h hs
      cases hk
      refine Inv.neutral (e := .undone sn (respCode C.lang out)) trivial ?_
      split
      · exact run_inv C inner s1 h1
      · exact h1
  | .message caller net svc sn m, s, s', h, hk => by
    simp only [step, message] at hk
    split at hk
    · cases hk
    split at hk
    · cases hk
    split at hk
    · split at hk
      · cases hk
      · exact request_inv h hk
    · split at hk
      · cases hk
      · exact response_inv h hk
    · cases hk
  | .error caller net svc sn code, s, s', h, hk => by
    simp only [step, error] at hk
    split at hk
    · cases hk
    split at hk
    · cases hk
    split at hk
    · cases hk
    · exact response_inv h hk
  | .setAdmin caller a, s, s', h, hk => by
    simp only [step] at hk
    split at hk
    · cases hk
    · cases hk; exact h.congr rfl rfl rfl rfl rfl
  | .setHandler caller a, s, s', h, hk => by
    simp only [step, setHandler] at hk
    split at hk
    · cases hk
    split at hk
    · cases hk; exact h.congr rfl rfl rfl rfl rfl
    · split at hk
      · cases hk; exact h.congr rfl rfl rfl rfl rfl
      · cases hk; exact (h.neutral (e := .paid _ _) trivial).congr rfl rfl rfl rfl rfl
  | .setFee caller v, s, s', h, hk => by
    simp only [step] at hk
    split at hk
    · cases hk
    · cases hk; exact h.congr rfl rfl rfl rfl rfl
theorem run_inv (C : Cfg) : ∀ (ops : Ops) (s : St), Inv C s → Inv C (run C ops s)
  | .nil, s, h => h
  | .cons op t, s, h => by
    simp only [run]
    cases hs : step C op s with
    | none => exact run_inv C t s h
    | some s' => exact run_inv C t s' (step_inv C op s s' h hs)
end

/-! ### the order of the log -/

def execId : Ev → Option Int
  | .executed id _ => some id
  | _ => none

def outSn : Ev → Option Int
  | .out _ _ (.req r) _ => some r.sn
  | _ => none

theorem mem_execId {l : List Ev} {id : Int} : id ∈ l.filterMap execId ↔ ∃ c, Ev.executed id c ∈ l := by
  simp only [List.mem_filterMap]
  constructor
  · rintro ⟨e, he, h⟩
    cases e <;> simp [execId] at h
    exact ⟨_, h ▸ he⟩
  · rintro ⟨r, h⟩
    exact ⟨_, h, rfl⟩

/-- What went before an event. -/
def Just (L : Lang) (l : List Ev) : Ev → Prop
  | .sent sn caller net acct data rb => ∃ l' n v b, l = l' ++ [.out net n (.req ⟨caller, acct, sn, b, data⟩) v] ∧ (b = true ↔ present L rb = true)
  | .received _ _ _ => True
  | .call id r => FromNet l id r ∧ id ∉ l.filterMap callId
  | .executed id _ => id ∈ l.filterMap callId ∧ id ∉ l.filterMap execId
  | .response sn _ => (∃ n c net a d b, sn = (n : Nat) ∧ Ev.sent n c net a d b ∈ l ∧ present L b = true) ∧ ¬ Succeeded l sn ∧ sn ∉ l.filterMap undoSn
  | .undo sn dst data => (∃ n net a d, sn = (n : Nat) ∧ Ev.sent n dst net a d data ∈ l) ∧ present L data = true ∧ Failed l sn ∧
      ¬ Succeeded l sn ∧ sn ∉ l.filterMap undoSn
  | .undone sn _ => sn ∈ l.filterMap undoSn
  | .out net n (.res sn code) v => v = 0 ∧ negSn L sn = some n ∧
      ∃ l' id r a, l = l' ++ [.executed id code] ∧ Ev.call id r ∈ l ∧ r.rb = true ∧ r.sn = sn ∧ parse L r.src = some (net, a)
  | .out _ n (.req r) _ => ∃ k : Nat, r.sn = k ∧ k = (l.filterMap sentSn).length + 1 ∧ n = (if r.rb = true then posSn L k else 0) ∧
      next L (k - 1) = some k
  | .out _ _ .unknown _ => False
  | .paid _ _ => True

inductive Good (L : Lang) : List Ev → Prop
  | nil : Good L []
  | snoc {l : List Ev} {e : Ev} : Good L l → Just L l e → Good L (l ++ [e])

theorem Good.just {L : Lang} {l : List Ev} (h : Good L l) : ∀ (l1 : List Ev) (e : Ev) (l2 : List Ev), l = l1 ++ e :: l2 → Just L l1 e := by
  induction h with
  | nil => intro l1 e l2 h; simp at h
  | @snoc l x _ hj ih =>
    intro l1 e l2 h
    rcases List.eq_nil_or_concat l2 with rfl | ⟨l2', y, rfl⟩
    · have := List.append_inj' h rfl
      obtain ⟨rfl, h2⟩ := this
      simp only [List.cons.injEq, and_true] at h2
      subst h2
      exact hj
    · have h' : l ++ [x] = (l1 ++ e :: l2') ++ [y] := by simpa using h
      have := (List.append_inj' h' rfl).1
      exact ih l1 e l2' this

theorem Good.mem {L : Lang} {l : List Ev} (h : Good L l) {e : Ev} (he : e ∈ l) : ∃ l1 l2, l = l1 ++ e :: l2 ∧ Just L l1 e := by
  obtain ⟨l1, l2, rfl⟩ := List.append_of_mem he
  exact ⟨l1, l2, rfl, h.just l1 e l2 rfl⟩

/-- The log grows, and what is executed is called first. -/
def Ext (s s' : St) : Prop := ∃ x, s'.log = s.log ++ x ∧ (∀ id, id ∈ x.filterMap execId → id ∈ x.filterMap callId)

theorem Ext.refl (s : St) : Ext s s := ⟨[], by simp, by simp⟩

theorem Ext.trans {a b c : St} (h1 : Ext a b) (h2 : Ext b c) : Ext a c := by
  obtain ⟨x, e1, f1⟩ := h1
  obtain ⟨y, e2, f2⟩ := h2
  refine ⟨x ++ y, by rw [e2, e1, List.append_assoc], ?_⟩
  intro id hid
  simp only [List.filterMap_append, List.mem_append] at hid ⊢
  exact hid.imp (f1 id) (f2 id)

theorem payFee_ok {s s' : St} (hk : payFee s = some s') :
    ∃ l, s' = { s with bal := s'.bal, log := s.log ++ l } ∧
      ((s'.bal = s.bal ∧ l = [] ∧ (s.handler = none ∨ s.fee = 0)) ∨
       (s.fee ≤ s.bal ∧ s'.bal = s.bal - s.fee ∧ s.fee ≠ 0 ∧ ∃ h, s.handler = some h ∧ l = [.paid h s.fee])) := by
  unfold payFee at hk
  split at hk
  · rename_i h
    cases hk; exact ⟨[], by simp, Or.inl ⟨rfl, rfl, Or.inl h⟩⟩
  · rename_i w hw
    split at hk
    · rename_i h
      cases hk; exact ⟨[], by simp, Or.inl ⟨rfl, rfl, Or.inr h⟩⟩
    · rename_i h
      split at hk
      · cases hk
      · cases hk
        exact ⟨_, rfl, Or.inr ⟨by omega, rfl, h, w, hw, rfl⟩⟩

theorem send_ok {C : Cfg} {s s' : St} {caller to : Str} {isC : Bool} {data : Bytes} {rb : Option Bytes} {value : Nat} {f : Option Nat}
    {nsn : Option Int} (hk : send C s caller isC to data rb value f nsn = some s') :
    ∃ net acct fee s1, parse C.lang to = some (net, acct) ∧ f = some fee ∧ s.fee + fee ≤ value ∧
      data.length ≤ maxData ∧ (rb.getD []).length ≤ maxRollback ∧ (present C.lang rb = true → isC = true) ∧
      payFee { s with bal := s.bal + value } = some s1 ∧ sendTail C s1 caller to net acct data rb value nsn = some s' := by
  unfold send at hk
  split at hk
  · cases hk
  rename_i h1
  split at hk
  · cases hk
  rename_i h2
  split at hk
  · cases hk
  rename_i h3
  split at hk
  · rename_i net acct fee hp
    split at hk
    · cases hk
    split at hk
    · cases hk
    rename_i h4
    cases hpf : payFee { s with bal := s.bal + value } with
    | none => simp [hpf] at hk
    | some s1 =>
      simp only [hpf, Option.bind_some] at hk
      refine ⟨net, acct, fee, s1, hp, rfl, by omega, by omega, by omega, ?_, rfl, hk⟩
      intro hpr
      cases isC
      · exact absurd ⟨rfl, hpr⟩ h1
      · rfl
  · cases hk

theorem execEnd_ok {C : Cfg} {s s' : St} {id : Int} {r : Req} {net : Str} {out : Outcome} {nsn : Option Int}
    (hk : execEnd C s id r net out nsn = some s') :
    (r.rb = false ∧ s' = { s with log := s.log ++ [.executed id (respCode C.lang out)] }) ∨
    ∃ n, r.rb = true ∧ negSn C.lang r.sn = some n ∧
      s' = { s with log := s.log ++ [.executed id (respCode C.lang out), .out net n (.res r.sn (respCode C.lang out)) 0] } := by
  unfold execEnd at hk
  simp only at hk
  split at hk
  · rename_i hr
    cases hn : negSn C.lang r.sn with
    | none => simp [hn] at hk
    | some n =>
      simp only [hn, Option.bind_some] at hk
      obtain ⟨_, rfl⟩ := sendBTP_ok hk
      exact Or.inr ⟨n, hr, rfl, by simp⟩
  · rename_i hr
    cases hk
    exact Or.inl ⟨by simpa using hr, rfl⟩

theorem setHandler_ok {C : Cfg} {s s' : St} {caller : Str} {a : Option Str} (hk : setHandler C s caller a = some s') :
    caller = adminOf C s ∧ ∃ l, s' = { s with handler := a, bal := s'.bal, log := s.log ++ l } ∧
      ((l = [] ∧ s'.bal = s.bal) ∨ ∃ h, a = some h ∧ l = [.paid h s.bal] ∧ s'.bal = 0) := by
  unfold setHandler at hk
  split at hk
  · cases hk
  rename_i hc
  refine ⟨by simpa using hc, ?_⟩
  split at hk
  · cases hk; exact ⟨[], by simp, Or.inl ⟨rfl, rfl⟩⟩
  · rename_i w
    split at hk
    · cases hk; exact ⟨[], by simp, Or.inl ⟨rfl, rfl⟩⟩
    · cases hk; exact ⟨_, rfl, Or.inr ⟨w, rfl, rfl, rfl⟩⟩

/-- What one message does. -/
theorem message_ok {C : Cfg} {s s' : St} {caller net svc : Str} {m : Msg} (hk : message C s caller net svc m = some s') :
    caller = C.bmc ∧ svc = name ∧
    ((∃ r, m = .req r ∧ (C.lang = .sol → 0 ≤ r.sn) ∧ handleRequest C s net r = some s') ∨
     (∃ sn code, m = .res sn code ∧ (C.lang = .sol → 0 ≤ sn) ∧ handleResponse C s sn code = some s')) := by
  unfold message at hk
  split at hk
  · cases hk
  rename_i h1
  split at hk
  · cases hk
  rename_i h2
  refine ⟨by simpa using h1, by simpa using h2, ?_⟩
  split at hk
  · rename_i r
    split at hk
    · cases hk
    rename_i h3
    refine Or.inl ⟨r, rfl, fun hl => ?_, hk⟩
    by_cases hn : r.sn < 0
    · exact absurd ⟨hl, hn⟩ h3
    · omega
  · rename_i sn code
    split at hk
    · cases hk
    rename_i h3
    refine Or.inr ⟨sn, code, rfl, fun hl => ?_, hk⟩
    by_cases hn : sn < 0
    · exact absurd ⟨hl, hn⟩ h3
    · omega
  · cases hk

theorem error_ok {C : Cfg} {s s' : St} {caller svc : Str} {sn code : Int} (hk : error C s caller svc sn code = some s') :
    caller = C.bmc ∧ svc = name ∧ handleResponse C s sn (-2) = some s' := by
  unfold error at hk
  split at hk
  · cases hk
  rename_i h1
  split at hk
  · cases hk
  rename_i h2
  split at hk
  · cases hk
  exact ⟨by simpa using h1, by simpa using h2, hk⟩

theorem handleRequest_ok {C : Cfg} {s s' : St} {net : Str} {r : Req} (hk : handleRequest C s net r = some s') :
    s' = { s with
      reqId := s.reqId + 1
      proxy := fun k => if k = ((s.reqId + 1 : Nat) : Int) then some { r with src := solCompose net r.src } else s.proxy k
      log := s.log ++ [.received (s.reqId + 1) net r] } := by
  unfold handleRequest at hk
  simp only [Option.map_eq_some_iff] at hk
  obtain ⟨id, hid, rfl⟩ := hk
  have := next_ok hid
  subst this
  rfl

theorem Ext.of {s s' : St} {x : List Ev} (h : s'.log = s.log ++ x) (hx : x.filterMap execId = []) : Ext s s' :=
  ⟨x, h, by rw [hx]; simp⟩

theorem response_ext {C : Cfg} {s s' : St} {sn code : Int} (hk : handleResponse C s sn code = some s') : Ext s s' := by
  rcases response_ok hk with ⟨_, rfl⟩ | ⟨c, hc, rfl⟩
  · exact .refl _
  · exact .of rfl rfl

mutual
theorem step_ext (C : Cfg) : ∀ (op : Op) (s s' : St), step C op s = some s' → Ext s s'
  | .send caller isC to data rb value fee nsn, s, s', hk => by
    simp only [step] at hk
    obtain ⟨net, acct, f, s1, _, _, _, _, _, _, hp, ht⟩ := send_ok hk
    obtain ⟨l, e1, hl⟩ := payFee_ok hp
    obtain ⟨_, _, e2⟩ := sendTail_ok ht
    refine Ext.trans (b := s1) ?_ ?_
    · refine .of (x := l) (by rw [e1]) ?_
      rcases hl with ⟨_, rfl, _⟩ | ⟨_, _, _, h, _, rfl⟩ <;> rfl
    · exact .of (by rw [e2]) rfl
  | .exec id inner out nsn, s, s', hk => by
    simp only [step] at hk
    split at hk
    · cases hk
    · rename_i r net s1 hs
      obtain ⟨_, _, e1⟩ := execStart_ok hs
      have h2 : Ext s1 (if committed out = true then run C inner s1 else s1) := by
        split
        · exact run_ext C inner s1
        · exact .refl _
      generalize (if committed out = true then run C inner s1 else s1) = s2 at hk h2
      obtain ⟨x, hx, hf⟩ := h2
      have hl : ∃ y, s'.log = s2.log ++ y ∧ (y.filterMap execId = [id]) := by
        rcases execEnd_ok hk with ⟨_, rfl⟩ | ⟨n, _, _, rfl⟩
        · exact ⟨_, rfl, rfl⟩
        · exact ⟨_, rfl, rfl⟩
      obtain ⟨y, hy, hf2⟩ := hl
      refine ⟨.call id r :: (x ++ y), by rw [hy, hx, e1]; simp, ?_⟩
      intro k hk
      simp only [List.filterMap_cons, execId, callId, List.filterMap_append, List.mem_append, hf2, List.mem_cons, List.not_mem_nil, or_false] at hk ⊢
      rcases hk with h | h
      · exact Or.inr (Or.inl (hf k h))
      · exact Or.inl h
  | .undo sn inner out, s, s', hk => by
    simp only [step] at hk
    split at hk
    · cases hk
    · rename_i s1 hs
      obtain ⟨c, _, _, e1⟩ := undoStart_ok hs
      have h1 : Ext s s1 := .of (by rw [e1]) rfl
      cases hk
      refine h1.trans (Ext.trans (b := if committed out = true then run C inner s1 else s1) ?_ (.of rfl rfl))
      split
      · exact run_ext C inner s1
      · exact .refl _
  | .message caller net svc sn m, s, s', hk => by
    simp only [step] at hk
    obtain ⟨_, _, ⟨r, _, _, h⟩ | ⟨sn, code, _, _, h⟩⟩ := message_ok hk
    · exact .of (by rw [handleRequest_ok h]) rfl
    · exact response_ext h
  | .error caller net svc sn code, s, s', hk => by
    simp only [step] at hk
    exact response_ext (error_ok hk).2.2
  | .setAdmin caller a, s, s', hk => by
    simp only [step] at hk
    split at hk
    · cases hk
    · cases hk; exact .refl _
  | .setHandler caller a, s, s', hk => by
    simp only [step] at hk
    obtain ⟨_, l, e, hl⟩ := setHandler_ok hk
    refine .of (x := l) (by rw [e]) ?_
    rcases hl with ⟨rfl, _⟩ | ⟨h, _, rfl, _⟩ <;> rfl
  | .setFee caller v, s, s', hk => by
    simp only [step] at hk
    split at hk
    · cases hk
    · cases hk; exact .refl _
theorem run_ext (C : Cfg) : ∀ (ops : Ops) (s : St), Ext s (run C ops s)
  | .nil, s => .refl _
  | .cons op t, s => by
    simp only [run]
    cases hs : step C op s with
    | none => exact run_ext C t s
    | some s' => exact (step_ext C op s s' hs).trans (run_ext C t s')
end

/-- Numbers of requests sent, as the messages carry them. -/
def Outs (s : St) : Prop := s.log.filterMap outSn = (upTo s.sn).map Int.ofNat

theorem Outs.append {s s' : St} {x : List Ev} (h : Outs s) (hl : s'.log = s.log ++ x) (hx : x.filterMap outSn = []) (hs : s'.sn = s.sn) :
    Outs s' := by
  unfold Outs at h ⊢
  rw [hl, hs, List.filterMap_append, hx, List.append_nil, h]

structure Inv2 (C : Cfg) (s : St) : Prop where
  inv : Inv C s
  good : Good C.lang s.log
  outs : Outs s

theorem init_inv2 (C : Cfg) (b : Nat) : Inv2 C (init b) := ⟨init_inv C b, .nil, rfl⟩

theorem response_inv2 {C : Cfg} {s s' : St} {sn code : Int} (h : Inv2 C s) (hk : handleResponse C s sn code = some s') : Inv2 C s' := by
  refine ⟨response_inv h.inv hk, ?_, ?_⟩
  · rcases response_ok hk with ⟨_, rfl⟩ | ⟨c, hc, rfl⟩
    · exact h.good
    · obtain ⟨⟨n, nt, a, d, h1, h2⟩, h3, h4, _, h6⟩ := h.inv.reqs sn c hc
      exact h.good.snoc ⟨⟨n, c.src, nt, a, d, c.rollback, h1, h2, h3⟩, h6, h4⟩
  · rcases response_ok hk with ⟨_, rfl⟩ | ⟨c, hc, rfl⟩
    · exact h.outs
    · exact h.outs.append rfl rfl rfl

theorem sentSn_length {C : Cfg} {s : St} (h : Inv C s) : (s.log.filterMap sentSn).length = s.sn := by
  rw [h.sents]; simp [upTo]

theorem payFee_inv2 {C : Cfg} {s s1 : St} (h : Inv2 C s) (hp : payFee s = some s1) : Inv2 C s1 := by
  refine ⟨(payFee_inv h.inv hp).1, ?_, ?_⟩
  · obtain ⟨l, e1, hl⟩ := payFee_ok hp
    rw [e1]
    rcases hl with ⟨_, rfl, _⟩ | ⟨_, _, _, w, _, rfl⟩
    · simpa using h.good
    · exact h.good.snoc trivial
  · obtain ⟨l, e1, hl⟩ := payFee_ok hp
    have hsn : s1.sn = s.sn := by rw [e1]
    have hlg : s1.log = s.log ++ l := by rw [e1]
    have ho := h.outs
    unfold Outs at ho ⊢
    rw [hsn, hlg, List.filterMap_append, ho]
    rcases hl with ⟨_, rfl, _⟩ | ⟨_, _, _, w, _, rfl⟩ <;> simp [outSn]

theorem send_inv2 {C : Cfg} {s s' : St} {caller to : Str} {isC : Bool} {data : Bytes} {rb : Option Bytes} {value : Nat} {f : Option Nat}
    {nsn : Option Int} (h : Inv2 C s) (hk : send C s caller isC to data rb value f nsn = some s') : Inv2 C s' := by
  obtain ⟨net, acct, fee, s1, _, _, _, _, _, _, hp, ht⟩ := send_ok hk
  have h1 : Inv2 C s1 := payFee_inv2 (s := { s with bal := s.bal + value }) ⟨h.inv.congr rfl rfl rfl rfl rfl, h.good, h.outs⟩ hp
  refine ⟨send_inv h1.inv ht, ?_, ?_⟩
  · have hnx : next C.lang s1.sn = some (s1.sn + 1) := by
      unfold sendTail at ht
      cases hn : next C.lang s1.sn with
      | none => simp [hn] at ht
      | some k => rw [next_ok hn]
    obtain ⟨_, _, e⟩ := sendTail_ok ht
    rw [e]
    simp only
    rw [← List.singleton_append, ← List.append_assoc]
    refine (h1.good.snoc ?_).snoc ?_
    · refine ⟨s1.sn + 1, rfl, by rw [sentSn_length h1.inv], rfl, ?_⟩
      simpa using hnx
    · refine ⟨s1.log, _, _, present C.lang rb, rfl, ?_⟩
      by_cases hpr : present C.lang rb = true
      · simp [hpr]
      · rw [if_neg hpr]
        cases hl : C.lang <;> simp_all [present]
  · obtain ⟨_, _, e⟩ := sendTail_ok ht
    have ho := h1.outs
    unfold Outs at ho ⊢
    rw [e]
    simp only [List.filterMap_append, ho, upTo_succ, List.map_append]
    rfl

mutual
theorem step_inv2 (C : Cfg) : ∀ (op : Op) (s s' : St), Inv2 C s → step C op s = some s' → Inv2 C s'
  | .send caller isC to data rb value fee nsn, s, s', h, hk => by
    simp only [step] at hk
    exact send_inv2 h hk
  | .exec id inner out nsn, s, s', h, hk => by
    have hinv := step_inv C _ s s' h.inv hk
    simp only [step] at hk
    split at hk
    · cases hk
    · rename_i r net s1 hs
      obtain ⟨hp, ⟨acct, hpa⟩, e1⟩ := execStart_ok hs
      have h1 : Inv2 C s1 := by
        refine ⟨execStart_inv h.inv hs, ?_, ?_⟩
        · rw [e1]; exact h.good.snoc (h.inv.proxy id r hp)
        · exact h.outs.append (by rw [e1]) rfl (by rw [e1])
      have h2 : Inv2 C (if committed out = true then run C inner s1 else s1) ∧ Ext s1 (if committed out = true then run C inner s1 else s1) := by
        split
        · exact ⟨run_inv2 C inner s1 h1, run_ext C inner s1⟩
        · exact ⟨h1, .refl _⟩
      generalize (if committed out = true then run C inner s1 else s1) = s2 at hk h2
      obtain ⟨h2, x, hx, hf⟩ := h2
      have hcall : Ev.call id r ∈ s2.log := by rw [hx, e1]; simp
      have hne : id ∉ s2.log.filterMap execId := by
        intro hm
        rw [hx, List.filterMap_append, List.mem_append] at hm
        have hnd := h2.inv.calls
        rw [hx, e1] at hnd
        simp only [List.filterMap_append, List.filterMap_cons, callId, List.filterMap_nil] at hnd
        rcases hm with hm | hm
        · rw [e1] at hm
          simp only [List.filterMap_append, List.filterMap_cons, execId, List.filterMap_nil, List.append_nil] at hm
          obtain ⟨c, hm⟩ := mem_execId.mp hm
          obtain ⟨l1, l2, hl, hj, _⟩ := h.good.mem hm
          refine (h.inv.proxy id r hp).2 ?_
          rw [hl, List.filterMap_append]
          exact List.mem_append_left _ hj
        · have := hf id hm
          have := (List.nodup_append.mp hnd).2.2 id (by simp) id this
          exact this rfl
      have hj1 : Just C.lang s2.log (.executed id (respCode C.lang out)) := ⟨mem_callId.mpr ⟨r, hcall⟩, hne⟩
      rcases execEnd_ok hk with ⟨_, e⟩ | ⟨n, hr, hn, e⟩
      · refine ⟨hinv, ?_, ?_⟩
        · rw [e]; exact h2.good.snoc hj1
        · exact h2.outs.append (by rw [e]) rfl (by rw [e])
      · refine ⟨hinv, ?_, ?_⟩
        · rw [e]
          simp only
          rw [← List.singleton_append, ← List.append_assoc]
          refine (h2.good.snoc hj1).snoc ⟨rfl, hn, s2.log, id, r, acct, rfl, ?_, hr, rfl, hpa⟩
          simp [hcall]
        · exact h2.outs.append (by rw [e]) rfl (by rw [e])
  | .undo sn inner out, s, s', h, hk => by
    have hinv := step_inv C _ s s' h.inv hk
    simp only [step] at hk
    split at hk
    · cases hk
    · rename_i s1 hs
      have hi1 := undoStart_inv h.inv hs
      obtain ⟨c, hc, he, e1⟩ := undoStart_ok hs
      obtain ⟨b1, b3, b4, b5, b6⟩ := h.inv.reqs sn c hc
      have h1 : Inv2 C s1 := by
        refine ⟨hi1, ?_, ?_⟩
        · rw [e1]; exact h.good.snoc ⟨b1, b3, b5 he, b6, b4⟩
        · exact h.outs.append (by rw [e1]) rfl (by rw [e1])
      have h2 : Inv2 C (if committed out = true then run C inner s1 else s1) ∧ Ext s1 (if committed out = true then run C inner s1 else s1) := by
        split
        · exact ⟨run_inv2 C inner s1 h1, run_ext C inner s1⟩
        · exact ⟨h1, .refl _⟩
      generalize (if committed out = true then run C inner s1 else s1) = s2 at hk h2
      obtain ⟨h2, x, hx, _⟩ := h2
      cases hk
      refine ⟨hinv, h2.good.snoc ?_, ?_⟩
      · show sn ∈ s2.log.filterMap undoSn
        rw [hx, e1]; simp [undoSn]
      · exact h2.outs.append rfl rfl rfl
  | .message caller net svc sn m, s, s', h, hk => by
    have hinv := step_inv C _ s s' h.inv hk
    simp only [step] at hk
    obtain ⟨_, _, ⟨r, _, _, hq⟩ | ⟨sn, code, _, _, hq⟩⟩ := message_ok hk
    · have e := handleRequest_ok hq
      refine ⟨hinv, ?_, ?_⟩
      · rw [e]; exact h.good.snoc trivial
      · exact h.outs.append (by rw [e]) rfl (by rw [e])
    · exact response_inv2 h hq
  | .error caller net svc sn code, s, s', h, hk => by
    simp only [step] at hk
    exact response_inv2 h (error_ok hk).2.2
  | .setAdmin caller a, s, s', h, hk => by
    have hinv := step_inv C _ s s' h.inv hk
    simp only [step] at hk
    split at hk
    · cases hk
    · cases hk; exact ⟨hinv, h.good, h.outs⟩
  | .setHandler caller a, s, s', h, hk => by
    have hinv := step_inv C _ s s' h.inv hk
    simp only [step] at hk
    obtain ⟨_, l, e, hl⟩ := setHandler_ok hk
    have hg : Good C.lang s'.log ∧ s'.log.filterMap outSn = s.log.filterMap outSn := by
      have hlg : s'.log = s.log ++ l := by rw [e]
      rw [hlg]
      rcases hl with ⟨rfl, _⟩ | ⟨w, _, rfl, _⟩
      · simpa using h.good
      · exact ⟨h.good.snoc trivial, by simp [outSn]⟩
    refine ⟨hinv, hg.1, ?_⟩
    have hsn : s'.sn = s.sn := by rw [e]
    unfold Outs
    rw [hg.2, hsn]
    exact h.outs
  | .setFee caller v, s, s', h, hk => by
    have hinv := step_inv C _ s s' h.inv hk
    simp only [step] at hk
    split at hk
    · cases hk
    · cases hk; exact ⟨hinv, h.good, h.outs⟩
theorem run_inv2 (C : Cfg) : ∀ (ops : Ops) (s : St), Inv2 C s → Inv2 C (run C ops s)
  | .nil, s, h => h
  | .cons op t, s, h => by
    simp only [run]
    cases hs : step C op s with
    | none => exact run_inv2 C t s h
    | some s' => exact run_inv2 C t s' (step_inv2 C op s s' h hs)
end

end Verif.XCall
