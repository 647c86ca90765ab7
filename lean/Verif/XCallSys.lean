import Verif.XCallProps
/-!
C76 and the part of C55 that holds: services on any number of networks, each running the code of `XCall`, joined by message
centers. A message center delivers what a service sent to the service of the network named, at most once, or gives an error
back to the sender, not both (C43, C44, C50, C61-C64 are about that); it may also never deliver. Messages can overtake each
other. Everything else, users, contracts called, admins, is arbitrary.
-/
namespace Verif.XCall
open Verif Verif.BtpAddress

/-- `done`: messages dealt with, by network, position in its log and whether delivered (or given back). -/
structure Sys where
  svc : Str → St
  done : List (Str × Nat × Bool)

def upd (f : Str → St) (n : Str) (s : St) : Str → St := fun m => if m = n then s else f m

/-- One step of the system; `N` gives the language, message center and owner of each network. -/
inductive SStep (N : Str → Cfg) (S : Sys) : Sys → Prop
  /-- anyone but the message center calls a service -/
  | user (n : Str) (op : Op) (s' : St) (hn : '/' ∉ n) (hb : By (· ≠ (N n).bmc) (fun _ => True) op)
      (h : step (N n) op (S.svc n) = some s') : SStep N S ⟨upd S.svc n s', S.done⟩
  /-- the message at position `i` of the log of `a` is delivered -/
  | deliver (a : Str) (i : Nat) (net : Str) (sn : Int) (m : Msg) (v : Nat) (s' : St) (hn : '/' ∉ net)
      (hi : (S.svc a).log[i]? = some (Ev.out net sn m v)) (hd : ∀ k, (a, i, k) ∉ S.done)
      (h : step (N net) (.message (N net).bmc a name sn m) (S.svc net) = some s') :
      SStep N S ⟨upd S.svc net s', S.done ++ [(a, i, true)]⟩
  /-- it is given back with an error; only two-way messages are (JavaBmc, SolBmc: serial number above 0) -/
  | bounce (a : Str) (i : Nat) (net : Str) (sn : Int) (m : Msg) (v : Nat) (code : Int) (s' : St)
      (hi : (S.svc a).log[i]? = some (Ev.out net sn m v)) (hd : ∀ k, (a, i, k) ∉ S.done) (hs : 0 < sn)
      (h : step (N a) (.error (N a).bmc net name sn code) (S.svc a) = some s') :
      SStep N S ⟨upd S.svc a s', S.done ++ [(a, i, false)]⟩

/-- No service sent 2^255 calls. -/
def Small (S : Sys) : Prop := ∀ n, (S.svc n).sn < 2 ^ 255

inductive Reach (N : Str → Cfg) (b : Str → Nat) : Sys → Prop
  | init : Reach N b ⟨fun n => init (b n), []⟩
  | step {S S' : Sys} : Reach N b S → SStep N S S' → Small S' → Reach N b S'

theorem idx_unique {α β : Type} (f : α → Option β) (v : β) : ∀ (l : List α) (i j : Nat) (x y : α), (l.filterMap f).Nodup →
    l[i]? = some x → l[j]? = some y → f x = some v → f y = some v → i = j
  | [], i, j, x, y, _, h, _, _, _ => by simp at h
  | a :: t, i, j, x, y, hn, hi, hj, hx, hy => by
    have hv : ∀ (k : Nat) (z : α), t[k]? = some z → f z = some v → v ∈ t.filterMap f := by
      intro k z hk hz
      exact List.mem_filterMap.mpr ⟨z, List.mem_of_getElem? hk, hz⟩
    have ht : (t.filterMap f).Nodup := by
      rw [List.filterMap_cons] at hn
      split at hn
      · exact hn
      · exact (List.nodup_cons.mp hn).2
    cases i with
    | zero =>
      simp only [List.getElem?_cons_zero, Option.some.injEq] at hi
      subst hi
      cases j with
      | zero => rfl
      | succ j =>
        simp only [List.getElem?_cons_succ] at hj
        rw [List.filterMap_cons, hx] at hn
        exact absurd (hv j y hj hy) (List.nodup_cons.mp hn).1
    | succ i =>
      simp only [List.getElem?_cons_succ] at hi
      cases j with
      | zero =>
        simp only [List.getElem?_cons_zero, Option.some.injEq] at hj
        subst hj
        rw [List.filterMap_cons, hy] at hn
        exact absurd (hv i x hi hx) (List.nodup_cons.mp hn).1
      | succ j =>
        simp only [List.getElem?_cons_succ] at hj
        rw [idx_unique f v t i j x y ht hi hj hx hy]

theorem outs_nodup {C : Cfg} {s : St} (h : Inv2 C s) : (s.log.filterMap outSn).Nodup := by
  have := h.outs
  unfold Outs at this
  rw [this]
  exact List.Pairwise.map _ (fun a b hab h => hab (Int.ofNat.inj h)) (upTo_nodup _)

/-- The message of a call is sent by a call of the user with the same content. -/
theorem out_sent {C : Cfg} {s : St} (h : Inv2 C s) {i : Nat} {net : Str} {n : Int} {q : Req} {v : Nat}
    (hi : s.log[i]? = some (Ev.out net n (.req q) v)) :
    ∃ (k : Nat) (rb : Option Bytes), q.sn = k ∧ 1 ≤ k ∧ k ≤ s.sn ∧ Ev.sent k q.src net q.dst q.data rb ∈ s.log ∧
      (q.rb = true ↔ present C.lang rb = true) ∧ n = (if q.rb = true then posSn C.lang k else 0) := by
  have hm : q.sn ∈ s.log.filterMap outSn := List.mem_filterMap.mpr ⟨_, List.mem_of_getElem? hi, rfl⟩
  have ho := h.outs
  unfold Outs at ho
  rw [ho, List.mem_map] at hm
  obtain ⟨k, hk, hkq⟩ := hm
  have hk' := hk
  rw [← h.inv.sents, mem_sentSn] at hk
  obtain ⟨c, net', a, d, rb, hs⟩ := hk
  obtain ⟨l1, l2, hl, l', n', v', b, hl1, hb⟩ := h.good.mem hs
  have hj : s.log[l'.length]? = some (Ev.out net' n' (.req ⟨c, a, k, b, d⟩) v') := by
    rw [hl, hl1]
    simp
  have := idx_unique outSn q.sn s.log i l'.length _ _ (outs_nodup h) hi hj rfl (by simp only [outSn, Option.some.injEq]; exact hkq)
  subst this
  rw [hj] at hi
  simp only [Option.some.injEq, Ev.out.injEq, Msg.req.injEq] at hi
  obtain ⟨rfl, rfl, rfl, rfl⟩ := hi
  refine ⟨k, rb, rfl, (mem_upTo.mp hk').1, (mem_upTo.mp hk').2, hs, hb, ?_⟩
  obtain ⟨k2, e1, _, e3, _⟩ := h.good.just l' (.out net' n' (.req ⟨c, a, k, b, d⟩) v') (Ev.sent k c net' a d rb :: l2) (by rw [hl, hl1]; simp)
  simp only at e1
  have : k2 = k := by omega
  subst this
  exact e3

structure SInv (N : Str → Cfg) (S : Sys) : Prop where
  node : ∀ n, Inv2 (N n) (S.svc n)
  slash : ∀ n, '/' ∈ n → (S.svc n).log = []
  recv : ∀ b id a q, Ev.received id a q ∈ (S.svc b).log →
    ∃ i n v, (a, i, true) ∈ S.done ∧ (S.svc a).log[i]? = some (Ev.out b n (.req q) v)
  uniq : ∀ b id a q b' id' q', Ev.received id a q ∈ (S.svc b).log → Ev.received id' a q' ∈ (S.svc b').log → q.sn = q'.sn →
    b = b' ∧ id = id' ∧ q = q'
  one : ∀ a i k k', (a, i, k) ∈ S.done → (a, i, k') ∈ S.done → k = k'
  resp : ∀ a sn code, Ev.response sn code ∈ (S.svc a).log →
    (∃ (b : Str) (j : Nat) (n : Int) (v : Nat), (S.svc b).log[j]? = some (Ev.out a n (.res sn code) v)) ∨
    (code = -2 ∧ ∃ i b n q v, (a, i, false) ∈ S.done ∧ (S.svc a).log[i]? = some (Ev.out b n (.req q) v) ∧ q.sn = sn)

theorem SInv.next {N : Str → Cfg} {S S' : Sys} (h : SInv N S) (n : Str) (x : List Ev) (hn : '/' ∉ n) (hnode : Inv2 (N n) (S'.svc n))
    (hlog : (S'.svc n).log = (S.svc n).log ++ x) (hoth : ∀ m, m ≠ n → S'.svc m = S.svc m) (hdone : ∀ d, d ∈ S.done → d ∈ S'.done)
    (hone : ∀ a i k k', (a, i, k) ∈ S'.done → (a, i, k') ∈ S'.done → k = k')
    (hrecv : ∀ id a q, Ev.received id a q ∈ x → ∃ i k v, (a, i, true) ∈ S'.done ∧ (∀ z, (a, i, z) ∉ S.done) ∧
      (S.svc a).log[i]? = some (Ev.out n k (.req q) v))
    (huniq : ∀ id a q id' q', Ev.received id a q ∈ x → Ev.received id' a q' ∈ x → id = id' ∧ q = q')
    (hresp : ∀ sn code, Ev.response sn code ∈ x →
      (∃ (b : Str) (j : Nat) (k : Int) (v : Nat), (S.svc b).log[j]? = some (Ev.out n k (.res sn code) v)) ∨
      (code = -2 ∧ ∃ i b k q v, (n, i, false) ∈ S'.done ∧ (S.svc n).log[i]? = some (Ev.out b k (.req q) v) ∧ q.sn = sn)) : SInv N S' := by
  have hgrow : ∀ m, ∃ y, (S'.svc m).log = (S.svc m).log ++ y := by
    intro m
    by_cases hm : m = n
    · subst hm; exact ⟨x, hlog⟩
    · exact ⟨[], by rw [hoth m hm]; simp⟩
  have hidx : ∀ (m : Str) (i : Nat) (e : Ev), (S.svc m).log[i]? = some e → (S'.svc m).log[i]? = some e := by
    intro m i e hi
    obtain ⟨y, hy⟩ := hgrow m
    have hlt : i < (S.svc m).log.length := (List.getElem?_eq_some_iff.mp hi).1
    rw [hy, List.getElem?_append_left hlt]
    exact hi
  have hmem : ∀ b e, e ∈ (S'.svc b).log → e ∈ (S.svc b).log ∨ (b = n ∧ e ∈ x) := by
    intro b e he
    by_cases hb : b = n
    · subst hb
      rw [hlog, List.mem_append] at he
      exact he.imp id (fun h => ⟨rfl, h⟩)
    · rw [hoth b hb] at he
      exact Or.inl he
  refine ⟨?_, ?_, ?_, ?_, hone, ?_⟩
  · intro m
    by_cases hm : m = n
    · subst hm; exact hnode
    · rw [hoth m hm]; exact h.node m
  · intro m hm
    have : m ≠ n := by rintro rfl; exact hn hm
    rw [hoth m this]; exact h.slash m hm
  · intro b id a q he
    rcases hmem b _ he with he | ⟨rfl, he⟩
    · obtain ⟨i, k, v, h1, h2⟩ := h.recv b id a q he
      exact ⟨i, k, v, hdone _ h1, hidx a i _ h2⟩
    · obtain ⟨i, k, v, h1, _, h2⟩ := hrecv id a q he
      exact ⟨i, k, v, h1, hidx a i _ h2⟩
  · have hmix : ∀ b id a q id' q', Ev.received id a q ∈ (S.svc b).log → Ev.received id' a q' ∈ x → q.sn = q'.sn → False := by
      intro b id a q id' q' h1 h2 hs
      obtain ⟨i, k, v, d1, g1⟩ := h.recv b id a q h1
      obtain ⟨j, k', v', _, d2, g2⟩ := hrecv id' a q' h2
      have := idx_unique outSn q.sn (S.svc a).log i j _ _ (outs_nodup (h.node a)) g1 g2 rfl (by simp [outSn, hs])
      subst this
      exact d2 _ d1
    intro b id a q b' id' q' he he' hs
    rcases hmem b _ he with h1 | ⟨e1, h1⟩
    · rcases hmem b' _ he' with h2 | ⟨_, h2⟩
      · exact h.uniq b id a q b' id' q' h1 h2 hs
      · exact (hmix b id a q id' q' h1 h2 hs).elim
    · rcases hmem b' _ he' with h2 | ⟨e2, h2⟩
      · exact (hmix b' id' a q' id q h2 h1 hs.symm).elim
      · exact ⟨e1.trans e2.symm, huniq id a q id' q' h1 h2⟩
  · intro a sn code he
    rcases hmem a _ he with he | ⟨rfl, he⟩
    · rcases h.resp a sn code he with ⟨b, j, k, v, h1⟩ | ⟨h1, i, b, k, q, v, h2, h3, h4⟩
      · exact Or.inl ⟨b, j, k, v, hidx b j _ h1⟩
      · exact Or.inr ⟨h1, i, b, k, q, v, hdone _ h2, hidx a i _ h3, h4⟩
    · rcases hresp sn code he with ⟨b, j, k, v, h1⟩ | ⟨h1, i, b, k, q, v, h2, h3, h4⟩
      · exact Or.inl ⟨b, j, k, v, hidx b j _ h1⟩
      · exact Or.inr ⟨h1, i, b, k, q, v, h2, hidx _ i _ h3, h4⟩

theorem upd_self (f : Str → St) (n : Str) (s : St) : upd f n s n = s := by simp [upd]
theorem upd_other (f : Str → St) (n : Str) (s : St) (m : Str) (h : m ≠ n) : upd f n s m = f m := by simp [upd, h]

theorem parse_compose {l : Lang} {net src n a : Str} (hs : '/' ∉ net) (h : parse l (solCompose net src) = some (n, a)) :
    n = net ∧ a = src := by
  unfold parse at h
  cases l with
  | java =>
    simp only [jValueOf, jParse_compose net src hs] at h
    split at h
    · simp at h
    · simp only [Option.map_some, Option.some.injEq, Prod.mk.injEq] at h
      exact ⟨h.1.symm, h.2.symm⟩
  | sol =>
    obtain ⟨h1, h2, h3, h4⟩ := (C26_sol_parse_iff _ _ _).mp h
    have h5 := jParse_compose n a h3
    rw [← h1, jParse_compose net src hs] at h5
    simp only [JAddr.mk.injEq, true_and] at h5
    exact ⟨h5.1.symm, h5.2.symm⟩

/-- Where a response comes from: the network answers a call it received from there, executed with that code. -/
theorem res_origin {N : Str → Cfg} {S : Sys} (h : SInv N S) {b a : Str} {j : Nat} {n sn code : Int} {v : Nat}
    (hj : (S.svc b).log[j]? = some (Ev.out a n (.res sn code) v)) :
    ∃ (id : Nat) (q : Req), Ev.received id a q ∈ (S.svc b).log ∧ q.sn = sn ∧ q.rb = true ∧ Ev.executed id code ∈ (S.svc b).log ∧
      negSn (N b).lang sn = some n := by
  obtain ⟨l1, l2, hl, _, hneg, l', id, r, acct, hl', hc, hrb, hsn, hp⟩ := (h.node b).good.mem (List.mem_of_getElem? hj)
  have hc' : Ev.call id r ∈ (S.svc b).log := by rw [hl]; exact List.mem_append_left _ hc
  obtain ⟨k, net, q, rfl, hr, rfl⟩ := (h.node b).inv.call id r hc'
  obtain ⟨i, _, _, _, g⟩ := h.recv b k net q hr
  have hslash : '/' ∉ net := by
    intro hm
    rw [h.slash net hm] at g
    simp at g
  obtain ⟨rfl, _⟩ := parse_compose hslash hp
  refine ⟨k, q, hr, hsn, hrb, ?_, hneg⟩
  rw [hl, hl']; simp

theorem sstep_inv {N : Str → Cfg} {S S' : Sys} (h : SInv N S) (hsm : Small S') (hs : SStep N S S') : SInv N S' := by
  cases hs with
  | user n op s' hn hb hk =>
    obtain ⟨x, hx, hf⟩ := (step_same (N n) _ _ op _ s' hb hk).1 (by simp)
    refine h.next n x hn (by simp only [upd_self]; exact step_inv2 _ op _ s' (h.node n) hk) (by simp only [upd_self]; exact hx)
      (fun m hm => upd_other _ _ _ _ hm) (fun d hd => hd) h.one ?_ ?_ ?_
    · intro id a q he; exact absurd (hf _ he) (by simp [fromBmc])
    · intro id a q id' q' he; exact absurd (hf _ he) (by simp [fromBmc])
    · intro sn code he; exact absurd (hf _ he) (by simp [fromBmc])
  | deliver a i net sn m v s' hn hi hd hk =>
    have hinv := step_inv2 _ _ _ s' (h.node net) hk
    have hdone : ∀ d, d ∈ S.done → d ∈ S.done ++ [(a, i, true)] := fun d hd => List.mem_append_left _ hd
    have hone : ∀ c j k k', (c, j, k) ∈ S.done ++ [(a, i, true)] → (c, j, k') ∈ S.done ++ [(a, i, true)] → k = k' := by
      intro c j k k' h1 h2
      simp only [List.mem_append, List.mem_singleton, Prod.mk.injEq] at h1 h2
      rcases h1 with h1 | ⟨rfl, rfl, rfl⟩
      · rcases h2 with h2 | ⟨rfl, rfl, rfl⟩
        · exact h.one c j k k' h1 h2
        · exact absurd h1 (hd _)
      · rcases h2 with h2 | ⟨_, _, rfl⟩
        · exact absurd h2 (hd _)
        · rfl
    simp only [step] at hk
    obtain ⟨_, _, ⟨r, hm, _, hq⟩ | ⟨sn', code, hm, _, hq⟩⟩ := message_ok hk
    · subst hm
      have e := handleRequest_ok hq
      refine h.next net [.received ((S.svc net).reqId + 1) a r] hn (by simp only [upd_self]; exact hinv) (by simp only [upd_self]; rw [e])
        (fun m hm => upd_other _ _ _ _ hm) hdone hone ?_ ?_ ?_
      · intro id c q he
        simp only [List.mem_singleton, Ev.received.injEq] at he
        obtain ⟨rfl, rfl, rfl⟩ := he
        exact ⟨i, sn, v, by simp, hd, hi⟩
      · intro id c q id' q' he he'
        simp only [List.mem_singleton, Ev.received.injEq] at he he'
        exact ⟨he.1.trans he'.1.symm, he.2.2.trans he'.2.2.symm⟩
      · intro sn code he; simp at he
    · subst hm
      have hlog : ∃ x, s'.log = (S.svc net).log ++ x ∧ ∀ e ∈ x, e = .response sn' code := by
        rcases response_ok hq with ⟨_, rfl⟩ | ⟨c, _, rfl⟩
        · exact ⟨[], by simp, by simp⟩
        · exact ⟨_, rfl, by simp⟩
      obtain ⟨x, hx, hf⟩ := hlog
      refine h.next net x hn (by simp only [upd_self]; exact hinv) (by simp only [upd_self]; exact hx)
        (fun m hm => upd_other _ _ _ _ hm) hdone hone ?_ ?_ ?_
      · intro id c q he; cases hf _ he
      · intro id c q id' q' he; cases hf _ he
      · intro s0 c0 he
        have := hf _ he
        simp only [Ev.response.injEq] at this
        obtain ⟨rfl, rfl⟩ := this
        exact Or.inl ⟨a, i, sn, v, hi⟩
  | bounce a i net sn m v code s' hi hd hsn hk =>
    have hinv := step_inv2 _ _ _ s' (h.node a) hk
    have hslash : '/' ∉ a := by
      intro hm
      rw [h.slash a hm] at hi
      simp at hi
    have hdone : ∀ d, d ∈ S.done → d ∈ S.done ++ [(a, i, false)] := fun d hd => List.mem_append_left _ hd
    have hone : ∀ c j k k', (c, j, k) ∈ S.done ++ [(a, i, false)] → (c, j, k') ∈ S.done ++ [(a, i, false)] → k = k' := by
      intro c j k k' h1 h2
      simp only [List.mem_append, List.mem_singleton, Prod.mk.injEq] at h1 h2
      rcases h1 with h1 | ⟨rfl, rfl, rfl⟩
      · rcases h2 with h2 | ⟨rfl, rfl, rfl⟩
        · exact h.one c j k k' h1 h2
        · exact absurd h1 (hd _)
      · rcases h2 with h2 | ⟨_, _, rfl⟩
        · exact absurd h2 (hd _)
        · rfl
    simp only [step] at hk
    obtain ⟨_, _, hq⟩ := error_ok hk
    have hsnS : ∀ n, (S.svc n).sn < 2 ^ 255 := by
      intro n
      have := hsm n
      by_cases hn : n = a
      · subst hn
        simp only [upd_self] at this
        have : s'.sn = (S.svc n).sn := by rcases response_ok hq with ⟨_, rfl⟩ | ⟨c, _, rfl⟩ <;> rfl
        omega
      · simp only [upd_other _ _ _ _ hn] at this
        exact this
    have hreq : ∃ q, m = .req q ∧ q.sn = sn := by
      cases m with
      | unknown =>
        obtain ⟨_, _, _, hj⟩ := (h.node a).good.mem (List.mem_of_getElem? hi)
        exact hj.elim
      | req q =>
        refine ⟨q, rfl, ?_⟩
        obtain ⟨k, rb, e1, e2, e3, _, _, e4⟩ := out_sent (h.node a) hi
        have := hsnS a
        rw [e1, e4]
        split
        · unfold posSn
          split
          · rfl
          · unfold toInt256
            rw [if_pos (by omega)]
        · rename_i hrb
          rw [if_neg hrb] at e4
          omega
      | res s0 c0 =>
        exfalso
        obtain ⟨id, q, hr, hqs, _, _, hneg⟩ := res_origin h hi
        obtain ⟨j, n1, v1, _, g⟩ := h.recv a id net q hr
        obtain ⟨k, rb, e1, e2, e3, _⟩ := out_sent (h.node net) g
        have := hsnS net
        unfold negSn at hneg
        split at hneg
        · simp only [Option.some.injEq] at hneg
          omega
        · split at hneg
          · cases hneg
          · simp only [Option.some.injEq] at hneg
            unfold toInt256 at hneg
            rw [if_pos (by omega)] at hneg
            omega
    obtain ⟨q, rfl, hqs⟩ := hreq
    have hlog : ∃ x, s'.log = (S.svc a).log ++ x ∧ ∀ e ∈ x, e = .response sn (-2) := by
      rcases response_ok hq with ⟨_, rfl⟩ | ⟨c, _, rfl⟩
      · exact ⟨[], by simp, by simp⟩
      · exact ⟨_, rfl, by simp⟩
    obtain ⟨x, hx, hf⟩ := hlog
    refine h.next a x hslash (by simp only [upd_self]; exact hinv) (by simp only [upd_self]; exact hx)
      (fun m hm => upd_other _ _ _ _ hm) hdone hone ?_ ?_ ?_
    · intro id c q he; cases hf _ he
    · intro id c q id' q' he; cases hf _ he
    · intro s0 c0 he
      have := hf _ he
      simp only [Ev.response.injEq] at this
      obtain ⟨rfl, rfl⟩ := this
      exact Or.inr ⟨rfl, i, net, s0, q, v, by simp, hi, hqs⟩

theorem reach_inv {N : Str → Cfg} {b : Str → Nat} {S : Sys} (h : Reach N b S) : SInv N S := by
  induction h with
  | init =>
    refine ⟨fun n => init_inv2 _ _, fun n _ => rfl, ?_, ?_, ?_, ?_⟩
    · intro b id a q he; simp [init] at he
    · intro b id a q b' id' q' he; simp [init] at he
    · intro a i k k' he; simp at he
    · intro a sn code he; simp [init] at he
  | step _ hs hsm ih => exact sstep_inv ih hsm hs

/-- A call that failed was not executed with success anywhere. -/
theorem failed_exec (N : Str → Cfg) (bal : Str → Nat) (S : Sys) (hS : Reach N bal S) (a b : Str) (sn : Int) (code : Int) (hc0 : code ≠ 0)
    (hc : Ev.response sn code ∈ (S.svc a).log) (id : Nat) (q : Req) (hr : Ev.received id a q ∈ (S.svc b).log) (hq : q.sn = sn)
    (c : Int) (he : Ev.executed id c ∈ (S.svc b).log) : c ≠ 0 := by
  have h := reach_inv hS
  rcases h.resp a sn code hc with ⟨b0, j, n, v, hj⟩ | ⟨_, i, b0, n, q0, v, hd, hi, hq0⟩
  · obtain ⟨id0, q0, hr0, hq0, _, he0, _⟩ := res_origin h hj
    obtain ⟨rfl, rfl, rfl⟩ := h.uniq b0 id0 a q0 b id q hr0 hr (hq0.trans hq.symm)
    obtain ⟨l1, l2, hl, _, hj2⟩ := (h.node b0).good.mem he
    obtain ⟨m1, m2, hl', _, hj2'⟩ := (h.node b0).good.mem he0
    have hcc : c = code := by
      have hnd : ∀ l : List Ev, Good (N b0).lang l → ∀ c c', Ev.executed id0 c ∈ l → Ev.executed id0 c' ∈ l → c = c' := by
        intro l hg
        induction hg with
        | nil => intro c c' h1; simp at h1
        | @snoc l e hg hj ih =>
          intro c c' h1 h2
          simp only [List.mem_append, List.mem_singleton] at h1 h2
          rcases h1 with h1 | h1
          · rcases h2 with h2 | h2
            · exact ih c c' h1 h2
            · subst h2; exact absurd (mem_execId.mpr ⟨_, h1⟩) hj.2
          · rcases h2 with h2 | h2
            · subst h1; exact absurd (mem_execId.mpr ⟨_, h2⟩) hj.2
            · rw [← h1] at h2; cases h2; rfl
      exact hnd _ (h.node b0).good c code he he0
    rw [hcc]; exact hc0
  · obtain ⟨i', n', v', hd', hi'⟩ := h.recv b id a q hr
    have := idx_unique outSn sn (S.svc a).log i i' _ _ (outs_nodup (h.node a)) hi hi' (by simp [outSn, hq0]) (by simp [outSn, hq])
    subst this
    exact absurd (h.one a i _ _ hd hd') (by simp)

/-- C76: if the caller is rolled back, the call did not run to its end on any network, and never will. -/
theorem C76_atomic (N : Str → Cfg) (bal : Str → Nat) (S : Sys) (hS : Reach N bal S) (a b : Str) (sn : Int) (dst : Str) (data : Option Bytes)
    (hu : Ev.undo sn dst data ∈ (S.svc a).log) (id : Nat) (q : Req) (hr : Ev.received id a q ∈ (S.svc b).log) (hq : q.sn = sn)
    (c : Int) (he : Ev.executed id c ∈ (S.svc b).log) : c ≠ 0 := by
  have h := reach_inv hS
  obtain ⟨_, _, ⟨code, hc0, hc⟩, _⟩ := (h.node a).inv.undo sn dst data hu
  exact failed_exec N bal S hS a b sn code hc0 hc id q hr hq c he

/-- C76: a call the service takes for successful ran to its end on the network it was sent to. -/
theorem C76_success (N : Str → Cfg) (bal : Str → Nat) (S : Sys) (hS : Reach N bal S) (a : Str) (sn : Int)
    (hc : Ev.response sn 0 ∈ (S.svc a).log) :
    ∃ (k : Nat) (caller net acct : Str) (data : Bytes) (rb : Option Bytes) (id : Nat) (q : Req), sn = k ∧
      Ev.sent k caller net acct data rb ∈ (S.svc a).log ∧ Ev.received id a q ∈ (S.svc net).log ∧ q.sn = sn ∧
      q.src = caller ∧ q.dst = acct ∧ q.data = data ∧ Ev.executed id 0 ∈ (S.svc net).log := by
  have h := reach_inv hS
  rcases h.resp a sn 0 hc with ⟨b0, j, n, v, hj⟩ | ⟨h0, _⟩
  · obtain ⟨id0, q0, hr0, hq0, _, he0, _⟩ := res_origin h hj
    obtain ⟨i, n', v', _, hi⟩ := h.recv b0 id0 a q0 hr0
    obtain ⟨k, rb, e1, _, _, e2, _⟩ := out_sent (h.node a) hi
    exact ⟨k, _, _, _, _, rb, id0, q0, hq0.symm.trans e1, e2, hr0, hq0, rfl, rfl, rfl, he0⟩
  · exact absurd h0 (by decide)

/-- C76: what a service runs was sent to it, by the contract the target is told, to the target, with the data; and no sent call is
    received twice, on any networks. -/
theorem C76_integrity (N : Str → Cfg) (bal : Str → Nat) (S : Sys) (hS : Reach N bal S) (b : Str) (id : Int) (r : Req)
    (hc : Ev.call id r ∈ (S.svc b).log) :
    ∃ (a : Str) (k : Nat) (caller : Str) (rb : Option Bytes), '/' ∉ a ∧ r.src = solCompose a caller ∧ r.sn = k ∧
      Ev.sent k caller b r.dst r.data rb ∈ (S.svc a).log := by
  have h := reach_inv hS
  obtain ⟨n, a, q, rfl, hr, rfl⟩ := (h.node b).inv.call id r hc
  obtain ⟨i, n', v', _, hi⟩ := h.recv b n a q hr
  obtain ⟨k, rb, e1, _, _, e2, _⟩ := out_sent (h.node a) hi
  refine ⟨a, k, q.src, rb, ?_, rfl, e1, e2⟩
  intro hm
  rw [h.slash a hm] at hi
  simp at hi

/-- A call that failed and was received was executed, and failed. -/
theorem failed_executed (N : Str → Cfg) (bal : Str → Nat) (S : Sys) (hS : Reach N bal S) (a b : Str) (sn : Int) (code : Int)
    (hc : Ev.response sn code ∈ (S.svc a).log) (id : Nat) (q : Req) (hr : Ev.received id a q ∈ (S.svc b).log) (hq : q.sn = sn) :
    Ev.executed id code ∈ (S.svc b).log := by
  have h := reach_inv hS
  rcases h.resp a sn code hc with ⟨b0, j, n, v, hj⟩ | ⟨_, i, b0, n, q0, v, hd, hi, hq0⟩
  · obtain ⟨id0, q0, hr0, hq0, _, he0, _⟩ := res_origin h hj
    obtain ⟨rfl, rfl, rfl⟩ := h.uniq b0 id0 a q0 b id q hr0 hr (hq0.trans hq.symm)
    exact he0
  · obtain ⟨i', n', v', hd', hi'⟩ := h.recv b id a q hr
    have := idx_unique outSn sn (S.svc a).log i i' _ _ (outs_nodup (h.node a)) hi hi' (by simp [outSn, hq0]) (by simp [outSn, hq])
    subst this
    exact absurd (h.one a i _ _ hd hd') (by simp)

/-- Every request received was sent to this network. -/
theorem received_sent (N : Str → Cfg) (bal : Str → Nat) (S : Sys) (hS : Reach N bal S) (b : Str) (id : Nat) (a : Str) (q : Req)
    (hr : Ev.received id a q ∈ (S.svc b).log) :
    '/' ∉ a ∧ ∃ (k : Nat) (rb : Option Bytes), q.sn = k ∧ Ev.sent k q.src b q.dst q.data rb ∈ (S.svc a).log := by
  have h := reach_inv hS
  obtain ⟨i, n', v', _, hi⟩ := h.recv b id a q hr
  obtain ⟨k, rb, e1, _, _, e2, _⟩ := out_sent (h.node a) hi
  refine ⟨fun hm => ?_, k, rb, e1, e2⟩
  rw [h.slash a hm] at hi
  simp at hi

theorem C76_once (N : Str → Cfg) (bal : Str → Nat) (S : Sys) (hS : Reach N bal S) (a b b' : Str) (id id' : Nat) (q q' : Req)
    (h1 : Ev.received id a q ∈ (S.svc b).log) (h2 : Ev.received id' a q' ∈ (S.svc b').log) (hs : q.sn = q'.sn) : b = b' ∧ id = id' := by
  obtain ⟨h3, h4, _⟩ := (reach_inv hS).uniq b id a q b' id' q' h1 h2 hs
  exact ⟨h3, h4⟩

/-- C55, what holds: if all services are honest, a call is settled only by the network it was sent to, which executed it with that
    code, or by an error of a message center. -/
theorem C55_honest_partial (N : Str → Cfg) (bal : Str → Nat) (S : Sys) (hS : Reach N bal S) (a : Str) (sn code : Int)
    (hc : Ev.response sn code ∈ (S.svc a).log) :
    ∃ (k : Nat) (caller net acct : Str) (data : Bytes) (rb : Option Bytes), sn = k ∧ Ev.sent k caller net acct data rb ∈ (S.svc a).log ∧
      ((∃ (id : Nat) (q : Req), Ev.received id a q ∈ (S.svc net).log ∧ q.sn = sn ∧ Ev.executed id code ∈ (S.svc net).log) ∨ code = -2) := by
  have h := reach_inv hS
  rcases h.resp a sn code hc with ⟨b0, j, n, v, hj⟩ | ⟨h0, i, b0, n, q, v, _, hi, hq⟩
  · obtain ⟨id0, q0, hr0, hq0, _, he0, _⟩ := res_origin h hj
    obtain ⟨i, n', v', _, hi⟩ := h.recv b0 id0 a q0 hr0
    obtain ⟨k, rb, e1, _, _, e2, _⟩ := out_sent (h.node a) hi
    exact ⟨k, _, _, _, _, rb, hq0.symm.trans e1, e2, Or.inl ⟨id0, q0, hr0, hq0, he0⟩⟩
  · obtain ⟨k, rb, e1, _, _, e2, _⟩ := out_sent (h.node a) hi
    exact ⟨k, _, _, _, _, rb, hq.symm.trans e1, e2, Or.inr h0⟩

/-! ### an example: a call from an ICON network to an EVM network fails, the answer comes back, the rollback is run -/

namespace Toy
def N : Str → Cfg := fun n => if n = A then cfg .java else cfg .sol

theorem getD_of {o : Option St} {d : St} (h : o.isSome = true) : o = some (o.getD d) := by
  cases o with
  | none => simp at h
  | some s => rfl

def a1 : St := (step (N A) (.send dapp true (solCompose B target) [1] (some [2]) 10 (some 5) (some 1)) (init 0)).getD (init 0)
def b1 : St := (step (N B) (.message (N B).bmc A name 1 (.req ⟨dapp, target, 1, true, [1]⟩)) (init 0)).getD (init 0)
def b2 : St := (step (N B) (.exec 1 .nil .failed (some 9)) b1).getD (init 0)
def a2 : St := (step (N A) (.message (N A).bmc B name (-1) (.res 1 (-1))) a1).getD (init 0)
def a3 : St := (step (N A) (.undo 1 .nil .ok) a2).getD (init 0)

def S1 : Sys := ⟨upd (fun _ => init 0) A a1, []⟩
def S2 : Sys := ⟨upd S1.svc B b1, [(A, 0, true)]⟩
def S3 : Sys := ⟨upd S2.svc B b2, [(A, 0, true)]⟩
def S4 : Sys := ⟨upd S3.svc A a2, [(A, 0, true), (B, 3, true)]⟩
def S5 : Sys := ⟨upd S4.svc A a3, [(A, 0, true), (B, 3, true)]⟩

theorem small_of {f : Str → St} {n : Str} {s : St} {d d' : List (Str × Nat × Bool)} (h : Small ⟨f, d⟩) (hs : s.sn < 2 ^ 255) :
    Small ⟨upd f n s, d'⟩ := by
  intro m
  simp only [upd]
  split
  · exact hs
  · exact h m

theorem example_reach : Reach N (fun _ => 0) S5 := by
  have m0 : Small ⟨fun _ => init 0, []⟩ := fun n => by show (0 : Nat) < 2 ^ 255; decide +kernel
  have m1 : Small S1 := small_of m0 (by decide +kernel)
  have m2 : Small S2 := small_of m1 (by decide +kernel)
  have m3 : Small S3 := small_of m2 (by decide +kernel)
  have m4 : Small S4 := small_of m3 (by decide +kernel)
  have m5 : Small S5 := small_of m4 (by decide +kernel)
  refine .step (.step (.step (.step (.step .init (.user A (.send dapp true (solCompose B target) [1] (some [2]) 10 (some 5) (some 1)) a1
      (by decide +kernel) trivial (getD_of ?_)) m1)
    (.deliver A 0 B 1 (.req ⟨dapp, target, 1, true, [1]⟩) 10 b1 (by decide +kernel) ?_ (by simp) (getD_of ?_)) m2)
    (.user B (.exec 1 .nil .failed (some 9)) b2 (by decide +kernel) trivial (getD_of ?_)) m3)
    (.deliver B 3 A (-1) (.res 1 (-1)) 0 a2 (by decide +kernel) ?_ ?_ (getD_of ?_)) m4)
    (.user A (.undo 1 .nil .ok) a3 (by decide +kernel) trivial (getD_of ?_)) m5
  all_goals first
    | decide +kernel
    | (intro k h; simp [S3, A, B] at h)

example : Ev.undo 1 dapp (some [2]) ∈ (S5.svc A).log ∧ Ev.received 1 A ⟨dapp, target, 1, true, [1]⟩ ∈ (S5.svc B).log ∧
    Ev.executed 1 (-1) ∈ (S5.svc B).log := by decide +kernel

end Toy

end Verif.XCall
