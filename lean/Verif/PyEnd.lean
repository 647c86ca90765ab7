import Verif.PyBmvProps
import Verif.PyBmcProps
/-!
C167: the Python verifier and the Python message centers of two chains together: from the bytes of relay messages to the messages that the
message center of the other chain sent.
-/
namespace Verif.PyEnd
open Verif Verif.BtpAddress Verif.Mbt Verif.PyBmv
open Verif.PyRlp (Val Obj)
open Verif.JavaMpt (Trie toNibbles)

/-! ### Indices -/

theorem decode_first (u : Bytes → Bool) (t : PyRlp.T) (ts : List PyRlp.T) (b : Bytes) (v : Val) (vs : List Val)
    (h : PyRlp.decode u (.struct (t :: ts)) b = some (.list (v :: vs))) : ∃ b', PyRlp.decode u t b' = some v := by
  rw [PyRlp.decode] at h
  split at h
  · split at h
    · cases h
    · obtain ⟨l, hl, e⟩ := Option.map_eq_some_iff.1 h
      cases e
      rename_i items _ _
      cases items with
      | nil => rw [PyRlp.decodes] at hl; cases hl
      | cons x xs =>
        rw [PyRlp.decodes] at hl
        obtain ⟨v', h1, h2⟩ := Option.bind_eq_some_iff.1 hl
        obtain ⟨vs', _, e⟩ := Option.map_eq_some_iff.1 h2
        cases e
        exact ⟨x, h1⟩
  · cases h

/-- A number that is read is null or a number; written again as a key it is an RLP encoding, unless it is longer than 65535 bytes. -/
theorem key_rlp (u : Bytes → Bool) (b : Bytes) (v : Val) (h : PyRlp.decode u .int b = some v) (hl : (PyRlp.encode (toObj v)).length < 65536) :
    ∃ x : Rlp.Val .bytes, PyRlp.encode (toObj v) = Rlp.enc .bytes x := by
  rw [PyRlp.decode] at h
  · obtain ⟨p, _, h⟩ := Option.bind_eq_some_iff.1 h
    cases p with
    | null => cases h; exact ⟨none, rfl⟩
    | bytes x =>
      cases h
      have hl' : (PyRlp.encBytes ((PyInt.intBytes (PyInt.intFrom x)).getD [])).length < 65536 := by
        simpa [toObj, PyRlp.encode] using hl
      refine ⟨some ((PyInt.intBytes (PyInt.intFrom x)).getD []), ?_⟩
      rw [toObj, PyRlp.encode]
      exact (PyRlp.encode_bytes _ hl').1
    | items l => cases h
  all_goals (intro ts e; cases e)

/-- Every receipt proof and event proof of a message that was read has an index as its key. -/
def Keyed (q : Mpt) : Prop := q.key.length < 65536 → ∃ x : Rlp.Val .bytes, q.key = Rlp.enc .bytes x

theorem mapM_mem {α β : Type} (f : α → Option β) : ∀ (l : List α) (r : List β), l.mapM f = some r → ∀ y ∈ r, ∃ x ∈ l, f x = some y := by
  intro l
  induction l with
  | nil => intro r h y hy; cases h; cases hy
  | cons a l ih =>
    intro r h y hy
    rw [List.mapM_cons] at h
    obtain ⟨b, h1, h⟩ := Option.bind_eq_some_iff.1 h
    obtain ⟨bs, h2, h⟩ := Option.bind_eq_some_iff.1 h
    cases h
    rcases List.mem_cons.1 hy with rfl | hy
    · exact ⟨a, List.mem_cons_self, h1⟩
    · obtain ⟨x, hx, e⟩ := ih bs h2 y hy
      exact ⟨x, List.mem_cons_of_mem _ hx, e⟩

theorem readEventProof_keyed {E : Env} {b : Bytes} {q : Mpt} (h : readEventProof E b = some q) : Keyed q := by
  unfold readEventProof at h
  split at h
  · rename_i i p hd
    obtain ⟨ns, _, e⟩ := Option.map_eq_some_iff.1 h
    subst e
    intro hl
    obtain ⟨b', hb⟩ := decode_first _ _ _ _ _ _ hd
    exact key_rlp _ _ _ hb hl
  · cases h

theorem readReceiptProof_keyed {E : Env} {b : Option Bytes} {p : ReceiptProof} (h : readReceiptProof E b = some p) :
    Keyed p.mpt ∧ ∀ q ∈ p.events, Keyed q := by
  unfold readReceiptProof at h
  obtain ⟨b, _, h⟩ := Option.bind_eq_some_iff.1 h
  split at h
  · rename_i i n es hd
    obtain ⟨ns, _, h⟩ := Option.bind_eq_some_iff.1 h
    obtain ⟨ms, hm, e⟩ := Option.map_eq_some_iff.1 h
    subst e
    refine ⟨fun hl => ?_, fun q hq => ?_⟩
    · obtain ⟨b', hb⟩ := decode_first _ _ _ _ _ _ hd
      exact key_rlp _ _ _ hb hl
    · obtain ⟨x, _, hx⟩ := mapM_mem _ _ _ hm q hq
      exact readEventProof_keyed hx
  · cases h

theorem readRelay_keyed {E : Env} {b : Bytes} {m : Relay} (h : readRelay E b = some m) :
    ∀ p ∈ m.receipts, Keyed p.mpt ∧ ∀ q ∈ p.events, Keyed q := by
  unfold readRelay at h
  split at h
  · obtain ⟨us, _, h⟩ := Option.bind_eq_some_iff.1 h
    obtain ⟨bp, _, h⟩ := Option.bind_eq_some_iff.1 h
    obtain ⟨rs, hr, e⟩ := Option.map_eq_some_iff.1 h
    subst e
    intro p hp
    obtain ⟨x, _, hx⟩ := mapM_mem _ _ _ hr p hp
    exact readReceiptProof_keyed hx
  · cases h

/-! ### The other chain -/

/-- What the blocks of the other chain hold: the receipts of a block and the events of a receipt are in tries, and `emb` tells which nodes of
a trie are put into their parents. -/
structure World where
  emb : Bytes → Bool
  receipts : Header → Trie
  events : Bytes → Trie

/-- A trie of the platform: its keys are RLP encodings (of indices), its nodes are not longer than lengths that can be written. -/
structure Tree (E : Env) (emb : Bytes → Bool) (t : Trie) : Prop where
  nib : t.Nib
  short : PyMpt.Short E.H emb t
  keys : ∀ k w, t.lookup k = some w → ∃ ty x, k = toNibbles [] (Rlp.enc ty x) ∧ (Rlp.enc ty x).length < 2 ^ 63

/-- The roots in the headers and in the receipts are those of the tries. -/
structure World.Of (w : World) (E : Env) (real : List (Header × Vals)) : Prop where
  receipts : ∀ d ∈ real, ∀ r, d.1.receiptHash = some r → r = PyMpt.root E.H w.emb (w.receipts d.1) ∧ Tree E w.emb (w.receipts d.1)
  events : ∀ d ∈ real, ∀ k b r, (w.receipts d.1).lookup k = some b → readReceipt E b = some (some r) →
    r = PyMpt.root E.H w.emb (w.events b) ∧ Tree E w.emb (w.events b)

/-- An event of a receipt of a block of the chain. -/
def World.Emits (w : World) (E : Env) (real : List (Header × Vals)) (e : EventLog) : Prop :=
  ∃ d ∈ real, ∃ k b, (w.receipts d.1).lookup k = some b ∧ ∃ k' b', (w.events b).lookup k' = some b' ∧ readEvent E b' = some e

/-- The hash collides between what a relay message holds and what the chain holds: the header of its block proof and the headers of the chain; the
nodes of the block proof and those of the accumulator over the headers; the nodes of its receipt proofs and those of the tries of receipts; the
nodes of its event proofs and those of the tries of events. -/
def World.Collides (w : World) (E : Env) (o : Int) (real : List (Header × Vals)) (m : Relay) : Prop :=
  (∃ p hd, m.proof = some p ∧ p.header = some hd ∧ (Collision E.H [hd.bytes] (real.map fun d => d.1.bytes) ∨
    ∃ k height st n, hd.height = some height ∧ Collision E.H (PyMta.calls E.H (p.witness.map (·.getD [])) (E.H hd.bytes) (height - 1 - o))
      (Merkle.inputs E.H ((((real.take k).map fun d => E.H d.1.bytes).drop st).take n)))) ∨
  (∃ d ∈ real, ∃ p ∈ m.receipts, Collision E.H p.mpt.proofs
    (PyMpt.ser E.H w.emb (w.receipts d.1) :: PyMpt.below E.H w.emb (w.receipts d.1) (toNibbles [] p.mpt.key))) ∨
  (∃ d ∈ real, ∃ k b, (w.receipts d.1).lookup k = some b ∧ ∃ p ∈ m.receipts, ∃ q ∈ p.events, Collision E.H q.proofs
    (PyMpt.ser E.H w.emb (w.events b) :: PyMpt.below E.H w.emb (w.events b) (toNibbles [] q.key)))

/-- Sizes: an index is not longer than 65535 bytes, a value than the lengths that can be written. -/
def Fits (E : Env) (q : Mpt) : Prop := q.key.length < 65536 ∧ ∀ r b, proveMpt E r q = some b → b.length < 2 ^ 64

def Sized (E : Env) (m : Relay) : Prop := ∀ p ∈ m.receipts, Fits E p.mpt ∧ ∀ q ∈ p.events, Fits E q

/-- A proof for a receipt of a block of the chain gives only events of the chain. -/
theorem receipt_emits {E : Env} (hH : ∀ x, (E.H x).length = 32) {w : World} {o : Int} {real : List (Header × Vals)} (W : w.Of E real) {m : Relay}
    (hn : ¬ w.Collides E o real m) (d : Header × Vals) (hd : d ∈ real) (p : ReceiptProof) (hp : p ∈ m.receipts)
    (hk : Keyed p.mpt ∧ ∀ q ∈ p.events, Keyed q) (hz : Fits E p.mpt ∧ ∀ q ∈ p.events, Fits E q) (es : List EventLog)
    (h : proveReceipt E d.1.receiptHash p = some es) : ∀ e ∈ es, w.Emits E real e := by
  cases hr : d.1.receiptHash with
  | none =>
    rw [hr] at h
    unfold proveReceipt at h
    obtain ⟨b, h1, _⟩ := Option.bind_eq_some_iff.1 h
    cases h1
  | some r =>
    obtain ⟨rfl, T⟩ := W.receipts d hd r hr
    rw [hr] at h
    obtain ⟨x, hx⟩ := hk.1 hz.1.1
    have hx63 : (Rlp.enc .bytes x).length < 2 ^ 63 := by rw [← hx]; exact Nat.lt_trans hz.1.1 (by decide)
    obtain ⟨b, root, h1, h2, h3⟩ := C121_receipt_partial hH w.emb _ T.nib T.short T.keys p .bytes x hx hx63 (fun b => hz.1.2 _ b) es h
    rcases h3 with h3 | h3
    · intro e he
      obtain ⟨q, hq, hqe⟩ := mapM_mem _ _ _ h2 e he
      cases root with
      | none =>
        unfold proveEvent at hqe
        obtain ⟨b, h1, _⟩ := Option.bind_eq_some_iff.1 hqe
        cases h1
      | some r2 =>
        obtain ⟨rfl, T2⟩ := W.events d hd _ b r2 h3 h1
        obtain ⟨y, hy⟩ := hk.2 q hq (hz.2 q hq).1
        have hy63 : (Rlp.enc .bytes y).length < 2 ^ 63 := by rw [← hy]; exact Nat.lt_trans (hz.2 q hq).1 (by decide)
        obtain ⟨b', g1, g2⟩ := C121_event_partial hH w.emb _ T2.nib T2.short T2.keys q .bytes y hy hy63 (fun b => (hz.2 q hq).2 _ b) e hqe
        rcases g2 with g2 | g2
        · exact ⟨d, hd, _, b, h3, _, b', g2, g1⟩
        · exact absurd (.inr (.inr ⟨d, hd, _, b, h3, p, hp, q, hq, g2⟩)) hn
    · exact absurd (.inr (.inl ⟨d, hd, p, hp, h3⟩)) hn

theorem coll_mono {H : Bytes → Bytes} {a b b' : List Bytes} (h : Collision H a b) (hs : ∀ x ∈ b, x ∈ b') : Collision H a b' := by
  obtain ⟨x, hx, y, hy, h⟩ := h
  exact ⟨x, hx, y, hs y hy, h⟩

/-- A call that the verifier accepts after some history of calls: the headers shown to it and signed by a quorum are those of the chain (see
`C167_honest`), the hash does not collide, and sizes. -/
structure Accepts (E : Env) (bmc : Bytes) (net : Str) (V : Vals) (o : Int) (real : List (Header × Vals)) (w : World) (cs : List Call) (c : Call)
    (ret : List Val) : Prop where
  call : ∃ s', handleRelay E (run E (init bmc net V o) cs) c = .ok (s', ret)
  chain : ∀ ds, Chain E (shown E V (cs ++ [c])) o V ds → ds <+: real
  apart : ∀ b m, PyBase64.urlDecode c.msg = some b → readRelay E b = some m → ¬ w.Collides E o real m ∧ Sized E m

/-- **C167**, headers: if the chain has signatures of its own, then what is shown to the verifier is the chain's, unless it is longer, more than a third
of the validators of some block signed two blocks at one height, or hashes of validators collide. -/
theorem C167_honest {E : Env} {K K' : Known} {o : Int} {V : Vals} {real : List (Header × Vals)} (hr : Chain E K' o V real)
    (hlong : ∀ ds, Chain E K o V ds → ds.length ≤ real.length)
    (hsign : ∀ ds, Chain E K o V ds → ¬ ∃ W ∈ V :: ds.map (·.2), ∃ h, ∃ d ∈ ds, ∃ e ∈ real, d.1.height = some h ∧ e.1.height = some h ∧ d.1.bytes ≠ e.1.bytes ∧
      ∃ cs : List Bytes, cs.Nodup ∧ W.addrs.length < 3 * cs.length ∧
        ∀ a ∈ cs, a ∈ W.addrs ∧ Signed E K a h (E.H d.1.bytes) ∧ Signed E K' a h (E.H e.1.bytes))
    (hcol : ∀ ds, Chain E K o V ds → ¬ Collision E.H (ds.map fun d => d.2.bytes) (real.map fun d => d.2.bytes)) :
    ∀ ds, Chain E K o V ds → ds <+: real := by
  intro ds hd
  rcases C120_fork ds real o V hd hr with h | h | h | h
  · exact h
  · rw [h.eq_of_length (Nat.le_antisymm h.length_le (hlong ds hd))]
    exact List.prefix_refl _
  · exact absurd h (hsign ds hd)
  · exact absurd h (hcol ds hd)

/-- **C167**, the verifier: all messages an accepted call returns are, in order, messages that the source contract emitted for this message center in
blocks of its chain, with the numbers following the caller's. -/
theorem C167_verified {E : Env} (hH : ∀ x, (E.H x).length = 32) {bmc : Bytes} {net : Str} {V : Vals} (hV : readVals E V.bytes = some V) {o : Int} (ho : 0 ≤ o)
    {real : List (Header × Vals)} {w : World} (W : w.Of E real) {cs : List Call} {c : Call} {ret : List Val} (h : Accepts E bmc net V o real w cs c ret) :
    ∃ prev, PyAddr.fromString (E.text c.prev) = some prev ∧
      ∀ (i : Nat) (x : Val), ret[i]? = some x → ∃ e, w.Emits E real e ∧ IsMessage E prev.contract e (.str c.bmc) (c.seq + 1 + i) x := by
  obtain ⟨s', hc⟩ := h.call
  obtain ⟨b, m, prev, ds, hd, h1, h2, h3, h4, h5, ess, h6, h7, _⟩ := C121_messages hH bmc net V hV o ho cs c s' ret hc
  refine ⟨prev, h3, fun i x hx => ?_⟩
  obtain ⟨hn, hz⟩ := h.apart b m h1 h2
  obtain ⟨k, hk⟩ : ∃ k, ds = real.take k := ⟨_, List.prefix_iff_eq_take.1 (h.chain ds h4.chain)⟩
  have hsub : ∀ d ∈ ds, d ∈ real := fun d hd => (h.chain ds h4.chain).subset hd
  have hin : ∃ d ∈ real, d.1 = hd := by
    rcases h5 with ⟨d, h, e⟩ | ⟨p, p1, p2, hcol⟩
    · exact ⟨d, hsub d h, e⟩
    · refine absurd (.inl ⟨p, hd, p1, p2, ?_⟩) hn
      rcases hcol with hcol | ⟨height, st, n, q1, q2⟩
      · exact .inl (coll_mono hcol fun y hy => by
          obtain ⟨d, hd, rfl⟩ := List.mem_map.1 hy
          exact List.mem_map.2 ⟨d, hsub d hd, rfl⟩)
      · exact .inr ⟨k, height, st, n, q1, by rw [← hk]; exact q2⟩
  obtain ⟨d, hd1, rfl⟩ := hin
  obtain ⟨e, he, hm⟩ := (C121_consecutive h7).1 i x hx
  refine ⟨e, ?_, hm⟩
  obtain ⟨es, hes, he⟩ := List.mem_flatten.1 he
  obtain ⟨j, hj⟩ := List.getElem?_of_mem hes
  have : (m.receipts.map (proveReceipt E d.1.receiptHash))[j]? = some (some es) := by rw [h6, List.getElem?_map, hj]; rfl
  rw [List.getElem?_map] at this
  obtain ⟨p, hp, hpe⟩ := Option.map_eq_some_iff.1 this
  have hp := List.mem_of_getElem? hp
  exact receipt_emits hH W hn d hd1 p hp (readRelay_keyed h2 p hp) (hz p hp) es hpe e he

/-! ### The message centers of two chains -/

/-- The messages sent over a link since it was added, in order. -/
def sentBytes (g : Nat) (log : List PyBmc.Event) : List Bytes := log.filterMap fun
  | .message g' _ _ b => if g' = g then some b else none
  | .onError _ _ _ => none

theorem sentBytes_at (g : Nat) (log : List PyBmc.Event) : ∀ (n : Nat), log.filterMap (PyBmc.sentOf g) = List.range' n (log.filterMap (PyBmc.sentOf g)).length →
    ∀ k m b, PyBmc.Event.message g k m b ∈ log → n ≤ m ∧ (sentBytes g log)[m - n]? = some b := by
  induction log with
  | nil => intro n _ k m b h; cases h
  | cons e log ih =>
    intro n h k m b hm
    cases e with
    | onError s sn cd =>
      rw [List.filterMap_cons_none rfl] at h
      rcases List.mem_cons.1 hm with e | hm
      · cases e
      · have := ih n h k m b hm
        simpa [sentBytes] using this
    | message g' k' m' b' =>
      by_cases hg : g' = g
      · subst hg
        rw [List.filterMap_cons_some (b := m') (by simp [PyBmc.sentOf])] at h
        rw [List.length_cons, List.range'_succ, List.cons.injEq] at h
        obtain ⟨h0, h⟩ := h
        have hsb : sentBytes g' (.message g' k' m' b' :: log) = b' :: sentBytes g' log := by simp [sentBytes]
        rcases List.mem_cons.1 hm with e | hm
        · cases e
          subst h0
          exact ⟨Nat.le_refl _, by rw [hsb, Nat.sub_self]; rfl⟩
        · obtain ⟨h1, h2⟩ := ih (n + 1) h k m b hm
          refine ⟨by omega, ?_⟩
          rw [hsb, show m - n = (m - (n + 1)) + 1 by omega, List.getElem?_cons_succ]
          exact h2
      · rw [List.filterMap_cons_none (by simp [PyBmc.sentOf, hg])] at h
        rcases List.mem_cons.1 hm with e | hm
        · cases e; exact absurd rfl hg
        · have := ih n h k m b hm
          simpa [sentBytes, hg] using this

/-- The events of the chain that are messages of the contract for `nb` are in the log of its message center: `t` is the link text for `nb`. -/
def Source (E : Env) (w : World) (real : List (Header × Vals)) (contract : Str) (nb : Bytes) (A : PyBmc.St) (t : Str) : Prop :=
  ∀ e, w.Emits E real e → ∀ q x, IsMessage E contract e (.str nb) q x → ∃ (g n : Nat) (b : Bytes), q = n ∧ x = .bytes b ∧ PyBmc.Event.message g t n b ∈ A.log

/-- **C167** (partial: no relay call for a link inside one for the same link, as C122; the link was added once on the other side): two message centers
with a verifier between them. If the message center takes over the link `k` only what the verifier accepts (in whatever state the verifier is), and
the events of the other chain are those of its message center, then the messages taken over the link are exactly the first ones the other message
center sent over it, in order, each once. -/
theorem C167_exactly_once_partial {E : Env} (hH : ∀ x, (E.H x).length = 32) {bmc : Bytes} {net : Str} {V : Vals} (hV : readVals E V.bytes = some V) {o : Int} (ho : 0 ≤ o)
    {real : List (Header × Vals)} {w : World} (W : w.Of E real) (cA cB : PyBmc.Cfg) (opsA opsB : List PyBmc.Op)
    (k t : Str) (prev : PyAddr.Addr) (hk : PyAddr.fromString k = some prev) (nb : Bytes)
    (hsrc : Source E w real prev.contract nb (PyBmc.run cA opsA) t)
    (g : Nat) (hg : ∀ g', (PyBmc.run cA opsA).names[g']? = some t → g' = g)
    (hver : ∀ bmv rx v msgs, cB.verify bmv k rx v msgs = true → ∃ cs c, E.text c.prev = k ∧ c.bmc = nb ∧ c.seq = (rx : Int) ∧
      Accepts E bmc net V o real w cs c (msgs.map .bytes))
    (hfresh : ∀ o ∈ opsB, o.fresh [] = true) (l : PyBmc.Link) (hl : PyBmc.get (PyBmc.run cB opsB).links k = some l) :
    ((PyBmc.run cB opsB).disp.filter (fun e => e.1 = l.gen)).map (·.2.2) = (sentBytes g (PyBmc.run cA opsA).log).take l.rx ∧
      l.rx ≤ (sentBytes g (PyBmc.run cA opsA).log).length := by
  have hA := PyBmc.C122_sent cA opsA
  have right : PyBmc.Right cB (fun k' n b => k' = k → 1 ≤ n ∧ (sentBytes g (PyBmc.run cA opsA).log)[n - 1]? = some b) := by
    intro bmv k' rx v msgs hv i b hb hk'
    subst hk'
    obtain ⟨cs, c, c1, c2, c3, acc⟩ := hver bmv rx v msgs hv
    obtain ⟨prev', p1, p2⟩ := C167_verified hH hV ho W acc
    rw [c1, hk, Option.some.injEq] at p1
    subst p1
    obtain ⟨e, he, hm⟩ := p2 i (.bytes b) (by rw [List.getElem?_map, hb]; rfl)
    rw [c2, c3] at hm
    obtain ⟨g', n, b', h1, h2, h3⟩ := hsrc e he _ _ hm
    cases h2
    have := hg g' (hA.2.2 _ _ _ _ h3)
    subst this
    have hn : n = rx + 1 + i := by omega
    subst hn
    exact sentBytes_at g' _ 1 (hA.2.1 g') _ _ _ h3
  have htaken := (PyBmc.C122_taken_partial cB opsB hfresh).1 k l hl
  have hname := (PyBmc.run_named cB opsB).name k l hl
  have key : ∀ (i : Nat) (e : Nat × Nat × Bytes), ((PyBmc.run cB opsB).disp.filter (fun e => e.1 = l.gen))[i]? = some e →
      i < l.rx ∧ (sentBytes g (PyBmc.run cA opsA).log)[i]? = some e.2.2 := by
    intro i e hi
    have hmem := List.mem_filter.1 (List.mem_of_getElem? hi)
    have hge : e.1 = l.gen := by simpa using hmem.2
    obtain ⟨k', h2, h3⟩ := PyBmc.C122_right cB _ right opsB e.1 e.2.1 e.2.2 hmem.1
    rw [hge, hname] at h2
    cases h2
    have ht : (PyBmc.taken (PyBmc.run cB opsB) l.gen)[i]? = some e.2.1 := by
      unfold PyBmc.taken
      rw [List.getElem?_map, hi]; rfl
    have hlt : i < l.rx := by
      have := (List.getElem?_eq_some_iff.1 ht).1
      rw [htaken, List.length_range'] at this
      exact this
    rw [htaken, List.getElem?_range' hlt, Option.some.injEq] at ht
    have h4 := (h3 rfl).2
    rw [← ht, show 1 + 1 * i - 1 = i by omega] at h4
    exact ⟨hlt, h4⟩
  have hlen : ((PyBmc.run cB opsB).disp.filter (fun e => e.1 = l.gen)).length = l.rx := by
    have := congrArg List.length htaken
    unfold PyBmc.taken at this
    rwa [List.length_map, List.length_range'] at this
  constructor
  · apply List.ext_getElem?
    intro i
    rw [List.getElem?_map, List.getElem?_take]
    cases hi : ((PyBmc.run cB opsB).disp.filter (fun e => e.1 = l.gen))[i]? with
    | some e => rw [if_pos (key i e hi).1, (key i e hi).2]; rfl
    | none =>
      rw [List.getElem?_eq_none_iff, hlen] at hi
      rw [if_neg (by omega)]; rfl
  · cases hr : l.rx with
    | zero => omega
    | succ n =>
      have hi : n < ((PyBmc.run cB opsB).disp.filter (fun e => e.1 = l.gen)).length := by omega
      have := (List.getElem?_eq_some_iff.1 (key n _ (List.getElem?_eq_getElem hi)).2).1
      omega

/-! ### Example: two messages of one chain, a block with their events, the call that brings them -/

namespace Ex

def cfgA : PyBmc.Cfg := { PyBmc.Ex.base with me := ⟨"btp".toList, [], "p".toList, "cx1".toList⟩ }
def t : Str := "btp://x/cxB".toList
def nb : Bytes := ascii t
def k : Str := "btp://p/cx1".toList
/-- A link, a service, and a message of the service; the first message over the link announces it. -/
def opsA : List PyBmc.Op := [.addVerifier (PyBmc.Ex.x 9 1) "x".toList 7, .addLink (PyBmc.Ex.x 9 1) t, .addService (PyBmc.Ex.x 9 1) "srv".toList 5,
  .send (PyBmc.Ex.x 5 2) "x".toList (ascii "srv".toList) 4 [9]]
def m1 : Bytes := [248, 64, 139, 98, 116, 112, 58, 47, 47, 112, 47, 99, 120, 49, 139, 98, 116, 112, 58, 47, 47, 120, 47, 99, 120, 66,
  134, 95, 101, 118, 101, 110, 116, 0, 159, 222, 132, 76, 105, 110, 107, 216, 139, 98, 116, 112, 58, 47, 47, 112, 47,
  99, 120, 49, 139, 98, 116, 112, 58, 47, 47, 120, 47, 99, 120, 66]
def m2 : Bytes := [222, 139, 98, 116, 112, 58, 47, 47, 112, 47, 99, 120, 49, 139, 98, 116, 112, 58, 47, 47, 120, 47, 99, 120, 66, 131,
  115, 114, 118, 4, 9]
theorem log_eq : (PyBmc.run cfgA opsA).log = [.message 0 t 1 m1, .message 0 t 2 m2] := by decide +kernel
theorem names_eq : (PyBmc.run cfgA opsA).names = [t] := by decide +kernel

def inner (l : List Bytes) : Trie := .branch (fun j => match l[j.val]? with | some b => .leaf [] b | none => .empty) []

theorem lookup_exEvents (l : List Bytes) (key w : Bytes) (h : (exEvents l).lookup key = some w) :
    ∃ j : Fin 16, key = [0, UInt8.ofNat j.val] ∧ l[j.val]? = some w := by
  match key, h with
  | [], h => simp [exEvents, Trie.lookup] at h
  | a :: key, h =>
    unfold exEvents at h
    rw [Trie.lookup] at h
    split at h
    · rename_i ha
      dsimp only at h
      split at h
      · rename_i h0
        match key, h with
        | [], h => simp [Trie.lookup] at h
        | b :: key, h =>
          rw [Trie.lookup] at h
          split at h
          · rename_i hb
            dsimp only at h
            split at h
            · rename_i x hx
              rw [Trie.lookup] at h
              split at h
              · rename_i hk
                cases h
                refine ⟨⟨b.toNat, hb⟩, ?_, hx⟩
                have : a = 0 := UInt8.toNat.inj (by simpa using h0)
                rw [this, hk]
                simp
              · cases h
            · rw [Trie.lookup] at h; cases h
          · cases h
      · rw [Trie.lookup] at h; cases h
    · cases h

theorem index_key : ∀ j : Fin 16, [0, UInt8.ofNat j.val] = toNibbles [] (Rlp.enc .bytes (some [UInt8.ofNat j.val])) ∧
    (Rlp.enc .bytes (some [UInt8.ofNat j.val])).length < 2 ^ 63 := by decide +kernel

theorem tree_exEvents (l : List Bytes) (h1 : (PyMpt.ser exE.H emb (exEvents l)).length < 2 ^ 64) (h2 : (PyMpt.ser exE.H emb (inner l)).length < 2 ^ 64)
    (h3 : ∀ b ∈ l, (PyMpt.ser exE.H emb (.leaf [] b)).length < 2 ^ 64) : Tree exE emb (exEvents l) := by
  refine ⟨?_, ⟨h1, fun i => ?_⟩, ?_⟩
  · intro i
    dsimp only
    split
    · intro j
      dsimp only
      split
      · intro n hn; cases hn
      · trivial
    · trivial
  · dsimp only
    split
    · refine ⟨h2, fun j => ?_⟩
      dsimp only
      split
      · rename_i b hb; exact h3 b (List.mem_of_getElem? hb)
      · trivial
    · trivial
  · intro key w h
    obtain ⟨j, rfl, _⟩ := lookup_exEvents l key w h
    exact ⟨.bytes, some [UInt8.ofNat j.val], index_key j⟩

def evs : List Bytes := [eventBytes (ascii ['c', 'x', '1']) nb 1 m1, eventBytes (ascii ['c', 'x', '9']) nb 5 [8], eventBytes (ascii ['c', 'x', '1']) nb 2 m2]
def receipt : Bytes := PyRlp.encode (.list [.int 0, .bytes [1], .bytes [2], .bytes [3], .bytes [4], .bytes [5], .list [], .none, .bytes (PyMpt.root exE.H emb (exEvents evs))])
def headBytes : Bytes := exHeadBytes 1 [5, 6] (PyMpt.root exE.H emb (exEvents [receipt]))
def head : Header := ⟨headBytes, some 1, some (exE.H (exValsBytes [5, 6])), some (PyMpt.root exE.H emb (exEvents [receipt]))⟩
def next : Vals := ⟨exValsBytes [5, 6], [[5], [6]]⟩
def real : List (Header × Vals) := [(head, next)]
def w : World := ⟨emb, fun _ => exEvents [receipt], fun _ => exEvents evs⟩
theorem head_read : readHeader exE headBytes = some head := by decide +kernel
theorem receipt_read : readReceipt exE receipt = some (some (PyMpt.root exE.H emb (exEvents evs))) := by decide +kernel

theorem lookup_receipt (key b : Bytes) (h : (exEvents [receipt]).lookup key = some b) : b = receipt := by
  obtain ⟨j, _, hj⟩ := lookup_exEvents _ _ _ h
  have := List.mem_of_getElem? hj
  simpa using this

theorem w_of : w.Of exE real := by
  refine ⟨fun d hd r hr => ?_, fun d hd key b r hk hr => ?_⟩
  · rw [List.mem_singleton.1 hd] at hr
    cases hr
    exact ⟨rfl, tree_exEvents _ (by decide +kernel) (by decide +kernel) (by decide +kernel)⟩
  · have := lookup_receipt _ _ hk
    subst this
    rw [receipt_read] at hr
    cases hr
    exact ⟨rfl, tree_exEvents _ (by decide +kernel) (by decide +kernel) (by decide +kernel)⟩

/-- Every event of the chain that is a message for the other message center is in the log. -/
theorem source : Source exE w real "cx1".toList nb (PyBmc.run cfgA opsA) t := by
  rintro e ⟨d, hd, key, b, hk, key', b', hk', he⟩ q x hm
  rw [log_eq]
  obtain ⟨j, _, hj⟩ := lookup_exEvents _ _ _ hk'
  have hb := List.mem_of_getElem? hj
  have uniq : ∀ (e0 : EventLog) (p0 : Str) (n : Int) (y : Bytes), IsMessage exE p0 e0 (.str nb) n (.bytes y) → e = e0 → p0 = "cx1".toList ∧ q = n ∧ x = .bytes y := by
    intro e0 p0 n y h1 h2
    subst h2
    obtain ⟨a1, _, qv, r, p1, p2⟩ := h1
    obtain ⟨b1, _, qv', r', p3, p4⟩ := hm
    rw [p1] at p3
    cases p3
    have a := (seqOf_iff _ _).2 p2
    rw [(seqOf_iff _ _).2 p4] at a
    cases a
    rw [a1] at b1
    cases b1
    exact ⟨rfl, rfl, rfl⟩
  have st : exE.strip tStr = tStr ∧ exE.strip tInt = tInt ∧ exE.strip tBytes = tBytes := by decide +kernel
  rcases List.mem_cons.1 hb with rfl | hb
  · obtain ⟨e0, h1, h2⟩ := C121_event_read (E := exE) (ascii ['c', 'x', '1']) nb 1 m1 rfl rfl st (by decide +kernel) _ rfl
    rw [he] at h1
    obtain ⟨_, rfl, rfl⟩ := uniq e0 _ _ _ h2 (Option.some.inj h1)
    exact ⟨0, 1, m1, rfl, rfl, by simp⟩
  · rcases List.mem_cons.1 hb with rfl | hb
    · obtain ⟨e0, h1, h2⟩ := C121_event_read (E := exE) (ascii ['c', 'x', '9']) nb 5 [8] rfl rfl st (by decide +kernel) _ rfl
      rw [he] at h1
      exact absurd (uniq e0 _ _ _ h2 (Option.some.inj h1)).1 (by decide +kernel)
    · obtain ⟨e0, h1, h2⟩ := C121_event_read (E := exE) (ascii ['c', 'x', '1']) nb 2 m2 rfl rfl st (by decide +kernel) _ rfl
      rw [List.mem_singleton.1 hb] at he
      rw [he] at h1
      obtain ⟨_, rfl, rfl⟩ := uniq e0 _ _ _ h2 (Option.some.inj h1)
      exact ⟨0, 2, m2, rfl, rfl, by simp⟩

/-- The call: the block with the votes of three of four validators, and the proofs of the receipt and of its three events. -/
def nodes (tr : Trie) (i : Bytes) : List Bytes := PyMpt.ser exE.H emb tr :: PyMpt.below exE.H emb tr (toNibbles [] i)
def proofBytes : Bytes := PyRlp.encode (.list [.int 0, .bytes (PyRlp.encode (.list ((nodes (exEvents [receipt]) [0]).map .bytes))),
  .list ([0, 1, 2].map fun i : UInt8 => .list [.int i.toNat, .bytes (PyRlp.encode (.list ((nodes (exEvents evs) [i]).map .bytes)))])])
def bytes : Bytes := relayBytes [updateBytes headBytes (exVote [1, 2, 4] 1 headBytes) (some (exValsBytes [5, 6]))] none [proofBytes]
attribute [local irreducible] bytes
def call : Call := ⟨ascii "cxB".toList, nb, ascii k, 0, PyBase64.encode true bytes⟩
def rproof : ReceiptProof := ⟨⟨[0], nodes (exEvents [receipt]) [0]⟩, [⟨[0], nodes (exEvents evs) [0]⟩, ⟨[1], nodes (exEvents evs) [1]⟩, ⟨[2], nodes (exEvents evs) [2]⟩]⟩

theorem call_read (b : Bytes) (m : Relay) (h1 : PyBase64.urlDecode call.msg = some b) (h2 : readRelay exE b = some m) :
    m.updates.map (fun u => (u.header, u.next)) = [(some head, some next)] ∧ m.proof.isNone = true ∧ m.receipts = [rproof] := by
  have hb : b = bytes := by
    rw [show call.msg = PyBase64.encode true bytes from rfl, PyBase64.C116_url_roundtrip bytes] at h1
    exact (Option.some.inj h1).symm
  subst hb
  have e : (readRelay exE bytes).map (fun m => (m.updates.map (fun u => (u.header, u.next)), m.proof.isNone, m.receipts)) =
      some ([(some head, some next)], true, [rproof]) := by decide +kernel
  rw [h2, Option.map_some, Option.some.injEq, Prod.mk.injEq, Prod.mk.injEq] at e
  exact e

theorem update_known (m : Relay) (hm : Brings exE ([] ++ [call]) m) (u : Update) (hu : u ∈ m.updates) : u.header = some head ∧ u.next = some next := by
  obtain ⟨c, hc, b, h1, h2⟩ := hm
  rw [List.mem_singleton.1 hc] at h1
  have h := (call_read b m h1 h2).1
  have : (u.header, u.next) ∈ m.updates.map (fun u => (u.header, u.next)) := List.mem_map.2 ⟨u, hu, rfl⟩
  rw [h, List.mem_singleton, Prod.mk.injEq] at this
  exact this

theorem proved_root {E : Env} {r : Option Bytes} {q : Mpt} {b : Bytes} (h0 : proveMpt E r q = some b) : r = q.proofs.head?.map E.H := by
  unfold proveMpt at h0
  obtain ⟨r, rfl, h⟩ := Option.bind_eq_some_iff.1 h0
  clear h0
  unfold PyMpt.proveKey at h
  split at h
  · unfold PyMpt.prove at h
    split at h
    · cases h
    · cases h
    · rename_i hp _
      split at h
      · cases h
      · rename_i hh
        rw [hp]
        simp only [List.head?_cons, Option.map_some]
        exact congrArg some (Decidable.of_not_not hh).symm
  · cases h

theorem fits (q : Mpt) (h1 : q.key.length < 65536) (h2 : (proveMpt exE (q.proofs.head?.map exE.H) q).all (fun b => decide (b.length < 2 ^ 64)) = true) : Fits exE q := by
  refine ⟨h1, fun r b h => ?_⟩
  have := proved_root h
  subst this
  rw [h] at h2
  exact of_decide_eq_true h2

theorem accepts : Accepts exE (ascii "cxB".toList) ['p'] exVals 0 real w [] call [.bytes m1, .bytes m2] := by
  refine ⟨?_, ?_, ?_⟩
  · have e : (readRelay exE bytes).map (fun m => match handle exE (init (ascii "cxB".toList) ['p'] exVals 0) "cx1".toList nb 0 m with
        | .ok x => some (x.2.map bytesOf)
        | .err _ => none) = some (some [some m1, some m2]) := by decide +kernel
    obtain ⟨m, h1, h2⟩ := Option.map_eq_some_iff.1 e
    split at h2
    · rename_i x hx
      have hx2 : x.2 = [.bytes m1, .bytes m2] := by
        have key : ∀ (v : Val) (b : Bytes), bytesOf v = some b → v = .bytes b := by
          intro v b h; cases v <;> cases h; rfl
        have h2 := Option.some.inj h2
        match g : x.2, h2 with
        | [a, b], h2 =>
          simp only [List.map_cons, List.map_nil, List.cons.injEq, and_true] at h2
          rw [key _ _ h2.1, key _ _ h2.2]
        | [], h2 => simp at h2
        | [_], h2 => simp at h2
        | _ :: _ :: _ :: _, h2 => simp at h2
      refine ⟨x.1, handleRelay_iff.2 ⟨⟨"btp".toList, [], "x".toList, "cxB".toList⟩, ⟨"btp".toList, [], "p".toList, "cx1".toList⟩, bytes, m, by decide +kernel, by decide +kernel, by decide +kernel,
        PyBase64.C116_url_roundtrip _, h1, ?_⟩⟩
      rw [← hx2]
      exact hx
    · cases h2
  · intro ds h
    cases ds with
    | nil => exact List.nil_prefix
    | cons p ds =>
      obtain ⟨d, W⟩ := p
      obtain ⟨_, _, ⟨⟨m, hm, u, hu, hd⟩, hW, _⟩, _, h5, h6⟩ := h
      have := (update_known m hm u hu).1
      rw [hd, Option.some.injEq] at this
      subst this
      have hWn : W = next := by
        rcases hW with rfl | ⟨m, hm, u, hu, hw⟩
        · exact absurd h5 (by decide +kernel)
        · have := (update_known m hm u hu).2
          rw [hw, Option.some.injEq] at this
          exact this
      subst hWn
      cases ds with
      | nil => exact List.prefix_refl _
      | cons p ds =>
        obtain ⟨d, W⟩ := p
        obtain ⟨_, g2, ⟨⟨m, hm, u, hu, hd⟩, _⟩, _⟩ := h6
        have := (update_known m hm u hu).1
        rw [hd, Option.some.injEq] at this
        subst this
        exact absurd g2 (by decide +kernel)
  · intro b m h1 h2
    obtain ⟨c1, c2, c3⟩ := call_read b m h1 h2
    have hp : m.proof = none := by simpa using c2
    refine ⟨?_, ?_⟩
    · rintro (⟨p, hd, h, _⟩ | ⟨d, _, p, h3, h4⟩ | ⟨d, _, key, b', h3, p, h4, q, h5, h6⟩)
      · rw [hp] at h; cases h
      · rw [c3] at h3
        rw [List.mem_singleton.1 h3] at h4
        have hq : ¬ ∃ x ∈ rproof.mpt.proofs, ∃ y ∈ nodes (exEvents [receipt]) rproof.mpt.key, x ≠ y ∧ exE.H x = exE.H y := by decide +kernel
        exact hq h4
      · rw [c3] at h4
        rw [List.mem_singleton.1 h4] at h5
        have hq : ∀ q ∈ rproof.events, ¬ ∃ x ∈ q.proofs, ∃ y ∈ nodes (exEvents evs) q.key, x ≠ y ∧ exE.H x = exE.H y := by decide +kernel
        exact hq q h5 h6
    · intro p hp
      rw [c3] at hp
      rw [List.mem_singleton.1 hp]
      have hq : ∀ q ∈ rproof.mpt :: rproof.events, q.key.length < 65536 ∧ (proveMpt exE (q.proofs.head?.map exE.H) q).all (fun b => decide (b.length < 2 ^ 64)) = true := by
        decide +kernel
      exact ⟨fits _ (hq _ List.mem_cons_self).1 (hq _ List.mem_cons_self).2, fun q h => fits _ (hq q (List.mem_cons_of_mem _ h)).1 (hq q (List.mem_cons_of_mem _ h)).2⟩

/-- The receiving message center: its verifier accepts this call. -/
def cfgB : PyBmc.Cfg := { PyBmc.Ex.base with me := ⟨"btp".toList, [], "x".toList, "cxB".toList⟩, verify := fun _ _ rx _ msgs => decide (rx = 0 ∧ msgs = [m1, m2]) }
def opsB : List PyBmc.Op := [.addVerifier (PyBmc.Ex.x 9 1) "p".toList 7, .addLink (PyBmc.Ex.x 9 1) k, .addRelayer (PyBmc.Ex.x 8 2) 1 [], .addRelay (PyBmc.Ex.x 1 2) k 1,
  .relay (PyBmc.Ex.x 1 3) k PyBmc.Ex.v (.cons m1 .done .nil (.cons m2 .done .nil .nil))]

example : (PyBmc.get (PyBmc.run cfgB opsB).links k).map (fun l => (l.gen, l.rx)) = some (0, 2) := by decide +kernel
example (l : PyBmc.Link) (hl : PyBmc.get (PyBmc.run cfgB opsB).links k = some l) :
    ((PyBmc.run cfgB opsB).disp.filter (fun e => e.1 = l.gen)).map (·.2.2) = (sentBytes 0 (PyBmc.run cfgA opsA).log).take l.rx ∧
      l.rx ≤ (sentBytes 0 (PyBmc.run cfgA opsA).log).length := by
  refine C167_exactly_once_partial (bmc := ascii "cxB".toList) (net := ['p']) (V := exVals) (o := 0) Mta.exH_len (by decide +kernel) (by decide) w_of cfgA cfgB opsA opsB k t ⟨"btp".toList, [], "p".toList, "cx1".toList⟩ (by decide +kernel) nb
    source 0 ?_ ?_ (by decide +kernel) l hl
  · intro g' h
    rw [names_eq] at h
    cases g' with
    | zero => rfl
    | succ n => simp at h
  · intro bmv rx v msgs h
    obtain ⟨rfl, rfl⟩ := of_decide_eq_true h
    exact ⟨[], call, by decide +kernel, rfl, rfl, accepts⟩

end Ex

end Verif.PyEnd
