import Verif.JavaIconBmvProps
import Verif.EvmToIcon
/-!
C168: the verifier contract for ICON blocks and the message centers of two ICON chains together: from relay messages to the messages that the
message center of the other chain sent.
-/
namespace Verif.JavaEnd
open Verif Verif.Mbt Verif.JavaIconBmv
open Verif.JavaMpt (Trie toNibbles)
open Verif.EndToEnd (wMsg)
open Verif.EvmToIcon (decodeRet decodeRet_none)

/-! ### The other chain -/

/-- What the blocks of the other chain hold: the receipts of a block and the events of a receipt are in tries; `enc` writes the nodes. -/
structure World where
  enc : List Bytes → Bytes
  receipts : Header → Trie
  events : Bytes → Trie

/-- A trie of the platform: its keys are RLP encodings (of indices), its nodes are read as they are written. -/
structure Tree (E : Env) (enc : List Bytes → Bytes) (t : Trie) : Prop where
  nib : t.Nib
  keys : ∀ k w, t.lookup k = some w → ∃ ty x, k = toNibbles [] (Rlp.enc ty x) ∧ (Rlp.enc ty x).length < 2 ^ 63
  nodes : ∀ k l, enc l ∈ t.path E.H enc k → E.nodeItems (enc l) = some (l.map some)

/-- The platform: a hash has 32 bytes, headers and indices are written one way, nothing is not a receipt nor an event. -/
structure Plat (E : Env) : Prop where
  hash : ∀ x, (E.H x).length = 32
  header : ∀ a b, E.headerBytes a = E.headerBytes b → a = b
  index : ∀ i, ∃ ty x, E.indexKey i = Rlp.enc ty x ∧ (Rlp.enc ty x).length < 2 ^ 63
  receipt : E.readReceipt [] = none
  event : E.readEvent [] = none

/-- The roots in the headers and in the receipts are those of the tries. -/
structure World.Of (w : World) (E : Env) (real : List (Header × List Bytes)) : Prop where
  receipts : ∀ d ∈ real, ∀ r, d.1.receiptHash = some (some r) → r = (w.receipts d.1).root E.H w.enc ∧ Tree E w.enc (w.receipts d.1)
  events : ∀ d ∈ real, ∀ k b rc r, (w.receipts d.1).lookup k = some b → E.readReceipt b = some rc → rc.logsHash = some r →
    r = (w.events b).root E.H w.enc ∧ Tree E w.enc (w.events b)

/-- An event of a receipt of a block of the chain: in the receipt itself or in its trie. -/
def World.Emits (w : World) (E : Env) (real : List (Header × List Bytes)) (e : EventLog) : Prop :=
  ∃ d ∈ real, ∃ k b rc, (w.receipts d.1).lookup k = some b ∧ E.readReceipt b = some rc ∧
    (e ∈ rc.logs ∨ ∃ k' b', (w.events b).lookup k' = some b' ∧ E.readEvent b' = some e)

/-- The hash collides between what a relay message holds and what the chain holds: the header of its block proof and the headers of the chain; the
nodes of the block proof and those of the accumulator over the headers; the nodes of its receipt proofs and those of the tries of receipts; the
nodes of its event proofs and those of the tries of events. -/
def World.Collides (w : World) (E : Env) (o : Int) (real : List (Header × List Bytes)) (m : Relay) : Prop :=
  (∃ hd at_ ws, m.blockProof = some ⟨some hd, some ⟨at_, some ws⟩⟩ ∧ (Collision E.H [E.headerBytes hd] (real.map fun d => E.headerBytes d.1) ∨
    ∃ k st n, Collision E.H (JavaMta.wcalls E.H ws (E.H (E.headerBytes hd)) (hd.height - 1 - o))
      (Merkle.inputs E.H ((((real.take k).map fun d => E.H (E.headerBytes d.1)).drop st).take n)))) ∨
  (∃ d ∈ real, ∃ rs p ps, m.receipts = some rs ∧ p ∈ rs ∧ p.proofs = some ps ∧
    Collision E.H ps ((w.receipts d.1).path E.H w.enc (toNibbles [] (E.indexKey p.index)))) ∨
  (∃ d ∈ real, ∃ k b, (w.receipts d.1).lookup k = some b ∧ ∃ rs p qs q ps, m.receipts = some rs ∧ p ∈ rs ∧ p.events = some qs ∧ q ∈ qs ∧
    q.proofs = some ps ∧ Collision E.H ps ((w.events b).path E.H w.enc (toNibbles [] (E.indexKey q.index))))

/-- **C168**, events: with the events of a receipt in a trie, every accepted event proof gives the event stored under its index, or its nodes and
those of the trie collide. -/
theorem C168_events {E : Env} (P : Plat E) (enc : List Bytes → Bytes) (t : Trie) (T : Tree E enc t) : ∀ (qs : List MptProof) (es : List EventLog),
    proveEvents E (some (t.root E.H enc)) qs = .ok es → ∀ e ∈ es, (∃ k b, t.lookup k = some b ∧ E.readEvent b = some e) ∨
      ∃ q ∈ qs, ∃ ps, q.proofs = some ps ∧ Collision E.H ps (t.path E.H enc (toNibbles [] (E.indexKey q.index))) := by
  intro qs
  induction qs with
  | nil => intro es h e he; cases h; cases he
  | cons q qs ih =>
    intro es h e he
    unfold proveEvents at h
    cases g : proveMpt E (some (t.root E.H enc)) q.index q.proofs with
    | err x => rw [g] at h; cases h
    | ok b =>
      rw [g] at h
      unfold R.bind at h
      dsimp only at h
      cases ge : E.readEvent b with
      | none => rw [ge] at h; cases h
      | some e0 =>
        rw [ge] at h
        dsimp only at h
        cases gr : proveEvents E (some (t.root E.H enc)) qs with
        | err x => rw [gr] at h; cases h
        | ok es' =>
          rw [gr] at h
          cases h
          rcases List.mem_cons.1 he with rfl | he
          · unfold proveMpt at g
            cases gp : q.proofs with
            | none => rw [gp] at g; cases g
            | some ps =>
              rw [gp] at g
              dsimp only at g
              obtain ⟨ty, x, hx, hl⟩ := P.index q.index
              cases gk : JavaMpt.proveKey E.H E.nodeItems (t.root E.H enc) (E.indexKey q.index) ps with
              | mpt => rw [gk] at g; cases g
              | crash => rw [gk] at g; cases g
              | ok v =>
                rw [gk] at g
                cases g
                have hb : b ≠ [] := by rintro rfl; rw [P.event] at ge; cases ge
                rw [hx] at gk
                rcases JavaMpt.C94_index_partial enc E.nodeItems t T.nib ps b hb T.keys ty x hl (fun l => T.nodes _ l) gk with h | h
                · exact .inl ⟨_, b, h, ge⟩
                · exact .inr ⟨q, List.mem_cons_self, ps, gp, by rw [hx]; exact h⟩
          · rcases ih es' gr e he with h | ⟨q', hq, r⟩
            · exact .inl h
            · exact .inr ⟨q', List.mem_cons_of_mem _ hq, r⟩

/-- A proof for a receipt of a block of the chain gives only events of the chain. -/
theorem receipt_emits {E : Env} (P : Plat E) {w : World} {o : Int} {real : List (Header × List Bytes)} (W : w.Of E real) {m : Relay}
    (hn : ¬ w.Collides E o real m) (d : Header × List Bytes) (hd : d ∈ real) (rs : List ReceiptProof) (hm : m.receipts = some rs) (p : ReceiptProof)
    (hp : p ∈ rs) (root : Option Bytes) (hr : d.1.receiptHash = some root) (es : List EventLog)
    (h : proveReceipt E root p = .ok es) : ∀ e ∈ es, w.Emits E real e := by
  cases root with
  | none =>
    unfold proveReceipt proveMpt at h
    cases g : p.proofs <;> rw [g] at h <;> cases h
  | some r =>
    obtain ⟨rfl, T⟩ := W.receipts d hd r hr
    obtain ⟨ty, x, hx, hl⟩ := P.index p.index
    obtain ⟨b, rc, ps, h1, h2, h3, h4⟩ := C96_receipt_partial w.enc _ T.nib p es T.keys ty x hx hl (fun l => T.nodes _ l) P.receipt h
    rcases h3 with h3 | h3
    · intro e he
      rcases h4 with ⟨_, rfl⟩ | ⟨qs, h5, h6⟩
      · exact ⟨d, hd, _, b, rc, h3, h2, .inl he⟩
      · cases hlh : rc.logsHash with
        | none =>
          rw [hlh] at h6
          cases qs with
          | nil => cases h6; cases he
          | cons q qs =>
            unfold proveEvents proveMpt at h6
            cases g : q.proofs <;> rw [g] at h6 <;> cases h6
        | some r2 =>
          obtain ⟨rfl, T2⟩ := W.events d hd _ b rc r2 h3 h2 hlh
          rw [hlh] at h6
          rcases C168_events P w.enc _ T2 qs es h6 e he with ⟨k', b', g1, g2⟩ | ⟨q, hq, ps', g1, g2⟩
          · exact ⟨d, hd, _, b, rc, h3, h2, .inr ⟨k', b', g1, g2⟩⟩
          · exact absurd (.inr (.inr ⟨d, hd, _, b, h3, rs, p, qs, q, ps', hm, hp, h5, hq, g1, g2⟩)) hn
    · exact absurd (.inr (.inl ⟨d, hd, rs, p, ps, hm, hp, h1, h3⟩)) hn

theorem coll_mono {H : Bytes → Bytes} {a b b' : List Bytes} (h : Collision H a b) (hs : ∀ x ∈ b, x ∈ b') : Collision H a b' := by
  obtain ⟨x, hx, y, hy, h⟩ := h
  exact ⟨x, hx, y, hs y hy, h⟩

/-- A call that the verifier accepts after some history of calls: the headers shown to it and signed by a quorum are those of the chain (see
`C168_honest`) and the hash does not collide. -/
structure Accepts (E : Env) (bmc net : Bytes) (V : List Bytes) (o : Int) (real : List (Header × List Bytes)) (w : World) (cs : List Call) (c : Call)
    (ret : List (Option Bytes)) : Prop where
  call : ∃ s', handleRelay E (run E (init bmc net V o) cs) c = .ok (s', ret)
  chain : ∀ ds, Chain E (shown V (cs ++ [c])) o V ds → ds <+: real
  apart : ¬ w.Collides E o real c.msg

/-- **C168**, headers: if the chain has signatures of its own, then what is shown to the verifier is the chain's, unless it is longer, more than a third
of the validators of some block signed two blocks at one height, or hashes of headers or validators collide. -/
theorem C168_honest {E : Env} (hinj : ∀ a b, E.headerBytes a = E.headerBytes b → a = b) (vinj : ∀ a b, E.validatorBytes a = E.validatorBytes b → a = b)
    {K K' : Known} {o : Int} {V : List Bytes} {real : List (Header × List Bytes)} (hr : Chain E K' o V real)
    (hlong : ∀ ds, Chain E K o V ds → ds.length ≤ real.length)
    (hsign : ∀ ds, Chain E K o V ds → ¬ ∃ W ∈ V :: ds.map (·.2), ∃ h, ∃ d ∈ ds, ∃ e ∈ real, d.1.height = h ∧ e.1.height = h ∧ d.1 ≠ e.1 ∧
      ∃ cs : List Bytes, cs.Nodup ∧ W.length < 3 * cs.length ∧
        ∀ a ∈ cs, a ∈ W ∧ Signed E K a h (E.H (E.headerBytes d.1)) ∧ Signed E K' a h (E.H (E.headerBytes e.1)))
    (hcol : ∀ ds, Chain E K o V ds → ¬ Collision E.H (ds.map fun d => E.headerBytes d.1) (real.map fun d => E.headerBytes d.1) ∧
      ¬ Collision E.H (ds.map fun d => E.validatorBytes d.2) (real.map fun d => E.validatorBytes d.2)) :
    ∀ ds, Chain E K o V ds → ds <+: real := by
  intro ds hd
  rcases C95_fork hinj vinj ds real o V hd hr with h | h | h | h | h
  · exact h
  · rw [h.eq_of_length (Nat.le_antisymm h.length_le (hlong ds hd))]
    exact List.prefix_refl _
  · exact absurd h (hsign ds hd)
  · exact absurd h (hcol ds hd).1
  · exact absurd h (hcol ds hd).2

theorem sel_mem {prev bmc : Bytes} {es : List EventLog} {l : List (Int × Bytes)} (h : Sel prev bmc es l) :
    ∀ x ∈ l, ∃ e ∈ es, IsMessage prev bmc e x.1 x.2 := by
  induction h with
  | nil => intro x hx; cases hx
  | skip e es l _ _ ih =>
    intro x hx
    obtain ⟨e', h1, h2⟩ := ih x hx
    exact ⟨e', List.mem_cons_of_mem _ h1, h2⟩
  | take e es l q m hm _ ih =>
    intro x hx
    rcases List.mem_cons.1 hx with rfl | hx
    · exact ⟨e, List.mem_cons_self, hm⟩
    · obtain ⟨e', h1, h2⟩ := ih x hx
      exact ⟨e', List.mem_cons_of_mem _ h1, h2⟩

theorem run_offset {E : Env} (hH : ∀ x, (E.H x).length = 32) (bmc net : Bytes) (V : List Bytes) (o : Int) (cs : List Call) :
    (run E (init bmc net V o) cs).mta.offset = o := by
  obtain ⟨ds, ha⟩ := run_accepted cs (init_accepted E bmc net V o cs) (fun c hc => shown_shows hc)
  obtain ⟨j', d, h1, _, h3, _, h5, _⟩ := JavaMta.C93_structure hH o (JavaMta.init o) ⟨rfl, rfl, rfl, by simp [JavaMta.init]⟩
    (ds.map fun d => E.H (E.headerBytes d.1)) (by intro x hx; obtain ⟨d, _, rfl⟩ := List.mem_map.1 hx; exact hH _)
  rw [List.nil_append] at ha
  have := ha.mta
  rw [h1, Option.some.injEq] at this
  rw [← this, h3, h5 rfl]
  simp

/-- **C168**, the verifier: an accepted call returns nothing, or one message that the source contract emitted for this message center in a block of its
chain with the number after the caller's, or an array with a null in it (two messages or more, C96). -/
theorem C168_verified {E : Env} (P : Plat E) {bmc net : Bytes} {V : List Bytes} {o : Int}
    {real : List (Header × List Bytes)} {w : World} (W : w.Of E real) {cs : List Call} {c : Call} {ret : List (Option Bytes)}
    (h : Accepts E bmc net V o real w cs c ret) :
    ret = [] ∨ (∃ e b, ret = [some b] ∧ w.Emits E real e ∧ IsMessage c.prev c.bmc e (c.seq + 1) b) ∨ none ∈ ret := by
  obtain ⟨s', hc⟩ := h.call
  obtain ⟨ds, hd, h4, h5, h6⟩ := C96_messages P.hash P.header bmc net V o cs c s' ret hc
  rcases h6 with ⟨_, h6⟩ | ⟨rs, root, ess, l, q1, q2, q3, q4, q5, q6⟩
  · exact .inl h6
  obtain ⟨k, hk⟩ : ∃ k, ds = real.take k := ⟨_, List.prefix_iff_eq_take.1 (h.chain ds h4.chain)⟩
  have hsub : ∀ d ∈ ds, d ∈ real := fun d hd => (h.chain ds h4.chain).subset hd
  have hin : ∃ d ∈ real, d.1 = hd := by
    rcases h5 with ⟨d, h, e⟩ | ⟨at_, ws, p1, hcol⟩
    · exact ⟨d, hsub d h, e⟩
    · refine absurd (.inl ⟨hd, at_, ws, p1, ?_⟩) h.apart
      rcases hcol with hcol | ⟨st, n, q⟩
      · exact .inl (coll_mono hcol fun y hy => by
          obtain ⟨d, hd, rfl⟩ := List.mem_map.1 hy
          exact List.mem_map.2 ⟨d, hsub d hd, rfl⟩)
      · rw [run_offset P.hash, hk] at q
        exact .inr ⟨k, st, n, q⟩
  obtain ⟨d, hd1, rfl⟩ := hin
  match l, q4, q5, q6 with
  | [], _, _, q6 => exact .inl q6
  | [x], q4, q5, q6 =>
    obtain ⟨e, he, hm⟩ := sel_mem q4 x (List.mem_singleton.2 rfl)
    have hx := q5 0 x rfl
    refine .inr (.inl ⟨e, x.2, q6, ?_, ?_⟩)
    · obtain ⟨es, hes, he⟩ := List.mem_flatten.1 he
      obtain ⟨j, hj⟩ := List.getElem?_of_mem hes
      have : (rs.map (proveReceipt E root))[j]? = some (.ok es) := by rw [q3, List.getElem?_map, hj]; rfl
      rw [List.getElem?_map] at this
      obtain ⟨p, hp, hpe⟩ := Option.map_eq_some_iff.1 this
      exact receipt_emits P W h.apart d hd1 rs q1 p (List.mem_of_getElem? hp) root q2 es hpe e he
    · rw [show c.seq + 1 = x.1 by rw [hx]; simp]
      exact hm
  | x :: y :: l, _, _, q6 =>
    right; right
    rw [q6]
    have := C96_null ((x :: y :: l).map (·.2)) (by simp)
    simpa using this

/-! ### The message centers of two chains -/

/-- The messages sent over a link since it was last added, with their numbers. -/
def sentJ (text : String) : List JavaBmc.Event → List (Nat × JavaBmc.Msg) → List (Nat × JavaBmc.Msg)
  | [], acc => acc
  | .message next n m :: t, acc => sentJ text t (if next = text then acc ++ [(n, m)] else acc)
  | .chain _ next n m :: t, acc => sentJ text t (if next = text then acc ++ [(n, m)] else acc)
  | .start link :: t, acc => sentJ text t (if link = text then [] else acc)
  | _ :: t, acc => sentJ text t acc

theorem sentJ_nums (text : String) : ∀ (log : List JavaBmc.Event) (acc : List (Nat × JavaBmc.Msg)),
    (sentJ text log acc).map (·.1) = JavaBmc.sentOn text log (acc.map (·.1)) := by
  intro log
  induction log with
  | nil => intro acc; rfl
  | cons e log ih =>
    intro acc
    cases e with
    | message next n m => simp only [sentJ, JavaBmc.sentOn]; rw [ih]; split <;> simp
    | chain id next n m => simp only [sentJ, JavaBmc.sentOn]; rw [ih]; split <;> simp
    | start l => simp only [sentJ, JavaBmc.sentOn]; rw [ih]; split <;> simp
    | dropped => simp only [sentJ, JavaBmc.sentOn]; rw [ih]
    | bind => simp only [sentJ, JavaBmc.sentOn]; rw [ih]

/-- The message with the number `n` is the `n`th. -/
theorem sentJ_at (c : JavaBmc.Cfg) (creator : Nat) (ops : List JavaBmc.Op) (t : String) (n : Nat) (m : JavaBmc.Msg)
    (h : (n, m) ∈ sentJ t (JavaBmc.run c creator ops).log []) : 1 ≤ n ∧ (sentJ t (JavaBmc.run c creator ops).log [])[n - 1]? = some (n, m) := by
  obtain ⟨k, hk⟩ := (JavaBmc.num_run (c := c) creator ops).any t
  have hn := sentJ_nums t (JavaBmc.run c creator ops).log []
  rw [List.map_nil, hk] at hn
  obtain ⟨j, hj⟩ := List.getElem?_of_mem h
  have := congrArg (fun l => l[j]?) hn
  rw [List.getElem?_map, hj, List.getElem?_range'] at this
  · simp at this
    refine ⟨by omega, ?_⟩
    rw [show n - 1 = j by omega]
    exact hj
  · have hlt := (List.getElem?_eq_some_iff.1 hj).1
    have := congrArg List.length hn
    simp at this
    omega

/-- The events of the chain that are messages of the contract `prev` for `nb` are what its message center sent over the link `t` since the link was added. -/
def Source (E : Env) (w : World) (real : List (Header × List Bytes)) (prev nb : Bytes) (A : JavaBmc.St) (t : String) : Prop :=
  ∀ e, w.Emits E real e → ∀ q x, IsMessage prev nb e q x → ∃ (n : Nat) (m : JavaBmc.Msg), q = n ∧ x = wMsg m ∧ (n, m) ∈ sentJ t A.log []

/-- What ICON's message center gets from this verifier over the link: it passes its own text, the account of the link and the number received, and
decodes what is returned. -/
def Through (E : Env) (bmc net : Bytes) (V : List Bytes) (o : Int) (real : List (Header × List Bytes)) (w : World) (prev nb : Bytes)
    (dec : Bytes → Option JavaBmc.Msg) (rx : Nat) (ms : List JavaBmc.Msg) : Prop :=
  ∃ cs c ret, c.prev = prev ∧ c.bmc = nb ∧ c.seq = (rx : Int) ∧ Accepts E bmc net V o real w cs c ret ∧ decodeRet dec ret = some ms

theorem C168_one {E : Env} (P : Plat E) {bmc net : Bytes} {V : List Bytes} {o : Int} {real : List (Header × List Bytes)} {w : World} (W : w.Of E real)
    {prev nb : Bytes} {dec : Bytes → Option JavaBmc.Msg} {rx : Nat} {ms : List JavaBmc.Msg} (h : Through E bmc net V o real w prev nb dec rx ms) :
    ms = [] ∨ ∃ e b m, ms = [m] ∧ dec b = some m ∧ w.Emits E real e ∧ IsMessage prev nb e (rx + 1) b := by
  obtain ⟨cs, c, ret, rfl, rfl, h3, acc, hd⟩ := h
  rcases C168_verified P W acc with rfl | ⟨e, b, rfl, he, hm⟩ | hnull
  · cases hd; exact .inl rfl
  · simp only [decodeRet] at hd
    cases hdb : dec b with
    | none => rw [hdb] at hd; cases hd
    | some m =>
      rw [hdb] at hd
      cases hd
      exact .inr ⟨e, b, m, rfl, hdb, he, by rw [← h3]; exact hm⟩
  · rw [decodeRet_none dec ret hnull] at hd; cases hd

/-- **C168** (partial: the events of the chain are those of the source message center since the link was added there): two ICON message centers with the
verifier for ICON blocks between them. Whatever the two chains do and whatever is relayed, every number from 1 to the number received was handled exactly
once, and what was handled under a number is what the other message center sent under it (or it was given up by an owner). -/
theorem C168_exactly_once_partial {E : Env} (P : Plat E) {bmc net : Bytes} {V : List Bytes} {o : Int} {real : List (Header × List Bytes)} {w : World}
    (W : w.Of E real) (ca : JavaBmc.Cfg) (creatorA : Nat) (opsA : List JavaBmc.Op) (prev nb : Bytes) (t : String)
    (hsrc : Source E w real prev nb (JavaBmc.run ca creatorA opsA) t)
    (dec : Bytes → Option JavaBmc.Msg) (hdec : ∀ p ∈ sentJ t (JavaBmc.run ca creatorA opsA).log [], dec (wMsg p.2) = some p.2)
    (ci : JavaBmc.Cfg) (link : String) (hv : ∀ v rx ms, ci.verify v link rx ms = true → Through E bmc net V o real w prev nb dec rx ms)
    (creator : Nat) (ops : List JavaBmc.Op) (n : String) (l : JavaBmc.Link)
    (hl : JavaBmc.Dict.get (JavaBmc.run ci creator ops).links n = some l) (ha : l.addr = link) :
    (((JavaBmc.run ci creator ops).disp.filter (fun e => e.1 = l.gen)).map (fun e => e.2.1)).Perm (List.range' 1 l.rx) ∧
    ∀ k j, (l.gen, k, some j) ∈ (JavaBmc.run ci creator ops).disp → (sentJ t (JavaBmc.run ca creatorA opsA).log [])[k - 1]? = some (k, j) := by
  have R : JavaBmc.Right ci (fun t' k j => t' = link → (sentJ t (JavaBmc.run ca creatorA opsA).log [])[k - 1]? = some (k, j)) := by
    intro v prev' rx ms hver i j hi ht
    subst ht
    rcases C168_one P W (hv v rx ms hver) with rfl | ⟨e, b, m, rfl, hdb, he, hm⟩
    · simp at hi
    · have h0 : i = 0 := by
        cases i with
        | zero => rfl
        | succ k => simp at hi
      subst h0
      have hj : m = j := by simpa using hi
      subst hj
      obtain ⟨k, m', h1, rfl, h3⟩ := hsrc e he _ _ hm
      have hk : k = rx + 0 + 1 := by omega
      subst hk
      rw [hdec _ h3, Option.some.injEq] at hdb
      subst hdb
      exact (sentJ_at ca creatorA opsA t _ _ h3).2
  have wf := JavaBmc.wf_run (c := ci) creator ops
  have r := (JavaBmc.run_tr (c := ci) creator ops).recv R (JavaBmc.wf_init creator) (JavaBmc.recv_init _ false creator)
  refine ⟨?_, ?_⟩
  · have := r.count l.gen
    rw [r.rx n l hl]
    simpa [JavaBmc.Rel, JavaBmc.nums] using this
  · intro k m hm
    obtain ⟨t', ht, hs⟩ := r.right l.gen k m (by simpa using hm)
    rw [wf.names n l hl, Option.some.injEq] at ht
    exact hs (by rw [← ht, ha])

/-- **C168**, order: if all verifiers of the message center are such (or release one message at a time), messages are handled in order, whatever the called
contracts do. -/
theorem C168_in_order_partial (ci : JavaBmc.Cfg)
    (hv : ∀ v p rx ms, ci.verify v p rx ms = true → ms.length ≤ 1 ∨ ∃ E bmc net V o real w prev nb dec, Plat E ∧ World.Of w E real ∧
      Through E bmc net V o real w prev nb dec rx ms)
    (creator : Nat) (ops : List JavaBmc.Op) (n : String) (l : JavaBmc.Link) (hl : JavaBmc.Dict.get (JavaBmc.run ci creator ops).links n = some l) :
    ((JavaBmc.run ci creator ops).disp.filter (fun e => e.1 = l.gen)).map (fun e => e.2.1) = List.range' 1 l.rx := by
  refine EvmToIcon.C142_in_order (fun v p rx ms h => ?_) creator ops n l hl
  rcases hv v p rx ms h with h | ⟨E, bmc, net, V, o, real, w, prev, nb, dec, P, W, T⟩
  · exact h
  · rcases C168_one P W T with rfl | ⟨_, _, m, rfl, _⟩
    · simp
    · simp

/-! ### Example -/

namespace Ex

/-- A byte string with its length before it, in unary. -/
def lp (b : Bytes) : Bytes := List.replicate b.length 1 ++ 0 :: b

theorem lp_inj (a b x y : Bytes) (h : lp a ++ x = lp b ++ y) : a = b ∧ x = y := by
  have key : ∀ (n m : Nat) (u v : Bytes), List.replicate n (1 : UInt8) ++ 0 :: u = List.replicate m 1 ++ 0 :: v → n = m ∧ u = v := by
    intro n
    induction n with
    | zero =>
      intro m u v h
      cases m with
      | zero => simpa using h
      | succ m => simp [List.replicate_succ] at h
    | succ n ih =>
      intro m u v h
      cases m with
      | zero => simp [List.replicate_succ] at h
      | succ m =>
        simp only [List.replicate_succ, List.cons_append, List.cons.injEq, true_and] at h
        obtain ⟨h1, h2⟩ := ih m u v h
        exact ⟨by omega, h2⟩
  unfold lp at h
  rw [List.append_assoc, List.append_assoc, List.cons_append, List.cons_append] at h
  obtain ⟨h1, h2⟩ := key _ _ _ _ h
  exact List.append_inj h2 h1

def wOpt : Option Bytes → Bytes
  | none => [0]
  | some b => 1 :: b

theorem wOpt_inj (a b : Option Bytes) (h : wOpt a = wOpt b) : a = b := by
  cases a <;> cases b <;> simp_all [wOpt]

def wOpt2 : Option (Option Bytes) → Bytes
  | none => [0]
  | some b => 1 :: wOpt b

theorem wOpt2_inj (a b : Option (Option Bytes)) (h : wOpt2 a = wOpt2 b) : a = b := by
  cases a <;> cases b <;> simp_all [wOpt2]
  exact wOpt_inj _ _ h

def wInt (i : Int) : Bytes := (if i < 0 then 1 else 0) :: List.replicate i.natAbs 1

theorem wInt_inj (a b : Int) (h : wInt a = wInt b) : a = b := by
  unfold wInt at h
  rw [List.cons.injEq] at h
  obtain ⟨h1, h2⟩ := h
  have h2 := congrArg List.length h2
  rw [List.length_replicate, List.length_replicate] at h2
  by_cases ha : a < 0 <;> by_cases hb : b < 0
  · omega
  · rw [if_pos ha, if_neg hb] at h1; cases h1
  · rw [if_neg ha, if_pos hb] at h1; cases h1
  · omega

def wHead (d : Header) : Bytes := lp (wInt d.height) ++ (lp (wOpt d.nextValidatorHash) ++ (lp (wOpt2 d.receiptHash) ++ (lp d.rest ++ [])))

theorem wHead_inj (a b : Header) (h : wHead a = wHead b) : a = b := by
  obtain ⟨a1, a2, a3, a4⟩ := a
  obtain ⟨b1, b2, b3, b4⟩ := b
  obtain ⟨h1, h⟩ := lp_inj _ _ _ _ h
  obtain ⟨h2, h⟩ := lp_inj _ _ _ _ h
  obtain ⟨h3, h⟩ := lp_inj _ _ _ _ h
  obtain ⟨h4, _⟩ := lp_inj _ _ _ _ h
  have h1 : a1 = b1 := wInt_inj _ _ h1
  have h2 : a2 = b2 := wOpt_inj _ _ h2
  have h3 : a3 = b3 := wOpt2_inj _ _ h3
  have h4 : a4 = b4 := h4
  rw [h1, h2, h3, h4]

def wList : List Bytes → Bytes
  | [] => []
  | b :: l => lp b ++ wList l

theorem wList_inj : ∀ a b : List Bytes, wList a = wList b → a = b := by
  intro a
  induction a with
  | nil =>
    intro b h
    cases b with
    | nil => rfl
    | cons b l => simp only [wList, lp] at h; have := congrArg List.length h; simp at this
  | cons a l ih =>
    intro b h
    cases b with
    | nil => simp only [wList, lp] at h; have := congrArg List.length h; simp at this
    | cons b m =>
      obtain ⟨h1, h2⟩ := lp_inj _ _ _ _ h
      rw [h1, ih m h2]

/-- The source: the example of C41 with its two links; the first message over the link announces the other one. -/
def A : JavaBmc.St := JavaBmc.run (JavaBmc.Demo.cfg JavaBmc.Demo.srcA) 1 JavaBmc.Demo.setup
def m1 : JavaBmc.Msg := ⟨"icon", "e", "bmc", 0, [3], 1, none⟩
def m2 : JavaBmc.Msg := ⟨"icon", "e", "bmc", 0, [3], 2, none⟩
theorem sent_eq : sentJ "e/A" A.log [] = [(1, m1), (2, m2)] := by decide +kernel

def prev : Bytes := [0xcc]
def nb : Bytes := [0xbb]
def ev1 : EventLog := ⟨some prev, [messageSig ++ [0x28, 0x29], nb, [1]], [wMsg m1]⟩
def ev2 : EventLog := ⟨some prev, [messageSig ++ [0x28, 0x29], nb, [2]], [wMsg m2]⟩
/-- An event of another contract. -/
def ev3 : EventLog := ⟨some [0xcd], [messageSig ++ [0x28, 0x29], nb, [5]], [[]]⟩
/-- The first receipt has its events in itself, the second one in a trie. -/
def evTrie : Trie := .leaf (toNibbles [] [1]) [8]
def evNode : List Bytes := [JavaMpt.header true (toNibbles [] [1]), [8]]
def rcTrie : Trie := .branch (fun i => if i.val = 0 then .branch (fun j => if j.val = 1 then .leaf [] [6] else if j.val = 2 then .leaf [] [7] else .empty) [] else .empty) []
def rcSub : Trie := .branch (fun j => if j.val = 1 then .leaf [] [6] else if j.val = 2 then .leaf [] [7] else .empty) []
def H : Bytes → Bytes := JavaMpt.exH
def rc6 : List Bytes := [JavaMpt.header true [], [6]]
def rc7 : List Bytes := [JavaMpt.header true [], [7]]
def sub : List Bytes := (List.range 16).map (fun j => if j = 1 then H (wList rc6) else if j = 2 then H (wList rc7) else []) ++ [[]]
def top : List Bytes := (List.range 16).map (fun j => if j = 0 then H (wList sub) else []) ++ [[]]
def table : List (List Bytes) := [evNode, rc6, rc7, sub, top]

def E : Env where
  H := H
  headerBytes := wHead
  validatorBytes := wList
  voteBytes v := [UInt8.ofNat v.height.toNat] ++ v.blockId
  recover h s := match s with
    | a :: m => if m = h.drop 31 then some [a] else none
    | [] => none
  nodeItems b := (table.find? (fun l => decide (wList l = b))).map (·.map some)
  indexKey i := Rlp.enc .bytes (some [UInt8.ofNat i.toNat])
  readReceipt b := if b = [6] then some ⟨[ev1, ev3], none⟩ else if b = [7] then some ⟨[], some (H (wList evNode))⟩ else none
  readEvent b := if b = [8] then some ev2 else none

theorem key_fits : ∀ n : Fin 256, (Rlp.enc .bytes (some [UInt8.ofNat n.val])).length < 2 ^ 63 := by decide +kernel

theorem plat : Plat E := by
  refine ⟨fun x => by simp [E, H, JavaMpt.exH], wHead_inj, fun i => ⟨.bytes, some [UInt8.ofNat i.toNat], rfl, ?_⟩, rfl, rfl⟩
  have := key_fits ⟨i.toNat % 256, Nat.mod_lt _ (by decide)⟩
  rw [show UInt8.ofNat i.toNat = UInt8.ofNat (i.toNat % 256) from UInt8.toNat.inj (by simp [UInt8.toNat_ofNat'])]
  exact this

theorem nodes_of (t : Trie) (h : ∀ k, ∀ x ∈ t.path H wList k, ∃ l ∈ table, x = wList l) : ∀ k l, wList l ∈ t.path E.H wList k → E.nodeItems (wList l) = some (l.map some) := by
  intro k l hl
  obtain ⟨l', h1, h2⟩ := h k _ hl
  have := wList_inj _ _ h2
  subst this
  have ht : ∀ l ∈ table, table.find? (fun l' => decide (wList l' = wList l)) = some l := by decide +kernel
  show (table.find? _).map _ = _
  rw [ht l h1]
  rfl

theorem ev_tree : Tree E wList evTrie := by
  refine ⟨?_, ?_, ?_⟩
  · show ∀ n ∈ toNibbles [] [1], n.toNat < 16; decide +kernel
  · intro k w h
    unfold evTrie Trie.lookup at h
    split at h
    · rename_i e
      exact ⟨.bytes, some [1], by rw [e]; decide +kernel, by decide +kernel⟩
    · cases h
  · refine nodes_of _ fun k x hx => ?_
    exact ⟨evNode, by decide +kernel, List.mem_singleton.1 hx⟩

theorem rc_lookup (k b : Bytes) (h : rcTrie.lookup k = some b) : (k = [0, 1] ∧ b = [6]) ∨ (k = [0, 2] ∧ b = [7]) := by
  unfold rcTrie at h
  match k, h with
  | [], h => simp [Trie.lookup] at h
  | a :: k, h =>
    rw [Trie.lookup] at h
    split at h
    · dsimp only at h
      split at h
      · rename_i h0
        have ha : a = 0 := UInt8.toNat.inj (by simpa using h0)
        subst ha
        match k, h with
        | [], h => simp [Trie.lookup] at h
        | c :: k, h =>
          rw [Trie.lookup] at h
          split at h
          · dsimp only at h
            split at h
            · rename_i h1
              have hc : c = 1 := UInt8.toNat.inj (by simpa using h1)
              subst hc
              rw [Trie.lookup] at h
              split at h
              · rename_i hk; cases h; exact .inl ⟨by rw [hk], rfl⟩
              · cases h
            · split at h
              · rename_i h1
                have hc : c = 2 := UInt8.toNat.inj (by simpa using h1)
                subst hc
                rw [Trie.lookup] at h
                split at h
                · rename_i hk; cases h; exact .inr ⟨by rw [hk], rfl⟩
                · cases h
              · rw [Trie.lookup] at h; cases h
          · cases h
      · rw [Trie.lookup] at h; cases h
    · cases h

theorem top_eq : List.ofFn (fun i : Fin 16 => Trie.root H wList (if i.val = 0 then rcSub else .empty)) ++ [[]] = top := by decide +kernel
theorem sub_eq : List.ofFn (fun j : Fin 16 => Trie.root H wList (if j.val = 1 then .leaf [] [6] else if j.val = 2 then .leaf [] [7] else .empty)) ++ [[]] = sub := by decide +kernel
theorem rc_branch : rcTrie = .branch (fun i => if i.val = 0 then rcSub else .empty) [] := rfl

theorem rc_path (k x : Bytes) (h : x ∈ rcTrie.path H wList k) : ∃ l ∈ table, x = wList l := by
  have ht : sub ∈ table ∧ top ∈ table ∧ rc6 ∈ table ∧ rc7 ∈ table := by decide +kernel
  rw [rc_branch, Trie.path.eq_def] at h
  dsimp only at h
  rw [top_eq] at h
  rcases List.mem_cons.1 h with rfl | h
  · exact ⟨top, ht.2.1, rfl⟩
  · split at h
    · cases h
    · split at h
      · split at h
        · rw [rcSub, Trie.path.eq_def] at h
          dsimp only at h
          rw [sub_eq] at h
          rcases List.mem_cons.1 h with rfl | h
          · exact ⟨sub, ht.1, rfl⟩
          · split at h
            · cases h
            · split at h
              · split at h
                · exact ⟨rc6, ht.2.2.1, List.mem_singleton.1 h⟩
                · split at h
                  · exact ⟨rc7, ht.2.2.2, List.mem_singleton.1 h⟩
                  · cases h
              · cases h
        · cases h
      · cases h

theorem rc_tree : Tree E wList rcTrie := by
  refine ⟨?_, ?_, nodes_of _ rc_path⟩
  · intro i
    dsimp only
    split
    · intro j
      dsimp only
      split
      · intro n hn; cases hn
      · split
        · intro n hn; cases hn
        · trivial
    · trivial
  · intro k w h
    rcases rc_lookup k w h with ⟨rfl, _⟩ | ⟨rfl, _⟩
    · exact ⟨.bytes, some [1], by decide +kernel, by decide +kernel⟩
    · exact ⟨.bytes, some [2], by decide +kernel, by decide +kernel⟩

def V : List Bytes := [[1], [2], [3], [4]]
def next : List Bytes := [[5], [6]]
def head : Header := ⟨1, some (H (wList next)), some (some (rcTrie.root H wList)), [42]⟩
def real : List (Header × List Bytes) := [(head, next)]
def w : World := ⟨wList, fun _ => rcTrie, fun _ => evTrie⟩

theorem w_of : w.Of E real := by
  refine ⟨fun d hd r hr => ?_, fun d hd k b rc r hk hr hl => ?_⟩
  · rw [List.mem_singleton.1 hd] at hr
    cases hr
    exact ⟨rfl, rc_tree⟩
  · rcases rc_lookup k b hk with ⟨_, rfl⟩ | ⟨_, rfl⟩
    · cases hr; cases hl
    · cases hr; cases hl; exact ⟨rfl, ev_tree⟩

theorem emits (e : EventLog) (h : w.Emits E real e) : e = ev1 ∨ e = ev3 ∨ e = ev2 := by
  obtain ⟨d, _, k, b, rc, h1, h2, h3⟩ := h
  have evt : ∀ k' b', evTrie.lookup k' = some b' → E.readEvent b' = some e → e = ev2 := by
    intro k' b' g1 g2
    unfold evTrie Trie.lookup at g1
    split at g1
    · cases g1; cases g2; rfl
    · cases g1
  rcases rc_lookup k b h1 with ⟨_, rfl⟩ | ⟨_, rfl⟩
  · cases h2
    rcases h3 with h3 | ⟨k', b', g1, g2⟩
    · rcases List.mem_cons.1 h3 with h | h
      · exact .inl h
      · exact .inr (.inl (List.mem_singleton.1 h))
    · exact .inr (.inr (evt k' b' g1 g2))
  · cases h2
    rcases h3 with h3 | ⟨k', b', g1, g2⟩
    · cases h3
    · exact .inr (.inr (evt k' b' g1 g2))

theorem source : Source E w real prev nb A "e/A" := by
  intro e he q x hm
  rw [sent_eq]
  obtain ⟨h1, args, qb, rest, more, h2, h3, _, h4⟩ := hm
  rcases emits e he with rfl | rfl | rfl
  · cases h2; cases h3
    exact ⟨1, m1, h4.trans (by decide +kernel), rfl, by simp⟩
  · cases h1
  · cases h2; cases h3
    exact ⟨2, m2, h4.trans (by decide +kernel), rfl, by simp⟩

/-- Two calls: the block with the votes of three of four validators and a proof of the first receipt; then a block proof with a proof of the second
receipt and its event. -/
def votes : Votes := ⟨0, none, [1, 2, 4].map fun a => ⟨0, a :: (H (1 :: H (wHead head))).drop 31⟩⟩
def call1 : Call := ⟨[0xaa], nb, [0xaa], [0x11], prev, 0,
  ⟨some [⟨some head, some votes, some next⟩], none, some [⟨1, some (rcTrie.path H wList (toNibbles [] [1])), none⟩]⟩⟩
def call2 : Call := ⟨[0xaa], nb, [0xaa], [0x11], prev, 1,
  ⟨none, some ⟨some head, some ⟨1, some []⟩⟩, some [⟨2, some (rcTrie.path H wList (toNibbles [] [2])), some [⟨1, some [wList evNode]⟩]⟩]⟩⟩

def out : R (Props × List (Option Bytes)) → Option (List (Option Bytes))
  | .ok x => some x.2
  | .err _ => none

theorem chain_real (cs : List Call) (hc : ∀ c ∈ cs, c = call1 ∨ c = call2) : ∀ ds, Chain E (shown V cs) 0 V ds → ds <+: real := by
  have hu : ∀ c ∈ cs, ∀ us, c.msg.updates = some us → ∀ u ∈ us, u.header = some head ∧ u.nextValidators = some next := by
    intro c h us hs u hu
    rcases hc c h with rfl | rfl
    · cases hs
      rw [List.mem_singleton.1 hu]
      exact ⟨rfl, rfl⟩
    · cases hs
  intro ds h
  cases ds with
  | nil => exact List.nil_prefix
  | cons p ds =>
    obtain ⟨d, W⟩ := p
    obtain ⟨_, ⟨⟨c, h1, us, h2, u, h3, h4⟩, hW, _⟩, h5, h6⟩ := h
    have := (hu c h1 us h2 u h3).1
    rw [h4, Option.some.injEq] at this
    subst this
    have hWn : W = next := by
      rcases hW with rfl | ⟨c, h1, us, h2, u, h3, hw⟩
      · exact absurd h5 (by decide +kernel)
      · have := (hu c h1 us h2 u h3).2
        rw [hw, Option.some.injEq] at this
        exact this
    subst hWn
    cases ds with
    | nil => exact List.prefix_refl _
    | cons p ds =>
      obtain ⟨d, W⟩ := p
      obtain ⟨g1, ⟨⟨c, h1, us, h2, u, h3, h4⟩, _⟩, _⟩ := h6
      have := (hu c h1 us h2 u h3).1
      rw [h4, Option.some.injEq] at this
      subst this
      exact absurd g1 (by decide +kernel)

theorem ok_of {x : R (Props × List (Option Bytes))} {l : List (Option Bytes)} (h : out x = some l) : ∃ s', x = .ok (s', l) := by
  cases x with
  | ok y => cases h; exact ⟨y.1, rfl⟩
  | err e => cases h

theorem no_coll_rc : ∀ i : Fin 3, ¬ ∃ x ∈ rcTrie.path H wList (toNibbles [] [UInt8.ofNat i.val]), ∃ y ∈ rcTrie.path H wList (toNibbles [] [UInt8.ofNat i.val]), x ≠ y ∧ H x = H y := by
  decide +kernel

theorem accepts1 : Accepts E [0xaa] [0x11] V 0 real w [] call1 [some (wMsg m1)] := by
  refine ⟨ok_of (by decide +kernel), chain_real _ (fun c h => .inl (List.mem_singleton.1 h)), ?_⟩
  rintro (⟨hd, a, ws, h, _⟩ | ⟨d, _, rs, p, ps, h1, h2, h3, h4⟩ | ⟨d, _, k, b, _, rs, p, qs, q, ps, h1, h2, h3, _⟩)
  · cases h
  · cases h1
    rw [List.mem_singleton.1 h2] at h3 h4
    cases h3
    exact no_coll_rc 1 h4
  · cases h1
    rw [List.mem_singleton.1 h2] at h3
    cases h3

theorem accepts2 : Accepts E [0xaa] [0x11] V 0 real w [call1] call2 [some (wMsg m2)] := by
  refine ⟨ok_of (by decide +kernel), chain_real _ (fun c h => ?_), ?_⟩
  · rcases List.mem_cons.1 h with h | h
    · exact .inl h
    · exact .inr (List.mem_singleton.1 h)
  rintro (⟨hd, a, ws, h, hc | ⟨k, st, n, hc⟩⟩ | ⟨d, _, rs, p, ps, h1, h2, h3, h4⟩ | ⟨d, _, k, b, _, rs, p, qs, q, ps, h1, h2, h3, h4, h5, h6⟩)
  · cases h
    obtain ⟨x, hx, y, hy, h1, _⟩ := hc
    rw [List.mem_singleton.1 hx, List.mem_singleton.1 hy] at h1
    exact h1 rfl
  · cases h
    obtain ⟨x, hx, _⟩ := hc
    rw [show JavaMta.wcalls E.H [] (E.H (E.headerBytes head)) (head.height - 1 - 0) = [] by decide +kernel] at hx
    cases hx
  · cases h1
    rw [List.mem_singleton.1 h2] at h3 h4
    cases h3
    exact no_coll_rc 2 h4
  · cases h1
    rw [List.mem_singleton.1 h2] at h3
    cases h3
    rw [List.mem_singleton.1 h4] at h5 h6
    cases h5
    obtain ⟨x, hx, y, hy, h1, _⟩ := h6
    rw [List.mem_singleton.1 hx, List.mem_singleton.1 hy] at h1
    exact h1 rfl

/-- The receiving message center: its verifier for the link "e/A" accepts these two calls. -/
def dec (b : Bytes) : Option JavaBmc.Msg := if b = wMsg m1 then some m1 else if b = wMsg m2 then some m2 else none
def ci : JavaBmc.Cfg := { JavaBmc.Demo.cfg JavaBmc.Demo.srcA with verify := fun _ _ rx ms => decide ((rx = 0 ∧ ms = [m1]) ∨ (rx = 1 ∧ ms = [m2])) }
def ops : List JavaBmc.Op := JavaBmc.Demo.setup ++ [.relay 9 "e/A" (.cons m1 JavaBmc.Demo.env none .nil .nil), .relay 9 "e/A" (.cons m2 JavaBmc.Demo.env none .nil .nil)]

theorem through (rx : Nat) (ms : List JavaBmc.Msg) (h : (rx = 0 ∧ ms = [m1]) ∨ (rx = 1 ∧ ms = [m2])) : Through E [0xaa] [0x11] V 0 real w prev nb dec rx ms := by
  rcases h with ⟨rfl, rfl⟩ | ⟨rfl, rfl⟩
  · exact ⟨[], call1, _, rfl, rfl, rfl, accepts1, by decide +kernel⟩
  · exact ⟨[call1], call2, _, rfl, rfl, rfl, accepts2, by decide +kernel⟩

example : (JavaBmc.Dict.get (JavaBmc.run ci 1 ops).links "e").map (fun l => (l.rx, l.gen)) = some (2, 0) := by decide +kernel
example (l : JavaBmc.Link) (hl : JavaBmc.Dict.get (JavaBmc.run ci 1 ops).links "e" = some l) (ha : l.addr = "e/A") :
    (((JavaBmc.run ci 1 ops).disp.filter (fun e => e.1 = l.gen)).map (fun e => e.2.1)).Perm (List.range' 1 l.rx) ∧
    ∀ k j, (l.gen, k, some j) ∈ (JavaBmc.run ci 1 ops).disp → (sentJ "e/A" A.log [])[k - 1]? = some (k, j) :=
  C168_exactly_once_partial plat w_of _ 1 _ prev nb "e/A" source dec (by
    show ∀ p ∈ sentJ "e/A" A.log [], _
    rw [sent_eq]; decide +kernel) ci "e/A" (fun v rx ms h => through rx ms (of_decide_eq_true h)) 1 ops "e" l hl ha
example (l : JavaBmc.Link) (hl : JavaBmc.Dict.get (JavaBmc.run ci 1 ops).links "e" = some l) :
    ((JavaBmc.run ci 1 ops).disp.filter (fun e => e.1 = l.gen)).map (fun e => e.2.1) = List.range' 1 l.rx :=
  C168_in_order_partial ci (fun _ _ rx ms h => .inr ⟨E, _, _, _, _, _, w, _, _, _, plat, w_of, through rx ms (of_decide_eq_true h)⟩) 1 ops "e" l hl

end Ex

end Verif.JavaEnd
