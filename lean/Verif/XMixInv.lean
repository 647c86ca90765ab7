import Verif.XMixSteps
import Verif.XCallNetProj
/-!
The invariant of XCallNetInv for the network of XMix, and the message centers of XMix as a network of MixNet.
-/
namespace Verif.XMix
open Verif
open Verif.SolBmc (upd)
open Verif.SolNet (Abs Mv Mvs SameMsg owed msgsOf upd_same' upd_other')
open Verif.MixNet
open Verif.JavaBmc
open Verif.XNet (X leaf JMv JMvs upd_nil upd_id)

/-- The chain as the moves of XCallNetSteps see it. -/
def Chain.side : Chain → XNet.Node
  | .evm nd => nd
  | .icon nd => nd.side

theorem side_net (c : Chain) : c.side.bmc.net = c.kind.net := by cases c <;> rfl
theorem side_x (c : Chain) : c.side.x = c.x := by cases c <;> rfl
theorem side_enc (c : Chain) : c.side.enc = c.enc := by cases c <;> rfl
theorem side_dec (c : Chain) : c.side.dec = c.dec := by cases c <;> rfl

structure XInv (nd : String → Chain) (nets : List String) (bal : String → Nat) (S : Net) (T : String → List Msg) : Prop where
  all : XNet.All (fun n => (nd n).side) nets bal (fun a => (S.sys.st a).abs) (fun a => (S.sys.st a).log) (S.sys.pool.map tr) (fun a => (T a).map tr) S.x
  own : ∀ a s, S.sys.st a = .icon s → Own s
  reg : ∀ a v s, nd a = .icon v → S.sys.st a = .icon s → Reg v s
  fee : ∀ m ∈ S.sys.pool, 0 < m.sn → m.fee.isSome = true

theorem XInv.fit {nd : String → Chain} {nets : List String} {bal : String → Nat} {S : Net} {T : String → List Msg} (g : XInv nd nets bal S T) {n : String}
    (hn : n ∈ nets) {v : INode} {s : St} (h1 : nd n = .icon v) (h2 : S.sys.st n = .icon s) : Fit v s :=
  ⟨g.own n s h2, g.reg n v s h1 h2, by have := g.all.inv.start n hn; rw [h2] at this; exact this⟩

theorem XInv.start {nd : String → Chain} {nets : List String} {bal : String → Nat} {S : Net} {T : String → List Msg} (g : XInv nd nets bal S T) {n : String}
    (hn : n ∈ nets) {s : SolBmc.St} (h2 : S.sys.st n = .evm s) : 0 ≤ s.nsn := by
  have := g.all.inv.start n hn; rw [h2] at this; exact this

theorem XInv.wire {nd : String → Chain} {nets : List String} {bal : String → Nat} {S : Net} {T : String → List Msg} (g : XInv nd nets bal S T) {D rest : List Msg}
    (hp : S.sys.pool.Perm (D ++ rest)) : ∀ m ∈ D, Wire m := by
  intro m hm
  have hmp : m ∈ S.sys.pool := hp.mem_iff.2 (List.mem_append_left _ hm)
  have ha := g.all.inv.pool (tr m) (List.mem_map_of_mem hmp)
  exact ⟨ha.pos, g.fee m hmp, ha.bmc⟩

/-- A step is a sequence of moves of both contracts of one chain. -/
theorem Step.moves {nd : String → Chain} {nets : List String} {bal : String → Nat} {S S' : Net} {T : String → List Msg} {n : String} {D : List Msg}
    (g : XInv nd nets bal S T) (h : Step nd nets S n D S') : n ∈ nets ∧ ∃ b x' rest evs new, S.sys.pool.Perm (D ++ rest) ∧
      S' = ⟨⟨upd S.sys.st n b, rest ++ new⟩, upd S.x n x'⟩ ∧ b.log = (S.sys.st n).log ++ evs ∧ new.map tr = msgsOf evs ∧
      JMvs (nd n).side (S.sys.st n).abs (S.x n) (D.map tr) evs b.abs x' ∧ (∀ s, b = .icon s → Own s) ∧
      (∀ v s, nd n = .icon v → b = .icon s → Reg v s) ∧ (∀ m ∈ new, 0 < m.sn → m.fee.isSome = true) := by
  have evm : ∀ (v : XNet.Node) (s : SolBmc.St) (j : XNet.J) (rest : List Msg), n ∈ nets → nd n = .evm v → S.sys.st n = .evm s →
      XNet.JGo v ⟨s, S.x n⟩ (D.map tr) j → S.sys.pool.Perm (D ++ rest) → S' = S.next n (.evm j.b) j.x rest →
      n ∈ nets ∧ ∃ b x' rest evs new, S.sys.pool.Perm (D ++ rest) ∧
      S' = ⟨⟨upd S.sys.st n b, rest ++ new⟩, upd S.x n x'⟩ ∧ b.log = (S.sys.st n).log ++ evs ∧ new.map tr = msgsOf evs ∧
      JMvs (nd n).side (S.sys.st n).abs (S.x n) (D.map tr) evs b.abs x' ∧ (∀ s, b = .icon s → Own s) ∧
      (∀ v s, nd n = .icon v → b = .icon s → Reg v s) ∧ (∀ m ∈ new, 0 < m.sn → m.fee.isSome = true) := by
    intro v s j rest hn hv hs hgo hp he
    obtain ⟨evs, h1, h2⟩ := hgo (g.start hn hs)
    dsimp only at h1 h2
    refine ⟨hn, .evm j.b, j.x, rest, evs, (msgsOf evs).map emb, hp, ?_, ?_, ?_, ?_, (fun s e => nomatch e), (fun v s _ e => nomatch e), ?_⟩
    · rw [he]
      unfold Net.next Sys.next
      rw [hs]
      show (⟨⟨_, rest ++ ((msgsOf j.b.log).map emb).drop ((msgsOf s.log).map emb).length⟩, _⟩ : Net) = _
      rw [h1, SolNet.msgsOf_append, List.map_append, List.drop_left]
    · rw [hs]; exact h1
    · rw [List.map_map]; exact List.map_id' _
    · rw [hs, hv]; exact h2
    · intro m hm _
      obtain ⟨x, -, rfl⟩ := List.mem_map.1 hm
      rfl
  have icon : ∀ (v : INode) (s : St) (j : IJ) (rest : List Msg), n ∈ nets → nd n = .icon v → S.sys.st n = .icon s →
      IGo v ⟨s, S.x n⟩ D j → S.sys.pool.Perm (D ++ rest) → S' = S.next n (.icon j.b) j.x rest →
      n ∈ nets ∧ ∃ b x' rest evs new, S.sys.pool.Perm (D ++ rest) ∧
      S' = ⟨⟨upd S.sys.st n b, rest ++ new⟩, upd S.x n x'⟩ ∧ b.log = (S.sys.st n).log ++ evs ∧ new.map tr = msgsOf evs ∧
      JMvs (nd n).side (S.sys.st n).abs (S.x n) (D.map tr) evs b.abs x' ∧ (∀ s, b = .icon s → Own s) ∧
      (∀ v s, nd n = .icon v → b = .icon s → Reg v s) ∧ (∀ m ∈ new, 0 < m.sn → m.fee.isSome = true) := by
    intro v s j rest hn hv hs hgo hp he
    obtain ⟨hf, evs, h1, h2, h3⟩ := hgo (g.fit hn hv hs) (g.wire hp)
    dsimp only at h1 h2
    refine ⟨hn, .icon j.b, j.x, rest, trLog evs, sentBy evs, hp, ?_, ?_, (msgsOf_trLog _).symm, ?_, ?_, ?_, h3⟩
    · rw [he]
      unfold Net.next Sys.next
      rw [hs]
      show (⟨⟨_, rest ++ (sentBy j.b.log).drop (sentBy s.log).length⟩, _⟩ : Net) = _
      rw [h1, sentBy_append, List.drop_left]
    · rw [hs]; show trLog j.b.log = trLog s.log ++ _; rw [h1, trLog_append]
    · rw [hs, hv]; exact h2
    · intro x e; cases e; exact hf.own
    · intro v' x e1 e2; rw [hv] at e1; cases e1; cases e2; exact hf.reg
  cases h with
  | evmCall v s o j h1 h2 h3 h4 h5 => exact evm v s j _ h1 h2 h3 (XNet.jexec_go _ o _ _ h4 h5) (.refl _) rfl
  | evmRelay v s env caller prev items _ rest j h1 h2 h3 h4 h5 h6 h7 =>
    exact evm v s j rest h1 h2 h3 (by rw [← h5]; exact XNet.jrelay_go _ env caller prev items h4 _ _ h7) h6 rfl
  | evmDrop v s env seq m rest s' h1 h2 h3 h4 h5 => exact evm v s ⟨s', S.x n⟩ rest h1 h2 h3 (XNet.drop_jgo _ env seq (tr m) _ _ _ h5) h4 rfl
  | iconCall v s o j h1 h2 h3 h4 h5 => exact icon v s j _ h1 h2 h3 (iexec_go _ o _ _ h4 h5) (.refl _) rfl
  | iconRelay v s caller prev items rest j h1 h2 h3 h4 h5 h6 => exact icon v s j rest h1 h2 h3 (irelay_go _ caller prev items h4 _ _ h6) h5 rfl
  | iconDrop v s env caller seq m fn fv rest s' h1 h2 h3 h4 h5 =>
    exact icon v s ⟨s', S.x n⟩ rest h1 h2 h3 (drop_igo _ env caller seq m fn fv _ _ _ h5) h4 rfl

section
variable {nd : String → Chain} {nets : List String} {bal : String → Nat}

theorem Sane.ok {S : Net} (h : Sane nd S) : XNet.Ok (fun n => (nd n).side) S.x :=
  ⟨h.small, fun n n' net sn m v hm => by rw [side_dec, side_enc]; exact h.legible n n' net sn m v hm⟩

theorem reach_xinv (hnd : nets.Nodup) (hname : ∀ n ∈ nets, (nd n).kind.net = n) (hsl : ∀ n ∈ nets, '/' ∉ n.toList) {S : Net} {T : String → List Msg}
    (h : Reach nd nets bal S T) : XInv nd nets bal S T := by
  induction h with
  | init =>
    have hm := reach_inv (cfg := fun n => (nd n).kind) hnd hname (.init)
    refine ⟨⟨hm.inv, ⟨fun _ => [], [], ?_⟩, fun n hn y sn h => ?_, fun n hn m hm => nomatch hm⟩, hm.own, ?_, hm.fee⟩
    · exact ⟨.init, fun n p hp => (nomatch hp), fun n p hp => (nomatch hp), fun n hn i net sn xm v h => (nomatch h), fun s i k h => (nomatch h),
        fun m hm => (nomatch hm), fun n hn m hm => by
          dsimp only at hm
          have hl : ((nd n).kind.init).log = [] := by cases nd n <;> rfl
          rw [hl] at hm; exact nomatch hm⟩
    · refine absurd ?_ h
      dsimp only
      cases nd n <;> rfl
    · intro a v s h1 h2
      dsimp only at h2
      rw [h1] at h2
      cases h2
      intro x hx
      exact nomatch hx
  | @step S S' T n D _ hs hsane ih =>
    obtain ⟨hn, b, x', rest, evs, new, hp, rfl, hl, hnew, hm, ho, hr, hf⟩ := hs.moves ih
    have hp' : (S.sys.pool.map tr).Perm (D.map tr ++ rest.map tr) := by rw [← List.map_append]; exact hp.map tr
    have ih' : XNet.All (fun n => (nd n).side) nets bal (fun a => (S.sys.st a).abs) (fun a => (S.sys.st a).log) (D.map tr ++ rest.map tr)
        (fun a => (T a).map tr) S.x := by
      obtain ⟨G, done, hk⟩ := ih.all.k
      exact ⟨ih.all.inv.perm hp', ⟨G, done, hk.perm hp'⟩, ih.all.wait, ih.all.there⟩
    have := XNet.All.moves hnd (nd := fun n => (nd n).side) (fun n hn => (side_net _).trans (hname n hn)) hsl hn hm (A := fun a => (S.sys.st a).abs)
      (L := fun a => (S.sys.st a).log) (T := fun a => (T a).map tr) (x := S.x) (rest := rest.map tr) rfl rfl hsane.ok ih'
    have e1 : (fun a => (upd S.sys.st n b a).abs) = upd (fun a => (S.sys.st a).abs) n b.abs := by
      funext y; unfold upd; split <;> rfl
    have e2 : (fun a => (upd S.sys.st n b a).log) = upd (fun a => (S.sys.st a).log) n ((S.sys.st n).log ++ evs) := by
      funext y; unfold upd; split
      · exact hl
      · rfl
    have e3 : (fun a => (upd T n (T n ++ D) a).map tr) = upd (fun a => (T a).map tr) n ((T n).map tr ++ D.map tr) := by
      funext y; unfold upd; split
      · exact List.map_append
      · rfl
    have e4 : (rest ++ new).map tr = rest.map tr ++ msgsOf evs := by rw [List.map_append, hnew]
    refine ⟨?_, ?_, ?_, ?_⟩
    · dsimp only
      rw [e1, e2, e3, e4]; exact this
    · intro a s e
      dsimp only at e
      by_cases ha : a = n
      · subst ha
        rw [upd_same'] at e
        exact ho s e
      · rw [upd_other' _ _ _ _ ha] at e
        exact ih.own a s e
    · intro a v s e0 e
      dsimp only at e
      by_cases ha : a = n
      · subst ha
        rw [upd_same'] at e
        exact hr v s e0 e
      · rw [upd_other' _ _ _ _ ha] at e
        exact ih.reg a v s e0 e
    · intro m hm
      rcases List.mem_append.1 hm with hm | hm
      · exact ih.fee m (hp.mem_iff.2 (List.mem_append_right _ hm))
      · exact hf m hm

/-! ### The message centers -/

theorem next_next (σ : Sys) (n : String) (b1 b2 : MixNet.Node) (e1 e2 : List Msg) (h1 : b1.sent = (σ.st n).sent ++ e1) (h2 : b2.sent = b1.sent ++ e2) :
    (σ.next n b1 σ.pool).next n b2 (σ.next n b1 σ.pool).pool = σ.next n b2 σ.pool := by
  have huu : upd (upd σ.st n b1) n b2 = upd σ.st n b2 := by
    funext z; unfold upd; split <;> rfl
  unfold Sys.next
  dsimp only
  rw [huu, upd_same', h2, List.drop_left, h1, List.append_assoc (σ.st n).sent, List.drop_left, List.drop_left, List.append_assoc]

theorem next_same (σ : Sys) (n : String) : σ.next n (σ.st n) σ.pool = σ := by
  unfold Sys.next
  rw [upd_id, List.drop_length]
  show (⟨σ.st, σ.pool ++ []⟩ : Sys) = σ
  rw [List.append_nil]

/-- Calls one after the other on one EVM chain. -/
theorem mreach_evm {cfg : String → Kind} (hnd : nets.Nodup) (hname : ∀ n ∈ nets, (cfg n).net = n) (n : String) (hn : n ∈ nets) (c : SolBmc.Cfg) (hc : cfg n = .evm c) :
    ∀ (os : SolBmc.Ops) (σ : Sys) (T : String → List Msg) (s : SolBmc.St), σ.st n = .evm s → MixNet.Reach cfg nets σ T → SolNet.QuietOps c os →
      MixNet.Reach cfg nets (σ.next n (.evm (SolBmc.execOps c os s)) σ.pool) T ∧ ∃ e, (SolBmc.execOps c os s).log = s.log ++ e
  | .nil, σ, T, s, hs, h, _ => by
    rw [SolBmc.execOps, ← hs, next_same]
    exact ⟨h, [], (List.append_nil _).symm⟩
  | .cons o t, σ, T, s, hs, h, hq => by
    rw [SolBmc.execOps]
    rw [SolNet.QuietOps] at hq
    cases he : SolBmc.exec c o s with
    | none => exact mreach_evm hnd hname n hn c hc t σ T s hs h hq.2
    | some s1 =>
      rw [Option.getD_some]
      have h1 := h.step (.evmCall σ n c s o s1 hn hc hs hq.1 he)
      rw [upd_nil] at h1
      obtain ⟨h2, e2, hl2⟩ := mreach_evm hnd hname n hn c hc t (σ.next n (.evm s1) σ.pool) T s1 (upd_same' _ _ _) h1 hq.2
      obtain ⟨e1, hl1, -⟩ := SolNet.quiet_go c o hq.1 _ s1 he
      refine ⟨?_, e1 ++ e2, by rw [hl2, hl1, List.append_assoc]⟩
      rw [next_next σ n (.evm s1) _ ((msgsOf e1).map emb) ((msgsOf e2).map emb)] at h2
      · exact h2
      · rw [hs]; show (msgsOf s1.log).map emb = (msgsOf s.log).map emb ++ _; rw [hl1, SolNet.msgsOf_append, List.map_append]
      · show (msgsOf (SolBmc.execOps c t s1).log).map emb = (msgsOf s1.log).map emb ++ _; rw [hl2, SolNet.msgsOf_append, List.map_append]

/-- Calls one after the other on one chain of ICON. -/
theorem mreach_icon {cfg : String → Kind} (hnd : nets.Nodup) (hname : ∀ n ∈ nets, (cfg n).net = n) (n : String) (hn : n ∈ nets) (c : JavaBmc.Cfg) (cr : Nat)
    (hc : cfg n = .icon c cr) : ∀ (os : Ops) (σ : Sys) (T : String → List Msg) (s : St), σ.st n = .icon s → MixNet.Reach cfg nets σ T → os.quiet = true →
      MixNet.Reach cfg nets (σ.next n (.icon (execOps c os s)) σ.pool) T ∧ ∃ e, (execOps c os s).log = s.log ++ e
  | .nil, σ, T, s, hs, h, _ => by
    rw [execOps, ← hs, next_same]
    exact ⟨h, [], (List.append_nil _).symm⟩
  | .cons o t, σ, T, s, hs, h, hq => by
    rw [execOps]
    simp only [Ops.quiet, Bool.and_eq_true] at hq
    cases he : exec c o s with
    | none => exact mreach_icon hnd hname n hn c cr hc t σ T s hs h hq.2
    | some s1 =>
      rw [Option.getD_some]
      have h1 := h.step (.iconCall σ n c cr s o s1 hn hc hs hq.1 he)
      rw [upd_nil] at h1
      obtain ⟨h2, e2, hl2⟩ := mreach_icon hnd hname n hn c cr hc t (σ.next n (.icon s1) σ.pool) T s1 (upd_same' _ _ _) h1 hq.2
      obtain ⟨-, e1, hl1, -⟩ := quiet_go o s s1 hq.1 he ((reach_inv hnd hname h).own n s hs) (fun m hm => nomatch hm)
      refine ⟨?_, e1 ++ e2, by rw [hl2, hl1, List.append_assoc]⟩
      rw [next_next σ n (.icon s1) _ (sentBy e1) (sentBy e2)] at h2
      · exact h2
      · rw [hs]; show sentBy s1.log = sentBy s.log ++ _; rw [hl1, sentBy_append]
      · show sentBy (execOps c t s1).log = sentBy s1.log ++ _; rw [hl2, sentBy_append]

theorem reach_mix (hnd : nets.Nodup) (hname : ∀ n ∈ nets, (nd n).kind.net = n) (hsl : ∀ n ∈ nets, '/' ∉ n.toList) {S : Net} {T : String → List Msg}
    (h : Reach nd nets bal S T) : MixNet.Reach (fun n => (nd n).kind) nets S.sys T := by
  induction h with
  | init => exact .init
  | @step S S' T n D hr hs _ ih =>
    have g := reach_xinv hnd hname hsl hr
    cases hs with
    | evmCall v s o j hn hv hst hf he =>
      obtain ⟨evs, new, acts, ht⟩ := XNet.jexec_coup v o _ j hf he (g.start hn hst)
      have := (mreach_evm hnd hname n hn v.bmc (by rw [hv]; rfl) acts S.sys T s hst ih ht.quiet).1
      rw [upd_nil]
      have e : SolBmc.execOps v.bmc acts s = j.b := ht.acts
      rw [e] at this
      exact this
    | evmRelay v s env caller prev items _ rest j hn hv hst hf hD hp he =>
      obtain ⟨its, h1, h2, h3⟩ := XNet.jrelay_proj v env caller prev items hf _ j (g.start hn hst) he
      exact ih.step (.evmRelay S.sys n v.bmc s env caller prev its D rest j.b hn (by rw [hv]; rfl) hst h1 (h2.trans hD) hp h3)
    | evmDrop v s env seq m rest s' hn hv hst hp he =>
      exact ih.step (.evmDrop S.sys n v.bmc s env seq m rest s' hn (by rw [hv]; rfl) hst hp he)
    | iconCall v s o j hn hv hst hf he =>
      obtain ⟨evs, new, acts, ht⟩ := iexec_coup v o _ j hf he (g.fit hn hv hst)
      have := (mreach_icon hnd hname n hn v.c v.creator (by rw [hv]; rfl) acts S.sys T s hst ih ht.quiet).1
      rw [upd_nil]
      have e : execOps v.c acts s = j.b := ht.acts
      rw [e] at this
      exact this
    | iconRelay v s caller prev items rest j hn hv hst hf hp he =>
      obtain ⟨its, h1, h2, h3⟩ := irelay_proj v caller prev items hf _ j (g.fit hn hv hst) (g.wire hp) he
      have := ih.step (.iconRelay S.sys n v.c v.creator s caller prev its rest j.b hn (by rw [hv]; rfl) hst h1 (by rw [h2]; exact hp) h3)
      rw [h2] at this
      exact this
    | iconDrop v s env caller seq m fn fv rest s' hn hv hst hp he =>
      exact ih.step (.iconDrop S.sys n v.c v.creator s env caller seq m fn fv rest s' hn (by rw [hv]; rfl) hst hp he)
end

end Verif.XMix
