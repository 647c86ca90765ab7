import Verif.XCallNetInv
/-!
The message centers of XCallNet are a network of SolNet.
-/
namespace Verif.XNet
open Verif Verif.SolBmc Verif.SolNet

/-- What the service does matters in the state in which it is called. -/
theorem item_congr (nd : Node) (env : Env) (ok : Bool) (f g : St → St) (caller : Nat) (prev : String) (seq : Nat) (s : St) (m0 : Msg)
    (h : f (before nd caller prev s m0) = g (before nd caller prev s m0)) :
    item nd.bmc env ok f caller prev seq s m0 = item nd.bmc env ok g caller prev seq s m0 := by
  unfold item
  unfold before at h
  dsimp only at h ⊢
  generalize handleFee nd.bmc { addIn s m0.fee.network m0.fee.values.sum with
    disp := upd (addIn s m0.fee.network m0.fee.values.sum).disp prev ((addIn s m0.fee.network m0.fee.values.sum).disp prev ++ [some m0]) } caller m0 = q at h ⊢
  have hh : handleMessage nd.bmc env ok f q.1 q.2 = handleMessage nd.bmc env ok g q.1 q.2 := by
    unfold handleMessage
    rw [h]
  rw [hh]

theorem jitem_proj (nd : Node) (env : Env) (ok : Bool) (acts : JOps) (hf : FineAll nd acts) (caller : Nat) (prev : String) (seq : Nat) (j j' : J) (m0 : Msg)
    (h0 : 0 ≤ j.b.nsn) (h : jitem nd env ok acts caller prev seq j m0 = some j') :
    ∃ ok' as, QuietOps nd.bmc as ∧ item nd.bmc env ok' (execOps nd.bmc as) caller prev seq j.b m0 = some j'.b := by
  have hnil : ∀ ok', item nd.bmc env ok' (execOps nd.bmc .nil) caller prev seq j.b m0 = item nd.bmc env ok' id caller prev seq j.b m0 :=
    fun ok' => item_congr _ _ _ _ _ _ _ _ _ _ (by rw [execOps]; rfl)
  unfold jitem at h
  split at h
  · rename_i hr
    split at h
    · split at h
      · rw [Option.map_eq_some_iff] at h
        obtain ⟨s', h, rfl⟩ := h
        exact ⟨true, .nil, trivial, by rw [hnil]; exact h⟩
      · rw [Option.map_eq_some_iff] at h
        obtain ⟨s', h, rfl⟩ := h
        exact ⟨false, .nil, trivial, by rw [hnil]; exact h⟩
    · dsimp only at h
      rw [Option.map_eq_some_iff] at h
      obtain ⟨s', h, rfl⟩ := h
      have hd : m0.dst = nd.bmc.net := by
        unfold reached at hr
        simp only [Bool.and_eq_true, decide_eq_true_eq] at hr
        exact hr.1.1.1
      obtain ⟨h1, h2, -⟩ := item_here nd env ok _ caller prev seq j.b s' m0 h hd
      have h3 := mvs_mono (.one h2)
      obtain ⟨evs, new, as, ht⟩ := jrun_coup nd acts ⟨before nd caller prev j.b m0, j.x⟩ hf (Int.le_trans h0 h3)
      refine ⟨ok, as, ht.quiet, ?_⟩
      rw [← h]
      exact item_congr _ _ _ _ _ _ _ _ _ _ ht.acts
  · rw [Option.map_eq_some_iff] at h
    obtain ⟨s', h, rfl⟩ := h
    exact ⟨ok, .nil, trivial, by rw [hnil]; exact h⟩

theorem jitems_proj (nd : Node) (caller : Nat) (prev : String) : ∀ (items : JItems) (seq : Nat) (j j' : J), FineItems nd items → 0 ≤ j.b.nsn →
    jitems nd items caller prev seq j = some j' → ∃ its : Items, QuietItems nd.bmc its ∧ its.msgs = items.msgs ∧
      execItems nd.bmc its caller prev seq j.b = some j'.b
  | .nil, seq, j, j', _, _, h => by
    rw [jitems] at h
    obtain rfl := Option.some.inj h
    exact ⟨.nil, trivial, rfl, by rw [execItems]⟩
  | .cons m env ok acts t, seq, j, j', hf, h0, h => by
    rw [jitems] at h
    rw [FineItems] at hf
    split at h
    · cases h
    rename_i j1 h1
    obtain ⟨ok', as, h2, h3⟩ := jitem_proj nd env ok acts hf.1 caller prev (seq + 1) j j1 m h0 h1
    obtain ⟨e, h4, h5⟩ := jitem_go nd env ok acts hf.1 caller prev (seq + 1) j j1 m h1 h0
    obtain ⟨its, h6, h7, h8⟩ := jitems_proj nd caller prev t (seq + 1) j1 j' hf.2 (Int.le_trans h0 (mvs_mono h5.mvs)) h
    refine ⟨.cons m env ok' as its, ⟨h2, h6⟩, by rw [Items.msgs, JItems.msgs, h7], ?_⟩
    rw [execItems, h3]
    exact h8

theorem jrelay_proj (nd : Node) (env : Env) (caller : Nat) (prev : String) (items : JItems) (hf : FineItems nd items) (j j' : J) (h0 : 0 ≤ j.b.nsn)
    (h : jrelay nd env caller prev items j = some j') : ∃ its : Items, QuietItems nd.bmc its ∧ its.msgs = items.msgs ∧
      exec nd.bmc (.relay env caller prev its) j.b = some j'.b := by
  unfold jrelay at h
  split at h
  · rename_i hc
    split at h
    · cases h
    rename_i j1 h1
    obtain rfl := Option.some.inj h
    obtain ⟨its, h2, h3, h4⟩ := jitems_proj nd caller prev items _ j j1 hf h0 h1
    refine ⟨its, h2, h3, ?_⟩
    rw [exec, h3, if_pos hc, h4]
  · cases h

/-- Calls one after the other on one chain. -/
theorem treach_ops {cfg : String → Cfg} {nets : List String} (n : String) (hn : n ∈ nets) : ∀ (os : Ops) (σ : Sys) (T : String → List Msg), TReach cfg nets σ T →
    QuietOps (cfg n) os → TReach cfg nets (σ.next n (execOps (cfg n) os (σ.st n)) σ.pool) T ∧ ∃ e, (execOps (cfg n) os (σ.st n)).log = (σ.st n).log ++ e
  | .nil, σ, T, h, _ => by
    rw [execOps]
    refine ⟨?_, [], (List.append_nil _).symm⟩
    unfold Sys.next
    rw [upd_id, List.drop_length]
    show TReach cfg nets ⟨σ.st, σ.pool ++ []⟩ T
    rw [List.append_nil]
    exact h
  | .cons o t, σ, T, h, hq => by
    rw [execOps]
    rw [QuietOps] at hq
    cases he : exec (cfg n) o (σ.st n) with
    | none => exact treach_ops n hn t σ T h hq.2
    | some s1 =>
      rw [Option.getD_some]
      have h1 := h.step (.call σ n o s1 hn hq.1 he)
      rw [upd_nil] at h1
      have h2 := treach_ops n hn t (σ.next n s1 σ.pool) T h1 hq.2
      obtain ⟨e1, hl1, -⟩ := quiet_go (cfg n) o hq.1 _ s1 he
      have hst : (σ.next n s1 σ.pool).st n = s1 := upd_same' _ _ _
      rw [hst] at h2
      obtain ⟨h2, e2, hl2⟩ := h2
      refine ⟨?_, e1 ++ e2, by rw [hl2, hl1, List.append_assoc]⟩
      generalize hs2 : execOps (cfg n) t s1 = s2 at h2 hl2 ⊢
      have huu : upd (upd σ.st n s1) n s2 = upd σ.st n s2 := by
        funext z; unfold upd; split <;> rfl
      have e : (σ.next n s1 σ.pool).next n s2 (σ.next n s1 σ.pool).pool = σ.next n s2 σ.pool := by
        unfold Sys.next
        dsimp only
        rw [huu, upd_same', hl2, List.drop_left, hl1, List.append_assoc (σ.st n).log, List.drop_left, List.drop_left, msgsOf_append, List.append_assoc]
      rw [e] at h2
      exact h2

theorem jreach_treach {nd : String → Node} {nets : List String} {bal : String → Nat} (hnd : nets.Nodup) (hname : ∀ n ∈ nets, (nd n).bmc.net = n)
    {S : Net} {T : String → List Msg} (h : JReach nd nets bal S T) : TReach (fun n => (nd n).bmc) nets S.sys T := by
  induction h with
  | init => exact .init
  | @step S S' T n D _ hs _ ih =>
    have h0 : ∀ n ∈ nets, 0 ≤ (S.sys.st n).nsn := (treach_inv hnd hname ih).start
    cases hs with
    | call o j hn hf he =>
      obtain ⟨evs, new, acts, ht⟩ := jexec_coup (nd n) o _ j hf he (h0 n hn)
      have := (treach_ops n hn acts S.sys T ih ht.quiet).1
      rw [upd_nil]
      have e : execOps (nd n).bmc acts (S.sys.st n) = j.b := ht.acts
      rw [e] at this
      exact this
    | relay env caller prev items rest j hn hf hp he =>
      obtain ⟨its, h1, h2, h3⟩ := jrelay_proj (nd n) env caller prev items hf _ j (h0 n hn) he
      have := ih.step (.relay S.sys n env caller prev its rest j.b hn h1 (by rw [h2]; exact hp) h3)
      rw [h2] at this
      exact this
    | drop env seq m rest s' hn hp he => exact ih.step (.drop S.sys n env seq m rest s' hn hp he)

end Verif.XNet
