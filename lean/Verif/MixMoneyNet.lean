import Verif.MixMoney
/-!
The network of EVM and ICON message centers of MixNet, and the fees and rewards of all of them together: the invariant of SolNet for it.

* Steps as in MixNet, but an owner who drops a message tells its fee truly as well.
* All message centers use the same encoding of messages to the message centers (`JCommon`, `SolNet.Common`).
-/
namespace Verif.MixNet
open Verif
open Verif.SolBmc (FM FeeInfo upd cur)
open Verif.SolNet (msgsOf Loc Same Good tok toks zero feesOf ps held over Quiet QuietItems Common)
open Verif.JavaBmc (Msg)

/-! ### Accounts of a message center -/

/-- What a message center holds in the currency of `n`: rewards, fees kept for answers, payments, coins that are in no account, and fees of
    messages given up (on ICON these are rewards). -/
def Node.holds (n : String) : Node → Nat
  | .evm s => SolBmc.rewards s n + SolBmc.stored s n + s.paid n + s.lost n + SolNet.given s n
  | .icon s => JavaBmc.rewards s n + JavaBmc.stored s n + s.paid n + s.lost n

/-- Claims to `n` that are not answered, or answered well. -/
def Node.claims (n : String) : Node → Nat
  | .evm s => SolBmc.pending s n + s.settled n
  | .icon s => JavaBmc.pending s n + s.settled n

/-- Coins received with calls. -/
def Node.coins : Node → Nat
  | .evm s => s.coins
  | .icon s => s.coins

/-- Claims of other networks credited and answered. -/
def Node.credited : Node → Nat
  | .evm s => s.credited
  | .icon s => s.credited

/-- Claims of other networks credited although handling them failed. -/
def Node.doubled : Node → Nat
  | .evm _ => 0
  | .icon s => s.doubled

/-- Fees collected twice. -/
def Node.twice (n : String) : Node → Nat
  | .evm _ => 0
  | .icon s => s.twice n

/-- The reward of an account. -/
def Node.reward (who : Nat) (n : String) : Node → Nat
  | .evm s => s.reward.get 0 (who, n)
  | .icon s => s.reward.get 0 (who, n)

def Node.paid (n : String) : Node → Nat
  | .evm s => s.paid n
  | .icon s => s.paid n

/-! ### Steps -/

/-- One call on one of the chains. -/
inductive MStep (cfg : String → Kind) (nets : List String) : Sys → Sys → Prop where
  | evmCall (σ : Sys) (n : String) (c : SolBmc.Cfg) (s : SolBmc.St) (o : SolBmc.Op) (s' : SolBmc.St) : n ∈ nets → cfg n = .evm c → σ.st n = .evm s →
      Quiet c o → SolBmc.exec c o s = some s' → MStep cfg nets σ (σ.next n (.evm s') σ.pool)
  | evmRelay (σ : Sys) (n : String) (c : SolBmc.Cfg) (s : SolBmc.St) (env : SolBmc.Env) (caller : Nat) (prev : String) (items : SolBmc.Items)
      (D rest : List Msg) (s' : SolBmc.St) : n ∈ nets → cfg n = .evm c → σ.st n = .evm s → QuietItems c items → items.msgs = D.map tr →
      σ.pool.Perm (D ++ rest) → SolBmc.exec c (.relay env caller prev items) s = some s' → MStep cfg nets σ (σ.next n (.evm s') rest)
  | evmDrop (σ : Sys) (n : String) (c : SolBmc.Cfg) (s : SolBmc.St) (env : SolBmc.Env) (seq : Nat) (m : Msg) (rest : List Msg) (s' : SolBmc.St) :
      n ∈ nets → cfg n = .evm c → σ.st n = .evm s → σ.pool.Perm (m :: rest) →
      SolBmc.exec c (.drop env m.src seq m.svc m.sn m.nsn (tr m).fee) s = some s' → MStep cfg nets σ (σ.next n (.evm s') rest)
  | iconCall (σ : Sys) (n : String) (c : JavaBmc.Cfg) (creator : Nat) (s : JavaBmc.St) (o : JavaBmc.Op) (s' : JavaBmc.St) : n ∈ nets →
      cfg n = .icon c creator → σ.st n = .icon s → o.quiet = true → JavaBmc.exec c o s = some s' → MStep cfg nets σ (σ.next n (.icon s') σ.pool)
  | iconRelay (σ : Sys) (n : String) (c : JavaBmc.Cfg) (creator : Nat) (s : JavaBmc.St) (caller : Nat) (prev : String) (items : JavaBmc.Items)
      (rest : List Msg) (s' : JavaBmc.St) : n ∈ nets → cfg n = .icon c creator → σ.st n = .icon s → items.flat = true →
      σ.pool.Perm (items.msgs ++ rest) → JavaBmc.exec c (.relay caller prev items) s = some s' → MStep cfg nets σ (σ.next n (.icon s') rest)
  | iconDrop (σ : Sys) (n : String) (c : JavaBmc.Cfg) (creator : Nat) (s : JavaBmc.St) (env : JavaBmc.Env) (caller seq : Nat) (m : Msg) (fn : String)
      (fv : List Nat) (rest : List Msg) (s' : JavaBmc.St) : n ∈ nets → cfg n = .icon c creator → σ.st n = .icon s → σ.pool.Perm (m :: rest) →
      (∀ k, JavaBmc.feeOf (JavaBmc.dropFee fn fv) k = JavaBmc.feeOf m.fee k) →
      JavaBmc.exec c (.drop env caller m.src seq m.svc m.sn m.nsn fn fv) s = some s' → MStep cfg nets σ (σ.next n (.icon s') rest)

/-- The states reached from the beginning. -/
inductive MReach (cfg : String → Kind) (nets : List String) : Sys → Prop where
  | init : MReach cfg nets ⟨fun n => (cfg n).init, []⟩
  | step {σ σ' : Sys} : MReach cfg nets σ → MStep cfg nets σ σ' → MReach cfg nets σ'

/-- Every step is one of MixNet. -/
theorem MStep.step {cfg : String → Kind} {nets : List String} {σ σ' : Sys} (h : MStep cfg nets σ σ') : ∃ n D, Step cfg nets σ n D σ' := by
  cases h with
  | evmCall n c s o s' h1 h2 h3 h4 h5 => exact ⟨_, _, .evmCall σ n c s o s' h1 h2 h3 h4 h5⟩
  | evmRelay n c s env caller prev items D rest s' h1 h2 h3 h4 h5 h6 h7 => exact ⟨_, _, .evmRelay σ n c s env caller prev items D rest s' h1 h2 h3 h4 h5 h6 h7⟩
  | evmDrop n c s env seq m rest s' h1 h2 h3 h4 h5 => exact ⟨_, _, .evmDrop σ n c s env seq m rest s' h1 h2 h3 h4 h5⟩
  | iconCall n c cr s o s' h1 h2 h3 h4 h5 => exact ⟨_, _, .iconCall σ n c cr s o s' h1 h2 h3 h4 h5⟩
  | iconRelay n c cr s caller prev items rest s' h1 h2 h3 h4 h5 h6 => exact ⟨_, _, .iconRelay σ n c cr s caller prev items rest s' h1 h2 h3 h4 h5 h6⟩
  | iconDrop n c cr s env caller seq m fn fv rest s' h1 h2 h3 h4 _ h5 => exact ⟨_, _, .iconDrop σ n c cr s env caller seq m fn fv rest s' h1 h2 h3 h4 h5⟩

theorem MReach.reach {cfg : String → Kind} {nets : List String} {σ : Sys} (h : MReach cfg nets σ) : ∃ T, Reach cfg nets σ T := by
  induction h with
  | init => exact ⟨_, .init⟩
  | step _ hs ih =>
    obtain ⟨T, hT⟩ := ih
    obtain ⟨n, D, hs⟩ := hs.step
    exact ⟨_, hT.step hs⟩

/-- The encodings of a chain. -/
def Kind.Common (nets : List String) (dec : Bytes → Option SolBmc.Inner) : Kind → Prop
  | .evm c => SolNet.Common nets dec c
  | .icon c _ => JCommon nets dec c

/-- The networks: names, and one encoding. -/
structure Networks (nets : List String) (cfg : String → Kind) (dec : Bytes → Option SolBmc.Inner) : Prop where
  nodup : nets.Nodup
  name : ∀ n ∈ nets, (cfg n).net = n
  common : ∀ n ∈ nets, (cfg n).Common nets dec

/-! ### The invariant -/

variable {nets : List String} {dec : Bytes → Option SolBmc.Inner}

def Node.book : Node → SolBmc.St
  | .evm s => s
  | .icon s => books s

/-- Of a message center. -/
def Node.Ok : Node → Prop
  | .evm s => SolBmc.Led s
  | .icon s => Base s ∧ ∀ n, JavaBmc.bal s n = 0

theorem Node.Ok.led {x : Node} (h : x.Ok) (n : String) : SolBmc.ledger x.book n = x.book.inflow n + x.twice n := by
  cases x with
  | evm s => exact ((SolBmc.Led.bal h n).symm.trans (Nat.add_zero _).symm)
  | icon s =>
    have := h.2 n
    have e := ledger_books s n
    unfold JavaBmc.bal at this
    show SolBmc.ledger (books s) n = s.inflow n + s.twice n
    omega

/-- Sum over the networks. -/
def total (nets : List String) (σ : String → Node) (f : Node → Nat) : Nat := (nets.map fun a => f (σ a)).sum

theorem total_upd (f : Node → Nat) (σ : String → Node) (c : String) (x : Node) : ∀ l : List String, l.Nodup → c ∈ l →
    total l (upd σ c x) f + f (σ c) = total l σ f + f x := by
  have hnot : ∀ l : List String, c ∉ l → total l (upd σ c x) f = total l σ f := by
    intro l h
    unfold total
    congr 1
    apply List.map_congr_left
    intro a ha
    have : a ≠ c := fun e => h (e ▸ ha)
    rw [SolNet.upd_other _ _ _ _ this]
  intro l
  induction l with
  | nil => exact fun _ h => nomatch h
  | cons a t ih =>
    intro hn h
    have e1 : ∀ τ, total (a :: t) τ f = f (τ a) + total t τ f := fun τ => by unfold total; rw [List.map_cons, List.sum_cons]
    rw [e1, e1]
    rcases List.nodup_cons.1 hn with ⟨h1, h2⟩
    by_cases e : a = c
    · subst e
      rw [SolNet.upd_same, hnot t h1]; omega
    · rcases List.mem_cons.1 h with h | h
      · exact absurd h.symm e
      · have := ih h2 h
        rw [SolNet.upd_other _ _ _ _ e]; omega

def booked (σ : Sys) : String → SolBmc.St := fun a => (σ.st a).book

/-- The invariant of the network. -/
structure MNet (nets : List String) (dec : Bytes → Option SolBmc.Inner) (σ : Sys) : Prop where
  ok : ∀ n, (σ.st n).Ok
  bal : ∀ n ∈ nets, over nets (booked σ) (fun s => held s n) + feesOf (σ.pool.map tr) n =
    (booked σ n).coins + (booked σ n).credited + total nets σ.st (Node.twice n)
  tok : ∀ n ∈ nets, (booked σ n).credited + toks nets dec (booked σ) n (σ.pool.map tr) ≤ over nets (booked σ) (fun s => ps s n)
  good : ∀ m ∈ σ.pool.map tr, Good nets dec (booked σ) m

theorem sent_book (x : Node) : x.sent.map tr = msgsOf x.book.log := by
  cases x with
  | evm s => show ((msgsOf s.log).map emb).map tr = _; rw [List.map_map]; exact List.map_id' _
  | icon s => exact (msgsOf_book s.log).symm

theorem MNet.step {σ : Sys} (hn : nets.Nodup) (g : MNet nets dec σ) (n : String) (hc : n ∈ nets) {D rest : List Msg} (hp : σ.pool.Perm (D ++ rest))
    (x : Node) (hx : x.Ok) (h : ∃ evs, Loc nets dec (booked σ) (shell n) (σ.st n).book x.book (feesOf (D.map tr)) (fun N => toks nets dec (booked σ) N (D.map tr)) evs) :
    MNet nets dec (σ.next n x rest) := by
  obtain ⟨evs, h⟩ := h
  have hb : booked (σ.next n x rest) = upd (booked σ) n x.book := by
    funext y
    show (upd σ.st n x y).book = upd (booked σ) n x.book y
    unfold upd
    split <;> rfl
  have hp' : (σ.pool.map tr).Perm (D.map tr ++ rest.map tr) := by rw [← List.map_append]; exact hp.map tr
  have hpool : (σ.next n x rest).pool.map tr = rest.map tr ++ msgsOf evs := by
    show (rest ++ x.sent.drop (σ.st n).sent.length).map tr = _
    rw [List.map_append, List.map_drop, sent_book, h.log, SolNet.msgsOf_append]
    congr 1
    have : (σ.st n).sent.length = (msgsOf (σ.st n).book.log).length := by rw [← sent_book, List.length_map]
    rw [this, List.drop_left]
  have hself := SolNet.upd_self (booked σ) n
  have hgood : ∀ m ∈ D.map tr ++ rest.map tr, Good nets dec (upd (booked σ) n (booked σ n)) m := fun m hm => by
    rw [hself]; exact g.good m (hp'.mem_iff.2 hm)
  refine ⟨fun a => ?_, fun a ha => ?_, fun a ha => ?_, fun m hm => ?_⟩
  · show (upd σ.st n x a).Ok
    by_cases e : a = n
    · subst e; rw [SolNet.upd_same]; exact hx
    · rw [SolNet.upd_other _ _ _ _ e]; exact g.ok a
  · rw [hb, hpool]
    have h1 := g.bal a ha
    have h2 := SolNet.over_upd (fun s => held s a) (booked σ) n x.book nets hn hc
    have h3 : feesOf (σ.pool.map tr) a = feesOf (D.map tr) a + feesOf (rest.map tr) a := by
      rw [← SolNet.feesOf_append]; exact SolNet.perm_sum _ hp'
    have h4 := h.acc a
    have h5 := total_upd (Node.twice a) σ.st n x nets hn hc
    have h6 := hx.led a
    have h7 := (g.ok n).led a
    rw [SolNet.ledger_held, h.log, SolNet.msgsOf_append, SolNet.feesOf_append] at h6
    rw [SolNet.ledger_held] at h7
    rw [SolNet.feesOf_append]
    have hd : booked σ n = (σ.st n).book := rfl
    rw [hd] at h2
    show _ = _ + _ + total nets (upd σ.st n x) (Node.twice a)
    by_cases e : n = a
    · subst e
      rw [SolNet.upd_same]
      rw [show (shell n).net = n from rfl, SolNet.cur_self, SolNet.cur_self] at h4
      rw [hd] at h1
      omega
    · rw [SolNet.upd_other _ _ _ _ (fun h => e h.symm)]
      rw [show (shell n).net = n from rfl, SolNet.cur_ne e, SolNet.cur_ne e] at h4
      omega
  · rw [hb, hpool]
    have h1 := g.tok a ha
    have h2 := SolNet.over_upd (fun s => ps s a) (booked σ) n x.book nets hn hc
    have h3 : toks nets dec (booked σ) a (σ.pool.map tr) = toks nets dec (booked σ) a (D.map tr) + toks nets dec (booked σ) a (rest.map tr) := by
      rw [← SolNet.toks_append]; exact SolNet.perm_sum _ hp'
    have h4 := h.tok a
    have h5 := SolNet.toks_mono h.mono a (rest.map tr) (fun m hm => hgood m (List.mem_append_right _ hm))
    have hd : booked σ n = (σ.st n).book := rfl
    rw [show (shell n).net = n from rfl] at h4
    rw [← hd, hself] at h5
    rw [hd] at h2
    rw [SolNet.toks_append]
    by_cases e : n = a
    · subst e
      rw [SolNet.upd_same]
      rw [SolNet.cur_self, SolNet.cur_self] at h4
      rw [hd] at h1
      omega
    · rw [SolNet.upd_other _ _ _ _ (fun h => e h.symm)]
      rw [SolNet.cur_ne e, SolNet.cur_ne e] at h4
      omega
  · rw [hpool] at hm
    rw [hb]
    rcases List.mem_append.1 hm with hm | hm
    · exact (hgood m (List.mem_append_right _ hm)).mono h.mono
    · exact h.good m hm

theorem loc_shell {σ : String → SolBmc.St} {c : SolBmc.Cfg} {s s' : SolBmc.St} {x t : String → Nat} {e : List SolBmc.Event}
    (h : Loc nets dec σ c s s' x t e) : Loc nets dec σ (shell c.net) s s' x t e := ⟨h.log, h.acc, h.mono, h.good, h.tok, h.inv⟩

theorem mnet_step {cfg : String → Kind} (hN : Networks nets cfg dec) {σ σ' : Sys} (g : MNet nets dec σ) (h : MStep cfg nets σ σ') :
    MNet nets dec σ' := by
  have evm : ∀ (n : String) (c : SolBmc.Cfg) (s s' : SolBmc.St) (D rest : List Msg), n ∈ nets → cfg n = .evm c → σ.st n = .evm s →
      σ.pool.Perm (D ++ rest) → (SolBmc.Led s → SolBmc.Led s') → (SolNet.Common nets dec c → SolBmc.ReqInv s →
        (∀ m ∈ D.map tr, Good nets dec (upd (booked σ) c.net s) m) →
        ∃ evs, Loc nets dec (booked σ) c s s' (feesOf (D.map tr)) (fun N => toks nets dec (upd (booked σ) c.net s) N (D.map tr)) evs) →
      MNet nets dec (σ.next n (.evm s') rest) := by
    intro n c s s' D rest hn hc hs hp hl hloc
    have hnet : c.net = n := by have := hN.name n hn; rw [hc] at this; exact this
    have hcm : SolNet.Common nets dec c := by have := hN.common n hn; rw [hc] at this; exact this
    have hok : SolBmc.Led s := by have := g.ok n; rw [hs] at this; exact this
    have hbk : booked σ n = s := by show (σ.st n).book = s; rw [hs]; rfl
    have hself : upd (booked σ) c.net s = booked σ := by rw [hnet, ← hbk]; exact SolNet.upd_self _ _
    refine g.step hN.nodup n hn hp (.evm s') (hl hok) ?_
    rw [hself] at hloc
    obtain ⟨evs, he⟩ := hloc hcm hok.reqs (fun m hm => g.good m (by
      obtain ⟨y, hy, rfl⟩ := List.mem_map.1 hm
      exact List.mem_map_of_mem (hp.mem_iff.2 (List.mem_append_left _ hy))))
    refine ⟨evs, ?_⟩
    rw [hs, ← hnet]
    exact loc_shell he
  have icon : ∀ (n : String) (c : JavaBmc.Cfg) (cr : Nat) (s s' : JavaBmc.St) (o : JavaBmc.Op) (D rest : List Msg), n ∈ nets → cfg n = .icon c cr →
      σ.st n = .icon s → σ.pool.Perm (D ++ rest) → JavaBmc.exec c o s = some s' → (JCommon nets dec c →
        (∀ m ∈ D, Good nets dec (upd (booked σ) c.net (books s)) (tr m)) →
        JLoc nets dec (booked σ) c.net s s' (feesOf (D.map tr)) (fun N => toks nets dec (upd (booked σ) c.net (books s)) N (D.map tr))) →
      MNet nets dec (σ.next n (.icon s') rest) := by
    intro n c cr s s' o D rest hn hc hs hp he hloc
    have hnet : c.net = n := by have := hN.name n hn; rw [hc] at this; exact this
    have hcm : JCommon nets dec c := by have := hN.common n hn; rw [hc] at this; exact this
    have hok : Base s ∧ ∀ n, JavaBmc.bal s n = 0 := by have := g.ok n; rw [hs] at this; exact this
    have hbk : booked σ n = books s := by show (σ.st n).book = books s; rw [hs]; rfl
    have hself : upd (booked σ) c.net (books s) = booked σ := by rw [hnet, ← hbk]; exact SolNet.upd_self _ _
    rw [hself] at hloc
    obtain ⟨b, evs, hl⟩ := hloc hcm (fun m hm => g.good _ (List.mem_map_of_mem (hp.mem_iff.2 (List.mem_append_left _ hm)))) hok.1
    refine g.step hN.nodup n hn hp (.icon s') ⟨b, fun k => ?_⟩ ⟨evs, ?_⟩
    · rw [JavaBmc.exec_bal o s s' k hok.1.reqs he]; exact hok.2 k
    · rw [hs, ← hnet]
      exact hl
  cases h with
  | evmCall n c s o s' h1 h2 h3 h4 h5 =>
    refine evm n c s s' [] σ.pool h1 h2 h3 (.refl _) (SolBmc.exec_pres c (SolBmc.led_pres c) o _ _ h5) (fun hcm i _ => ?_)
    exact SolNet.quiet_loc hcm _ o h4 _ _ h5 i
  | evmRelay n c s env caller prev items D rest s' h1 h2 h3 h4 h5 h6 h7 =>
    refine evm n c s s' D rest h1 h2 h3 h6 (SolBmc.exec_pres c (SolBmc.led_pres c) _ _ _ h7) (fun hcm i hg => ?_)
    rw [SolBmc.exec] at h7
    split at h7
    · split at h7
      · cases h7
      rename_i s1 hs1
      simp only [Option.some.injEq] at h7
      subst h7
      rw [← h5] at hg ⊢
      obtain ⟨evs, hl⟩ := SolNet.items_loc hcm (booked σ) caller prev items _ _ s1 h4 hg hs1 i
      have h3 : Same s1 { s1 with rx := upd s1.rx prev (s1.rx prev + items.msgs.length) } := ⟨rfl, rfl, rfl, rfl, rfl, rfl, rfl, rfl⟩
      exact ⟨_, (hl.trans (h3.loc (booked σ) c)).weaken (fun _ => rfl) (fun _ => Nat.le_refl _)⟩
    · cases h7
  | evmDrop n c s env seq m rest s' h1 h2 h3 h4 h5 =>
    refine evm n c s s' [m] rest h1 h2 h3 h4 (SolBmc.exec_pres c (SolBmc.led_pres c) _ _ _ h5) (fun hcm i hg => ?_)
    rw [SolBmc.exec] at h5
    obtain ⟨evs, hl⟩ := SolNet.drop_loc (nets := nets) (dec := dec) (booked σ) env seq (tr m) _ _ h5 (hg _ (List.mem_singleton.2 rfl))
    refine ⟨_, hl.weaken (fun k => ?_) (fun k => ?_)⟩
    · unfold feesOf; simp
    · show _ ≤ toks nets dec _ k [tr m]
      rw [SolNet.toks_single]; exact Nat.le_refl _
  | iconCall n c cr s o s' h1 h2 h3 h4 h5 =>
    exact icon n c cr s s' o [] σ.pool h1 h2 h3 (.refl _) h5 (fun hcm _ => quiet_loc hcm _ o s s' h4 h5)
  | iconRelay n c cr s caller prev items rest s' h1 h2 h3 h4 h5 h6 =>
    exact icon n c cr s s' _ items.msgs rest h1 h2 h3 h5 h6 (fun hcm hg => relay_loc hcm _ h4 h6 hg)
  | iconDrop n c cr s env caller seq m fn fv rest s' h1 h2 h3 h4 hf h5 =>
    refine icon n c cr s s' _ [m] rest h1 h2 h3 h4 h5 (fun hcm hg => (drop_loc (booked σ) hf h5 (hg m (List.mem_singleton.2 rfl))).weaken (fun _ => rfl) (fun N => ?_))
    show _ ≤ toks nets dec _ N [tr m]
    rw [SolNet.toks_single]; exact Nat.le_refl _

theorem over_all (f : SolBmc.St → Nat) (σ : String → SolBmc.St) : ∀ l : List String, (∀ a, f (σ a) = 0) → over l σ f = 0
  | [], _ => rfl
  | a :: t, h => by rw [SolNet.over_cons, over_all f σ t h, h a]

theorem mnet_init (cfg : String → Kind) : MNet nets dec ⟨fun n => (cfg n).init, []⟩ := by
  have hbook : ∀ n, (cfg n).init.book.coins = 0 ∧ (cfg n).init.book.credited = 0 ∧ (∀ k, held (cfg n).init.book k = 0) ∧ (∀ k, ps (cfg n).init.book k = 0) ∧
      (∀ k, (cfg n).init.twice k = 0) := by
    intro n
    cases cfg n with
    | evm c => exact ⟨rfl, rfl, fun _ => rfl, fun _ => rfl, fun _ => rfl⟩
    | icon c cr => exact ⟨rfl, rfl, fun _ => rfl, fun _ => rfl, fun _ => rfl⟩
  refine ⟨fun n => ?_, fun n _ => ?_, fun n _ => ?_, fun m hm => (nomatch hm)⟩
  · show (cfg n).init.Ok
    cases cfg n with
    | evm c => exact SolBmc.init_led
    | icon c cr =>
      exact ⟨⟨rfl, Int.le_refl _, (by intro _ _ h; cases h), (by intro _ h; cases h), List.nodup_nil⟩, fun k => rfl⟩
  · have h1 := over_all (fun s => held s n) (booked ⟨fun n => (cfg n).init, []⟩) nets (fun a => (hbook a).2.2.1 n)
    have h2 : ∀ l : List String, total l (fun n => (cfg n).init) (Node.twice n) = 0 := by
      intro l
      unfold total
      induction l with
      | nil => rfl
      | cons a t ih => rw [List.map_cons, List.sum_cons, ih, (hbook a).2.2.2.2 n]
    rw [h1]
    show 0 + 0 = (cfg n).init.book.coins + (cfg n).init.book.credited + _
    rw [(hbook n).1, (hbook n).2.1, h2 nets]
  · show (cfg n).init.book.credited + 0 ≤ _
    rw [(hbook n).2.1]; exact Nat.zero_le _

theorem mnet_reach {cfg : String → Kind} (hN : Networks nets cfg dec) {σ : Sys} (h : MReach cfg nets σ) : MNet nets dec σ := by
  induction h with
  | init => exact mnet_init cfg
  | step _ hs ih => exact mnet_step hN ih hs

end Verif.MixNet
