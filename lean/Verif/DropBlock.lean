import Verif.IconToIcon
import Verif.EvmToIcon
/-!
C144 on the EVM chain: giving up a message (BMCManagement.sol:496-525, BMCPeriphery.sol:383-399 `dropMessage`) with the block verifier of `EndToEnd`, and
with the bridge verifiers.
-/
namespace Verif.DropBlock
open Verif Verif.EndToEnd

mutual
/-- A call that, with all it leads to, does not clear the numbers of the link (`removeLink`). -/
def OpKeeps (k : String) : SolBmc.Op → Prop
  | .relay _ _ _ items => ItemsKeep k items
  | .clear link => link ≠ k
  | _ => True
def ItemsKeep (k : String) : SolBmc.Items → Prop
  | .nil => True
  | .cons _ _ _ acts t => OpsKeep k acts ∧ ItemsKeep k t
def OpsKeep (k : String) : SolBmc.Ops → Prop
  | .nil => True
  | .cons o t => OpKeeps k o ∧ OpsKeep k t
end

mutual
theorem exec_rx (c : SolBmc.Cfg) (k : String) (o : SolBmc.Op) (hk : OpKeeps k o) (s s' : SolBmc.St) (h : SolBmc.exec c o s = some s') :
    s.rx k ≤ s'.rx k := by
  cases o with
  | send env sender value to svc sn body =>
    simp only [SolBmc.exec] at h
    split at h
    · cases h
    · rw [(SolBmc.sendMessage_frame c _ _ _ _ _ _ _ _ _ h).1]; exact Nat.le_refl _
  | claim env sender value net receiver =>
    simp only [SolBmc.exec] at h
    split at h
    · cases h
    · rw [(SolBmc.claim_frame c _ _ _ _ _ _ _ h).1]; exact Nat.le_refl _
  | relay env caller prev items =>
    simp only [SolBmc.exec] at h
    simp only [OpKeeps] at hk
    split at h
    · split at h
      · cases h
      · rename_i s1 h1
        have h2 := execItems_rx c k prev items hk caller (s.rx prev) s s1 h1
        simp only [Option.some.injEq] at h
        subst h
        simp only [SolBmc.upd]
        split
        · rename_i e; subst e; omega
        · exact h2
    · cases h
  | drop env src seq svc sn nsn f =>
    simp only [SolBmc.exec] at h
    obtain ⟨next, _, h2, _, _, _⟩ := SolBmc.drop_shape c env s s' src seq svc sn nsn f h
    rw [h2]
    simp only [SolBmc.upd]
    split
    · rename_i e; subst e; omega
    · exact Nat.le_refl _
  | clear link =>
    simp only [SolBmc.exec, Option.some.injEq] at h
    simp only [OpKeeps] at hk
    subst h
    simp only [SolBmc.clearSeq, SolBmc.upd, if_neg (Ne.symm hk)]
    exact Nat.le_refl _
  | internal next to body =>
    simp only [SolBmc.exec, Option.some.injEq] at h
    subst h
    exact Nat.le_refl _
theorem execItems_rx (c : SolBmc.Cfg) (k prev : String) (items : SolBmc.Items) (hk : ItemsKeep k items) (caller seq : Nat) (s s' : SolBmc.St)
    (h : SolBmc.execItems c items caller prev seq s = some s') : s.rx k ≤ s'.rx k := by
  cases items with
  | nil => simp only [SolBmc.execItems, Option.some.injEq] at h; subst h; exact Nat.le_refl _
  | cons m env ok acts t =>
    simp only [SolBmc.execItems] at h
    simp only [ItemsKeep] at hk
    split at h
    · cases h
    · rename_i s2 h1
      obtain ⟨s1, hrx, _, _, hs⟩ := SolBmc.item_shape c env ok _ caller prev (seq + 1) s m s2 h1
      have h2 : s1.rx k ≤ s2.rx k := by
        rcases hs with hs | hs
        · rw [hs.1]; exact Nat.le_refl _
        · subst hs; exact execOps_rx c k acts hk.1 s1
      have h3 := execItems_rx c k prev t hk.2 caller (seq + 1) s2 s' h
      rw [← hrx]
      omega
theorem execOps_rx (c : SolBmc.Cfg) (k : String) (acts : SolBmc.Ops) (hk : OpsKeep k acts) (s : SolBmc.St) : s.rx k ≤ (SolBmc.execOps c acts s).rx k := by
  cases acts with
  | nil => simp only [SolBmc.execOps]; exact Nat.le_refl _
  | cons o t =>
    simp only [SolBmc.execOps]
    simp only [OpsKeep] at hk
    have h1 : s.rx k ≤ ((SolBmc.exec c o s).getD s).rx k := by
      cases h : SolBmc.exec c o s with
      | none => exact Nat.le_refl _
      | some s1 => exact exec_rx c k o hk.1 s s1 h
    exact Nat.le_trans h1 (execOps_rx c k t hk.2 _)
end

/-- No call clears the numbers of the link. -/
def Keeps (P : Par) : Op → Prop
  | .call o => OpKeeps P.link o
  | .relay _ _ _ _ _ beh => ∀ k, OpsKeep P.link (beh k).acts

/-- C144: when the number of the link is not the verifier's, no relay call for the link does anything. -/
theorem C144_sol_apart (P : Par) (s : St) (h : P.C.off + s.bmv.next ≠ s.bmc.rx P.link) (env : SolBmc.Env) (caller : Nat) (msg : Bytes)
    (mem : SolRelay.Mem) (junk : Nat → Bytes) (beh : Nat → Beh) : step P s (.relay env caller msg mem junk beh) = s := by
  simp only [step]
  cases hr : relayCall P s env caller msg mem junk beh with
  | none => rfl
  | some x =>
    unfold relayCall at hr
    simp only [Option.bind_eq_some_iff] at hr
    obtain ⟨⟨v, out⟩, hv, _⟩ := hr
    exact absurd (handleBytes_seq hv).1.symm h

/-- C144: when the number of the link is above the verifier's, no call whatsoever makes the link work again while it is not removed. -/
theorem C144_sol_ahead (P : Par) (s : St) (h : P.C.off + s.bmv.next < s.bmc.rx P.link) (ops : List Op) (hk : ∀ o ∈ ops, Keeps P o) :
    (run P s ops).bmv = s.bmv ∧ (run P s ops).out = s.out ∧
    ∀ env caller msg mem junk beh, step P (run P s ops) (.relay env caller msg mem junk beh) = run P s ops := by
  induction ops generalizing s with
  | nil => exact ⟨rfl, rfl, fun env caller msg mem junk beh => C144_sol_apart P s (Nat.ne_of_lt h) env caller msg mem junk beh⟩
  | cons o t ih =>
    rw [show run P s (o :: t) = run P (step P s o) t from rfl]
    have hb : (step P s o).bmv = s.bmv ∧ (step P s o).out = s.out ∧ s.bmc.rx P.link ≤ (step P s o).bmc.rx P.link := by
      cases o with
      | call o =>
        refine ⟨rfl, rfl, ?_⟩
        simp only [step]
        cases hx : SolBmc.exec P.other o s.bmc with
        | none => exact Nat.le_refl _
        | some b => exact exec_rx P.other P.link o (hk _ List.mem_cons_self) s.bmc b hx
      | relay env caller msg mem junk beh =>
        rw [C144_sol_apart P s (Nat.ne_of_lt h)]
        exact ⟨rfl, rfl, Nat.le_refl _⟩
    have := ih (step P s o) (by rw [hb.1]; omega) (fun o' ho => hk o' (List.mem_cons_of_mem _ ho))
    rw [hb.1, hb.2.1] at this
    exact this

/-- C144 is false for links with block verifiers: once an owner has given up one message of a link, in a state in which the link worked, no call
whatsoever makes the verifier take a message while the link is not removed, and no relay call does anything. -/
theorem C144_sol_drop_blocks (P : Par) (s : St) (h : P.C.off + s.bmv.next = s.bmc.rx P.link)
    (env : SolBmc.Env) (src : String) (seq : Nat) (svc : String) (sn nsn : Int) (f : SolBmc.FeeInfo) (hp : env.resolve src = some P.link)
    (hd : (SolBmc.exec P.other (.drop env src seq svc sn nsn f) s.bmc).isSome) (ops : List Op) (hk : ∀ o ∈ ops, Keeps P o) :
    let s' := run P s (.call (.drop env src seq svc sn nsn f) :: ops)
    s'.bmv = s.bmv ∧ s'.out = s.out ∧ ∀ env caller msg mem junk beh, step P s' (.relay env caller msg mem junk beh) = s' := by
  intro s'
  have hs' : s' = run P (step P s (.call (.drop env src seq svc sn nsn f))) ops := rfl
  rw [hs']
  have hb : P.C.off + (step P s (.call (.drop env src seq svc sn nsn f))).bmv.next <
      (step P s (.call (.drop env src seq svc sn nsn f))).bmc.rx P.link := by
    simp only [step]
    cases hx : SolBmc.exec P.other (.drop env src seq svc sn nsn f) s.bmc with
    | none => rw [hx] at hd; cases hd
    | some b =>
      simp only [SolBmc.exec] at hx
      obtain ⟨next, e1, e2, _⟩ := SolBmc.drop_shape P.other env s.bmc b src seq svc sn nsn f hx
      rw [hp, Option.some.injEq] at e1
      subst e1
      simp only [Option.getD_some, e2, SolBmc.upd, if_pos]
      omega
  exact C144_sol_ahead P _ hb ops hk

/-- C144, part: the bridge verifier takes the number from the message center, so that after `d` messages were given up the events that follow are
taken, also when the relay message still contains the ones given up. -/
theorem C144_bridge_partial (bmc : Bytes) (s height seq d : Nat) (rps : List (BmvBridge.Rp Nat))
    (hidx : ∀ i ev, (rps.flatMap (·.events))[i]? = some ev → ev.seq = s + i ∧ ev.next = bmc) (hasc : BmvBridge.Asc height rps)
    (hs : s ≤ seq + 1) (hb : s + (rps.flatMap (·.events)).length < 2 ^ 256) (hseq : seq + d + 1 < 2 ^ 256) :
    ∃ h', BmvBridge.sHandle true bmc height (seq + d) rps =
      some (h', ((rps.flatMap (·.events)).filter (fun ev => seq + d < ev.seq)).map (·.msg)) :=
  BmvBridge.C40_complete bmc s height (seq + d) rps hidx hasc (by omega) hb hseq

namespace Demo
open Verif.EndToEnd.Demo (par v0 ops1)

def drop : Op := .call (.drop SolBmc.Demo.env "icon" 1 "s" 0 1 ⟨"", []⟩)

/-- The relay message that was accepted in `EndToEnd.Demo` is not when message 1 was given up. -/
example : (run par (start SolBmc.init v0) ops1).out.length = 2 ∧ (run par (start SolBmc.init v0) (drop :: ops1)).out = [] ∧
    (run par (start SolBmc.init v0) (drop :: ops1)).bmc.rx "icon" = 1 := by decide +kernel

/-- The hypotheses of `C144_sol_drop_blocks` are met. -/
example := C144_sol_drop_blocks par (start SolBmc.init v0) (by decide +kernel) SolBmc.Demo.env "icon" 1 "s" 0 1 ⟨"", []⟩ (by decide +kernel)
  (by decide +kernel) ops1 (by intro o ho; simp only [ops1, List.mem_singleton] at ho; subst ho; intro k; trivial)

end Demo

end Verif.DropBlock

namespace Verif.IconToIcon.Demo
open Verif
open Verif.EndToEnd (wMsg)

/-- A block of the source chain with the messages of `EndToEnd.Demo`. -/
def ms : List JavaBmc.Msg := [EndToEnd.Demo.g1, EndToEnd.Demo.g2, EndToEnd.Demo.g3]
def block : BtpBlock.Block := ⟨true, ms.map wMsg⟩
def v0 : JavaBtpBlock.St := JavaBtpBlock.Toy.start
abbrev hash := JavaBtpBlock.Toy.hash
def other : Bytes := hash [1, 2, 3]
def sec : BtpBlock.Sec := BtpBlock.secOf hash 3 (some v0.lastHash) 0 block
def header : JavaBtpBlock.Header :=
  ⟨11, 0, some (hash [4, 4]), JavaBtpBlock.encPath (BtpBlock.spath hash 2 [other, hash (BtpBlock.secBytes sec)] 1), 3, 1, some v0.lastHash, 3,
    some (Merkle.mroot hash (block.msgs.map hash)), some [4, 4]⟩

/-- The message center "e" with a link to "icon". -/
def par : Par where
  c := { EndToEnd.Demo.jcfg with net := "e", netOf := fun a => if a = "icon/B" then some "icon" else none }
  E := JavaBtpBlock.Toy.env
  dec := fun b => ms.find? (fun m => wMsg m == b)
  link := "icon/B"
  net := [0x62]
  acct := [7]

def env : JavaBmc.Env := EndToEnd.Demo.jenv
def setup : List Op := [.call (.conf env 1 (.addVerifier "icon" 40)), .call (.conf env 1 (.addService "s" 6)), .call (.conf env 1 (.addLink "icon/B")),
  .call (.conf env 1 (.addRelay "icon/B" 9))]
def beh : Nat → IconToIcon.Beh := fun _ => ⟨env, none, .nil⟩
def relay : Op := .relay 9 [.upd header JavaBtpBlock.Toy.sigs, .proof ⟨[], block.msgs, []⟩] beh
def drop : Op := .call (.drop env 1 "icon" 1 "s" 0 1 "" [])

/-- The three messages are handled; a second copy of the relay message does nothing. -/
theorem ran : (run par (start 1 v0) (setup ++ [relay, relay])).bmc.disp = [(0, 1, some EndToEnd.Demo.g1), (0, 2, some EndToEnd.Demo.g2), (0, 3, some EndToEnd.Demo.g3)] ∧
    (run par (start 1 v0) (setup ++ [relay])).out = ms.map wMsg ∧
    BtpBlock.tip par.E.H none (BtpBlock.chain par.E.H 3 none 0 [⟨false, []⟩, block]) = some (run par (start 1 v0) (setup ++ [relay])).bmv.lastHash := by
  decide +kernel

/-- The message given up is number 1; then no relay call does anything: both theorems' hypotheses are met. -/
theorem dropped : (run par (start 1 v0) (setup ++ [drop, relay])).bmc.disp = [(0, 1, none)] ∧ (run par (start 1 v0) (setup ++ [drop, relay])).out = [] := by
  decide +kernel


theorem given_eq : EndToEnd.given 3 (JavaBmc.run EndToEnd.Demo.jcfg 1 EndToEnd.Demo.jops).log [] = [(1, EndToEnd.Demo.g1), (2, EndToEnd.Demo.g2), (3, EndToEnd.Demo.g3)] :=
  EndToEnd.Demo.given_eq

theorem reads : ∀ m ∈ ms, par.dec (wMsg m) = some m := by decide +kernel

/-- The link after the relay call. -/
def l3 : JavaBmc.Link := ⟨"icon/B", 3, 1, ["f/A"], 0⟩
theorem got : JavaBmc.Dict.get (run par (start 1 v0) (setup ++ [relay])).bmc.links "icon" = some l3 := by decide +kernel

theorem run_msgs (E : JavaBtpBlock.Env) (v : JavaBtpBlock.St) (cs : List JavaBtpBlock.Call) : ∀ m ∈ (JavaBtpBlock.run E v cs).2.1, ∃ c ∈ cs, m ∈ c.msgs := by
  induction cs generalizing v with
  | nil => intro m hm; simp [JavaBtpBlock.run] at hm
  | cons c t ih =>
    intro m hm
    simp only [JavaBtpBlock.run] at hm
    split at hm
    · obtain ⟨d, h1, h2⟩ := ih _ m hm
      exact ⟨d, List.mem_cons_of_mem _ h1, h2⟩
    · rcases List.mem_append.mp hm with h | h
      · exact ⟨c, List.mem_cons_self, h⟩
      · obtain ⟨d, h1, h2⟩ := ih _ m h
        exact ⟨d, List.mem_cons_of_mem _ h1, h2⟩

theorem calls_msgs (P : Par) (s : St) (ops : List Op) : ∀ c ∈ calls P s ops, ∃ caller beh, Op.relay caller c.msgs beh ∈ ops := by
  induction ops generalizing s with
  | nil => intro c hc; simp [calls] at hc
  | cons o t ih =>
    intro c hc
    cases o with
    | call o =>
      obtain ⟨a, b, h⟩ := ih _ c hc
      exact ⟨a, b, List.mem_cons_of_mem _ h⟩
    | relay caller msgs beh =>
      simp only [calls] at hc
      rcases List.mem_append.mp hc with h | h
      · split at h
        · simp only [List.mem_singleton] at h
          subst h
          exact ⟨caller, beh, List.mem_cons_self⟩
        · cases h
      · obtain ⟨a, b, h⟩ := ih _ c h
        exact ⟨a, b, List.mem_cons_of_mem _ h⟩

/-- What the verifier accepted is from the one relay call. -/
theorem accepted : ∀ m ∈ (JavaBtpBlock.run par.E v0 (calls par (start 1 v0) (setup ++ [relay]))).2.1,
    m ∈ [JavaBtpBlock.Msg.upd header JavaBtpBlock.Toy.sigs, .proof ⟨[], block.msgs, []⟩] := by
  intro m hm
  obtain ⟨c, h1, h2⟩ := run_msgs _ _ _ m hm
  obtain ⟨a, b, h3⟩ := calls_msgs _ _ _ c h1
  simp only [setup, relay, List.cons_append, List.nil_append, List.mem_cons, List.not_mem_nil, or_false, reduceCtorEq, false_or, Op.relay.injEq] at h3
  rw [h3.2.1] at h2
  exact h2

/-- The hypotheses of `C143_end_to_end_partial` are met. -/
example := C143_end_to_end_partial EndToEnd.Demo.jcfg 1 EndToEnd.Demo.jops "e/A" 3 EndToEnd.Demo.bound.1 EndToEnd.Demo.bound.2
  3 [⟨false, []⟩, block] (by decide +kernel) (by rw [given_eq]; exact ⟨[], rfl⟩) par 32 JavaBtpBlock.Toy.hash_len [0x61, 0x2f, 0x62] [7] 1
  JavaBtpBlock.Toy.first v0 (by unfold JavaBtpBlock.init; rfl) rfl
  (by rw [given_eq]; intro x hx; exact reads x.2 (by
    simp only [List.mem_cons, List.not_mem_nil, or_false] at hx
    rcases hx with rfl | rfl | rfl <;> decide +kernel))
  1 (setup ++ [relay]) "icon" l3 got rfl
  (by
    intro p hp
    have hp := accepted _ hp
    simp only [List.mem_cons, List.not_mem_nil, or_false, JavaBtpBlock.Msg.proof.injEq, reduceCtorEq, false_or] at hp
    subst hp
    exact ⟨by simp, by decide +kernel⟩)
  (by
    intro h sg hs
    have : h = JavaBtpBlock.Toy.first ∨ h = header := by
      rcases hs with hs | hs
      · exact Or.inl hs
      · have hs := accepted _ hs
        simp only [List.mem_cons, List.not_mem_nil, or_false, JavaBtpBlock.Msg.upd.injEq, reduceCtorEq] at hs
        exact Or.inr hs.1
    rcases this with rfl | rfl <;> decide +kernel)
  ran.2.2

/-- The hypotheses of `C144_java_drop_blocks` are met. -/
example := C144_java_drop_blocks par 1 v0 setup [relay, relay] ⟨"icon/B", 0, 1, [], 0⟩ ⟨"icon/B", 1, 1, [], 0⟩ (by decide +kernel) (by decide +kernel) env 1 1
  "icon" "s" "" 0 1 [] (by rfl) (by decide +kernel) (by decide +kernel) rfl

theorem honest : JavaBtpBlock.Honest par.E v0 block 0 header JavaBtpBlock.Toy.sigs where
  sec := by decide +kernel
  path := ⟨[other, hash (BtpBlock.secBytes sec)], 1, by decide, by
      intro x hx
      simp only [List.mem_cons, List.not_mem_nil, or_false] at hx
      rcases hx with rfl | rfl <;> exact JavaBtpBlock.Toy.hash_len _, by decide +kernel, rfl,
    [9], [[1], [2], [3], [4]], [[3], [1], [4]], rfl, rfl, rfl, by decide, by decide, by decide⟩
  ctx := fun _ => ⟨[4, 4], rfl, rfl, by decide +kernel⟩

/-- The hypotheses of `C143_progress` are met. -/
example := C143_progress par JavaBtpBlock.Toy.hash_len (run par (start 1 v0) setup) 9 40 ⟨"icon/B", 0, 1, [], 0⟩ block ms header JavaBtpBlock.Toy.sigs beh
  (by decide +kernel) (by decide +kernel) (by decide +kernel) rfl (by decide +kernel) JavaBtpBlock.Toy.synced (by decide) honest rfl reads

end Verif.IconToIcon.Demo
