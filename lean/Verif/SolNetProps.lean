import Verif.SolNet
/-!
C156: fees and rewards of a whole network of EVM message centers.
-/
namespace Verif.SolNet
open Verif Verif.SolBmc

/-- C156: at every moment the coins a chain received with calls, and the claims it credited, are all somewhere: in rewards, fees kept
    for answers, claims, given-up messages, payments, or coins left behind, on any of the chains, or in fees of messages under way. -/
theorem C156_balance (nets : List String) (cfg : String → Cfg) (dec : Bytes → Option Inner) (hN : Networks nets cfg dec) (σ : Sys)
    (h : Reach cfg nets σ) (n : String) (hn : n ∈ nets) :
    (nets.map fun a => rewards (σ.st a) n + stored (σ.st a) n + pending (σ.st a) n + (σ.st a).settled n + (σ.st a).paid n + (σ.st a).lost n +
      given (σ.st a) n).sum + (σ.pool.map fun m => if m.fee.network = n then m.fee.values.sum else 0).sum =
      (σ.st n).coins + (σ.st n).credited := (net_reach hN h).bal n hn

/-- C156: the claims credited on a chain never exceed those that other chains took from their relays' rewards and did not give back. -/
theorem C156_credited_backed (nets : List String) (cfg : String → Cfg) (dec : Bytes → Option Inner) (hN : Networks nets cfg dec) (σ : Sys)
    (h : Reach cfg nets σ) (n : String) (hn : n ∈ nets) :
    (σ.st n).credited ≤ (nets.map fun a => pending (σ.st a) n + (σ.st a).settled n).sum := by
  have := (net_reach hN h).tok n hn
  have e : over nets σ.st (fun s => ps s n) = (nets.map fun a => pending (σ.st a) n + (σ.st a).settled n).sum := rfl
  omega

theorem sum_split {α : Type} (f g k : α → Nat) : ∀ l : List α, (∀ a ∈ l, f a = g a + k a) → (l.map f).sum = (l.map g).sum + (l.map k).sum
  | [], _ => rfl
  | a :: t, h => by
    simp only [List.map_cons, List.sum_cons, sum_split f g k t (fun x hx => h x (List.mem_cons_of_mem _ hx)), h a (List.mem_cons_self ..)]
    omega

/-- C156: what all chains owe in the currency of a chain, what is under way as fees and what the chain paid out is covered by the coins
    the chain received. -/
theorem C156_solvent (nets : List String) (cfg : String → Cfg) (dec : Bytes → Option Inner) (hN : Networks nets cfg dec) (σ : Sys)
    (h : Reach cfg nets σ) (n : String) (hn : n ∈ nets) :
    (nets.map fun a => rewards (σ.st a) n + stored (σ.st a) n + (σ.st a).paid n + (σ.st a).lost n + given (σ.st a) n).sum +
      (σ.pool.map fun m => if m.fee.network = n then m.fee.values.sum else 0).sum ≤ (σ.st n).coins := by
  have h1 := C156_balance nets cfg dec hN σ h n hn
  have h2 := C156_credited_backed nets cfg dec hN σ h n hn
  rw [sum_split _ (fun a => rewards (σ.st a) n + stored (σ.st a) n + (σ.st a).paid n + (σ.st a).lost n + given (σ.st a) n)
    (fun a => pending (σ.st a) n + (σ.st a).settled n) nets (fun a _ => by omega)] at h1
  omega

theorem total_get {K V : Type} [DecidableEq K] (w : K → V → Nat) (d : V) (k : K) (hd : w k d = 0) : ∀ m : FM K V, w k (m.get d k) ≤ FM.total w m
  | [] => by unfold FM.get; omega
  | (a, b) :: t => by
    have ih := total_get w d k hd t
    unfold FM.get FM.total
    rw [List.map_cons, List.sum_cons]
    unfold FM.total at ih
    split
    · rename_i e; subst e; dsimp only; omega
    · omega

theorem sum_mem {α : Type} (f : α → Nat) (a : α) : ∀ l : List α, a ∈ l → f a ≤ (l.map f).sum
  | [], h => nomatch h
  | b :: t, h => by
    rw [List.map_cons, List.sum_cons]
    rcases List.mem_cons.1 h with e | e
    · subst e; omega
    · have := sum_mem f a t e; omega

/-- C156: a claim of rewards in the own currency never fails for want of coins: what the chain received with calls, less what it has
    paid out, covers the reward of any account. -/
theorem C156_claim_covered (nets : List String) (cfg : String → Cfg) (dec : Bytes → Option Inner) (hN : Networks nets cfg dec) (σ : Sys)
    (h : Reach cfg nets σ) (n : String) (hn : n ∈ nets) (who : Nat) :
    (σ.st n).reward.get 0 (who, n) + (σ.st n).paid n ≤ (σ.st n).coins := by
  have h1 := C156_solvent nets cfg dec hN σ h n hn
  have h2 := sum_mem (fun a => rewards (σ.st a) n + stored (σ.st a) n + (σ.st a).paid n + (σ.st a).lost n + given (σ.st a) n) n nets hn
  have h3 := total_get (fun (k : Nat × String) v => cur k.2 v n) 0 (who, n) (cur_zero _ _) (σ.st n).reward
  dsimp only at h2 h3
  rw [cur_self] at h3
  unfold rewards at h1 h2
  omega

/-- C156: and so does every state after the claim: payments never exceed receipts. -/
theorem C156_paid_covered (nets : List String) (cfg : String → Cfg) (dec : Bytes → Option Inner) (hN : Networks nets cfg dec) (σ : Sys)
    (h : Reach cfg nets σ) (n : String) (hn : n ∈ nets) : (σ.st n).paid n ≤ (σ.st n).coins := by
  have := C156_claim_covered nets cfg dec hN σ h n hn 0
  omega

/-! ### Concrete histories -/

namespace Demo

/-- Bodies: a claim in unary, or an answer in unary. -/
def dec (b : Bytes) : Option Inner := match b with
  | 1 :: t => some (.claim t.length "0x64")
  | 2 :: t => some (.response t.length)
  | [3] => some .mgmt
  | _ => none

def cfg (n : String) : Cfg where
  net := n
  periphery := 1
  service := 2
  verify := fun _ _ _ => true
  decInner := dec
  decResp := fun b => some b.length
  encInner := fun i => match i with
    | .claim x _ => 1 :: List.replicate x 0
    | .response x => 2 :: List.replicate x 0
    | .mgmt => [3]
    | .unknown => []
  encResp := fun x => List.replicate x 0
  parseAddr := fun _ => some 100

def env : Env where
  resolve := fun n => some n
  fees := fun _ => [2, 2]
  service := fun n => if n = "bmc" then some 2 else some 50
  isRelay := fun _ _ => true
  feeHandler := 8

def nets : List String := ["A", "B"]

theorem networks : Networks nets cfg dec where
  nodup := by decide
  name := fun _ _ => rfl
  common := fun n hn => ⟨hn, rfl, fun x r => ⟨"0x64", by show some (Inner.claim (List.replicate x (0 : UInt8)).length "0x64") = _; rw [List.length_replicate]⟩, rfl⟩

/-- A call, or the delivery of the message at a place of the pool. -/
inductive Act where
  | call (n : String) (o : Op)
  | deliver (n : String) (caller : Nat) (i : Nat) (prev : String)

def Act.run (σ : Sys) : Act → Sys
  | .call n o => match exec (cfg n) o (σ.st n) with
    | some s' => σ.next n s' σ.pool
    | none => σ
  | .deliver n caller i prev => match σ.pool[i]? with
    | some m => match exec (cfg n) (.relay env caller prev (.cons m env true .nil .nil)) (σ.st n) with
      | some s' => σ.next n s' (σ.pool.eraseIdx i)
      | none => σ
    | none => σ

def Act.Fine : Act → Prop
  | .call n o => n ∈ nets ∧ Quiet (cfg n) o
  | .deliver n _ _ _ => n ∈ nets

theorem perm_eraseIdx (m : Msg) : ∀ (l : List Msg) (i : Nat), l[i]? = some m → l.Perm (m :: l.eraseIdx i)
  | [], i, h => by simp at h
  | a :: t, 0, h => by
    simp only [List.getElem?_cons_zero, Option.some.injEq] at h
    subst h; exact .refl _
  | a :: t, i + 1, h => by
    simp only [List.getElem?_cons_succ] at h
    rw [List.eraseIdx_cons_succ]
    exact ((perm_eraseIdx m t i h).cons a).trans (.swap ..)

theorem act_reach (σ : Sys) (a : Act) (h : Reach cfg nets σ) (ha : a.Fine) : Reach cfg nets (a.run σ) := by
  cases a with
  | call n o =>
    cases he : exec (cfg n) o (σ.st n) with
    | none => simp only [Act.run, he]; exact h
    | some s' => simp only [Act.run, he]; exact h.step (.call σ n o s' ha.1 ha.2 he)
  | deliver n caller i prev =>
    cases hi : σ.pool[i]? with
    | none => simp only [Act.run, hi]; exact h
    | some m =>
      cases he : exec (cfg n) (.relay env caller prev (.cons m env true .nil .nil)) (σ.st n) with
      | none => simp only [Act.run, hi, he]; exact h
      | some s' =>
        simp only [Act.run, hi, he]
        exact h.step (.relay σ n env caller prev (.cons m env true .nil .nil) _ s' ha ⟨trivial, trivial⟩ (perm_eraseIdx m _ i hi) he)

theorem acts_reach (l : List Act) : ∀ σ, Reach cfg nets σ → (∀ a ∈ l, a.Fine) → Reach cfg nets (l.foldl Act.run σ) := by
  induction l with
  | nil => intro σ h _; exact h
  | cons a t ih =>
    intro σ h ha
    exact ih _ (act_reach σ a h (ha a (List.mem_cons_self ..))) (fun x hx => ha x (List.mem_cons_of_mem _ hx))

/-- A service of A sends a message to B with 10 coins; B's relay is paid 2 of them there, claims them, and is paid on A. -/
def story : List Act :=
  [.call "A" (.send env 50 10 "B" "svc" 0 []), .deliver "B" 9 0 "A", .call "B" (.claim env 9 2 "A" "0x64"), .deliver "A" 7 0 "B",
   .deliver "B" 9 0 "A", .call "A" (.claim env 100 0 "A" "0x64")]

def start : Sys := ⟨fun _ => SolBmc.init, []⟩

theorem story_reach : Reach cfg nets (story.foldl Act.run start) := by
  apply acts_reach _ _ .init
  intro a ha
  simp only [story, List.mem_cons, List.not_mem_nil, or_false] at ha
  rcases ha with rfl | rfl | rfl | rfl | rfl | rfl <;> simp [Act.Fine, nets, Quiet, env, cfg]

/-- The states of the story: 10 coins of A, 2 credited for a claim made and settled on B, 2 paid out, 8 still rewards. -/
example : ((story.foldl Act.run start).st "A").coins = 10 ∧ ((story.foldl Act.run start).st "A").credited = 2 ∧
    ((story.foldl Act.run start).st "A").paid "A" = 2 ∧ rewards ((story.foldl Act.run start).st "A") "A" = 8 ∧
    ((story.foldl Act.run start).st "B").settled "A" = 2 ∧ (story.foldl Act.run start).pool = [] ∧
    rewards ((story.foldl Act.run start).st "A") "B" = 2 ∧ ((story.foldl Act.run start).st "B").coins = 2 := by decide +kernel

/-- Before the claim is delivered the amount is on B, and under way are 2 coins of B. -/
example : ((story.take 3).foldl Act.run start).pool.length = 1 ∧ pending (((story.take 3).foldl Act.run start).st "B") "A" = 2 ∧
    (((story.take 3).foldl Act.run start).pool.map fun m => if m.fee.network = "B" then m.fee.values.sum else 0).sum = 2 := by decide +kernel

/-- C156 needs true words of the owners: dropping a message that never was, with fees that never were paid, makes rewards without coins. -/
theorem C156_drop_false : (exec (cfg "A") (.drop env "B" 1 "svc" 0 1 ⟨"A", [5, 7]⟩) SolBmc.init).elim False
    (fun s => rewards s "A" = 12 ∧ s.coins = 0 ∧ s.credited = 0) := by
  have : ((exec (cfg "A") (.drop env "B" 1 "svc" 0 1 ⟨"A", [5, 7]⟩) SolBmc.init).map fun s => (rewards s "A", s.coins, s.credited)) = some (12, 0, 0) := by
    decide +kernel
  cases h : exec (cfg "A") (.drop env "B" 1 "svc" 0 1 ⟨"A", [5, 7]⟩) SolBmc.init with
  | none => rw [h] at this; cases this
  | some s =>
    rw [h] at this
    simp only [Option.map_some, Option.some.injEq, Prod.mk.injEq] at this
    exact this

/-- A message to a service and the claim of 5 units that follows it on the link. -/
def m1 : Msg := ⟨"B", "A", "svc", 0, [], 1, ⟨"B", []⟩⟩
def m2 : Msg := ⟨"B", "A", "bmc", 2, 1 :: List.replicate 5 0, 2, ⟨"B", []⟩⟩

/-- C156 needs services that make no relay calls while they handle a message: the claim that follows is credited twice. -/
theorem C156_reentrant_false : (exec (cfg "A") (.relay env 9 "B" (.cons m1 env true
      (.cons (.relay env 50 "B" (.cons m1 env true .nil (.cons m2 env true .nil .nil))) .nil) (.cons m2 env true .nil .nil))) SolBmc.init).map
        (fun s => (rewards s "A", s.coins, s.credited)) = some (10, 0, 10) := by decide +kernel

end Demo

end Verif.SolNet
