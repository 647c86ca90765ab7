import Verif.SolLinks
/-!
C157: a network of EVM message centers with numbered links: messages are handled once and in order, and rewards are covered.
-/
namespace Verif.SolNet
open Verif Verif.SolBmc

/-! ### Handled messages -/

theorem quiet_disp (c : Cfg) (o : Op) (hq : Quiet c o) (s s' : St) (h : exec c o s = some s') : s'.disp = s.disp := by
  cases o with
  | send env sender value to svc sn body =>
    rw [exec] at h
    split at h
    · cases h
    exact (sendMessage_frame c env s s' sender value to svc sn body h).2.1
  | claim env sender value net receiver =>
    rw [exec] at h
    split at h
    · cases h
    exact (claim_frame c env s s' sender value net receiver h).2.1
  | relay env caller prev items => exact hq.elim
  | drop env src seq svc sn nsn f => exact hq.elim
  | clear link => exact hq.elim
  | internal next to body =>
    rw [exec] at h
    simp only [Option.some.injEq] at h
    subst h; rfl

theorem quietOps_disp (c : Cfg) : ∀ (acts : Ops), QuietOps c acts → ∀ s, (execOps c acts s).disp = s.disp
  | .nil, _, s => by rw [execOps]
  | .cons o t, hq, s => by
    rw [execOps, quietOps_disp c t hq.2]
    cases h : exec c o s with
    | none => rfl
    | some s1 => exact quiet_disp c o hq.1 s s1 h

theorem items_disp (c : Cfg) (caller : Nat) (prev : String) : ∀ (items : Items) (seq : Nat) (s s' : St), QuietItems c items →
    execItems c items caller prev seq s = some s' → ∀ l, s'.disp l = if l = prev then s.disp prev ++ items.msgs.map some else s.disp l
  | .nil, seq, s, s', _, h, l => by
    rw [execItems] at h
    simp only [Option.some.injEq] at h
    rw [← h]
    split
    · rename_i e; rw [e]; simp [Items.msgs]
    · rfl
  | .cons m env ok acts t, seq, s, s', hq, h, l => by
    rw [execItems] at h
    split at h
    · cases h
    rename_i s1 h1
    obtain ⟨s0, -, hd, -, hs⟩ := item_shape c env ok (execOps c acts) caller prev (seq + 1) s m s1 h1
    have hd1 : s1.disp = upd s.disp prev (s.disp prev ++ [some m]) := by
      rcases hs with hs | hs
      · rw [hs.2.1, hd]
      · rw [hs, quietOps_disp c acts hq.1, hd]
    rw [items_disp c caller prev t (seq + 1) s1 s' hq.2 h l, hd1]
    split
    · rename_i e
      rw [upd_same, Items.msgs, List.map_cons, List.append_assoc]; rfl
    · rename_i e; rw [upd_other _ _ _ _ e]

theorem relay_disp (c : Cfg) (env : Env) (caller : Nat) (prev : String) (items : Items) (hq : QuietItems c items) (s s' : St)
    (h : exec c (.relay env caller prev items) s = some s') (l : String) :
    s'.disp l = if l = prev then s.disp prev ++ items.msgs.map some else s.disp l := by
  rw [exec] at h
  split at h
  · split at h
    · cases h
    rename_i s1 h1
    simp only [Option.some.injEq] at h
    subst h
    exact items_disp c caller prev items _ s s1 hq h1 l
  · cases h

/-- The messages handled for a link are the first ones emitted, those given up left out. -/
def Hist (addr : String → String) (nets : List String) (σ : String → St) : Prop := ∀ p ∈ nets, ∀ q ∈ nets, p ≠ q →
  ((σ q).disp (addr p)).length = (σ q).rx (addr p) ∧
    ∀ (i : Nat) (m : Msg), ((σ q).disp (addr p))[i]? = some (some m) → (sentTo (addr q) (σ p).log)[i]? = some m

theorem Hist.step {addr : String → String} {nets : List String} {σ : String → St} (g : Hist addr nets σ) (n : String) (s' : St) (evs : List Event)
    (hlog : s'.log = (σ n).log ++ evs)
    (h : ∀ a ∈ nets, a ≠ n → ∃ es : List (Option Msg), s'.disp (addr a) = (σ n).disp (addr a) ++ es ∧
      s'.rx (addr a) = (σ n).rx (addr a) + es.length ∧ ∀ (i : Nat) (m : Msg), es[i]? = some (some m) → (unread addr σ a n)[i]? = some m) :
    Hist addr nets (upd σ n s') := by
  intro p hp q hq hpq
  obtain ⟨h1, h2⟩ := g p hp q hq hpq
  by_cases e1 : p = n
  · subst e1
    rw [upd_other σ p s' q (fun e => hpq e.symm), upd_same]
    refine ⟨h1, fun i m hi => ?_⟩
    rw [hlog, sentTo_append]
    have := h2 i m hi
    rw [List.getElem?_append_left (by rw [List.getElem?_eq_some_iff] at this; exact this.1)]
    exact this
  · by_cases e2 : q = n
    · subst e2
      rw [upd_same, upd_other σ q s' p e1]
      obtain ⟨es, h3, h4, h5⟩ := h p hp e1
      refine ⟨by rw [h3, h4, List.length_append, h1], fun i m hi => ?_⟩
      rw [h3] at hi
      by_cases hlt : i < ((σ q).disp (addr p)).length
      · rw [List.getElem?_append_left hlt] at hi
        exact h2 i m hi
      · rw [List.getElem?_append_right (by omega)] at hi
        have := h5 _ m hi
        unfold unread at this
        rw [List.getElem?_drop] at this
        rw [show (σ q).rx (addr p) + (i - ((σ q).disp (addr p)).length) = i by omega] at this
        exact this
    · rw [upd_other σ n s' p e1, upd_other σ n s' q e2]
      exact ⟨h1, h2⟩

theorem hist_step {addr : String → String} {cfg : String → Cfg} {nets : List String} {dec : Bytes → Option Inner} (hN : Networks nets cfg dec)
    (hinj : ∀ a ∈ nets, ∀ b ∈ nets, addr a = addr b → a = b) {σ σ' : String → St} {P : List Msg} (g : Link addr cfg nets σ P)
    (h : LStep addr cfg nets σ σ') (hh : Hist addr nets σ) : Hist addr nets σ' := by
  have net := net_reach hN g.reach
  have hself : ∀ n ∈ nets, upd σ (cfg n).net (σ n) = σ := fun n hn => by
    have := upd_self σ n
    rw [hN.name n hn]; exact this
  cases h with
  | call n o s' hn hq he =>
    obtain ⟨evs, hl⟩ := quiet_loc (hN.common n hn) σ o hq _ _ he (net.led n).reqs
    refine hh.step n s' evs hl.log (fun a _ _ => ⟨[], ?_, ?_, fun i m hi => by simp at hi⟩)
    · rw [quiet_disp (cfg n) o hq _ _ he, List.append_nil]
    · rw [quiet_rx (cfg n) o hq _ _ he]; rfl
  | relay n p env caller items later s' hn hp hne hq hu he =>
    obtain ⟨rest, hr⟩ := g.take n p hn hp hne _ _ hu
    have hl : ∃ evs, s'.log = (σ n).log ++ evs := by
      rw [exec] at he
      split at he
      · split at he
        · cases he
        rename_i s1 h1
        simp only [Option.some.injEq] at he
        subst he
        obtain ⟨evs, h2⟩ := items_loc (hN.common n hn) σ caller (addr p) items _ _ s1 hq (fun m hm => by
          rw [hself n hn]; exact net.good m (hr.mem_iff.2 (List.mem_append_left _ hm))) h1 (net.led n).reqs
        exact ⟨evs, h2.log⟩
      · cases he
    obtain ⟨evs, hl⟩ := hl
    have hrx := relay_rx (cfg n) env caller (addr p) items hq _ _ he
    have hd := relay_disp (cfg n) env caller (addr p) items hq _ _ he
    refine hh.step n s' evs hl (fun a ha hna => ?_)
    by_cases e : a = p
    · subst e
      refine ⟨items.msgs.map some, by rw [hd, if_pos rfl], by rw [hrx, upd_same, List.length_map], fun i m hi => ?_⟩
      rw [List.getElem?_map] at hi
      rw [hu]
      cases hx : items.msgs[i]? with
      | none => rw [hx] at hi; cases hi
      | some x =>
        rw [hx] at hi
        cases hi
        rw [List.getElem?_append_left (by rw [List.getElem?_eq_some_iff] at hx; exact hx.1)]
        exact hx
    · have hne2 : addr a ≠ addr p := fun h => e (hinj a ha p hp h)
      refine ⟨[], by rw [hd, if_neg hne2, List.append_nil], by rw [hrx, upd_other _ _ _ _ hne2]; rfl, fun i m hi => by simp at hi⟩
  | drop n p env seq m later s' hn hp hne hres hu he =>
    obtain ⟨rest, hr⟩ := g.take n p hn hp hne [m] later hu
    obtain ⟨evs, hl⟩ := drop_loc (nets := nets) (dec := dec) (c := cfg n) σ env seq m _ s' (by rw [exec] at he; exact he) (by
      rw [hself n hn]; exact net.good m (hr.mem_iff.2 (List.mem_cons_self ..)))
    obtain ⟨next, hnext, hrx, hd, -, -⟩ := drop_shape (cfg n) env (σ n) s' m.src seq m.svc m.sn m.nsn m.fee (by rw [exec] at he; exact he)
    rw [hres] at hnext
    cases hnext
    refine hh.step n s' evs hl.log (fun a ha hna => ?_)
    by_cases e : a = p
    · subst e
      refine ⟨[none], by rw [hd, upd_same], by rw [hrx, upd_same]; rfl, fun i m hi => ?_⟩
      cases i with
      | zero => simp at hi
      | succ i => simp at hi
    · have hne2 : addr a ≠ addr p := fun h => e (hinj a ha p hp h)
      exact ⟨[], by rw [hd, upd_other _ _ _ _ hne2, List.append_nil], by rw [hrx, upd_other _ _ _ _ hne2]; rfl, fun i m hi => by simp at hi⟩

/-! ### C157 -/

/-- C157: in a network with numbered links every chain has handled, for each link, exactly the first messages the other chain emitted
    for it, in order and each once; those given up by the owner count but are not handled. -/
theorem C157_in_order (addr : String → String) (nets : List String) (cfg : String → Cfg) (dec : Bytes → Option Inner) (hN : Networks nets cfg dec)
    (hinj : ∀ a ∈ nets, ∀ b ∈ nets, addr a = addr b → a = b) (σ : String → St) (h : LReach addr cfg nets σ) (p q : String) (hp : p ∈ nets) (hq : q ∈ nets)
    (hpq : p ≠ q) :
    ((σ q).disp (addr p)).length = (σ q).rx (addr p) ∧
    (σ q).rx (addr p) ≤ ((σ p).log.filterMap fun e => match e with
      | .message next _ m => if next = addr q then some m else none
      | _ => none).length ∧
    ∀ (i : Nat) (m : Msg), ((σ q).disp (addr p))[i]? = some (some m) → ((σ p).log.filterMap fun e => match e with
      | .message next _ m => if next = addr q then some m else none
      | _ => none)[i]? = some m := by
  have : (∃ P, Link addr cfg nets σ P) ∧ Hist addr nets σ := by
    induction h with
    | init => exact ⟨link_reach hN hinj .init, fun _ _ _ _ _ => ⟨rfl, fun i m hi => by simp [SolBmc.init] at hi⟩⟩
    | step h hs ih =>
      obtain ⟨⟨P, g⟩, hh⟩ := ih
      exact ⟨link_step hN hinj g hs, hist_step hN hinj g hs hh⟩
  obtain ⟨⟨P, g⟩, hh⟩ := this
  exact ⟨(hh p hp q hq hpq).1, g.rx p hp q hq hpq, (hh p hp q hq hpq).2⟩

/-- C157: no assumption on messages under way is needed for solvency if links are read by number: what all chains owe in the currency of
    a chain, what it paid, and the fees of messages not yet received on any one link are covered by the coins it received. -/
theorem C157_solvent (addr : String → String) (nets : List String) (cfg : String → Cfg) (dec : Bytes → Option Inner) (hN : Networks nets cfg dec)
    (hinj : ∀ a ∈ nets, ∀ b ∈ nets, addr a = addr b → a = b) (σ : String → St) (h : LReach addr cfg nets σ) (n : String) (hn : n ∈ nets)
    (p q : String) (hp : p ∈ nets) (hq : q ∈ nets) (hpq : p ≠ q) :
    (nets.map fun a => rewards (σ a) n + stored (σ a) n + (σ a).paid n + (σ a).lost n + given (σ a) n).sum +
      ((unread addr σ p q).map fun m => if m.fee.network = n then m.fee.values.sum else 0).sum ≤ (σ n).coins := by
  obtain ⟨P, g⟩ := link_reach hN hinj h
  have h1 := C156_solvent nets cfg dec hN ⟨σ, P⟩ g.reach n hn
  obtain ⟨rest, hr⟩ := g.take q p hq hp hpq (unread addr σ p q) [] (List.append_nil _).symm
  dsimp only at h1
  rw [perm_sum _ hr, List.map_append, List.sum_append] at h1
  omega

/-- C157: a claim in the own currency is always covered, also in a network of a single chain. -/
theorem C157_claim_covered (addr : String → String) (nets : List String) (cfg : String → Cfg) (dec : Bytes → Option Inner) (hN : Networks nets cfg dec)
    (hinj : ∀ a ∈ nets, ∀ b ∈ nets, addr a = addr b → a = b) (σ : String → St) (h : LReach addr cfg nets σ) (n : String) (hn : n ∈ nets) (who : Nat) :
    (σ n).reward.get 0 (who, n) + (σ n).paid n ≤ (σ n).coins := by
  obtain ⟨P, g⟩ := link_reach hN hinj h
  exact C156_claim_covered nets cfg dec hN ⟨σ, P⟩ g.reach n hn who

/-! ### A concrete history -/

namespace Demo

def addr (n : String) : String := n

theorem addr_inj : ∀ a ∈ nets, ∀ b ∈ nets, addr a = addr b → a = b := fun _ _ _ _ h => h

/-- A call, the delivery of the next message of a link, or its drop by the owner. -/
inductive LAct where
  | call (n : String) (o : Op)
  | next (n p : String) (caller : Nat)
  | give (n p : String)

def LAct.run (σ : String → St) : LAct → String → St
  | .call n o => match exec (cfg n) o (σ n) with
    | some s' => upd σ n s'
    | none => σ
  | .next n p caller => match unread addr σ p n with
    | m :: _ => match exec (cfg n) (.relay env caller (addr p) (.cons m env true .nil .nil)) (σ n) with
      | some s' => upd σ n s'
      | none => σ
    | [] => σ
  | .give n p => match unread addr σ p n with
    | m :: _ => match exec (cfg n) (.drop { env with resolve := fun _ => some (addr p) } m.src ((σ n).rx (addr p) + 1) m.svc m.sn m.nsn m.fee) (σ n) with
      | some s' => upd σ n s'
      | none => σ
    | [] => σ

def LAct.Fine : LAct → Prop
  | .call n o => n ∈ nets ∧ Quiet (cfg n) o
  | .next n p _ => n ∈ nets ∧ p ∈ nets ∧ p ≠ n
  | .give n p => n ∈ nets ∧ p ∈ nets ∧ p ≠ n

theorem lact_reach (σ : String → St) (a : LAct) (h : LReach addr cfg nets σ) (ha : a.Fine) : LReach addr cfg nets (a.run σ) := by
  cases a with
  | call n o =>
    cases he : exec (cfg n) o (σ n) with
    | none => simp only [LAct.run, he]; exact h
    | some s' => simp only [LAct.run, he]; exact h.step (.call σ n o s' ha.1 ha.2 he)
  | next n p caller =>
    cases hi : unread addr σ p n with
    | nil => simp only [LAct.run, hi]; exact h
    | cons m t =>
      cases he : exec (cfg n) (.relay env caller (addr p) (.cons m env true .nil .nil)) (σ n) with
      | none => simp only [LAct.run, hi, he]; exact h
      | some s' =>
        simp only [LAct.run, hi, he]
        exact h.step (.relay σ n p env caller (.cons m env true .nil .nil) t s' ha.1 ha.2.1 ha.2.2 ⟨trivial, trivial⟩ hi he)
  | give n p =>
    cases hi : unread addr σ p n with
    | nil => simp only [LAct.run, hi]; exact h
    | cons m t =>
      cases he : exec (cfg n) (.drop { env with resolve := fun _ => some (addr p) } m.src ((σ n).rx (addr p) + 1) m.svc m.sn m.nsn m.fee) (σ n) with
      | none => simp only [LAct.run, hi, he]; exact h
      | some s' =>
        simp only [LAct.run, hi, he]
        exact h.step (.drop σ n p { env with resolve := fun _ => some (addr p) } _ m t s' ha.1 ha.2.1 ha.2.2 rfl hi he)

theorem lacts_reach (l : List LAct) : ∀ σ, LReach addr cfg nets σ → (∀ a ∈ l, a.Fine) → LReach addr cfg nets (l.foldl LAct.run σ) := by
  induction l with
  | nil => intro σ h _; exact h
  | cons a t ih =>
    intro σ h ha
    exact ih _ (lact_reach σ a h (ha a (List.mem_cons_self ..))) (fun x hx => ha x (List.mem_cons_of_mem _ hx))

/-- The story of C156 by numbers, and a second message that B's owner gives up, which is answered with an error. -/
def lstory : List LAct :=
  [.call "A" (.send env 50 10 "B" "svc" 0 []), .call "A" (.send env 50 10 "B" "svc" 7 []), .next "B" "A" 9, .give "B" "A",
   .call "B" (.claim env 9 2 "A" "0x64"), .next "A" "B" 7, .next "A" "B" 7, .next "B" "A" 9]

theorem lstory_reach : LReach addr cfg nets (lstory.foldl LAct.run (fun _ => SolBmc.init)) := by
  apply lacts_reach _ _ .init
  intro a ha
  simp only [lstory, List.mem_cons, List.not_mem_nil, or_false] at ha
  rcases ha with rfl | rfl | rfl | rfl | rfl | rfl | rfl | rfl <;> simp [LAct.Fine, nets, Quiet, env, cfg]

/-- Three messages were received by B, the second given up; two by A. -/
example : ((lstory.foldl LAct.run (fun _ => SolBmc.init)) "B").rx "A" = 3 ∧ ((lstory.foldl LAct.run (fun _ => SolBmc.init)) "A").rx "B" = 2 ∧
    (((lstory.foldl LAct.run (fun _ => SolBmc.init)) "B").disp "A").map Option.isSome = [true, false, true] ∧
    ((lstory.foldl LAct.run (fun _ => SolBmc.init)) "A").coins = 20 ∧ ((lstory.foldl LAct.run (fun _ => SolBmc.init)) "A").credited = 2 := by
  decide +kernel

end Demo

end Verif.SolNet
