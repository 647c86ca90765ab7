import Verif.PyToken
import Verif.PyDbProps
import Verif.IntTextProps
/-!
C128, C129: balances and transfers of the Python token service.
-/
namespace Verif.PyToken
open Verif Verif.BtpAddress
open Verif.PyBmc (R)
open Verif.PyDb (upd)

/-! ### Numbers as text -/

def numOf (s : Str) (acc : Nat) : Nat := s.foldl (fun a ch => a * 16 + (IntText.hexVal ch).getD 0) acc

def Digits (s : Str) : Prop := ∀ ch ∈ s, (IntText.hexVal ch).isSome = true ∧ ch ≠ '_' ∧ isSpace ch = false ∧ ch.toNat < 128

theorem digit_ok {n : Nat} (h : n < 16) : (IntText.hexVal (IntText.hexDigit n)).isSome = true ∧ IntText.hexDigit n ≠ '_' ∧
    isSpace (IntText.hexDigit n) = false ∧ (IntText.hexDigit n).toNat < 128 ∧ (IntText.hexVal (IntText.hexDigit n)).getD 0 = n := by
  have key : ∀ n : Fin 16, (IntText.hexVal (IntText.hexDigit n.val)).isSome = true ∧ IntText.hexDigit n.val ≠ '_' ∧
    isSpace (IntText.hexDigit n.val) = false ∧ (IntText.hexDigit n.val).toNat < 128 ∧ (IntText.hexVal (IntText.hexDigit n.val)).getD 0 = n.val := by
    decide +kernel
  exact key ⟨n, h⟩

theorem hexAux_digits : ∀ f n, Digits (hexAux f n)
  | 0, _ => by intro ch h; cases h
  | f + 1, n => by
    intro ch h
    simp only [hexAux] at h
    split at h
    · rename_i hn
      rw [List.mem_singleton] at h; subst h
      have := digit_ok hn
      exact ⟨this.1, this.2.1, this.2.2.1, this.2.2.2.1⟩
    · rcases List.mem_append.1 h with h | h
      · exact hexAux_digits f (n / 16) ch h
      · rw [List.mem_singleton] at h; subst h
        have := digit_ok (show n % 16 < 16 by omega)
        exact ⟨this.1, this.2.1, this.2.2.1, this.2.2.2.1⟩

theorem hexAux_num : ∀ f n, n < f → numOf (hexAux f n) 0 = n ∧ hexAux f n ≠ []
  | 0, _, h => by omega
  | f + 1, n, h => by
    simp only [hexAux]
    split
    · rename_i hn
      simp [numOf, (digit_ok hn).2.2.2.2]
    · rename_i hn
      have h1 := (hexAux_num f (n / 16) (by omega)).1
      refine ⟨?_, by simp⟩
      unfold numOf at h1 ⊢
      rw [List.foldl_append, h1]
      simp only [List.foldl_cons, List.foldl_nil, (digit_ok (show n % 16 < 16 by omega)).2.2.2.2]
      omega

theorem body_digits : ∀ (s : Str) (acc : Nat) (last : Bool), Digits s → (s ≠ [] ∨ last = true) → body s acc last = some (numOf s acc)
  | [], acc, last, _, h => by
    rcases h with h | h
    · exact absurd rfl h
    · simp [body, h, numOf]
  | ch :: t, acc, last, hd, _ => by
    have h1 := hd ch List.mem_cons_self
    have ih := body_digits t (acc * 16 + (IntText.hexVal ch).getD 0) true (fun x hx => hd x (List.mem_cons_of_mem _ hx)) (.inr rfl)
    obtain ⟨d, hd'⟩ := Option.isSome_iff_exists.1 h1.1
    rw [hd'] at ih
    simp only [Option.getD_some] at ih
    simp only [body, if_neg h1.2.1, hd', ih]
    simp [numOf, hd']

theorem strip_id (s : Str) (ch : Char) (t : Str) (hs : s = ch :: t) (h1 : isSpace ch = false) (h2 : isSpace (s.getLast (by simp [hs])) = false) :
    strip s = s := by
  have e1 : s.dropWhile isSpace = s := by rw [hs]; simp [h1]
  have e2 : s.reverse.dropWhile isSpace = s.reverse := by
    cases hr : s.reverse with
    | nil => rfl
    | cons a b =>
      have : s.getLast (by simp [hs]) = a := by
        have h : s.reverse.head (by simp [hs]) = a := by simp [hr]
        rw [← h, List.head_reverse]
      rw [this] at h2
      simp [h2]
  unfold strip; rw [e1, e2, List.reverse_reverse]

/-- The text of a number is read back as this number. -/
theorem int16Ascii_hex (v : Int) : int16Ascii (hex v) = some v := by
  obtain ⟨hn, hne⟩ := hexAux_num (v.natAbs + 1) v.natAbs (by omega)
  have hd := hexAux_digits (v.natAbs + 1) v.natAbs
  have hb := body_digits _ 0 false hd (.inl hne)
  rw [hn] at hb
  have hlast : ∀ p : Str, isSpace ((p ++ hexAux (v.natAbs + 1) v.natAbs).getLast (by simp [hne])) = false := by
    intro p
    rw [List.getLast_append_of_ne_nil _ hne]
    exact (hd _ (List.getLast_mem hne)).2.2.1
  have hun : ∀ t : Str, Digits t → unprefix ('0' :: 'x' :: t) = t := by
    intro t ht
    cases t with
    | nil => rfl
    | cons a b =>
      have : a ≠ '_' := (ht a List.mem_cons_self).2.1
      unfold unprefix
      split
      · rename_i h; injection h with _ h; injection h with _ h; injection h with h _; exact absurd h this
      · rename_i h; injection h with _ h; injection h with h _; exact absurd h (by decide)
      · rename_i h; injection h with _ h; injection h with _ h; exact h.symm
      · rename_i h; injection h with _ h; injection h with h _; exact absurd h (by decide)
      · rename_i h1 h2 h3 h4; exact absurd rfl (h3 (a :: b))
  unfold int16Ascii hex
  by_cases hv : v < 0
  · rw [if_pos hv, strip_id (['-', '0', 'x'] ++ hexAux (v.natAbs + 1) v.natAbs) '-' _ rfl (by decide) (hlast _)]
    simp only [List.cons_append, List.nil_append, sign, hun _ hd, hb, Option.map_some, if_true]
    congr 1; omega
  · rw [if_neg hv, strip_id (['0', 'x'] ++ hexAux (v.natAbs + 1) v.natAbs) '0' _ rfl (by decide) (hlast _)]
    simp only [List.cons_append, List.nil_append]
    have hs : sign ('0' :: 'x' :: hexAux (v.natAbs + 1) v.natAbs) = (false, '0' :: 'x' :: hexAux (v.natAbs + 1) v.natAbs) := rfl
    simp only [hs, hun _ hd, hb, Option.map_some]
    rw [if_neg (by decide)]; congr 1; omega

theorem hex_ascii (v : Int) : ∀ ch ∈ hex v, ch.toNat < 128 := by
  intro ch h
  unfold hex at h
  rcases List.mem_append.1 h with h | h
  · have h' : ch ∈ (['-', '0', 'x'] : Str) := by
      split at h
      · exact h
      · exact List.mem_cons_of_mem _ h
    have key : ∀ x ∈ (['-', '0', 'x'] : Str), x.toNat < 128 := by decide
    exact key ch h'
  · exact (hexAux_digits _ _ ch h).2.2.2

/-- What is assumed of the libraries: ASCII texts stay as they are, the text of an address is read as this address. -/
structure Law (c : Cfg) : Prop where
  ascii : ∀ s, (∀ ch ∈ s, ch.toNat < 128) → c.ascii s = s
  addr : ∀ a, c.addrOf (c.addrText a) = some a

variable {c : Cfg}

theorem int16_hex (L : Law c) (v : Int) : int16 c (hex v) = some v := by
  unfold int16; rw [L.ascii _ (hex_ascii v), int16Ascii_hex]

/-! ### Accounts by the log -/

/-- What an event adds to the usable balance. -/
def du (u : Nat) (t : Str) : Ev → Int
  | .deposit u' t' v => if u' = u ∧ t' = t then v else 0
  | .reclaim u' t' v => if u' = u ∧ t' = t then -v else 0
  | .start _ u' t' v _ _ => if u' = u ∧ t' = t then -v else 0
  | .receive _ _ u' t' v => if u' = u ∧ t' = t then v else 0
  | .settle _ _ _ _ _ => 0
  | .refund _ _ u' t' v => if u' = u ∧ t' = t then v else 0
  | .rollback _ u' t' v => if u' = u ∧ t' = t then v else 0
  | .send _ _ _ => 0

/-- What an event adds to the locked balance. -/
def dl (u : Nat) (t : Str) : Ev → Int
  | .start _ u' t' v _ _ => if u' = u ∧ t' = t then v else 0
  | .settle _ _ u' t' v => if u' = u ∧ t' = t then -v else 0
  | .refund _ _ u' t' v => if u' = u ∧ t' = t then -v else 0
  | .rollback _ u' t' v => if u' = u ∧ t' = t then -v else 0
  | _ => 0

def total (f : Ev → Int) (l : List Ev) : Int := (l.map f).sum

theorem total_snoc (f : Ev → Int) (l : List Ev) (e : Ev) : total f (l ++ [e]) = total f l + f e := by
  simp [total]

/-! ### Single changes -/

/-- The states a call goes through, one change at a time. -/
inductive Step (c : Cfg) : St → St → Prop where
  | register (s : St) (name : Str) (a : Nat) (h : s.addrs name = none) :
      Step c s { s with addrs := upd s.addrs name (some a), names := s.names ++ [name] }
  | unregister (s : St) (name : Str) (h : s.addrs name ≠ none) : Step c s { s with names := unlist name s.names }
  | sent (s : St) (net : Str) (sn : Int) (m : Option Int) : Step c s { s with log := s.log ++ [.send net sn m] }
  | deposit (s : St) (u : Nat) (t : Str) (v : Int) (s1 : St) (h : updateBalance c s u t v 0 = some s1) (hv : 0 ≤ v) :
      Step c s { s1 with log := s1.log ++ [.deposit u t v] }
  | reclaim (s : St) (u : Nat) (t : Str) (v : Int) (s1 : St) (x y : Int) (h : updateBalance c s u t (-v) 0 = some s1) (hv : 0 ≤ v)
      (hb : getBalance c s u t = some (x, y)) (hx : v ≤ x) : Step c s { s1 with log := s1.log ++ [.reclaim u t v] }
  | receive (s : St) (src : Str) (sn : Int) (u : Nat) (t : Str) (v : Int) (s1 : St) (h : updateBalance c s u t v 0 = some s1) :
      Step c s { s1 with log := s1.log ++ [.receive src sn u t v] }
  | start (s : St) (u : Nat) (t : Str) (v : Int) (net con : Str) (s1 : St) (x y : Int) (h : updateBalance c s u t (-v) v = some s1) (hv : 0 ≤ v)
      (hb : getBalance c s u t = some (x, y)) (hx : v ≤ x) :
      Step c s { s1 with
        sn := s.sn + 1
        pending := upd s1.pending (s.sn + 1) (some [sReq, c.addrText u, con, t, hex v])
        log := s1.log ++ [.start (s.sn + 1) u t v net con] }
  | settle (s : St) (src : Str) (sn : Int) (u : Nat) (t : Str) (v : Int) (s1 : St) (hp : getPending c s sn = some (u, t, v))
      (h : updateBalance c s u t 0 (-v) = some s1) :
      Step c s { s1 with pending := upd s1.pending sn none, log := s1.log ++ [.settle src sn u t v] }
  | refund (s : St) (src : Str) (sn : Int) (u : Nat) (t : Str) (v : Int) (s1 : St) (hp : getPending c s sn = some (u, t, v))
      (h : updateBalance c s u t v (-v) = some s1) :
      Step c s { s1 with pending := upd s1.pending sn none, log := s1.log ++ [.refund src sn u t v] }
  | rollback (s : St) (sn : Int) (u : Nat) (t : Str) (v : Int) (s1 : St) (hp : getPending c s sn = some (u, t, v))
      (h : updateBalance c s u t v (-v) = some s1) :
      Step c s { s1 with pending := upd s1.pending sn none, log := s1.log ++ [.rollback sn u t v] }

inductive Steps (c : Cfg) : St → St → Prop where
  | refl (s : St) : Steps c s s
  | tail {a b d : St} (h1 : Steps c a b) (h2 : Step c b d) : Steps c a d

theorem Steps.one {a b : St} (h : Step c a b) : Steps c a b := .tail (.refl a) h

theorem Steps.trans {a b d : St} (h1 : Steps c a b) (h2 : Steps c b d) : Steps c a d := by
  induction h2 with
  | refl => exact h1
  | tail _ h ih => exact .tail ih h

theorem Steps.inv {P : St → Prop} (hs : ∀ s s', Step c s s' → P s → P s') {a b : St} (h : Steps c a b) (ha : P a) : P b := by
  induction h with
  | refl => exact ha
  | tail _ h ih => exact hs _ _ h ih

theorem orOther_ok {α β : Type} {x : Option α} {f : α → R β} {r : β} (h : orOther x f = .ok r) : ∃ a, x = some a ∧ f a = .ok r := by
  unfold orOther at h
  split at h
  · cases h
  · exact ⟨_, rfl, h⟩

theorem sendMsg_ok {r : Sent} {s s' : St} {net : Str} {sn : Int} {m : Option Int} (h : sendMsg r s net sn m = .ok s') :
    r = .ok ∧ s' = { s with log := s.log ++ [.send net sn m] } := by
  unfold sendMsg at h
  split at h
  · cases h; exact ⟨rfl, rfl⟩
  · cases h
  · cases h

theorem onRequest_steps {r : Sent} {s s' : St} {src : Str} {sn : Int} {j : Json} (h : onRequest c r s src sn j = .ok s') : Steps c s s' := by
  unfold onRequest at h
  obtain ⟨⟨u, v, t⟩, h1, h⟩ := orOther_ok h
  simp only at h
  split at h
  · obtain ⟨s1, h2, h⟩ := orOther_ok h
    obtain ⟨_, rfl⟩ := sendMsg_ok h
    exact .tail (.one (.receive s src sn u t v s1 h2)) (.sent _ _ _ _)
  · obtain ⟨_, rfl⟩ := sendMsg_ok h
    exact .one (.sent _ _ _ _)

theorem onResponse_steps {s s' : St} {src : Str} {sn : Int} {j : Json} (h : onResponse c s src sn j = .ok s') : Steps c s s' := by
  unfold onResponse at h
  split at h
  · cases h
  · obtain ⟨⟨u, t, v⟩, h1, h⟩ := orOther_ok h
    obtain ⟨code, h2, h⟩ := orOther_ok h
    split at h
    · obtain ⟨s1, h3, h⟩ := orOther_ok h
      cases h; exact .one (.settle s src sn u t v s1 h1 h3)
    · obtain ⟨s1, h3, h⟩ := orOther_ok h
      split at h
      · cases h; exact .one (.refund s src sn u t v s1 h1 h3)
      · cases h

theorem onMessage_steps {r : Sent} {s s' : St} {x : Nat} {src : Str} {sn : Int} {b : Bytes} (h : onMessage c r s x src sn b = .ok s') : Steps c s s' := by
  unfold onMessage at h
  split at h
  · cases h
  · obtain ⟨j, h1, h⟩ := orOther_ok h
    split at h
    · cases h
    · split at h
      · exact onRequest_steps h
      · split at h
        · exact onResponse_steps h
        · obtain ⟨_, rfl⟩ := sendMsg_ok h; exact .one (.sent _ _ _ _)
    · obtain ⟨_, rfl⟩ := sendMsg_ok h; exact .one (.sent _ _ _ _)

theorem onError_steps {s s' : St} {x : Nat} {sn : Int} (h : onError c s x sn = .ok s') : Steps c s s' := by
  unfold onError at h
  split at h
  · cases h
  · split at h
    · cases h
    · obtain ⟨⟨u, t, v⟩, h1, h⟩ := orOther_ok h
      obtain ⟨s1, h2, h⟩ := orOther_ok h
      cases h; exact .one (.rollback s sn u t v s1 h1 h2)

theorem reclaim_steps {s s' : St} {x : Nat} {t : Str} {v : Int} (h : reclaim c s x t v = .ok s') : Steps c s s' := by
  unfold reclaim at h
  split at h
  · cases h
  · rename_i hv
    split at h
    · cases h
    · obtain ⟨⟨a, b⟩, h1, h⟩ := orOther_ok h
      simp only at h
      split at h
      · cases h
      · rename_i ha
        obtain ⟨s1, h2, h⟩ := orOther_ok h
        cases h; exact .one (.reclaim s x t v s1 a b h2 (by omega) h1 (by omega))

theorem transfer_ok {r : Sent} {s s' : St} {x : Nat} {t to : Str} {v : Int} (h : transfer c r s x t to v = .ok s') :
    ∃ a s1 y z, PyAddr.fromStringValid to = some a ∧ (s.addrs t).isSome = true ∧ r = .ok ∧ updateBalance c s x t (-v) v = some s1 ∧ 0 ≤ v ∧
      getBalance c s x t = some (y, z) ∧ v ≤ y ∧ s' = { s1 with
        sn := s.sn + 1
        pending := upd s1.pending (s.sn + 1) (some [sReq, c.addrText x, a.contract, t, hex v])
        log := s1.log ++ [.start (s.sn + 1) x t v a.net a.contract] } := by
  unfold transfer at h
  split at h
  · cases h
  · rename_i hr
    split at h
    · cases h
    · rename_i hv
      split at h
      · cases h
      · rename_i a ha
        obtain ⟨⟨y, z⟩, h1, h⟩ := orOther_ok h
        simp only at h
        split at h
        · cases h
        · rename_i hy
          obtain ⟨s1, h2, h⟩ := orOther_ok h
          split at h
          · cases h
            refine ⟨a, s1, y, z, ha, ?_, rfl, h2, by omega, h1, by omega, rfl⟩
            cases hh : s.addrs t with
            | none => exact absurd hh hr
            | some _ => rfl
          · cases h
          · cases h

theorem tokenFallback_steps {s s' : St} {x f : Nat} {v : Int} (h : tokenFallback c s x f v = .ok s') : Steps c s s' := by
  unfold tokenFallback at h
  split at h
  · cases h
  · rename_i hv
    split at h
    · cases h
    · split at h
      · cases h
      · obtain ⟨s1, h1, h⟩ := orOther_ok h
        cases h; exact .one (.deposit s f _ v s1 h1 (by omega))

mutual
theorem exec_steps (o : Op) (s s' : St) (h : exec c o s = .ok s') : Steps c s s' := by
  cases o with
  | register x n a =>
    simp only [exec, register] at h
    split at h
    · cases h
    · split at h
      · cases h
      · rename_i hn
        cases h
        refine .one (.register s n a ?_)
        cases hh : s.addrs n with
        | none => rfl
        | some y => rw [hh] at hn; exact absurd rfl hn
  | unregister x n =>
    simp only [exec, unregister] at h
    split at h
    · cases h
    · split at h
      · cases h
      · rename_i hn; cases h; exact .one (.unregister s n hn)
  | tokenFallback x f v => simp only [exec] at h; exact tokenFallback_steps h
  | reclaim x t v acts ret =>
    simp only [exec] at h
    split at h
    · rename_i s1 h1
      split at h
      · cases h; exact (reclaim_steps h1).trans (execOps_steps acts s1)
      · cases h
    · rename_i hh; exact absurd h (hh s')
  | transfer x t to v r =>
    simp only [exec] at h
    obtain ⟨a, s1, y, z, _, _, _, h1, h2, h3, h4, rfl⟩ := transfer_ok h
    exact .one (.start s x t v a.net a.contract s1 y z h1 h2 h3 h4)
  | message x src sn b r => simp only [exec] at h; exact onMessage_steps h
  | error x sn => simp only [exec] at h; exact onError_steps h
theorem execOps_steps (l : Ops) (s : St) : Steps c s (execOps c l s) := by
  cases l with
  | nil => simp only [execOps]; exact .refl s
  | cons o t =>
    simp only [execOps]
    split
    · rename_i s1 h1; exact (exec_steps o s s1 h1).trans (execOps_steps t s1)
    · exact execOps_steps t s
end

theorem after_steps (s : St) (o : Op) : Steps c s (after c s o) := by
  unfold after
  split
  · rename_i s1 h; exact exec_steps o s s1 h
  · exact .refl s

theorem run_steps (ops : List Op) : Steps c initSt (run c ops) := by
  have key : ∀ (ops : List Op) (s : St), Steps c s (ops.foldl (after c) s) := by
    intro ops
    induction ops with
    | nil => intro s; exact .refl s
    | cons o t ih => intro s; exact (after_steps s o).trans (ih _)
  exact key ops initSt

theorem run_inv {P : St → Prop} (h0 : P initSt) (hs : ∀ s s', Step c s s' → P s → P s') (ops : List Op) : P (run c ops) := (run_steps ops).inv hs h0

/-! ### Transfers by the log -/

/-- Number, user, token, value of a transfer that is started. -/
def startOf : Ev → Option (Int × Nat × Str × Int)
  | .start sn u t v _ _ => some (sn, u, t, v)
  | _ => none

/-- Number, user, token, value of a transfer that is ended: answered, or given back for an error. -/
def endOf : Ev → Option (Int × Nat × Str × Int)
  | .settle _ sn u t v => some (sn, u, t, v)
  | .refund _ sn u t v => some (sn, u, t, v)
  | .rollback sn u t v => some (sn, u, t, v)
  | _ => none

def starts (s : St) : List (Int × Nat × Str × Int) := s.log.filterMap startOf
def ends (s : St) : List (Int × Nat × Str × Int) := s.log.filterMap endOf

theorem getBalance_update {s s1 : St} {u : Nat} {t : Str} {a b x y : Int} (L : Law c) (h : updateBalance c s u t a b = some s1)
    (hb : getBalance c s u t = some (x, y)) :
    (∀ u' t', getBalance c s1 u' t' = if u' = u ∧ t' = t then some (x + a, y + b) else getBalance c s u' t') ∧
    s1.log = s.log ∧ s1.pending = s.pending ∧ s1.sn = s.sn ∧ s1.addrs = s.addrs ∧ s1.names = s.names := by
  unfold updateBalance at h
  rw [hb] at h
  simp only [Option.some.injEq] at h
  subst h
  refine ⟨?_, rfl, rfl, rfl, rfl, rfl⟩
  intro u' t'
  by_cases hu : u' = u
  · subst hu
    by_cases ht : t' = t
    · subst ht
      have hp : (u' = u' ∧ t' = t') := ⟨rfl, rfl⟩
      rw [if_pos hp]
      unfold getBalance
      simp only [PyDb.upd_same]
      by_cases hz : x + a = 0 ∧ y + b = 0
      · rw [if_pos hz, hz.1, hz.2]
      · rw [if_neg hz]
        simp only [int16_hex L]
    · have hp : ¬ (u' = u' ∧ t' = t) := fun h => ht h.2
      rw [if_neg hp]
      unfold getBalance
      simp only [PyDb.upd_same, PyDb.upd_other _ _ ht]
  · have hp : ¬ (u' = u ∧ t' = t) := fun h => hu h.1
    rw [if_neg hp]
    unfold getBalance
    simp only [PyDb.upd_other _ _ hu]

structure Inv (c : Cfg) (s : St) : Prop where
  bal : ∀ u t, getBalance c s u t = some (total (du u t) s.log, total (dl u t) s.log)
  snNat : 0 ≤ s.sn
  nums : (starts s).map (·.1) = (List.range' 1 s.sn.toNat).map Int.ofNat
  once : ((ends s).map (·.1)).Nodup
  sub : ∀ e ∈ ends s, e ∈ starts s
  pend : ∀ sn u t v, getPending c s sn = some (u, t, v) ↔ (sn, u, t, v) ∈ starts s ∧ (sn, u, t, v) ∉ ends s
  form : ∀ sn, s.pending sn ≠ none → (getPending c s sn).isSome = true
  nonneg : ∀ e ∈ starts s, 0 ≤ e.2.2.2

theorem nums_nodup {s : St} (I : Inv c s) : ((starts s).map (·.1)).Nodup := by
  rw [I.nums]
  have : (List.range' 1 s.sn.toNat).Nodup := List.nodup_range'
  rw [List.nodup_iff_pairwise_ne, List.pairwise_map]
  rw [List.nodup_iff_pairwise_ne] at this
  exact this.imp (fun h e => h (by injection e))

theorem starts_unique {s : St} (I : Inv c s) {a b : Int × Nat × Str × Int} (ha : a ∈ starts s) (hb : b ∈ starts s) (h : a.1 = b.1) : a = b := by
  have hn := nums_nodup I
  generalize starts s = l at ha hb hn
  induction l with
  | nil => cases ha
  | cons x t ih =>
    rw [List.map_cons, List.nodup_cons] at hn
    rcases List.mem_cons.1 ha with k1 | k1 <;> rcases List.mem_cons.1 hb with k2 | k2
    · rw [k1, k2]
    · subst k1; exact absurd (List.mem_map.2 ⟨b, k2, h.symm⟩) hn.1
    · subst k2; exact absurd (List.mem_map.2 ⟨a, k1, h⟩) hn.1
    · exact ih k1 k2 hn.2

theorem start_number {s : St} (I : Inv c s) {a : Int × Nat × Str × Int} (ha : a ∈ starts s) : 1 ≤ a.1 ∧ a.1 ≤ s.sn := by
  have : a.1 ∈ (starts s).map (·.1) := List.mem_map.2 ⟨a, ha, rfl⟩
  rw [I.nums] at this
  obtain ⟨n, hn, h⟩ := List.mem_map.1 this
  rw [List.mem_range'_1] at hn
  rw [← h]
  have := I.snNat
  simp only [Int.ofNat_eq_natCast]
  omega

theorem bal_step {s s1 : St} (L : Law c) (I : Inv c s) {u : Nat} {t : Str} {a b : Int} (h : updateBalance c s u t a b = some s1) (e : Ev)
    (hu : ∀ u' t', du u' t' e = if u = u' ∧ t = t' then a else 0) (hl : ∀ u' t', dl u' t' e = if u = u' ∧ t = t' then b else 0) :
    ∀ u' t', getBalance c s1 u' t' = some (total (du u' t') (s.log ++ [e]), total (dl u' t') (s.log ++ [e])) := by
  intro u' t'
  rw [(getBalance_update L h (I.bal u t)).1 u' t', total_snoc, total_snoc, hu, hl, I.bal u' t']
  by_cases hh : u' = u ∧ t' = t
  · rw [if_pos hh, if_pos ⟨hh.1.symm, hh.2.symm⟩, if_pos ⟨hh.1.symm, hh.2.symm⟩, hh.1, hh.2]
  · have hn : ¬ (u = u' ∧ t = t') := fun x => hh ⟨x.1.symm, x.2.symm⟩
    rw [if_neg hh, if_neg hn, if_neg hn, Int.add_zero, Int.add_zero]

/-- A change that starts and ends no transfer. -/
theorem inv_plain {s s' : St} (I : Inv c s) (e : Ev) (hl : s'.log = s.log ++ [e]) (hp : s'.pending = s.pending) (hn : s'.sn = s.sn)
    (h1 : startOf e = none) (h2 : endOf e = none)
    (hb : ∀ u t, getBalance c s' u t = some (total (du u t) (s.log ++ [e]), total (dl u t) (s.log ++ [e]))) : Inv c s' := by
  have e1 : starts s' = starts s := by simp [starts, hl, List.filterMap_append, h1]
  have e2 : ends s' = ends s := by simp [ends, hl, List.filterMap_append, h2]
  have e3 : ∀ sn, getPending c s' sn = getPending c s sn := by intro sn; unfold getPending; rw [hp]
  refine ⟨by rw [hl]; exact hb, by rw [hn]; exact I.snNat, by rw [e1, hn]; exact I.nums, by rw [e2]; exact I.once, by rw [e1, e2]; exact I.sub, ?_, ?_,
    by rw [e1]; exact I.nonneg⟩
  · intro sn u t v; rw [e1, e2, e3]; exact I.pend sn u t v
  · intro sn h; rw [hp] at h; rw [e3]; exact I.form sn h

/-- A change that ends a transfer. -/
theorem inv_end {s s' : St} (I : Inv c s) (e : Ev) (sn : Int) (u : Nat) (t : Str) (v : Int) (hl : s'.log = s.log ++ [e])
    (hp : s'.pending = upd s.pending sn none) (hn : s'.sn = s.sn) (h1 : startOf e = none) (h2 : endOf e = some (sn, u, t, v))
    (hg : getPending c s sn = some (u, t, v))
    (hb : ∀ u t, getBalance c s' u t = some (total (du u t) (s.log ++ [e]), total (dl u t) (s.log ++ [e]))) : Inv c s' := by
  have e1 : starts s' = starts s := by simp [starts, hl, List.filterMap_append, h1]
  have e2 : ends s' = ends s ++ [(sn, u, t, v)] := by simp [ends, hl, List.filterMap_append, h2]
  have e3 : ∀ sn', getPending c s' sn' = if sn' = sn then none else getPending c s sn' := by
    intro sn'
    by_cases h : sn' = sn
    · rw [if_pos h, h]; unfold getPending; rw [hp, PyDb.upd_same]
    · rw [if_neg h]; unfold getPending; rw [hp, PyDb.upd_other _ _ h]
  obtain ⟨g1, g2⟩ := (I.pend sn u t v).1 hg
  refine ⟨by rw [hl]; exact hb, by rw [hn]; exact I.snNat, by rw [e1, hn]; exact I.nums, ?_, ?_, ?_, ?_, by rw [e1]; exact I.nonneg⟩
  · rw [e2, List.map_append, List.nodup_append]
    refine ⟨I.once, by simp, ?_⟩
    intro x hx y hy hxy
    rw [List.map_cons, List.map_nil, List.mem_singleton] at hy
    obtain ⟨z, hz, hz2⟩ := List.mem_map.1 hx
    have := starts_unique I (I.sub z hz) g1 (by rw [hz2, hxy, hy])
    rw [this] at hz; exact g2 hz
  · intro x hx
    rw [e2] at hx; rw [e1]
    rcases List.mem_append.1 hx with hx | hx
    · exact I.sub x hx
    · rw [List.mem_singleton] at hx; rw [hx]; exact g1
  · intro sn' u' t' v'
    rw [e1, e2, e3]
    by_cases h : sn' = sn
    · rw [if_pos h]
      constructor
      · intro hh; cases hh
      · rintro ⟨k1, k2⟩
        have := starts_unique I k1 g1 h
        exact absurd (List.mem_append.2 (.inr (List.mem_singleton.2 this))) k2
    · rw [if_neg h, I.pend sn' u' t' v']
      constructor
      · rintro ⟨k1, k2⟩
        refine ⟨k1, ?_⟩
        intro hm
        rcases List.mem_append.1 hm with hm | hm
        · exact k2 hm
        · rw [List.mem_singleton] at hm; injection hm with hm _; exact h hm
      · rintro ⟨k1, k2⟩; exact ⟨k1, fun hm => k2 (List.mem_append.2 (.inl hm))⟩
  · intro sn' h
    rw [hp] at h
    rw [e3]
    by_cases hh : sn' = sn
    · rw [hh, PyDb.upd_same] at h; exact absurd rfl h
    · rw [PyDb.upd_other _ _ hh] at h; rw [if_neg hh]; exact I.form sn' h

theorem inv_start {s s' : St} (L : Law c) (I : Inv c s) (u : Nat) (t : Str) (v : Int) (net con : Str) (hv : 0 ≤ v)
    (hl : s'.log = s.log ++ [.start (s.sn + 1) u t v net con])
    (hp : s'.pending = upd s.pending (s.sn + 1) (some [sReq, c.addrText u, con, t, hex v])) (hn : s'.sn = s.sn + 1)
    (hb : ∀ u' t', getBalance c s' u' t' = some (total (du u' t') s'.log, total (dl u' t') s'.log)) : Inv c s' := by
  have e1 : starts s' = starts s ++ [(s.sn + 1, u, t, v)] := by simp [starts, hl, List.filterMap_append, startOf]
  have e2 : ends s' = ends s := by simp [ends, hl, List.filterMap_append, endOf]
  have e3 : ∀ sn', getPending c s' sn' = if sn' = s.sn + 1 then some (u, t, v) else getPending c s sn' := by
    intro sn'
    by_cases h : sn' = s.sn + 1
    · rw [if_pos h, h]; unfold getPending; rw [hp, PyDb.upd_same]; simp only [if_true, L.addr, int16_hex L]
    · rw [if_neg h]; unfold getPending; rw [hp, PyDb.upd_other _ _ h]
  have hs := I.snNat
  have fresh : ∀ x ∈ starts s, x.1 ≠ s.sn + 1 := by
    intro x hx; have := start_number I hx; omega
  refine ⟨hb, by omega, ?_, by rw [e2]; exact I.once, ?_, ?_, ?_, ?_⟩
  · rw [e1, List.map_append, I.nums, hn]
    have : (s.sn + 1).toNat = s.sn.toNat + 1 := by omega
    rw [this, List.range'_concat, List.map_append]
    congr 1
    simp only [List.map_cons, List.map_nil, Int.ofNat_eq_natCast]
    congr 1; omega
  · intro x hx; rw [e2] at hx; rw [e1]; exact List.mem_append.2 (.inl (I.sub x hx))
  · intro sn' u' t' v'
    rw [e1, e2, e3]
    by_cases h : sn' = s.sn + 1
    · rw [if_pos h]
      constructor
      · intro hh
        cases hh
        refine ⟨List.mem_append.2 (.inr (by rw [h]; exact List.mem_singleton.2 rfl)), ?_⟩
        intro hm; exact fresh _ (I.sub _ hm) h
      · rintro ⟨k1, _⟩
        rcases List.mem_append.1 k1 with k1 | k1
        · exact absurd h (fresh _ k1)
        · rw [List.mem_singleton] at k1; injection k1 with _ k1; rw [← k1]
    · rw [if_neg h, I.pend sn' u' t' v']
      constructor
      · rintro ⟨k1, k2⟩; exact ⟨List.mem_append.2 (.inl k1), k2⟩
      · rintro ⟨k1, k2⟩
        refine ⟨?_, k2⟩
        rcases List.mem_append.1 k1 with k1 | k1
        · exact k1
        · rw [List.mem_singleton] at k1; injection k1 with k1 _; exact absurd k1 h
  · intro sn' h
    rw [hp] at h; rw [e3]
    by_cases hh : sn' = s.sn + 1
    · rw [if_pos hh]; rfl
    · rw [PyDb.upd_other _ _ hh] at h; rw [if_neg hh]; exact I.form sn' h
  · intro x hx
    rw [e1] at hx
    rcases List.mem_append.1 hx with hx | hx
    · exact I.nonneg x hx
    · rw [List.mem_singleton] at hx; rw [hx]; exact hv

theorem inv_step (L : Law c) (s s' : St) (h : Step c s s') (I : Inv c s) : Inv c s' := by
  cases h with
  | register n a h => exact ⟨I.bal, I.snNat, I.nums, I.once, I.sub, I.pend, I.form, I.nonneg⟩
  | unregister n h => exact ⟨I.bal, I.snNat, I.nums, I.once, I.sub, I.pend, I.form, I.nonneg⟩
  | sent net sn m =>
    refine inv_plain I (.send net sn m) rfl rfl rfl rfl rfl ?_
    intro u t
    rw [total_snoc, total_snoc]
    show getBalance c s u t = _
    rw [I.bal u t]; simp [du, dl]
  | deposit u t v s1 h hv =>
    obtain ⟨_, b1, b2, b3, b4, b5⟩ := getBalance_update L h (I.bal u t)
    refine inv_plain I (.deposit u t v) (by rw [← b1]) b2 b3 rfl rfl ?_
    refine bal_step L I h _ (fun _ _ => rfl) ?_
    intro u' t'; simp [dl]
  | reclaim u t v s1 x y h hv hb hx =>
    obtain ⟨_, b1, b2, b3, b4, b5⟩ := getBalance_update L h (I.bal u t)
    refine inv_plain I (.reclaim u t v) (by rw [← b1]) b2 b3 rfl rfl ?_
    refine bal_step L I h _ (fun _ _ => rfl) ?_
    intro u' t'; simp [dl]
  | receive src sn u t v s1 h =>
    obtain ⟨_, b1, b2, b3, b4, b5⟩ := getBalance_update L h (I.bal u t)
    refine inv_plain I (.receive src sn u t v) (by rw [← b1]) b2 b3 rfl rfl ?_
    refine bal_step L I h _ (fun _ _ => rfl) ?_
    intro u' t'; simp [dl]
  | start u t v net con s1 x y h hv hb hx =>
    obtain ⟨_, b1, b2, b3, b4, b5⟩ := getBalance_update L h (I.bal u t)
    refine inv_start L I u t v net con hv (by rw [← b1]) (by rw [← b2]) rfl ?_
    show ∀ u' t', getBalance c s1 u' t' = some (total (du u' t') (s1.log ++ [_]), total (dl u' t') (s1.log ++ [_]))
    rw [b1]
    exact bal_step L I h _ (fun _ _ => rfl) (fun _ _ => rfl)
  | settle src sn u t v s1 hp h =>
    obtain ⟨_, b1, b2, b3, b4, b5⟩ := getBalance_update L h (I.bal u t)
    refine inv_end I (.settle src sn u t v) sn u t v (by rw [← b1]) (by rw [← b2]) b3 rfl rfl hp ?_
    refine bal_step L I h _ ?_ (fun _ _ => rfl)
    intro u' t'; simp [du]
  | refund src sn u t v s1 hp h =>
    obtain ⟨_, b1, b2, b3, b4, b5⟩ := getBalance_update L h (I.bal u t)
    refine inv_end I (.refund src sn u t v) sn u t v (by rw [← b1]) (by rw [← b2]) b3 rfl rfl hp ?_
    exact bal_step L I h _ (fun _ _ => rfl) (fun _ _ => rfl)
  | rollback sn u t v s1 hp h =>
    obtain ⟨_, b1, b2, b3, b4, b5⟩ := getBalance_update L h (I.bal u t)
    refine inv_end I (.rollback sn u t v) sn u t v (by rw [← b1]) (by rw [← b2]) b3 rfl rfl hp ?_
    exact bal_step L I h _ (fun _ _ => rfl) (fun _ _ => rfl)

theorem inv_init : Inv c initSt := by
  refine ⟨?_, by decide, rfl, List.nodup_nil, ?_, ?_, ?_, ?_⟩
  · intro u t; rfl
  · intro e h; cases h
  · intro sn u t v
    constructor
    · intro h; cases h
    · rintro ⟨h, _⟩; cases h
  · intro sn h; exact absurd rfl h
  · intro e h; cases h

theorem run_I (L : Law c) (ops : List Op) : Inv c (run c ops) := run_inv inv_init (inv_step L) ops

/-! ### C128: balances -/

/-- C128: after every history the balances are what the deposits, reclaims, transfers started and ended, and transfers received give. -/
theorem C128_ledger (L : Law c) (ops : List Op) (u : Nat) (t : Str) :
    getBalance c (run c ops) u t = some (total (du u t) (run c ops).log, total (dl u t) (run c ops).log) := (run_I L ops).bal u t

/-- The value of transfer number `sn` if it is a pending one of this user and token. -/
def pendVal (c : Cfg) (s : St) (u : Nat) (t : Str) (sn : Int) : Int :=
  match getPending c s sn with
  | some (u', t', v) => if u' = u ∧ t' = t then v else 0
  | none => 0

theorem sum_zero {α : Type} (l : List α) : (l.map fun _ => (0 : Int)).sum = 0 := by
  induction l with
  | nil => rfl
  | cons a b ih => rw [List.map_cons, List.sum_cons, ih]; rfl

theorem sum_if_eq {α : Type} [DecidableEq α] (g : α → Int) (x : α) : ∀ (l : List α), l.Nodup → x ∈ l → (l.map fun e => if e = x then g e else 0).sum = g x
  | [], _, h => by cases h
  | y :: t, hn, h => by
    rw [List.nodup_cons] at hn
    rw [List.map_cons, List.sum_cons]
    by_cases hy : y = x
    · rw [if_pos hy]
      have : (t.map fun e => if e = x then g e else 0) = t.map fun _ => 0 := by
        apply List.map_congr_left
        intro e he
        rw [if_neg]; intro hh; subst hh; subst hy; exact hn.1 he
      rw [this, hy, sum_zero, Int.add_zero]
    · rw [if_neg hy, sum_if_eq g x t hn.2 (by rcases List.mem_cons.1 h with h | h; exact absurd h.symm hy; exact h), Int.zero_add]

theorem sum_add {α : Type} (f g : α → Int) : ∀ l : List α, (l.map fun e => f e + g e).sum = (l.map f).sum + (l.map g).sum
  | [] => rfl
  | a :: t => by simp only [List.map_cons, List.sum_cons, sum_add f g t]; omega

/-- The sum over a part of a list without repetitions. -/
theorem sum_part {α : Type} [DecidableEq α] (g : α → Int) (l : List α) (hl : l.Nodup) : ∀ (p : List α), p.Nodup → (∀ x ∈ p, x ∈ l) →
    (l.map fun e => if e ∈ p then g e else 0).sum = (p.map g).sum
  | [], _, _ => by
    have : (l.map fun e => if e ∈ ([] : List α) then g e else 0) = l.map fun _ => 0 := by
      apply List.map_congr_left; intro e _; simp
    rw [this, sum_zero]; rfl
  | x :: p, hp, hs => by
    rw [List.nodup_cons] at hp
    have ih := sum_part g l hl p hp.2 (fun y hy => hs y (List.mem_cons_of_mem _ hy))
    have : (l.map fun e => if e ∈ x :: p then g e else 0) = l.map fun e => (if e = x then g e else 0) + (if e ∈ p then g e else 0) := by
      apply List.map_congr_left
      intro e _
      by_cases h1 : e = x
      · subst h1; rw [if_pos List.mem_cons_self, if_pos rfl, if_neg hp.1, Int.add_zero]
      · by_cases h2 : e ∈ p
        · rw [if_pos (List.mem_cons_of_mem _ h2), if_neg h1, if_pos h2, Int.zero_add]
        · rw [if_neg, if_neg h1, if_neg h2]; rfl
          intro hm; rcases List.mem_cons.1 hm with hm | hm
          · exact h1 hm
          · exact h2 hm
    rw [this, sum_add, ih, sum_if_eq g x l hl (hs x List.mem_cons_self), List.map_cons, List.sum_cons]

theorem nodup_of_map {α β : Type} (f : α → β) : ∀ {l : List α}, (l.map f).Nodup → l.Nodup
  | [], _ => List.nodup_nil
  | a :: t, h => by
    rw [List.map_cons, List.nodup_cons] at h
    rw [List.nodup_cons]
    exact ⟨fun hm => h.1 (List.mem_map.2 ⟨a, hm, rfl⟩), nodup_of_map f h.2⟩

/-- The part of a transfer that counts for a user and a token. -/
def share (u : Nat) (t : Str) (e : Int × Nat × Str × Int) : Int := if e.2.1 = u ∧ e.2.2.1 = t then e.2.2.2 else 0

theorem total_dl (u : Nat) (t : Str) : ∀ l : List Ev,
    total (dl u t) l = ((l.filterMap startOf).map (share u t)).sum - ((l.filterMap endOf).map (share u t)).sum
  | [] => rfl
  | e :: r => by
    have ih := total_dl u t r
    have hc : total (dl u t) (e :: r) = dl u t e + total (dl u t) r := by simp [total]
    rw [hc, ih]
    cases e with
    | start sn u' t' v n k => simp only [List.filterMap_cons, startOf, endOf, List.map_cons, List.sum_cons, dl, share]; omega
    | settle _ sn u' t' v => simp only [List.filterMap_cons, startOf, endOf, List.map_cons, List.sum_cons, dl, share]; split <;> omega
    | refund _ sn u' t' v => simp only [List.filterMap_cons, startOf, endOf, List.map_cons, List.sum_cons, dl, share]; split <;> omega
    | rollback sn u' t' v => simp only [List.filterMap_cons, startOf, endOf, List.map_cons, List.sum_cons, dl, share]; split <;> omega
    | _ => simp only [List.filterMap_cons, startOf, endOf, dl]; omega

theorem locked_pending {s : St} (I : Inv c s) (u : Nat) (t : Str) :
    total (dl u t) s.log = ((List.range' 1 s.sn.toNat).map fun n => pendVal c s u t (Int.ofNat n)).sum := by
  have h1 : ((List.range' 1 s.sn.toNat).map fun n => pendVal c s u t (Int.ofNat n)) = (starts s).map fun e => pendVal c s u t e.1 := by
    have : (List.range' 1 s.sn.toNat).map (fun n => pendVal c s u t (Int.ofNat n)) =
        ((List.range' 1 s.sn.toNat).map Int.ofNat).map (pendVal c s u t) := by rw [List.map_map]; rfl
    rw [this, ← I.nums, List.map_map]; rfl
  have h2 : ((starts s).map fun e => pendVal c s u t e.1) = (starts s).map fun e => share u t e + (if e ∈ ends s then - share u t e else 0) := by
    apply List.map_congr_left
    intro e he
    obtain ⟨sn, u', t', v⟩ := e
    by_cases hm : (sn, u', t', v) ∈ ends s
    · rw [if_pos hm]
      have hg : getPending c s sn = none := by
        cases hg : getPending c s sn with
        | none => rfl
        | some x =>
          obtain ⟨a, b, d⟩ := x
          have := (I.pend sn a b d).1 hg
          have := starts_unique I this.1 he rfl
          rw [← this] at hm; exact absurd hm ((I.pend sn a b d).1 hg).2
      simp only [pendVal, hg]; omega
    · rw [if_neg hm]
      have hg := (I.pend sn u' t' v).2 ⟨he, hm⟩
      simp only [pendVal, hg, share]; omega
  have h3 : ((starts s).map fun e => if e ∈ ends s then - share u t e else 0).sum = ((ends s).map fun e => - share u t e).sum := by
    rw [← sum_part (fun e => - share u t e) (starts s) (nodup_of_map _ (nums_nodup I)) (ends s) (nodup_of_map _ I.once) I.sub]
    congr 1
    apply List.map_congr_left
    intro e _
    by_cases he : e ∈ ends s
    · rw [if_pos he, if_pos he]
    · rw [if_neg he, if_neg he]
  rw [h1, h2, sum_add, h3, total_dl]
  have hneg : ∀ l : List (Int × Nat × Str × Int), (l.map fun e => - share u t e).sum = - (l.map (share u t)).sum := by
    intro l
    induction l with
    | nil => rfl
    | cons a b ih => simp only [List.map_cons, List.sum_cons, ih]; omega
  rw [hneg]; unfold starts ends; omega

/-- C128: the locked balance is the sum of the values of the pending transfers. -/
theorem C128_locked (L : Law c) (ops : List Op) (u : Nat) (t : Str) (x y : Int) (h : getBalance c (run c ops) u t = some (x, y)) :
    y = ((List.range' 1 (run c ops).sn.toNat).map fun n => pendVal c (run c ops) u t (Int.ofNat n)).sum := by
  have I := run_I L ops
  rw [I.bal u t] at h
  injection h with h; injection h with _ h
  rw [← h, locked_pending I]

theorem sum_nonneg {α : Type} (f : α → Int) : ∀ l : List α, (∀ x ∈ l, 0 ≤ f x) → 0 ≤ (l.map f).sum
  | [], _ => by simp
  | a :: t, h => by
    rw [List.map_cons, List.sum_cons]
    have := sum_nonneg f t (fun x hx => h x (List.mem_cons_of_mem _ hx))
    have := h a List.mem_cons_self
    omega

/-- C128: the locked balance is never negative. -/
theorem C128_locked_nonneg (L : Law c) (ops : List Op) (u : Nat) (t : Str) (x y : Int) (h : getBalance c (run c ops) u t = some (x, y)) : 0 ≤ y := by
  rw [C128_locked L ops u t x y h]
  apply sum_nonneg
  intro n _
  unfold pendVal
  split
  · rename_i u' t' v hg
    have := (run_I L ops).nonneg _ (((run_I L ops).pend _ _ _ _).1 hg).1
    split
    · exact this
    · exact Int.le_refl _
  · exact Int.le_refl _

/-- In any state reached, if no transfer received has a negative value, no usable balance is negative. -/
theorem usable_steps (L : Law c) {z : St} (hz : Steps c initSt z) (hr : ∀ src sn u t v, Ev.receive src sn u t v ∈ z.log → 0 ≤ v) (u : Nat) (t : Str)
    (x y : Int) (h : getBalance c z u t = some (x, y)) : 0 ≤ x := by
  have key : Inv c z ∧ ((∀ src sn u t v, Ev.receive src sn u t v ∈ z.log → 0 ≤ v) → ∀ u t, 0 ≤ total (du u t) z.log) := by
    refine hz.inv (P := fun s => Inv c s ∧ ((∀ src sn u t v, Ev.receive src sn u t v ∈ s.log → 0 ≤ v) → ∀ u t, 0 ≤ total (du u t) s.log)) ?_ ⟨inv_init, ?_⟩
    rotate_left
    · intro _ u t; exact Int.le_refl _
    · rintro s s' hs ⟨I, ih⟩
      have I' := inv_step L s s' hs I
      refine ⟨I', ?_⟩
      have mono : ∀ e, s'.log = s.log ++ [e] → (∀ u t, 0 ≤ total (du u t) s.log + du u t e ∨ ∃ src sn a b v, e = .receive src sn a b v) →
          (∀ src sn u t v, Ev.receive src sn u t v ∈ s'.log → 0 ≤ v) → ∀ u t, 0 ≤ total (du u t) s'.log := by
        intro e he hd hr u t
        rw [he, total_snoc]
        rcases hd u t with hd | ⟨src, sn, a, b, v, hd⟩
        · exact hd
        · have h1 := ih (fun _ _ _ _ _ hm => hr _ _ _ _ _ (by rw [he]; exact List.mem_append.2 (.inl hm))) u t
          have h2 := hr src sn a b v (by rw [he, hd]; exact List.mem_append.2 (.inr (List.mem_singleton.2 rfl)))
          subst hd
          simp only [du]; split <;> omega
      cases hs with
      | register n a h => exact ih
      | unregister n h => exact ih
      | receive src sn a b v s1 h =>
        obtain ⟨_, b1, _⟩ := getBalance_update L h (I.bal a b)
        exact mono _ (by rw [← b1]) (fun _ _ => .inr ⟨src, sn, a, b, v, rfl⟩)
      | sent net sn m =>
        intro hr u t
        rw [total_snoc]
        have := ih (fun _ _ _ _ _ hm => hr _ _ _ _ _ (List.mem_append.2 (.inl hm))) u t
        simp only [du]; omega
      | deposit a b v s1 h hv =>
        obtain ⟨_, b1, _⟩ := getBalance_update L h (I.bal a b)
        intro hr u t
        have := ih (fun _ _ _ _ _ hm => hr _ _ _ _ _ (List.mem_append.2 (.inl (by rw [b1]; exact hm)))) u t
        show 0 ≤ total (du u t) (s1.log ++ [_])
        rw [total_snoc, b1]
        simp only [du]; split <;> omega
      | reclaim a b v s1 x y h hv hb hx =>
        obtain ⟨_, b1, _⟩ := getBalance_update L h (I.bal a b)
        intro hr u t
        have := ih (fun _ _ _ _ _ hm => hr _ _ _ _ _ (List.mem_append.2 (.inl (by rw [b1]; exact hm)))) u t
        show 0 ≤ total (du u t) (s1.log ++ [_])
        rw [total_snoc, b1]
        rw [I.bal a b] at hb
        injection hb with hb; injection hb with hb _
        simp only [du]
        split
        · rename_i e; rw [← e.1, ← e.2, hb]; omega
        · omega
      | start a b v net con s1 x y h hv hb hx =>
        obtain ⟨_, b1, _⟩ := getBalance_update L h (I.bal a b)
        intro hr u t
        have := ih (fun _ _ _ _ _ hm => hr _ _ _ _ _ (List.mem_append.2 (.inl (by rw [b1]; exact hm)))) u t
        show 0 ≤ total (du u t) (s1.log ++ [_])
        rw [total_snoc, b1]
        rw [I.bal a b] at hb
        injection hb with hb; injection hb with hb _
        simp only [du]
        split
        · rename_i e; rw [← e.1, ← e.2, hb]; omega
        · omega
      | settle src sn a b v s1 hp h =>
        obtain ⟨_, b1, _⟩ := getBalance_update L h (I.bal a b)
        intro hr u t
        have := ih (fun _ _ _ _ _ hm => hr _ _ _ _ _ (List.mem_append.2 (.inl (by rw [b1]; exact hm)))) u t
        show 0 ≤ total (du u t) (s1.log ++ [_])
        rw [total_snoc, b1]
        simp only [du]; omega
      | refund src sn a b v s1 hp h =>
        obtain ⟨_, b1, _⟩ := getBalance_update L h (I.bal a b)
        intro hr u t
        have := ih (fun _ _ _ _ _ hm => hr _ _ _ _ _ (List.mem_append.2 (.inl (by rw [b1]; exact hm)))) u t
        have hv := I.nonneg _ ((I.pend _ _ _ _).1 hp).1
        simp only at hv
        show 0 ≤ total (du u t) (s1.log ++ [_])
        rw [total_snoc, b1]
        simp only [du]; split <;> omega
      | rollback sn a b v s1 hp h =>
        obtain ⟨_, b1, _⟩ := getBalance_update L h (I.bal a b)
        intro hr u t
        have := ih (fun _ _ _ _ _ hm => hr _ _ _ _ _ (List.mem_append.2 (.inl (by rw [b1]; exact hm)))) u t
        have hv := I.nonneg _ ((I.pend _ _ _ _).1 hp).1
        simp only at hv
        show 0 ≤ total (du u t) (s1.log ++ [_])
        rw [total_snoc, b1]
        simp only [du]; split <;> omega
  have hb := key.1.bal u t
  rw [h] at hb
  injection hb with hb; injection hb with hb _
  rw [hb]; exact key.2 hr u t

/-- C128 (partial: if no transfer received has a negative value): the usable balance is never negative. -/
theorem C128_usable_partial (L : Law c) (ops : List Op) (hr : ∀ src sn u t v, Ev.receive src sn u t v ∈ (run c ops).log → 0 ≤ v) (u : Nat) (t : Str)
    (x y : Int) (h : getBalance c (run c ops) u t = some (x, y)) : 0 ≤ x := usable_steps L (run_steps ops) hr u t x y h

/-! ### C129: transfers -/

/-- C129: transfers are numbered 1, 2, … in the order they are started. -/
theorem C129_numbers (L : Law c) (ops : List Op) : (starts (run c ops)).map (·.1) = (List.range' 1 (run c ops).sn.toNat).map Int.ofNat :=
  (run_I L ops).nums

/-- C129: each transfer ends at most once, with the user, token and value it was started with. -/
theorem C129_ends_once (L : Law c) (ops : List Op) : ((ends (run c ops)).map (·.1)).Nodup ∧ ∀ e ∈ ends (run c ops), e ∈ starts (run c ops) :=
  ⟨(run_I L ops).once, (run_I L ops).sub⟩

/-- C129: pending are those that are started and not ended. -/
theorem C129_pending (L : Law c) (ops : List Op) (sn : Int) :
    (run c ops).pending sn ≠ none ↔ ∃ u t v, (sn, u, t, v) ∈ starts (run c ops) ∧ (sn, u, t, v) ∉ ends (run c ops) := by
  have I := run_I L ops
  constructor
  · intro h
    have := I.form sn h
    cases hg : getPending c (run c ops) sn with
    | none => rw [hg] at this; cases this
    | some x => obtain ⟨u, t, v⟩ := x; exact ⟨u, t, v, (I.pend sn u t v).1 hg⟩
  · rintro ⟨u, t, v, h1, h2⟩ hn
    have := (I.pend sn u t v).2 ⟨h1, h2⟩
    unfold getPending at this
    rw [hn] at this; cases this

theorem updateBalance_ok {s : St} {u : Nat} {t : Str} {x y : Int} (h : getBalance c s u t = some (x, y)) (a b : Int) :
    ∃ s1, updateBalance c s u t a b = some s1 := by
  unfold updateBalance; rw [h]; exact ⟨_, rfl⟩

/-- C129: an answer for a pending transfer ends it: with the code 0 the locked value is gone, with another number it is usable again. -/
theorem C129_answered (L : Law c) (ops : List Op) (src : Str) (sn : Int) (b : Bytes) (j : Json) (r : Sent) (code : Int)
    (hp : c.parse b = some j) (ht : field j "type".toList = some (.str sRes)) (hc : field j "code".toList = some (.int code))
    (h : (run c ops).pending sn ≠ none) :
    ∃ s' u t v, exec c (.message c.bmc src sn b r) (run c ops) = .ok s' ∧ (sn, u, t, v) ∈ starts (run c ops) ∧ s'.pending sn = none ∧
      s'.log = (run c ops).log ++ [if code = 0 then .settle src sn u t v else .refund src sn u t v] ∧
      ∀ x y, getBalance c (run c ops) u t = some (x, y) → getBalance c s' u t = some (if code = 0 then x else x + v, y - v) := by
  have I := run_I L ops
  have hf := I.form sn h
  cases hg : getPending c (run c ops) sn with
  | none => rw [hg] at hf; cases hf
  | some e =>
    obtain ⟨u, t, v⟩ := e
    have hs := ((I.pend sn u t v).1 hg).1
    by_cases h0 : code = 0
    · obtain ⟨s1, h1⟩ := updateBalance_ok (I.bal u t) 0 (-v)
      refine ⟨{ s1 with pending := upd s1.pending sn none, log := s1.log ++ [.settle src sn u t v] }, u, t, v, ?_, hs, ?_, ?_, ?_⟩
      · simp only [exec, onMessage, hp, ht, orOther, onResponse, hg, hc, isOk, h0, h1]
        rw [if_neg (by simp), if_neg (by decide), if_pos trivial, if_neg h]
        rfl
      · exact PyDb.upd_same _ _ _
      · rw [if_pos h0, ← (getBalance_update L h1 (I.bal u t)).2.1]
      · intro x y hb
        rw [if_pos h0]
        have := (getBalance_update L h1 hb).1 u t
        rw [if_pos (by exact ⟨rfl, rfl⟩), Int.add_zero] at this
        exact this
    · obtain ⟨s1, h1⟩ := updateBalance_ok (I.bal u t) v (-v)
      refine ⟨{ s1 with pending := upd s1.pending sn none, log := s1.log ++ [.refund src sn u t v] }, u, t, v, ?_, hs, ?_, ?_, ?_⟩
      · simp only [exec, onMessage, hp, ht, orOther, onResponse, hg, hc, isOk, h1]
        rw [if_neg (by simp), if_neg (by decide), if_pos trivial, if_neg h, if_neg (by simp [h0])]
        rfl
      · exact PyDb.upd_same _ _ _
      · rw [if_neg h0, ← (getBalance_update L h1 (I.bal u t)).2.1]
      · intro x y hb
        rw [if_neg h0]
        have := (getBalance_update L h1 hb).1 u t
        rw [if_pos (by exact ⟨rfl, rfl⟩)] at this
        exact this

/-- C129: an error for a pending transfer gives the value back. -/
theorem C129_error (L : Law c) (ops : List Op) (sn : Int) (h : (run c ops).pending sn ≠ none) :
    ∃ s' u t v, exec c (.error c.bmc sn) (run c ops) = .ok s' ∧ (sn, u, t, v) ∈ starts (run c ops) ∧ s'.pending sn = none ∧
      s'.log = (run c ops).log ++ [.rollback sn u t v] ∧
      ∀ x y, getBalance c (run c ops) u t = some (x, y) → getBalance c s' u t = some (x + v, y - v) := by
  have I := run_I L ops
  have hf := I.form sn h
  cases hg : getPending c (run c ops) sn with
  | none => rw [hg] at hf; cases hf
  | some e =>
    obtain ⟨u, t, v⟩ := e
    obtain ⟨s1, h1⟩ := updateBalance_ok (I.bal u t) v (-v)
    refine ⟨{ s1 with pending := upd s1.pending sn none, log := s1.log ++ [.rollback sn u t v] }, u, t, v, ?_, ((I.pend sn u t v).1 hg).1, ?_, ?_, ?_⟩
    · simp only [exec, onError, hg, orOther, h1]
      rw [if_neg (by simp), if_neg h]
    · exact PyDb.upd_same _ _ _
    · rw [← (getBalance_update L h1 (I.bal u t)).2.1]
    · intro x y hb
      have := (getBalance_update L h1 hb).1 u t
      rw [if_pos (by exact ⟨rfl, rfl⟩)] at this
      exact this

/-- C129 (false that the destination answers): the answer is taken from any network; the network a transfer went to is not kept. -/
theorem C129_any_network (s : St) (src src' : Str) (sn : Int) (j : Json) (s' : St) (h : onResponse c s src sn j = .ok s') :
    ∃ s'', onResponse c s src' sn j = .ok s'' ∧ s''.bal = s'.bal ∧ s''.pending = s'.pending := by
  unfold onResponse at h ⊢
  split at h
  · cases h
  · rename_i hn
    rw [if_neg hn]
    obtain ⟨⟨u, t, v⟩, h1, h⟩ := orOther_ok h
    obtain ⟨code, h2, h⟩ := orOther_ok h
    simp only [h1, h2, orOther]
    split at h
    · rename_i ho
      rw [if_pos ho]
      obtain ⟨s1, h3, h⟩ := orOther_ok h
      cases h
      simp only [h3]
      exact ⟨_, rfl, rfl, rfl⟩
    · rename_i ho
      rw [if_neg ho]
      obtain ⟨s1, h3, h⟩ := orOther_ok h
      simp only [h3]
      by_cases hi : codeOk c code = true
      · rw [if_pos hi] at h ⊢
        cases h
        exact ⟨_, rfl, rfl, rfl⟩
      · rw [if_neg hi] at h; cases h

/-! ### Examples -/

namespace Ex
def reqJ (v : Str) (name : Json) : Json := .obj [("type".toList, .str sReq), ("from".toList, .str []), ("to".toList, .str ['h', 'h']),
  ("args".toList, .obj [("name".toList, name), ("value".toList, .str v)])]
def resJ (code : Json) : Json := .obj [("type".toList, .str sRes), ("code".toList, code)]
def parse : Bytes → Option Json
  | [1] => some (reqJ "0x5".toList (.str ['T']))
  | [2] => some (resJ (.int 0))
  | [3] => some (resJ (.int (-1)))
  | [4] => some (reqJ "-0x64".toList (.str ['T']))
  | [5] => some (.obj [("type".toList, .str "res_unknown_type".toList)])
  | [6] => some (reqJ "five".toList (.str ['T']))
  | [7] => some (resJ (.bool false))
  | _ => none
/-- Owner 0, message center 9; the token contract of "T" is 7. -/
def cfg : Cfg := ⟨0, 9, parse, fun n => List.replicate n 'h', fun s => some s.length, id, fun _ => none, fun _ => true⟩
theorem law : Law cfg := ⟨fun _ _ => rfl, fun a => by simp [cfg]⟩
def setup : List Op := [.register 0 ['T'] 7, .tokenFallback 7 1 100]
def to : Str := "btp://b/hh".toList
def codeOf : R St → Option Int
  | .btp e => some e
  | _ => none
def show2 (s : St) (u : Nat) : Option (Int × Int) := getBalance cfg s u ['T']
end Ex
open Ex

example : show2 (run cfg (setup ++ [.transfer 1 ['T'] to 30 .ok, .transfer 1 ['T'] to 20 .ok])) 1 = some (50, 50) := by decide +kernel
example : show2 (run cfg (setup ++ [.transfer 1 ['T'] to 30 .ok, .transfer 1 ['T'] to 20 .ok, .message 9 ['b'] 1 [2] .ok, .message 9 ['b'] 2 [3] .ok])) 1 =
    some (70, 0) := by decide +kernel
example : show2 (run cfg (setup ++ [.transfer 1 ['T'] to 30 .ok, .message 9 ['b'] 1 [2] .ok, .message 9 ['b'] 1 [2] .ok, .error 9 1])) 1 = some (70, 0) := by decide +kernel
example : show2 (run cfg (setup ++ [.transfer 1 ['T'] to 101 .ok, .transfer 1 ['T'] to (-1) .ok, .reclaim 1 ['T'] 60 .nil true, .reclaim 1 ['T'] 60 .nil true])) 1 =
    some (40, 0) := by decide +kernel
example : show2 (run cfg (setup ++ [.message 9 ['b'] 4 [1] .ok])) 2 = some (5, 0) := by decide +kernel
example : int16Ascii " +0X_f_F ".toList = some 255 ∧ int16Ascii "0x".toList = none ∧ int16Ascii "f__f".toList = none ∧ int16Ascii "- 1".toList = none := by
  decide +kernel

/-- C128 (false that balances are never negative): a request with a negative value takes from a user (here 100 from user 2). -/
theorem C128_negative : show2 (run cfg (setup ++ [.message 9 ['b'] 4 [4] .ok])) 2 = some (-100, 0) := by decide +kernel

/-- C129 (false that an error is for the transfer it names): an error for an answer is taken as one for the own transfer with the same number.
Here the request 1 of network b is received and answered, the answer comes back as an error, and the own transfer 1 (which b has received) is
given back; b's answer for it is then refused, which makes an error for b's transfer 1. -/
theorem C129_error_for_answer :
    let s := run cfg (setup ++ [.transfer 1 ['T'] to 30 .ok, .message 9 ['b'] 1 [1] .ok, .error 9 1])
    show2 s 1 = some (100, 0) ∧ show2 s 2 = some (5, 0) ∧ codeOf (exec cfg (.message 9 ['b'] 1 [2] .ok) s) = some 43 := by
  decide +kernel

/-- C129 (false): the code of an answer is compared as an object; `false` gives the value back. -/
theorem C129_code_false : show2 (run cfg (setup ++ [.transfer 1 ['T'] to 30 .ok, .message 9 ['b'] 1 [7] .ok])) 1 = some (100, 0) := by decide +kernel

end Verif.PyToken
