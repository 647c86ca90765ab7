import Verif.ErrorsProps
import Verif.SerializeProps
import Verif.LinkProps
import Verif.RlpProps
import Verif.PyAddrProps
import Verif.JavaBmcProps
import Verif.SolBtpBlockProps
import Verif.FeeAggProps
/-!
Further theorems on C10, C25, C31, C35, C52, C72, C109, C117. They pin down single functions that the theorems of those properties use
but did not determine (found by changing the functions and seeing that everything still held).
-/

namespace Verif.Errors

/-- C35: `Equals` is false for nil, and else compares the code that `CodeOf` gives; it panics where `CodeOf` does. -/
theorem C35_equals (c : Int) (e : Err) :
    (equals c .nil = some false) ∧
    (e ≠ .nil → (equals c e = some true ↔ (∃ k, Under e k ∧ HasCode k c) ∨ (c = 0 ∧ ∃ a, Under e (.plain a)))) ∧
    (equals c e = none ↔ e ≠ .nil ∧ Under e .nil) := by
  have key : e ≠ .nil → equals c e = (codeOf e).map (fun x => decide (x = c)) := by
    intro h; cases e <;> first | exact absurd rfl h | rfl
  refine ⟨rfl, ?_, ?_⟩
  · intro h
    rw [key h, ← C35_code_outermost]
    cases codeOf e <;> simp
  · by_cases h : e = .nil
    · subst h
      simp [equals]
    · rw [key h, ← C35_code_panics]
      cases codeOf e <;> simp [h]

/-- BMCException.java:75-88 `Code`; the codes 1-12 are those of solidity/bmc/contracts/libraries/Errors.sol:7-18 with 10 added. -/
def javaBmcCodes : List (Int × String) :=
  [(0, "Unknown"), (1, "Unauthorized"), (2, "InvalidSN"), (3, "AlreadyExistsBMV"), (4, "NotExistsBMV"), (5, "AlreadyExistsBSH"),
   (6, "NotExistsBSH"), (7, "AlreadyExistsLink"), (8, "NotExistsLink"), (9, "AlreadyExistsBMR"), (10, "NotExistsBMR"),
   (11, "Unreachable"), (12, "Drop")]

/-- C35: the relay names the message center's codes 1-8 as the contracts do (the contract writes `InvalidSn`). -/
theorem C35_bmc_names_partial : ∀ x ∈ javaBmcCodes, 1 ≤ x.1 → x.1 ≤ 8 →
    (Type'.apply .bmc x.1).bind newRevertError = some (10 + x.1, .named .bmc ("BMCRevert" ++ x.2)) := by
  decide +kernel

/-- C35, false for the codes 9-12: the relay calls "already exists BMR" unreachable and "not exists BMR" a missing permission,
"unreachable" and "drop" have no name. -/
theorem C35_bmc_names_witness :
    (Type'.apply .bmc 9).bind newRevertError = some (19, .named .bmc "BMCRevertUnreachable") ∧
    (Type'.apply .bmc 10).bind newRevertError = some (20, .named .bmc "BMCRevertNotExistsPermission") ∧
    (Type'.apply .bmc 11).bind newRevertError = some (21, .number .bmc 21) ∧
    (Type'.apply .bmc 12).bind newRevertError = some (22, .number .bmc 22) := by
  decide +kernel

example : equals 7 (.msg 3 (.coded 2 7 (.plain 1))) = some true ∧ equals 7 (.msg 3 (.coded 2 8 (.plain 1))) = some false ∧
    equals 0 (.msg 1 .nil) = none := by decide

end Verif.Errors

namespace Verif.Serialize

/-- Specification: the number written by decimal digits. -/
def decVal (bs : Bytes) : Nat := bs.foldl (fun a b => a * 10 + (b.toNat - 48)) 0

theorem digitChar_byte (d : Nat) (h : d < 10) : (Nat.digitChar d).toNat.toUInt8.toNat = 48 + d := by
  have key : ∀ k : Fin 10, (Nat.digitChar k.val).toNat.toUInt8.toNat = 48 + k.val := by decide
  exact key ⟨d, h⟩

theorem decInt_nat (n : Nat) : decInt n = (Nat.toDigits 10 n).map (fun c => c.toNat.toUInt8) := by
  unfold decInt
  rw [if_neg (by omega)]
  simp

theorem decInt_step (n : Nat) : decInt n = if n < 10 then [(Nat.digitChar n).toNat.toUInt8]
    else decInt ((n / 10 : Nat) : Int) ++ [(Nat.digitChar (n % 10)).toNat.toUInt8] := by
  rw [decInt_nat, decInt_nat, Nat.toDigits_eq_if (by omega)]
  split <;> simp

theorem decInt_nat_spec (n : Nat) : (∀ b ∈ decInt n, 48 ≤ b.toNat ∧ b.toNat ≤ 57) ∧ decVal (decInt n) = n ∧
    (∃ b t, decInt n = b :: t ∧ (n ≠ 0 → b.toNat ≠ 48)) := by
  induction n using Nat.strongRecOn with
  | _ n ih =>
    rw [decInt_step]
    by_cases h : n < 10
    · rw [if_pos h]
      have hd := digitChar_byte n h
      refine ⟨?_, ?_, _, _, rfl, ?_⟩
      · intro b hb; simp only [List.mem_singleton] at hb; subst hb; omega
      · simp only [decVal, List.foldl_cons, List.foldl_nil, hd]; omega
      · omega
    · rw [if_neg h]
      have hd := digitChar_byte (n % 10) (by omega)
      obtain ⟨i1, i2, b, t, i3, i4⟩ := ih (n / 10) (by omega)
      refine ⟨?_, ?_, b, t ++ [(Nat.digitChar (n % 10)).toNat.toUInt8], ?_, ?_⟩
      · intro x hx
        rcases List.mem_append.mp hx with hx | hx
        · exact i1 x hx
        · simp only [List.mem_singleton] at hx; subst hx; omega
      · unfold decVal at i2 ⊢
        rw [List.foldl_append, i2, List.foldl_cons, List.foldl_nil, hd]
        omega
      · rw [i3]; rfl
      · intro _; exact i4 (by omega)

/-- C25: the decimal text of a number: a minus exactly for negative numbers, then digits without leading zero whose value is the
absolute value. -/
theorem C25_decimal (n : Nat) :
    ((∀ b ∈ decInt n, 48 ≤ b.toNat ∧ b.toNat ≤ 57) ∧ decVal (decInt n) = n ∧ (n ≠ 0 → (decInt n).head? ≠ some 48)) ∧
    (0 < n → decInt (-(n : Int)) = 0x2d :: decInt n) := by
  obtain ⟨h1, h2, b, t, h3, h4⟩ := decInt_nat_spec n
  refine ⟨⟨h1, h2, ?_⟩, ?_⟩
  · intro hn
    rw [h3]
    simp only [List.head?_cons, ne_eq, Option.some.injEq]
    intro hb
    exact h4 hn (by rw [hb]; rfl)
  · intro hn
    unfold decInt
    rw [if_pos (by omega), if_neg (by omega)]
    simp

/-- C25: different numbers have different texts. -/
theorem C25_decimal_injective (m n : Int) (h : decInt m = decInt n) : m = n := by
  have pos : ∀ a : Nat, decVal (decInt a) = a := fun a => (decInt_nat_spec a).2.1
  have cases' : ∀ x : Int, (∃ a : Nat, x = a) ∨ (∃ a : Nat, 0 < a ∧ x = -(a : Int)) := by
    intro x
    by_cases hx : 0 ≤ x
    · exact Or.inl ⟨x.toNat, by omega⟩
    · exact Or.inr ⟨(-x).toNat, by omega, by omega⟩
  have nominus : ∀ (a : Nat) (t : Bytes), decInt a ≠ 0x2d :: t := by
    intro a t he
    have := (decInt_nat_spec a).1 0x2d (by rw [he]; simp)
    revert this
    decide
  rcases cases' m with ⟨a, rfl⟩ | ⟨a, ha, rfl⟩ <;> rcases cases' n with ⟨b, rfl⟩ | ⟨b, hb, rfl⟩
  · have := congrArg decVal h
    rw [pos, pos] at this
    rw [this]
  · rw [(C25_decimal b).2 hb] at h
    exact absurd h (nominus a _)
  · rw [(C25_decimal a).2 ha] at h
    exact absurd h.symm (nominus b _)
  · rw [(C25_decimal b).2 hb, (C25_decimal a).2 ha] at h
    simp only [List.cons.injEq, true_and] at h
    have := congrArg decVal h
    rw [pos, pos] at this
    rw [this]

example : decInt (-10) = [0x2d, 0x31, 0x30] ∧ decInt 0 = [0x30] := by decide +kernel

end Verif.Serialize

namespace Verif.Link
variable {ρ β γ : Type}

/-- C31: a new destination status removes the receive statuses through the first one it covers, and only that far; none when it
covers none. -/
theorem C31_clear_status (b : Bls) (s : L ρ β γ) :
    (∀ l1 rs l2, s.rss = l1 ++ rs :: l2 → (∀ y ∈ l1, ¬ (y.height ≤ b.height ∧ y.seq ≤ b.rx)) →
      (rs.height ≤ b.height ∧ rs.seq ≤ b.rx) → clearStatus b s = (.ok (), { s with rss := l2 })) ∧
    ((∀ y ∈ s.rss, ¬ (y.height ≤ b.height ∧ y.seq ≤ b.rx)) → clearStatus b s = (.ok (), s)) := by
  constructor
  · intro l1 rs l2 hs h1 hr
    unfold clearStatus
    dsimp only
    rw [hs, dropThrough_at _ _ _ _ _ (fun y hy => decide_eq_false (h1 y hy)) (decide_eq_true hr)]
  · intro h
    unfold clearStatus
    dsimp only
    rw [dropThrough_none _ _ _ (fun y hy => decide_eq_false (h y hy))]

end Verif.Link

namespace Verif.Rlp
open Verif.IntConv

/-- C10: reading a raw item panics as soon as the announced size with its header exceeds what can be allocated, before any of the
content is read. -/
theorem C10_raw_panics (cap : Nat) (tag : UInt8) (szb rest : Bytes)
    (ht : (tag.toNat = 0xB7 + szb.length ∨ tag.toNat = 0xF7 + szb.length) ∧ 1 ≤ szb.length ∧ szb.length ≤ 8)
    (hc : 1 + szb.length + bytesToSize szb > cap) : readRaw cap (tag :: (szb ++ rest)) = .panic := by
  obtain ⟨ht, h1, h8⟩ := ht
  have hr : readAll szb.length (szb ++ rest) = .ok szb rest := by
    have hlt : ¬ (szb ++ rest).length < szb.length := by simp
    cases szb with
    | nil => simp at h1
    | cons c t => simp [readAll]
  unfold readRaw
  simp only
  rcases ht with ht | ht
  · rw [if_neg (by omega), if_neg (by omega), if_pos (by omega), show tag.toNat - 0xB7 = szb.length by omega, hr]
    simp only [List.length_cons]
    rw [if_pos (by omega)]
  · rw [if_neg (by omega), if_neg (by omega), if_neg (by omega), if_neg (by omega), show tag.toNat - 0xF7 = szb.length by omega, hr]
    simp only [List.length_cons]
    rw [if_pos (by omega)]

end Verif.Rlp

namespace Verif.PyAddr
open Verif.BtpAddress

/-- C117: parsing with validation accepts exactly the addresses of which no part is empty. -/
theorem C117_valid (s : Str) (a : Addr) :
    fromStringValid s = some a ↔ fromString s = some a ∧ a.protocol ≠ [] ∧ a.net ≠ [] ∧ a.contract ≠ [] := by
  unfold fromStringValid
  cases h : fromString s with
  | none => simp
  | some b =>
    simp only [Option.bind_some, Option.some.injEq]
    have hv : b.isValid = true ↔ b.protocol ≠ [] ∧ b.net ≠ [] ∧ b.contract ≠ [] := by
      simp [Addr.isValid, and_assoc]
    constructor
    · intro h1
      split at h1
      · rename_i hb
        simp only [Option.some.injEq] at h1
        subst h1
        exact ⟨rfl, hv.mp hb⟩
      · simp at h1
    · rintro ⟨rfl, h1⟩
      rw [if_pos (hv.mpr h1)]

end Verif.PyAddr

namespace Verif.SolBtpBlock

/-- C52: a signature is given to `ecrecover` exactly when it has 65 bytes and its last byte plus 27 is a byte. -/
theorem C52_recover (E : Env) (d sig : Bytes) :
    ((recoverSigner E d sig).isSome ↔ sig.length = 65 ∧ (sig.getD 64 0).toNat ≤ 228) ∧
    ∀ a, recoverSigner E d sig = some a → a = E.ecrecover d ((sig.getD 64 0).toNat + 27) (sig.take 32) ((sig.drop 32).take 32) := by
  unfold recoverSigner
  by_cases h1 : sig.length = 65
  · rw [if_neg (by simp [h1])]
    by_cases h2 : 256 ≤ (sig.getD 64 0).toNat + 27
    · rw [if_pos h2]
      refine ⟨⟨fun h => by simp at h, fun h => by omega⟩, by simp⟩
    · rw [if_neg h2]
      refine ⟨⟨fun _ => ⟨h1, by omega⟩, fun _ => rfl⟩, ?_⟩
      intro a ha
      simpa using ha.symm
  · rw [if_pos h1]
    simp [h1]

end Verif.SolBtpBlock

namespace Verif.JavaBmc
open Verif.SolBmc (FeeInfo)
variable {c : Cfg}

theorem putLink_log (s : St) (l : Link) : (putLink c s l).log = s.log := by unfold putLink; split <;> rfl

theorem inFee_log (s : St) (f : Option FeeInfo) : (inFee s f).log = s.log := by cases f <;> rfl

theorem lostFee_log (s : St) (f : Option FeeInfo) : (lostFee s f).log = s.log := by cases f <;> rfl

theorem accumulate_log (s : St) (a : Nat) (f : Option FeeInfo) : (accumulate s a f).1.log = s.log := by
  unfold accumulate
  split
  · rfl
  · split
    · rfl
    · unfold addReward; split <;> rfl

theorem sendMsg_log {env : Env} {s s' : St} {next : String} {m : Msg} (h : sendMsg c env s next m = (none, s')) :
    (∃ tx, s'.log = s.log ++ [.message next tx m]) ∨ ∃ tx id, s'.log = s.log ++ [.chain id next tx m] := by
  unfold sendMsg at h
  split at h
  · exact nomatch h
  · rename_i l _
    simp only at h
    split at h
    · simp only [Prod.mk.injEq, true_and] at h
      subst h
      exact Or.inl ⟨l.tx + 1, by simp only [putLink_log]⟩
    · rename_i id _
      split at h
      · simp only [Prod.mk.injEq, true_and] at h
        subst h
        exact Or.inr ⟨l.tx + 1, id, by simp only [putLink_log]⟩
      · exact nomatch h

/-- C72: `dropMessage` succeeds only for an owner, the next number of the link, a registered service, a network number other than 0
and numbers that do not have opposite signs. A dropped two-way message (sn > 0) is answered with an error response that carries the
negated numbers; of any other message only the event is logged. -/
theorem C72_java_drop (env : Env) (s s' : St) (caller : Nat) (src : String) (seq : Nat) (svc : String) (sn nsn : Int)
    (fn : String) (fv : List Nat) (h : dropMessage c env s caller src seq svc sn nsn fn fv = some s') :
    JavaOwners.isOwner s.own caller = true ∧ s.services svc ≠ none ∧ (0 < nsn ∧ 0 ≤ sn ∨ nsn < 0 ∧ sn ≤ 0) ∧
    ∃ prev l, resolve c s src = .ok prev ∧ Dict.get s.links ((c.netOf prev).getD "") = some l ∧ seq = l.rx + 1 ∧
      (0 < sn → ∃ tx f, s'.log = s.log ++ [.message prev tx ⟨c.net, src, svc, -sn, c.encResp 1, -nsn, f⟩] ∨
        ∃ id, s'.log = s.log ++ [.chain id prev tx ⟨c.net, src, svc, -sn, c.encResp 1, -nsn, f⟩]) ∧
      (sn ≤ 0 → ∃ f, s'.log = s.log ++ [.dropped prev seq ⟨src, "", svc, sn, [], nsn, f⟩]) := by
  unfold dropMessage at h
  by_cases ho : JavaOwners.isOwner s.own caller
  · rw [if_neg (by simp [ho])] at h
    cases hr : resolve c s src with
    | error e => simp [hr] at h
    | ok prev =>
      simp only [hr] at h
      cases hl : Dict.get s.links ((c.netOf prev).getD "") with
      | none => simp [hl] at h
      | some l =>
        simp only [hl] at h
        by_cases h1 : l.rx + 1 ≠ seq
        · rw [if_pos h1] at h; exact nomatch h
        · rw [if_neg h1] at h
          by_cases h2 : s.services svc = none
          · rw [if_pos h2] at h; exact nomatch h
          · rw [if_neg h2] at h
            by_cases h3 : invalidSn sn nsn = true
            · rw [if_pos h3] at h; exact nomatch h
            · rw [if_neg h3] at h
              have h4 : 0 < nsn ∧ 0 ≤ sn ∨ nsn < 0 ∧ sn ≤ 0 := by
                unfold invalidSn at h3
                simp only [decide_eq_true_eq] at h3
                omega
              refine ⟨ho, h2, h4, prev, l, rfl, hl, by omega, ?_⟩
              constructor
              · intro hp
                rw [if_pos hp] at h
                split at h
                · rename_i s3 he
                  simp only [Option.some.injEq] at h
                  subst h
                  unfold sendError at he
                  rcases sendMsg_log he with ⟨tx, hg⟩ | ⟨tx, id, hg⟩
                  · simp only [putLink_log, accumulate_log, inFee_log] at hg
                    exact ⟨tx, _, Or.inl hg⟩
                  · simp only [putLink_log, accumulate_log, inFee_log] at hg
                    exact ⟨tx, _, Or.inr ⟨id, hg⟩⟩
                · exact nomatch h
              · intro hp
                rw [if_neg (by omega)] at h
                simp only [Option.some.injEq] at h
                subst h
                simp only [lostFee_log, putLink_log, accumulate_log, inFee_log]
                exact ⟨_, rfl⟩
  · rw [if_pos ho] at h
    exact nomatch h

/-- C72: a one-way message is dropped whenever those conditions hold. -/
theorem C72_java_drop_accepts (env : Env) (s : St) (caller : Nat) (src : String) (svc : String) (sn nsn : Int) (fn : String)
    (fv : List Nat) (prev : String) (l : Link) (ho : JavaOwners.isOwner s.own caller = true) (hr : resolve c s src = .ok prev)
    (hl : Dict.get s.links ((c.netOf prev).getD "") = some l) (hs : s.services svc ≠ none)
    (hn : 0 < nsn ∧ sn = 0 ∨ nsn < 0 ∧ sn ≤ 0) :
    (dropMessage c env s caller src (l.rx + 1) svc sn nsn fn fv).isSome := by
  unfold dropMessage
  rw [if_neg (by simp [ho])]
  simp only [hr, hl]
  rw [if_neg (by simp), if_neg hs, if_neg (by unfold invalidSn; simp only [decide_eq_true_eq]; omega), if_neg (by omega)]
  rfl

end Verif.JavaBmc

namespace Verif.FeeAgg

/-- C109: the discounted price is nine tenths of the price, rounded down. -/
theorem C109_discount (p : Int) (h : 0 ≤ p) : 10 * discounted p ≤ 9 * p ∧ 9 * p < 10 * discounted p + 10 := by
  unfold discounted
  rw [Int.tdiv_eq_ediv_of_nonneg (by omega)]
  omega

example : discounted 101 = 90 := by decide

end Verif.FeeAgg
