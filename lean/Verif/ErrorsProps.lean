import Verif.Errors
/-!
C35: error codes through wraps, from a contract's exception to the relay.
-/
namespace Verif.Errors

/-- `e` is `k` below any number of wrappers that carry no code. -/
inductive Under : Err → Err → Prop where
  | refl (k) : Under k k
  | msg (a) {o k} : Under o k → Under (.msg a o) k
  | stack (a) {i k} : Under i k → Under (.stack a i) k

/-- The error has an `ErrorCode` method, returning `c`. -/
inductive HasCode : Err → Int → Prop where
  | base (a c) : HasCode (.base a c) c
  | coded (a c i) : HasCode (.coded a c i) c
  | wrapped (a c o) : HasCode (.wrapped a c o) c

theorem coderOf_under (h : Under e k) : coderOf e = coderOf k := by
  induction h with
  | refl => rfl
  | msg a _ ih => simpa [coderOf] using ih
  | stack a _ ih => simpa [coderOf] using ih

theorem under_end (e : Err) :
    (∃ k c, Under e k ∧ HasCode k c) ∨ (∃ a, Under e (.plain a)) ∨ Under e .nil := by
  induction e with
  | nil => exact Or.inr (Or.inr (.refl _))
  | plain a => exact Or.inr (Or.inl ⟨a, .refl _⟩)
  | base a c => exact Or.inl ⟨_, c, .refl _, .base a c⟩
  | coded a c i => exact Or.inl ⟨_, c, .refl _, .coded a c i⟩
  | wrapped a c o => exact Or.inl ⟨_, c, .refl _, .wrapped a c o⟩
  | msg a o ih =>
    rcases ih with ⟨k, c, h, hc⟩ | ⟨b, h⟩ | h
    · exact Or.inl ⟨k, c, .msg a h, hc⟩
    · exact Or.inr (Or.inl ⟨b, .msg a h⟩)
    · exact Or.inr (Or.inr (.msg a h))
  | stack a o ih =>
    rcases ih with ⟨k, c, h, hc⟩ | ⟨b, h⟩ | h
    · exact Or.inl ⟨k, c, .stack a h, hc⟩
    · exact Or.inr (Or.inl ⟨b, .stack a h⟩)
    · exact Or.inr (Or.inr (.stack a h))

theorem codeOf_has (h : Under e k) (hc : HasCode k c) : codeOf e = some c := by
  rw [codeOf, coderOf_under h]
  cases hc <;> rfl

theorem codeOf_plain (h : Under e (.plain a)) : codeOf e = some 0 := by
  rw [codeOf, coderOf_under h]; rfl

theorem codeOf_nil (h : Under e .nil) : codeOf e = none := by
  rw [codeOf, coderOf_under h]; rfl

/-- C35: `CodeOf` gives the code of the outermost error that has one, and 0 when there is none. -/
theorem C35_code_outermost (e : Err) (c : Int) :
    codeOf e = some c ↔ (∃ k, Under e k ∧ HasCode k c) ∨ (c = 0 ∧ ∃ a, Under e (.plain a)) := by
  constructor
  · intro h
    rcases under_end e with ⟨k, d, hu, hd⟩ | ⟨a, hu⟩ | hu
    · have := codeOf_has hu hd
      rw [h] at this
      injection this with this
      exact Or.inl ⟨k, hu, this ▸ hd⟩
    · have := codeOf_plain hu
      rw [h] at this
      injection this with this
      exact Or.inr ⟨this, a, hu⟩
    · rw [codeOf_nil hu] at h; cases h
  · rintro (⟨k, hu, hd⟩ | ⟨rfl, a, hu⟩)
    · exact codeOf_has hu hd
    · exact codeOf_plain hu

/-- C35, a gap: asking for the code of nil, or of a wrapped nil, crashes; nothing else does. -/
theorem C35_code_panics (e : Err) : codeOf e = none ↔ Under e .nil := by
  constructor
  · intro h
    rcases under_end e with ⟨k, d, hu, hd⟩ | ⟨a, hu⟩ | hu
    · rw [codeOf_has hu hd] at h; cases h
    · rw [codeOf_plain hu] at h; cases h
    · exact hu
  · exact codeOf_nil

/-- A wrap that adds no code. -/
inductive WrapOp where
  | message (addr : Nat)
  | stack (addr : Nat)

def WrapOp.run : WrapOp → Err → Err
  | .message a, e => wrap a e
  | .stack a, e => withStack a e

/-- C35: messages and stacks added to an error, any number of them, leave its code alone. -/
theorem C35_wraps_keep_code (ws : List WrapOp) (e : Err) :
    codeOf (ws.foldl (fun x w => w.run x) e) = codeOf e := by
  induction ws generalizing e with
  | nil => rfl
  | cons w ws ih =>
    rw [List.foldl_cons, ih]
    cases w with
    | message a => rfl
    | stack a => cases e <;> rfl

/-- C35: attaching a code replaces the code, whatever the error was (unless it is a nil in disguise). -/
theorem C35_withCode (a : Nat) (e : Err) (c : Int) (h : ¬ Under e .nil) :
    ∃ e', withCode a e c = some e' ∧ codeOf e' = some c := by
  rcases under_end e with ⟨k, d, hu, hd⟩ | ⟨b, hu⟩ | hu
  · have : ∃ x, coderOf e = some (some x) := by rw [coderOf_under hu]; cases hd <;> exact ⟨_, rfl⟩
    obtain ⟨x, hx⟩ := this
    exact ⟨.wrapped a c e, by simp [withCode, hx, wrapc], rfl⟩
  · have hx : coderOf e = some none := by rw [coderOf_under hu]; rfl
    exact ⟨.coded a c e, by simp [withCode, hx], rfl⟩
  · exact absurd hu h

/-- C35: wrapping with a code replaces the code, also for nil. -/
theorem C35_wrapc (a : Nat) (e : Err) (c : Int) : codeOf (wrapc a e c) = some c := rfl

/-- One step of unwrapping. -/
inductive Inside : Err → Err → Prop where
  | coded (a c i) : Inside (.coded a c i) i
  | msg (a o) : Inside (.msg a o) o
  | wrapped (a c o) : Inside (.wrapped a c o) o
  | stack (a i) : Inside (.stack a i) i

/-- Any number of steps. -/
inductive Chain : Err → Err → Prop where
  | refl (e) : Chain e e
  | step {e i k} : Inside e i → Chain i k → Chain e k

/-- C35: `Is` finds the target anywhere in the chain, and nothing else. -/
theorem C35_is (t e : Err) : is t e = true ↔ ∃ k, Chain e k ∧ k.ptr = t.ptr := by
  induction e with
  | nil =>
    simp only [is, decide_eq_true_eq]
    constructor
    · intro h; exact ⟨_, .refl _, h.symm⟩
    · rintro ⟨k, hk, hp⟩
      cases hk with
      | refl => exact hp.symm
      | step h _ => cases h
  | plain a =>
    simp only [is, decide_eq_true_eq]
    constructor
    · intro h; exact ⟨_, .refl _, h.symm⟩
    · rintro ⟨k, hk, hp⟩
      cases hk with
      | refl => exact hp.symm
      | step h _ => cases h
  | base a c =>
    simp only [is, decide_eq_true_eq]
    constructor
    · intro h; exact ⟨_, .refl _, h.symm⟩
    · rintro ⟨k, hk, hp⟩
      cases hk with
      | refl => exact hp.symm
      | step h _ => cases h
  | coded a c i ih =>
    simp only [is, Bool.or_eq_true, decide_eq_true_eq, ih]
    constructor
    · rintro (h | ⟨k, hk, hp⟩)
      · exact ⟨_, .refl _, h.symm⟩
      · exact ⟨k, .step (.coded a c i) hk, hp⟩
    · rintro ⟨k, hk, hp⟩
      cases hk with
      | refl => exact Or.inl hp.symm
      | step h hk => cases h; exact Or.inr ⟨k, hk, hp⟩
  | msg a i ih =>
    simp only [is, Bool.or_eq_true, decide_eq_true_eq, ih]
    constructor
    · rintro (h | ⟨k, hk, hp⟩)
      · exact ⟨_, .refl _, h.symm⟩
      · exact ⟨k, .step (.msg a i) hk, hp⟩
    · rintro ⟨k, hk, hp⟩
      cases hk with
      | refl => exact Or.inl hp.symm
      | step h hk => cases h; exact Or.inr ⟨k, hk, hp⟩
  | wrapped a c i ih =>
    simp only [is, Bool.or_eq_true, decide_eq_true_eq, ih]
    constructor
    · rintro (h | ⟨k, hk, hp⟩)
      · exact ⟨_, .refl _, h.symm⟩
      · exact ⟨k, .step (.wrapped a c i) hk, hp⟩
    · rintro ⟨k, hk, hp⟩
      cases hk with
      | refl => exact Or.inl hp.symm
      | step h hk => cases h; exact Or.inr ⟨k, hk, hp⟩
  | stack a i ih =>
    simp only [is, Bool.or_eq_true, decide_eq_true_eq, ih]
    constructor
    · rintro (h | ⟨k, hk, hp⟩)
      · exact ⟨_, .refl _, h.symm⟩
      · exact ⟨k, .step (.stack a i) hk, hp⟩
    · rintro ⟨k, hk, hp⟩
      cases hk with
      | refl => exact Or.inl hp.symm
      | step h hk => cases h; exact Or.inr ⟨k, hk, hp⟩

/-! ### revert codes -/

/-- C35: a revert error carries the code it is made of. -/
theorem C35_revert_code (a : Nat) (c : Int) (h : 0 ≤ c) : codeOf (revertErr a c) = some c := by
  simp only [revertErr, newRevertError, if_pos (show c ≥ 0 from h)]
  rfl

/-- C35, a gap: a negative code gives no error at all. -/
theorem C35_negative_is_nil (a : Nat) (c : Int) (h : c < 0) : revertErr a c = .nil := by
  have h' : ¬ c ≥ 0 := by omega
  simp [revertErr, newRevertError, h']

/-- The documented class of a code: BTP 0-9, BMC 10-24, BMV 25-39, BSH 40-54, reserved from 55. -/
def classOf (c : Int) : Class :=
  if c < 10 then .btp else if c < 25 then .bmc else if c < 40 then .bmv else if c < 55 then .bsh else .reserved

theorem nameIn_cls (t : List (Int × String)) (k : Class) (c : Int) : (nameIn t k c).cls = k := by
  unfold nameIn; split <;> rfl

/-- C35: the class named by the error message is the class of the code exactly when the code is not the first one of a
class (10, 25, 40, 55). -/
theorem C35_class_partial (c : Int) (h : 0 ≤ c) :
    ∃ n, newRevertError c = some (c, n) ∧ (n.cls = classOf c ↔ c ≠ 10 ∧ c ≠ 25 ∧ c ≠ 40 ∧ c ≠ 55) := by
  simp only [newRevertError, if_pos (show c ≥ 0 from h)]
  refine ⟨_, rfl, ?_⟩
  unfold classOf
  by_cases h1 : c ≤ 10
  · rw [if_pos h1]
    by_cases h2 : c = 10
    · subst h2; simp [Name.cls]
    · have : c < 10 := by omega
      rw [if_pos this]; simp only [Name.cls, true_iff]; omega
  · rw [if_neg h1, if_neg (show ¬ c < 10 by omega)]
    by_cases h2 : c ≤ 25
    · rw [if_pos h2, nameIn_cls]
      by_cases h3 : c = 25
      · subst h3; simp
      · rw [if_pos (show c < 25 by omega)]; simp only [true_iff]; omega
    · rw [if_neg h2, if_neg (show ¬ c < 25 by omega)]
      by_cases h3 : c ≤ 40
      · rw [if_pos h3, nameIn_cls]
        by_cases h4 : c = 40
        · subst h4; simp
        · rw [if_pos (show c < 40 by omega)]; simp only [true_iff]; omega
      · rw [if_neg h3, if_neg (show ¬ c < 40 by omega)]
        by_cases h4 : c ≤ 55
        · rw [if_pos h4]
          by_cases h5 : c = 55
          · subst h5; simp [Name.cls]
          · rw [if_pos (show c < 55 by omega)]; simp only [Name.cls, true_iff]; omega
        · rw [if_neg h4, if_neg (show ¬ c < 55 by omega)]; simp only [Name.cls, true_iff]; omega

/-- C35, false: the BMV's "unknown" error, code 25, is called a BMC error although a name for it is in the table. -/
theorem C35_bmv_unknown_misnamed :
    newRevertError 25 = some (25, .number .bmc 25) ∧ (25, "BMVUnknown") ∈ bmvNames := by
  decide +kernel

/-- C35: the other codes of the verifier get their names. -/
theorem C35_bmv_names : newRevertError 26 = some (26, .named .bmv "BMVNotVerifiable") ∧
    newRevertError 27 = some (27, .named .bmv "BMVAlreadyVerified") := by
  decide +kernel

/-! ### exceptions of the contracts -/

theorem apply_btp (c : Int) : Type'.apply .btp c = if c < 0 then none else if 0 + c ≥ 10 then none else some (0 + c) := rfl
theorem apply_bmc (c : Int) : Type'.apply .bmc c = if c < 0 then none else if 10 + c ≥ 25 then none else some (10 + c) := rfl
theorem apply_bmv (c : Int) : Type'.apply .bmv c = if c < 0 then none else if 25 + c ≥ 40 then none else some (25 + c) := rfl
theorem apply_bsh (c : Int) : Type'.apply .bsh c = if c < 0 then none else some (40 + c) := rfl
theorem valueOf_eq (c : Int) : valueOf c = if c < 0 then none else if c < 0 then some .bmc else if c < 10 then some .bmv
    else if c < 25 then some .bsh else some .bsh := rfl

/-- C35: a type and a code in it can be recovered from the revert code. -/
theorem C35_apply_recover (t : Type') (c x : Int) (h : t.apply c = some x) : t.recover x = some c := by
  unfold Type'.apply at h
  split at h
  · cases h
  · rename_i hc
    have key : t.offset + c = x := by
      cases t <;> simp only [Type'.next] at h <;> first | (split at h <;> simp_all) | simp_all
    have ho : 0 ≤ t.offset := by cases t <;> decide
    unfold Type'.recover
    rw [if_neg (by omega)]
    congr 1; omega

/-- The documented type of a revert code. -/
def typeOf (c : Int) : Type' := if c < 10 then .btp else if c < 25 then .bmc else if c < 40 then .bmv else .bsh

/-- C35: a revert code lies in the range of its type: exceptions of different types never have the same code. -/
theorem C35_apply_type (t : Type') (c x : Int) (h : t.apply c = some x) : typeOf x = t ∧ 0 ≤ x := by
  by_cases hc : c < 0
  · cases t <;> simp [apply_btp, apply_bmc, apply_bmv, apply_bsh, hc] at h
  · unfold typeOf
    cases t
    · rw [apply_btp, if_neg hc] at h
      split at h
      · cases h
      · injection h with h; subst h
        exact ⟨if_pos (by omega), by omega⟩
    · rw [apply_bmc, if_neg hc] at h
      split at h
      · cases h
      · injection h with h; subst h
        rw [if_neg (by omega), if_pos (by omega)]
        exact ⟨rfl, by omega⟩
    · rw [apply_bmv, if_neg hc] at h
      split at h
      · cases h
      · injection h with h; subst h
        rw [if_neg (by omega), if_neg (by omega), if_pos (by omega)]
        exact ⟨rfl, by omega⟩
    · rw [apply_bsh, if_neg hc] at h
      injection h with h; subst h
      rw [if_neg (by omega), if_neg (by omega), if_neg (by omega)]
      exact ⟨rfl, by omega⟩

/-- C35: two exceptions with the same revert code are of the same type and have the same code in it. -/
theorem C35_apply_injective (t t' : Type') (c c' x : Int) (h : t.apply c = some x) (h' : t'.apply c' = some x) :
    t = t' ∧ c = c' := by
  have e : t = t' := (C35_apply_type t c x h).1.symm.trans (C35_apply_type t' c' x h').1
  subst e
  have := (C35_apply_recover _ _ _ h).symm.trans (C35_apply_recover _ _ _ h')
  exact ⟨rfl, by simpa using this⟩

/-- C35: which codes a type accepts. -/
theorem C35_apply_accepts (t : Type') (c : Int) :
    (∃ x, t.apply c = some x) ↔ 0 ≤ c ∧ (t = .btp → c < 10) ∧ (t = .bmc → c < 15) ∧ (t = .bmv → c < 15) := by
  by_cases hc : c < 0
  · constructor
    · rintro ⟨x, hx⟩
      cases t <;> simp [apply_btp, apply_bmc, apply_bmv, apply_bsh, hc] at hx
    · rintro ⟨h, -⟩; omega
  · cases t <;> simp only [apply_btp, apply_bmc, apply_bmv, apply_bsh, if_neg hc, reduceCtorEq, false_implies,
      true_implies, true_and, and_true]
    · split
      · constructor
        · rintro ⟨x, hx⟩; cases hx
        · omega
      · exact ⟨fun _ => by omega, fun _ => ⟨_, rfl⟩⟩
    · split
      · constructor
        · rintro ⟨x, hx⟩; cases hx
        · omega
      · exact ⟨fun _ => by omega, fun _ => ⟨_, rfl⟩⟩
    · split
      · constructor
        · rintro ⟨x, hx⟩; cases hx
        · omega
      · exact ⟨fun _ => by omega, fun _ => ⟨_, rfl⟩⟩
    · exact ⟨fun _ => by omega, fun _ => ⟨_, rfl⟩⟩

/-- C35, false: the type looked up from a revert code is wrong for every code below 40. -/
theorem C35_valueOf_wrong (c : Int) (h : 0 ≤ c) : ∃ t, valueOf c = some t ∧ (t = typeOf c ↔ 40 ≤ c) := by
  have h0 : ¬ c < 0 := by omega
  simp only [valueOf_eq, if_neg h0, typeOf]
  by_cases h1 : c < 10
  · exact ⟨_, by rw [if_pos h1], by rw [if_pos h1]; simp; omega⟩
  · rw [if_neg h1, if_neg h1]
    by_cases h2 : c < 25
    · exact ⟨_, by rw [if_pos h2], by rw [if_pos h2]; simp; omega⟩
    · rw [if_neg h2, if_neg h2]
      refine ⟨_, rfl, ?_⟩
      by_cases h3 : c < 40
      · rw [if_pos h3]; simp; omega
      · rw [if_neg h3]; simp; omega

/-- C35: rethrowing keeps the revert code of a called contract, whatever type is put on it. -/
theorem C35_of_keeps_code (c : Int) (h : 0 ≤ c) : ∃ t, of (.reverted c) = some ⟨t, c⟩ := by
  obtain ⟨t, ht, -⟩ := C35_valueOf_wrong c h
  exact ⟨t, by simp [of, mkOf, ht]⟩

/-- C35, false: the rethrown error of a verifier (codes 25 to 39) has a negative code in its type, so that comparing it
with a verifier's code never succeeds. -/
theorem C35_of_code_of_type (t : Type') (k c : Int) (h : t.apply k = some c) (ht : t ≠ .bsh) :
    ∃ e d, of (.reverted c) = some e ∧ e.codeOfType = some d ∧ d < 0 := by
  obtain ⟨ht', h0⟩ := C35_apply_type t k c h
  have hn : ¬ c < 0 := by omega
  simp only [of, mkOf, valueOf_eq, if_neg hn]
  by_cases h1 : c < 10
  · rw [if_pos h1]
    exact ⟨_, _, rfl, by simp only [Exc.codeOfType, Type'.recover, if_neg hn]; rfl, by simp only [Type'.offset]; omega⟩
  · rw [if_neg h1]
    have h40 : c < 40 := by
      unfold typeOf at ht'
      rw [if_neg h1] at ht'
      by_cases h2 : c < 25
      · omega
      · rw [if_neg h2] at ht'
        by_cases h3 : c < 40
        · exact h3
        · rw [if_neg h3] at ht'; exact absurd ht'.symm ht
    by_cases h2 : c < 25
    · rw [if_pos h2]
      exact ⟨_, _, rfl, by simp only [Exc.codeOfType, Type'.recover, if_neg hn]; rfl, by simp only [Type'.offset]; omega⟩
    · rw [if_neg h2]
      exact ⟨_, _, rfl, by simp only [Exc.codeOfType, Type'.recover, if_neg hn]; rfl, by simp only [Type'.offset]; omega⟩

/-- C35: with a default type, the code of a called service is shifted into the range of that type (BSH: always). -/
theorem C35_ofType_bsh (c : Int) (h : 0 ≤ c) : ofType .bsh (.reverted c) = some ⟨.bsh, 40 + c⟩ := by
  have h0 : ¬ c < 0 := by omega
  simp [ofType, mk, Type'.apply, h0, Type'.next, Type'.offset]

/-! ### Examples -/

example : codeOf (wrap 9 (withStack 8 (wrapc 7 (.base 1 5) 26))) = some 26 := by decide +kernel
example : codeOf (wrap 9 .nil) = none := by decide +kernel
example : (withCode 9 (.base 1 5) 26).map codeOf = some (some 26) := by decide +kernel
example : (withCode 9 (.plain 1) 26).map codeOf = some (some 26) := by decide +kernel
example : is (.base 1 5) (wrap 9 (withStack 8 (wrapc 7 (.base 1 5) 26))) = true := by decide +kernel
example : codeOf (revertErr 3 27) = some 27 := by decide +kernel
example : (newRevertError 11).map (·.2) = some (.named .bmc "BMCRevertUnauthorized") := by decide +kernel
example : (newRevertError 10).map (·.2.cls) = some .btp ∧ classOf 10 = .bmc := by decide +kernel
example : Type'.bmv.apply 1 = some 26 ∧ Type'.bmv.recover 26 = some 1 := by decide +kernel
example : Type'.bmv.apply 15 = none ∧ Type'.bsh.apply 15 = some 55 := by decide +kernel
example : valueOf 26 = some .bsh ∧ valueOf 5 = some .bmv ∧ valueOf 12 = some .bsh := by decide +kernel
example : of (.reverted 26) = some ⟨.bsh, 26⟩ ∧ (Exc.mk .bsh 26).codeOfType = some (-14) := by decide +kernel
example : ofType .bsh (.reverted 3) = some ⟨.bsh, 43⟩ := by decide +kernel

/-- C35: errors made with a code have it, and are neither each other nor what is in them. -/
theorem C35_errorc (a : Nat) (c : Int) : codeOf (errorc a c) = some c ∧ is (errorc a c) (errorc a c) = true ∧
    ∃ b, errorc a c = .coded a c (.plain b) ∧ is (errorc a c) (.plain b) = false := by
  refine ⟨rfl, by simp [errorc, is, Err.ptr], a + 1, rfl, ?_⟩
  simp [errorc, is, Err.ptr]

/-- C35: what is neither an exception of the contracts nor a revert with a code becomes the code 0; its type is the wrong one, and the
code of the type is negative. -/
theorem C35_of_other : ∃ e, of .other = some e ∧ e.code = 0 ∧ e.type = .bmv ∧ typeOf e.code = .btp ∧ e.codeOfType = some (-25) := by
  exact ⟨⟨.bmv, 0⟩, by decide +kernel, rfl, rfl, by decide +kernel, by decide +kernel⟩

end Verif.Errors
