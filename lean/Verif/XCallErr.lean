import Verif.XCallProps
import Verif.SolTextProps
/-!
What an error from the message center does to a call that waits for its answer, in both languages (C138). The Solidity service
writes the code into a text first (CallService.sol:250-251), and the library it uses cannot write numbers of more than 32
digits: the call is then lost, since `handleBTPError` reverts every time, and the rollback is never enabled by it.
-/
namespace Verif.XCall
open Verif.BtpAddress

/-- C138: an error of the message center for a call with rollback data enables the rollback, which then can be run; in the
Solidity service for codes below 10 ^ 32. -/
theorem C138_error_enables_partial (C : Cfg) (s : St) (net : Str) (sn code : Int) (c : Call) (d : Bytes) (h : s.reqs sn = some c)
    (hr : c.rollback = some d) (hd : d ≠ []) (hc : C.lang = .sol → code < 10 ^ 32) :
    ∃ s', step C (.error C.bmc net name sn code) s = some s' ∧ s'.reqs sn = some { c with enabled := true } ∧
      s'.log = s.log ++ [.response sn (-2)] ∧
      ∀ inner out, ∃ s'', step C (.undo sn inner out) s' = some s'' ∧ Ev.undone sn (respCode C.lang out) ∈ s''.log := by
  have hno : ¬ (C.lang = .sol ∧ SolText.toString code.toNat = none) := by
    rintro ⟨h1, h2⟩
    have := hc h1
    obtain ⟨t, ht, _⟩ := SolText.C138_toString code.toNat (by omega)
    rw [ht] at h2; cases h2
  have hp : present C.lang c.rollback = true := by
    rw [hr]; unfold present; cases C.lang <;> simp [hd]
  refine ⟨{ s with
        reqs := fun k => if k = sn then some { c with enabled := true } else s.reqs k
        log := s.log ++ [.response sn (-2)] }, ?_, by simp, rfl, ?_⟩
  · simp only [step, error, ne_eq, not_true_eq_false, if_false, if_neg hno, handleResponse, h, hp]
    rw [if_neg (by decide), if_neg (by decide)]
  · intro inner out
    exact C79_rollback_possible C _ sn { c with enabled := true } (by simp) rfl inner out

/-- C138, negation: the Solidity service refuses errors with a code of more than 32 digits in every state, so that they never
enable a rollback. -/
theorem C138_error_lost_witness (C : Cfg) (s : St) (caller net svc : Str) (sn code : Int) (hl : C.lang = .sol) (hc : 10 ^ 32 ≤ code) :
    step C (.error caller net svc sn code) s = none := by
  simp only [step, error]
  split
  · rfl
  · split
    · rfl
    · rw [if_pos ⟨hl, SolText.C138_toString_reverts _ (by omega)⟩]

namespace Toy
/-- A call with rollback data; an error with a code of 33 digits; then one with code 5. -/
def big : Ops :=
  .cons (.send dapp true (solCompose B target) [1] (some [2]) 10 (some 5) (some 1)) <|
  .cons (.error ['m'] B name 1 (10 ^ 32)) <| .cons (.undo 1 .nil .ok) .nil

def small : Ops :=
  .cons (.send dapp true (solCompose B target) [1] (some [2]) 10 (some 5) (some 1)) <|
  .cons (.error ['m'] B name 1 5) <| .cons (.undo 1 .nil .ok) .nil

example : ((run (cfg .sol) big (init 0)).reqs 1).map (·.enabled) = some false := by decide +kernel
example : Ev.undone 1 0 ∈ (run (cfg .java) big (init 0)).log := by decide +kernel
example : Ev.undone 1 0 ∈ (run (cfg .sol) small (init 0)).log := by decide +kernel
end Toy

end Verif.XCall
