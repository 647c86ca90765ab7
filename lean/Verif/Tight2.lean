import Verif.PyMtaProps
import Verif.JavaBmcProps
import Verif.JavaBtpBlockProps
import Verif.PyTokenProps
import Verif.JavaIconBmvProps
import Verif.AddressProps
import Verif.XCallProps
/-!
Further theorems on C27, C49, C53, C54, C72, C96, C118 and C129, as in `Tight`.
-/

namespace Verif.PyMta

/-- C118: the cache holds the last hashes that were added, as many as its size allows. -/
theorem C118_cache (H : Bytes → Bytes) (hs : List Bytes) (m : M) (hm : m.cache.length ≤ m.cacheSize) :
    (addAll H m hs).cache = (m.cache ++ hs).drop (m.cache.length + hs.length - m.cacheSize) ∧ (addAll H m hs).cacheSize = m.cacheSize := by
  have hadd : ∀ (m : M) (h : Bytes), (add H m h).cache = (putCache m h).cache ∧ (add H m h).cacheSize = m.cacheSize := by
    intro m h
    unfold add
    dsimp only
    split
    · exact ⟨rfl, rfl⟩
    · split <;> exact ⟨rfl, rfl⟩
  have hput : ∀ (m : M) (h : Bytes), m.cache.length ≤ m.cacheSize → (putCache m h).cache = (m.cache ++ [h]).drop (m.cache.length + 1 - m.cacheSize) := by
    intro m h hm
    unfold putCache
    dsimp only
    split
    · simp
    · have : m.cache = [] := List.eq_nil_of_length_eq_zero (by omega)
      have hz : m.cacheSize = 0 := by omega
      simp [this, hz]
  induction hs generalizing m with
  | nil =>
    have : m.cache.length - m.cacheSize = 0 := by omega
    simp [addAll, this]
  | cons h t ih =>
    obtain ⟨a1, a2⟩ := hadd m h
    have h1 := hput m h hm
    have hl : (add H m h).cache.length ≤ (add H m h).cacheSize := by
      rw [a1, a2, h1, List.length_drop, List.length_append]
      simp only [List.length_cons, List.length_nil]
      omega
    obtain ⟨i1, i2⟩ := ih (add H m h) hl
    refine ⟨?_, by rw [← a2, ← i2]; rfl⟩
    show (addAll H (add H m h) t).cache = _
    rw [i1, a2, a1, h1]
    by_cases hc : m.cache.length + 1 ≤ m.cacheSize
    · have e0 : m.cache.length + 1 - m.cacheSize = 0 := by omega
      rw [e0]
      simp [Nat.add_assoc, Nat.add_comm 1]
    · have e0 : m.cache.length + 1 - m.cacheSize = 1 := by omega
      rw [e0]
      have e1 : ((m.cache ++ [h]).drop 1 ++ t) = (m.cache ++ h :: t).drop 1 := by
        cases m.cache with
        | nil => simp
        | cons x xs => simp
      rw [e1, List.drop_drop]
      congr 1
      simp only [List.length_drop, List.length_append, List.length_cons, List.length_nil]
      omega

example : (addAll (fun _ => []) { init 0 with cacheSize := 2 } [[1], [2], [3]]).cache = [[2], [3]] := by decide +kernel
example : (addAll (fun _ => []) { init 0 with cacheSize := 1 } [[1], [2], [3]]).cache = [[3]] := by decide +kernel

end Verif.PyMta

namespace Verif.JavaBmc

/-- C72: the response code for a failure of the message center itself, other than the two with codes of their own, is 1; for a
failure of the service that is none of the center's exceptions it is 4. -/
theorem C72_java_own : toResp exUnknown = 1 ∧ toResp exNoLink = 1 ∧ toResp exDrop = 1 ∧ toResp exOther = 4 := by decide

end Verif.JavaBmc

namespace Verif.JavaBtpBlock

/-- C49: the network name is what follows the last slash of the source network; without a slash all of it. -/
theorem C49_java_network (s : St) (p n : Bytes) (hn : (0x2f : UInt8) ∉ n) :
    (s.src = p ++ 0x2f :: n → s.network = n) ∧ (s.src = n → s.network = n) := by
  have h : ∀ l : Bytes, (0x2f : UInt8) ∉ l → ∀ r, (l ++ r).takeWhile (· ≠ 0x2f) = l ++ r.takeWhile (· ≠ 0x2f) := by
    intro l hl r
    induction l with
    | nil => rfl
    | cons x t ih =>
      simp only [List.mem_cons, not_or] at hl
      rw [List.cons_append, List.takeWhile_cons, if_pos (by simpa using Ne.symm hl.1), ih hl.2]
      rfl
  have hr : (0x2f : UInt8) ∉ n.reverse := by simpa using hn
  unfold St.network
  constructor
  · intro e
    rw [e]
    simp only [List.reverse_append, List.reverse_cons, List.append_assoc, List.cons_append, List.nil_append]
    rw [h _ hr]
    simp
  · intro e
    have := h _ hr []
    simp only [List.append_nil, List.takeWhile_nil] at this
    rw [e, this]
    simp

example : (⟨[0x61, 0x2f, 0x62, 0x2f, 0x63], 1, 3, none, none, [], [7], 0, none, 0, 0, 10, 0⟩ : St).network = [0x63] := by decide +kernel

end Verif.JavaBtpBlock

namespace Verif.PyToken

/-- C129: the error handler refuses everyone but the message center with code 41, and numbers without a pending transfer with 43. -/
theorem C129_error_codes (c : Cfg) (s : St) (x : Nat) (sn : Int) :
    (x ≠ c.bmc → onError c s x sn = .btp 41) ∧ (x = c.bmc → s.pending sn = none → onError c s x sn = .btp 43) := by
  unfold onError
  exact ⟨fun h => if_pos h, fun h hp => by rw [if_neg (by simp [h]), if_pos hp]⟩

end Verif.PyToken

namespace Verif.JavaIconBmv

/-- The event can be read: it has an address, and if it is of the contract `prev` it is not a broken message event. -/
def Readable (prev : Bytes) (e : EventLog) : Prop := e.address ≠ none ∧ (e.address = some prev → ∃ o, toMessage e = .ok o)

/-- C96: events of a receipt are accepted, if they can be read and the numbers of their messages follow one another. -/
theorem C96_events_accepted (prev bmc : Bytes) (es : List EventLog) (l : List (Int × Bytes)) (hs : Sel prev bmc es l)
    (hr : ∀ e ∈ es, Readable prev e) (n : Int) (ms : List Bytes) (hn : ∀ (i : Nat) (x : Int × Bytes), l[i]? = some x → x.1 = n + i) :
    events prev bmc n ms es = .ok (n + l.length, ms ++ l.map (·.2)) := by
  induction hs generalizing n ms with
  | nil => simp [events]
  | skip e es l hno _ ih =>
    obtain ⟨r1, r2⟩ := hr e (by simp)
    have ih := ih (fun x hx => hr x (by simp [hx])) n ms hn
    unfold events
    cases ha : e.address with
    | none => exact absurd ha r1
    | some a =>
      dsimp only
      by_cases hp : prev = a
      · subst hp
        obtain ⟨o, ho⟩ := r2 ha
        rw [if_neg (by simp), ho]
        unfold R.bind
        cases o with
        | none => exact ih
        | some m =>
          dsimp only
          by_cases hb : m.next = bmc
          · exfalso
            have := (toMessage_iff e m).1 ho
            rw [hb] at this
            exact hno _ _ ⟨ha, this⟩
          · rw [if_pos hb]; exact ih
      · rw [if_pos hp]; exact ih
  | take e es l q m hm _ ih =>
    have h0 : q = n := by have := hn 0 (q, m) rfl; simpa using this
    have ih := ih (fun x hx => hr x (by simp [hx])) (n + 1) (ms ++ [m]) (by
      intro i x hx
      have := hn (i + 1) x (by simpa using hx)
      omega)
    obtain ⟨ha, hm⟩ := hm
    have ho := (toMessage_iff e ⟨bmc, q, m⟩).2 hm
    unfold events
    rw [ha]
    dsimp only
    rw [if_neg (by simp), ho]
    unfold R.bind
    dsimp only
    rw [if_neg (by simp), if_neg (by omega), if_neg (by omega), ih]
    simp only [List.length_cons, List.map_cons, List.append_assoc, List.cons_append, List.nil_append, R.ok.injEq, Prod.mk.injEq, and_true]
    omega

/-- C96: a message with a greater number is refused as coming too early, one with a smaller number as seen before. -/
theorem C96_events_refused (prev bmc : Bytes) (e : EventLog) (es : List EventLog) (q n : Int) (m : Bytes) (ms : List Bytes)
    (hm : IsMessage prev bmc e q m) :
    (n < q → events prev bmc n ms (e :: es) = .err .seqHigher) ∧ (q < n → events prev bmc n ms (e :: es) = .err .seq) := by
  obtain ⟨ha, hm⟩ := hm
  have ho := (toMessage_iff e ⟨bmc, q, m⟩).2 hm
  unfold events
  rw [ha]
  dsimp only
  rw [if_neg (by simp), ho]
  unfold R.bind
  dsimp only
  rw [if_neg (by simp)]
  exact ⟨fun h => if_pos (by omega), fun h => by rw [if_neg (by omega), if_pos (by omega)]⟩

end Verif.JavaIconBmv

namespace Verif.Address

/-- C27: text without a prefix is read as with the prefix `hx`. -/
theorem C27_no_prefix (a : Bytes) (s : List Char) (hx : ∀ p t, s ≠ p :: 'x' :: t) : setString a s = setString a ('h' :: 'x' :: s) := by
  unfold setString
  split
  rename_i ic s1 he
  split at he
  · exact absurd rfl (hx 'c' _)
  · exact absurd rfl (hx 'h' _)
  · exact absurd rfl (hx '0' _)
  · cases he; rfl

example : setString zero "0123456789012345678901234567890123456789".toList = setString zero "hx0123456789012345678901234567890123456789".toList := by
  decide +kernel

end Verif.Address

namespace Verif.XCall

/-- C53, C54: of a called contract that fails, nothing of what it did while it ran is left. -/
theorem C53_failed_call (C : Cfg) (s : St) (id sn nsn : Int) (inner : Ops) (out : Outcome) (h : out ≠ .ok) :
    step C (.exec id inner out nsn) s = step C (.exec id .nil out nsn) s ∧ step C (.undo sn inner out) s = step C (.undo sn .nil out) s := by
  have hc : committed out = false := by cases out <;> first | exact absurd rfl h | rfl
  constructor
  · simp [step, hc]
  · simp [step, hc]

end Verif.XCall
