import Verif.JavaObj
import Verif.BtpAddressProps
/-!
C153: what the Java contracts write, they read back: the `writeObject` and `readObject` methods of 58 classes.
-/
namespace Verif.JavaObj
open Verif Verif.IntConv Verif.BtpAddress

/-! ### one write, one read -/

/-- `r` reads what `w` wrote, whatever follows. -/
def RTs {α : Type} (w : W) (r : Rd α) (x : α) : Prop := ∀ l, w = some l → ∀ rest, r (l ++ rest) = some (x, rest)

/-- Something is written. -/
def Ok1 {α : Type} (w : W) (r : Rd α) (x : α) : Prop := RTs w r x ∧ ∀ l, w = some l → 0 < l.length

/-- Something is written that does not begin with a null. -/
def Ok {α : Type} (w : W) (r : Rd α) (x : α) : Prop := RTs w r x ∧ ∀ l, w = some l → ∃ t ts, l = t :: ts ∧ t ≠ .null

theorem Ok1.rt {w : W} {r : Rd α} {x : α} (h : Ok1 w r x) : RTs w r x := h.1
theorem Ok.rt {w : W} {r : Rd α} {x : α} (h : Ok w r x) : RTs w r x := h.1
theorem Ok.ok1 {w : W} {r : Rd α} {x : α} (h : Ok w r x) : Ok1 w r x :=
  ⟨h.1, fun l e => by obtain ⟨t, ts, e1, _⟩ := h.2 l e; subst e1; simp⟩

theorem bind_some {r : Rd α} {f : α → Rd β} {ts ts' : List T} {x : α} (h : r ts = some (x, ts')) : (r >>= f) ts = f x ts' := by
  show (match r ts with | none => none | some (x, ts') => f x ts') = _
  rw [h]

theorem rt_nil {x : α} : RTs (seqW []) (pure x) x := by
  intro l h rest
  simp only [seqW, Option.some.injEq] at h
  subst h
  rfl

theorem rt_cons {w : W} {ws : List W} {r : Rd α} {f : α → Rd β} {a : α} {x : β} (h1 : RTs w r a) (h2 : RTs (seqW ws) (f a) x) :
    RTs (seqW (w :: ws)) (r >>= f) x := by
  intro l h rest
  simp only [seqW] at h
  cases hw : w with
  | none => rw [hw] at h; simp at h
  | some a1 =>
    cases hs : seqW ws with
    | none => rw [hw, hs] at h; simp at h
    | some b1 =>
      rw [hw, hs] at h
      simp only [Option.bind_some, Option.map_some, Option.some.injEq] at h
      subst h
      rw [List.append_assoc, bind_some (h1 a1 hw (b1 ++ rest))]
      exact h2 b1 hs rest

theorem ok_item {t : T} {r : Rd α} {x : α} (ht : t ≠ .null) (h : ∀ rest, r (t :: rest) = some (x, rest)) : Ok (some [t]) r x := by
  refine ⟨?_, ?_⟩
  · intro l e rest
    simp only [Option.some.injEq] at e
    subst e
    exact h rest
  · intro l e
    simp only [Option.some.injEq] at e
    exact ⟨t, [], e.symm, ht⟩

theorem ok_bytes (b : Bytes) : Ok (wBytes b) rBytes b := ok_item (by simp) fun _ => rfl

theorem ok_str (R : Rt) (s : Str) : Ok (wStr R s) (rStr R) s := ok_item (by simp) fun rest => by
  show ((R.unUtf8 (R.utf8 s)).map fun s => (s, rest)) = _
  rw [R.utf8_ok]
  rfl

theorem ok_big (i : Int) : Ok (wBig i) rBig i := ok_item (by simp) fun rest => by
  show some (bigIntSetBytes (bigIntToBytes i), rest) = _
  rw [(C04_bigInt_roundtrip i).1]

/-- Every number that fits in `k` bytes is the value of some `k` bytes. -/
theorem exists_len (k : Nat) : ∀ i : Int, fits (k + 1) i → ∃ cs : Bytes, cs.length = k + 1 ∧ sval cs = i := by
  have hb : ∀ i : Int, (UInt8.ofNat (i % 256).toNat).toNat = (i % 256).toNat := by
    intro i
    rw [UInt8.toNat_ofNat']
    omega
  induction k with
  | zero =>
    intro i h
    refine ⟨[UInt8.ofNat (i % 256).toNat], rfl, ?_⟩
    rw [sval_single, hb]
    simp only [fits, Nat.zero_add, Nat.mul_one] at h
    have e : (2 : Int) ^ (8 - 1) = 128 := rfl
    rw [e] at h
    split <;> omega
  | succ k ih =>
    intro i h
    obtain ⟨cs, c1, c2⟩ := ih (i / 256) ((fits_succ_div (by omega) i).mp h)
    refine ⟨cs ++ [UInt8.ofNat (i % 256).toNat], by simp [c1], ?_⟩
    rw [sval_snoc _ _ (by intro e; subst e; simp at c1), c2, hb]
    omega

theorem big_len (k : Nat) (i : Int) (h : fits (k + 1) i) : (bigIntToBytes i).length ≤ k + 1 := by
  obtain ⟨cs, c1, c2⟩ := exists_len k i h
  obtain ⟨h3, h4⟩ := C04_bigInt_roundtrip i
  rw [C04_bigIntSetBytes_value] at h3
  rw [← c1]
  exact h4.2 cs (by intro e; subst e; simp at c1) (by rw [c2, h3])

theorem ok_long (i : Int64) : Ok (wLong i) rLong i := ok_item (by simp) fun rest => by
  show (if 8 < (bigIntToBytes i.toInt).length then none else some (Int64.ofInt (bigIntSetBytes (bigIntToBytes i.toInt)), rest)) = _
  have h1 := i.toInt_lt
  have h2 := i.le_toInt
  have := big_len 7 i.toInt (by unfold fits; omega)
  rw [if_neg (by omega), (C04_bigInt_roundtrip i.toInt).1, Int64.ofInt_toInt]

theorem ok_int (i : Int32) : Ok (wInt i) rInt i := ok_item (by simp) fun rest => by
  show (if 4 < (bigIntToBytes i.toInt).length then none else some (Int32.ofInt (bigIntSetBytes (bigIntToBytes i.toInt)), rest)) = _
  have h1 := i.toInt_lt
  have h2 := i.le_toInt
  have := big_len 3 i.toInt (by unfold fits; omega)
  rw [if_neg (by omega), (C04_bigInt_roundtrip i.toInt).1, Int32.ofInt_toInt]

theorem ok_bool (b : Bool) : Ok (wBool b) rBool b := ok_item (by simp) fun rest => by cases b <;> rfl

theorem ok_addr (a : Addr) : Ok (wAddr a) rAddr a := ok_item (by simp) fun rest => by
  show (if h : a.val.length = 21 then some ((⟨a.val, h⟩ : Addr), rest) else none) = _
  rw [dif_pos a.property]
  rfl

/-- A BTP address that parsing its text gives back. -/
def Stable (a : JAddr) : Prop := jParse a.toStr = a

theorem ok_btp (R : Rt) (a : JAddr) (h : Stable a) : Ok (wBtp R a) (rBtp R) a := by
  have h1 := ok_str R a.toStr
  refine ⟨fun l e rest => ?_, h1.2⟩
  show (rStr R >>= fun s => pure (jParse s)) _ = _
  rw [bind_some (h1.1 l e rest)]
  rw [h]
  rfl

theorem req_some {r : Rd α} {ts ts' : List T} {x : α} (h : r ts = some (x, ts')) : rReq r ts = some (some x, ts') := by
  show (r >>= fun x => pure (some x)) ts = _
  rw [bind_some h]
  rfl

theorem ok_req {w : α → W} {r : Rd α} {o : Option α} (h : ∀ x, o = some x → Ok (w x) r x) : Ok (wReq w o) (rReq r) o := by
  cases o with
  | none => exact ⟨fun l e => by simp [wReq] at e, fun l e => by simp [wReq] at e⟩
  | some x => exact ⟨fun l e rest => req_some ((h x rfl).1 l e rest), (h x rfl).2⟩

theorem null_some {r : Rd α} {l rest : List T} {x : α} (h : r (l ++ rest) = some (x, rest)) (hn : ∃ t ts, l = t :: ts ∧ t ≠ .null) :
    rNull r (l ++ rest) = some (some x, rest) := by
  obtain ⟨t, ts, e, ht⟩ := hn
  subst e
  cases t with
  | null => exact absurd rfl ht
  | bytes b => exact req_some h
  | list b => exact req_some h

theorem ok_req_null {w : α → W} {r : Rd α} {o : Option α} (h : ∀ x, o = some x → Ok (w x) r x) : Ok (wReq w o) (rNull r) o := by
  cases o with
  | none => exact ⟨fun l e => by simp [wReq] at e, fun l e => by simp [wReq] at e⟩
  | some x => exact ⟨fun l e rest => null_some ((h x rfl).1 l e rest) ((h x rfl).2 l e), (h x rfl).2⟩

theorem ok1_null {w : α → W} {r : Rd α} {o : Option α} (h : ∀ x, o = some x → Ok (w x) r x) : Ok1 (wNull w o) (rNull r) o := by
  cases o with
  | none =>
    refine ⟨fun l e rest => ?_, fun l e => ?_⟩ <;>
    · simp only [wNull, Option.some.injEq] at e
      subst e
      first | rfl | simp
  | some x => exact ⟨fun l e rest => null_some ((h x rfl).1 l e rest) ((h x rfl).2 l e), (h x rfl).ok1.2⟩

theorem ok_list {w : W} {r : Rd α} {x : α} (h : RTs w r x) : Ok (wList w) (rList r) x := by
  cases hw : w with
  | none => exact ⟨fun l e => by simp [wList] at e, fun l e => by simp [wList] at e⟩
  | some l0 =>
    refine ok_item (by simp) fun rest => ?_
    have := h l0 hw []
    rw [List.append_nil] at this
    show (r l0).map _ = _
    rw [this]
    rfl

theorem loop_ok {w : α → W} {r : Rd α} : ∀ (xs : List α) (l : List T) (n : Nat), (∀ x ∈ xs, Ok1 (w x) r x) → seqW (xs.map w) = some l →
    l.length ≤ n → rLoop r n l = some (xs, [])
  | [], l, n, _, e, _ => by
    simp only [List.map_nil, seqW, Option.some.injEq] at e
    subst e
    cases n <;> rfl
  | x :: xs, l, n, h, e, hn => by
    simp only [List.map_cons, seqW] at e
    cases hw : w x with
    | none => rw [hw] at e; simp at e
    | some a =>
      cases hs : seqW (xs.map w) with
      | none => rw [hw, hs] at e; simp at e
      | some b =>
        rw [hw, hs] at e
        simp only [Option.bind_some, Option.map_some, Option.some.injEq] at e
        subst e
        obtain ⟨h1, h2⟩ := h x (by simp)
        have hl := h2 a hw
        cases n with
        | zero => simp only [List.length_append] at hn; omega
        | succ n =>
          have ih := loop_ok xs b n (fun y hy => h y (by simp [hy])) hs (by simp only [List.length_append] at hn; omega)
          have hne : (a ++ b).isEmpty = false := by
            cases a with
            | nil => simp at hl
            | cons _ _ => rfl
          rw [rLoop, hne, h1 a hw b]
          simp only [Bool.false_eq_true, if_false]
          rw [ih]
          rfl

theorem ok_arr {w : α → W} {r : Rd α} {xs : List α} (h : ∀ x ∈ xs, Ok1 (w x) r x) : Ok (wArr w xs) (rArr r) xs := by
  unfold wArr wList
  cases hs : seqW (xs.map w) with
  | none => exact ⟨fun l e => by simp at e, fun l e => by simp at e⟩
  | some l0 =>
    refine ok_item (by simp) fun rest => ?_
    show (rLoop r l0.length l0).map _ = _
    rw [loop_ok xs l0 l0.length h hs (Nat.le_refl _)]
    rfl

theorem ok_nest {R : Rt} {w : α → W} {r : Rd α} {x : α} (h : RTs (w x) r x) : Ok (wNest R w x) (rNest R r) x := by
  unfold wNest
  cases hw : w x with
  | none => exact ⟨fun l e => by simp at e, fun l e => by simp at e⟩
  | some l0 =>
    refine ok_item (by simp) fun rest => ?_
    have := h l0 hw []
    rw [List.append_nil] at this
    show (match R.dec (R.enc l0) with | none => none | some l => (r l).map fun (p : α × List T) => (p.1, rest)) = _
    rw [R.ok]
    simp only [this]
    rfl

/-- One step of the proof for a class; the classes already done are added below. -/
syntax "rt_step" : tactic
macro_rules | `(tactic| rt_step) => `(tactic| (with_reducible apply ok_req_null; intro _ _))
macro_rules | `(tactic| rt_step) => `(tactic| (with_reducible apply ok_req; intro _ _))
macro_rules | `(tactic| rt_step) => `(tactic| with_reducible apply ok_nest)
macro_rules | `(tactic| rt_step) => `(tactic| (with_reducible apply ok_arr; intro _ _))
macro_rules | `(tactic| rt_step) => `(tactic| with_reducible apply ok_list)
macro_rules | `(tactic| rt_step) => `(tactic| with_reducible apply Ok.ok1)
macro_rules | `(tactic| rt_step) => `(tactic| with_reducible apply Ok.rt)
macro_rules | `(tactic| rt_step) => `(tactic| (with_reducible apply ok1_null; intro _ _))
macro_rules | `(tactic| rt_step) => `(tactic| (with_reducible apply Ok1.rt; with_reducible apply ok1_null; intro _ _))
macro_rules | `(tactic| rt_step) => `(tactic| with_reducible apply ok_bytes)
macro_rules | `(tactic| rt_step) => `(tactic| with_reducible apply ok_str)
macro_rules | `(tactic| rt_step) => `(tactic| with_reducible apply ok_big)
macro_rules | `(tactic| rt_step) => `(tactic| with_reducible apply ok_long)
macro_rules | `(tactic| rt_step) => `(tactic| with_reducible apply ok_int)
macro_rules | `(tactic| rt_step) => `(tactic| with_reducible apply ok_bool)
macro_rules | `(tactic| rt_step) => `(tactic| with_reducible apply ok_addr)
macro_rules | `(tactic| rt_step) => `(tactic| with_reducible apply rt_nil)
macro_rules | `(tactic| rt_step) => `(tactic| with_reducible apply rt_cons)

theorem ok_BMVStatus (R : Rt) (x : BMVStatus) : Ok (wBMVStatus R x) (rBMVStatus R) x := by
  unfold wBMVStatus rBMVStatus
  repeat' rt_step
macro_rules | `(tactic| rt_step) => `(tactic| with_reducible apply ok_BMVStatus)

theorem ok_BMCMessage (R : Rt) (x : BMCMessage) : Ok (wBMCMessage R x) (rBMCMessage R) x := by
  unfold wBMCMessage rBMCMessage
  repeat' rt_step
macro_rules | `(tactic| rt_step) => `(tactic| with_reducible apply ok_BMCMessage)

theorem ok_BMCRequest (R : Rt) (x : BMCRequest) : Ok (wBMCRequest R x) (rBMCRequest R) x := by
  unfold wBMCRequest rBMCRequest
  repeat' rt_step
macro_rules | `(tactic| rt_step) => `(tactic| with_reducible apply ok_BMCRequest)

/-- The addresses in it are read back. -/
def StRoute (x : Route) : Prop :=
  (∀ a, x.destination = some a → Stable a) ∧ (∀ a, x.next = some a → Stable a)

theorem ok_Route (R : Rt) (x : Route) (h : StRoute x) : Ok (wRoute R x) (rRoute R) x := by
  unfold wRoute rRoute
  unfold StRoute at h
  repeat' rt_step
  all_goals
    apply ok_btp
    simp_all
/-- The addresses in it are read back. -/
def StInitMessage (x : InitMessage) : Prop :=
  (∀ l, x.links = some l → ∀ o ∈ l, ∀ a, o = some a → Stable a)

theorem ok_InitMessage (R : Rt) (x : InitMessage) (h : StInitMessage x) : Ok (wInitMessage R x) (rInitMessage R) x := by
  unfold wInitMessage rInitMessage
  unfold StInitMessage at h
  repeat' rt_step
  all_goals
    apply ok_btp
    exact h _ ‹_› _ ‹_› _ ‹_›
/-- The addresses in it are read back. -/
def StLinkMessage (x : LinkMessage) : Prop :=
  (∀ a, x.link = some a → Stable a)

theorem ok_LinkMessage (R : Rt) (x : LinkMessage) (h : StLinkMessage x) : Ok (wLinkMessage R x) (rLinkMessage R) x := by
  unfold wLinkMessage rLinkMessage
  unfold StLinkMessage at h
  repeat' rt_step
  all_goals
    apply ok_btp
    simp_all
/-- The addresses in it are read back. -/
def StUnlinkMessage (x : UnlinkMessage) : Prop :=
  (∀ a, x.link = some a → Stable a)

theorem ok_UnlinkMessage (R : Rt) (x : UnlinkMessage) (h : StUnlinkMessage x) : Ok (wUnlinkMessage R x) (rUnlinkMessage R) x := by
  unfold wUnlinkMessage rUnlinkMessage
  unfold StUnlinkMessage at h
  repeat' rt_step
  all_goals
    apply ok_btp
    simp_all
theorem ok_FeeInfo (R : Rt) (x : FeeInfo) : Ok (wFeeInfo R x) (rFeeInfo R) x := by
  unfold wFeeInfo rFeeInfo
  repeat' rt_step
macro_rules | `(tactic| rt_step) => `(tactic| with_reducible apply ok_FeeInfo)

/-- The addresses in it are read back. -/
def StLink (x : Link) : Prop :=
  (∀ a, x.addr = some a → Stable a) ∧ (∀ l, x.reachable = some l → ∀ o ∈ l, ∀ a, o = some a → Stable a)

theorem ok_Link (R : Rt) (x : Link) (h : StLink x) : Ok (wLink R x) (rLink R) x := by
  unfold wLink rLink
  unfold StLink at h
  repeat' rt_step
  all_goals
    apply ok_btp
    first
      | exact h.1 _ ‹_›
      | exact h.2 _ ‹_› _ ‹_› _ ‹_›
theorem ok_ResponseInfo (R : Rt) (x : ResponseInfo) : Ok (wResponseInfo R x) (rResponseInfo R) x := by
  unfold wResponseInfo rResponseInfo
  repeat' rt_step
macro_rules | `(tactic| rt_step) => `(tactic| with_reducible apply ok_ResponseInfo)

theorem ok_BTPMessage (R : Rt) (x : BTPMessage) : Ok (wBTPMessage R x) (rBTPMessage R) x := by
  unfold wBTPMessage rBTPMessage
  repeat' rt_step
macro_rules | `(tactic| rt_step) => `(tactic| with_reducible apply ok_BTPMessage)

theorem ok_ClaimMessage (R : Rt) (x : ClaimMessage) : Ok (wClaimMessage R x) (rClaimMessage R) x := by
  unfold wClaimMessage rClaimMessage
  repeat' rt_step
macro_rules | `(tactic| rt_step) => `(tactic| with_reducible apply ok_ClaimMessage)

theorem ok_ResponseMessage (R : Rt) (x : ResponseMessage) : Ok (wResponseMessage R x) (rResponseMessage R) x := by
  unfold wResponseMessage rResponseMessage
  repeat' rt_step
macro_rules | `(tactic| rt_step) => `(tactic| with_reducible apply ok_ResponseMessage)

theorem ok_NAsset (R : Rt) (x : NAsset) : Ok (wNAsset R x) (rNAsset R) x := by
  unfold wNAsset rNAsset
  repeat' rt_step
macro_rules | `(tactic| rt_step) => `(tactic| with_reducible apply ok_NAsset)

theorem ok_TransferRequest (R : Rt) (x : TransferRequest) : Ok (wTransferRequest R x) (rTransferRequest R) x := by
  unfold wTransferRequest rTransferRequest
  repeat' rt_step
macro_rules | `(tactic| rt_step) => `(tactic| with_reducible apply ok_TransferRequest)

theorem ok_TransferResponse (R : Rt) (x : TransferResponse) : Ok (wTransferResponse R x) (rTransferResponse R) x := by
  unfold wTransferResponse rTransferResponse
  repeat' rt_step
macro_rules | `(tactic| rt_step) => `(tactic| with_reducible apply ok_TransferResponse)

theorem ok_NCSMessage (R : Rt) (x : NCSMessage) : Ok (wNCSMessage R x) (rNCSMessage R) x := by
  unfold wNCSMessage rNCSMessage
  repeat' rt_step
macro_rules | `(tactic| rt_step) => `(tactic| with_reducible apply ok_NCSMessage)

theorem ok_NBalance (R : Rt) (x : NBalance) : Ok (wNBalance R x) (rNBalance R) x := by
  unfold wNBalance rNBalance
  repeat' rt_step
macro_rules | `(tactic| rt_step) => `(tactic| with_reducible apply ok_NBalance)

theorem ok_AssetTransferDetail (R : Rt) (x : AssetTransferDetail) : Ok (wAssetTransferDetail R x) (rAssetTransferDetail R) x := by
  unfold wAssetTransferDetail rAssetTransferDetail
  repeat' rt_step
macro_rules | `(tactic| rt_step) => `(tactic| with_reducible apply ok_AssetTransferDetail)

theorem ok_TransferTransaction (R : Rt) (x : TransferTransaction) : Ok (wTransferTransaction R x) (rTransferTransaction R) x := by
  unfold wTransferTransaction rTransferTransaction
  repeat' rt_step
macro_rules | `(tactic| rt_step) => `(tactic| with_reducible apply ok_TransferTransaction)

theorem ok_NCSProperties (R : Rt) (x : NCSProperties) : Ok (wNCSProperties R x) (rNCSProperties R) x := by
  unfold wNCSProperties rNCSProperties
  repeat' rt_step
macro_rules | `(tactic| rt_step) => `(tactic| with_reducible apply ok_NCSProperties)

theorem ok_CallRequest (R : Rt) (x : CallRequest) : Ok (wCallRequest R x) (rCallRequest R) x := by
  unfold wCallRequest rCallRequest
  repeat' rt_step
macro_rules | `(tactic| rt_step) => `(tactic| with_reducible apply ok_CallRequest)

theorem ok_CSMessage (R : Rt) (x : CSMessage) : Ok (wCSMessage R x) (rCSMessage R) x := by
  unfold wCSMessage rCSMessage
  repeat' rt_step
macro_rules | `(tactic| rt_step) => `(tactic| with_reducible apply ok_CSMessage)

theorem ok_CSMessageRequest (R : Rt) (x : CSMessageRequest) : Ok (wCSMessageRequest R x) (rCSMessageRequest R) x := by
  unfold wCSMessageRequest rCSMessageRequest
  repeat' rt_step
macro_rules | `(tactic| rt_step) => `(tactic| with_reducible apply ok_CSMessageRequest)

theorem ok_CSMessageResponse (R : Rt) (x : CSMessageResponse) : Ok (wCSMessageResponse R x) (rCSMessageResponse R) x := by
  unfold wCSMessageResponse rCSMessageResponse
  repeat' rt_step
macro_rules | `(tactic| rt_step) => `(tactic| with_reducible apply ok_CSMessageResponse)

theorem ok_BToken (R : Rt) (x : BToken) : Ok (wBToken R x) (rBToken R) x := by
  unfold wBToken rBToken
  repeat' rt_step
macro_rules | `(tactic| rt_step) => `(tactic| with_reducible apply ok_BToken)

theorem ok_BAsset (R : Rt) (x : BAsset) : Ok (wBAsset R x) (rBAsset R) x := by
  unfold wBAsset rBAsset
  repeat' rt_step
macro_rules | `(tactic| rt_step) => `(tactic| with_reducible apply ok_BAsset)

theorem ok_TransferAsset (R : Rt) (x : TransferAsset) : Ok (wTransferAsset R x) (rTransferAsset R) x := by
  unfold wTransferAsset rTransferAsset
  repeat' rt_step
macro_rules | `(tactic| rt_step) => `(tactic| with_reducible apply ok_TransferAsset)

theorem ok_BBalance (R : Rt) (x : BBalance) : Ok (wBBalance R x) (rBBalance R) x := by
  unfold wBBalance rBBalance
  repeat' rt_step
macro_rules | `(tactic| rt_step) => `(tactic| with_reducible apply ok_BBalance)

theorem ok_BBTPAddress (R : Rt) (x : BBTPAddress) : Ok (wBBTPAddress R x) (rBBTPAddress R) x := by
  unfold wBBTPAddress rBBTPAddress
  repeat' rt_step
macro_rules | `(tactic| rt_step) => `(tactic| with_reducible apply ok_BBTPAddress)

theorem ok_Syndication (R : Rt) (x : Syndication) : Ok (wSyndication R x) (rSyndication R) x := by
  unfold wSyndication rSyndication
  repeat' rt_step
macro_rules | `(tactic| rt_step) => `(tactic| with_reducible apply ok_Syndication)

theorem ok_FToken (R : Rt) (x : FToken) : Ok (wFToken R x) (rFToken R) x := by
  unfold wFToken rFToken
  repeat' rt_step
macro_rules | `(tactic| rt_step) => `(tactic| with_reducible apply ok_FToken)

theorem ok_KStatusExtra (R : Rt) (x : KStatusExtra) : Ok (wKStatusExtra R x) (rKStatusExtra R) x := by
  unfold wKStatusExtra rKStatusExtra
  repeat' rt_step
macro_rules | `(tactic| rt_step) => `(tactic| with_reducible apply ok_KStatusExtra)

theorem ok_KProperties (R : Rt) (x : KProperties) : Ok (wKProperties R x) (rKProperties R) x := by
  unfold wKProperties rKProperties
  repeat' rt_step
macro_rules | `(tactic| rt_step) => `(tactic| with_reducible apply ok_KProperties)

theorem ok_ProofNode (R : Rt) (x : ProofNode) : Ok (wProofNode R x) (rProofNode R) x := by
  unfold wProofNode rProofNode
  repeat' rt_step
macro_rules | `(tactic| rt_step) => `(tactic| with_reducible apply ok_ProofNode)

theorem ok_TypePrefixedMessage (R : Rt) (x : TypePrefixedMessage) : Ok (wTypePrefixedMessage R x) (rTypePrefixedMessage R) x := by
  unfold wTypePrefixedMessage rTypePrefixedMessage
  repeat' rt_step
macro_rules | `(tactic| rt_step) => `(tactic| with_reducible apply ok_TypePrefixedMessage)

theorem ok_KRelayMessage (R : Rt) (x : KRelayMessage) : Ok (wKRelayMessage R x) (rKRelayMessage R) x := by
  unfold wKRelayMessage rKRelayMessage
  repeat' rt_step
macro_rules | `(tactic| rt_step) => `(tactic| with_reducible apply ok_KRelayMessage)

theorem ok_BlockWitness (R : Rt) (x : BlockWitness) : Ok (wBlockWitness R x) (rBlockWitness R) x := by
  unfold wBlockWitness rBlockWitness
  repeat' rt_step
macro_rules | `(tactic| rt_step) => `(tactic| with_reducible apply ok_BlockWitness)

theorem ok_IStatusExtra (R : Rt) (x : IStatusExtra) : Ok (wIStatusExtra R x) (rIStatusExtra R) x := by
  unfold wIStatusExtra rIStatusExtra
  repeat' rt_step
macro_rules | `(tactic| rt_step) => `(tactic| with_reducible apply ok_IStatusExtra)

theorem ok_Proofs (R : Rt) (x : Proofs) : RTs (wProofs R x) (rProofs R) x := by
  have h : RTs (wNull (wArr (wReq wBytes)) x.proofs) (rNull (rArr (rNull rBytes))) x.proofs := by repeat' rt_step
  intro l e rest
  exact bind_some (h l e rest)
macro_rules | `(tactic| rt_step) => `(tactic| with_reducible apply ok_Proofs)

theorem ok_MPTProof (R : Rt) (x : MPTProof) : Ok (wMPTProof R x) (rMPTProof R) x := by
  unfold wMPTProof rMPTProof
  repeat' rt_step
macro_rules | `(tactic| rt_step) => `(tactic| with_reducible apply ok_MPTProof)

theorem ok_ReceiptProof (R : Rt) (x : ReceiptProof) : Ok (wReceiptProof R x) (rReceiptProof R) x := by
  unfold wReceiptProof rReceiptProof
  repeat' rt_step
macro_rules | `(tactic| rt_step) => `(tactic| with_reducible apply ok_ReceiptProof)

theorem ok_PartSetId (R : Rt) (x : PartSetId) : Ok (wPartSetId R x) (rPartSetId R) x := by
  unfold wPartSetId rPartSetId
  repeat' rt_step
macro_rules | `(tactic| rt_step) => `(tactic| with_reducible apply ok_PartSetId)

theorem ok_VoteMessage (R : Rt) (x : VoteMessage) : Ok (wVoteMessage R x) (rVoteMessage R) x := by
  unfold wVoteMessage rVoteMessage
  repeat' rt_step
macro_rules | `(tactic| rt_step) => `(tactic| with_reducible apply ok_VoteMessage)

theorem ok_Vote (R : Rt) (x : Vote) : Ok (wVote R x) (rVote R) x := by
  unfold wVote rVote
  repeat' rt_step
macro_rules | `(tactic| rt_step) => `(tactic| with_reducible apply ok_Vote)

theorem ok_Votes (R : Rt) (x : Votes) : Ok (wVotes R x) (rVotes R) x := by
  unfold wVotes rVotes
  repeat' rt_step
macro_rules | `(tactic| rt_step) => `(tactic| with_reducible apply ok_Votes)

theorem ok_Validators (R : Rt) (x : Validators) : Ok (wValidators R x) (rValidators R) x := by
  have h : Ok (wReq (wArr (wReq wAddr)) x.addresses) (rReq (rArr (rNull rAddr))) x.addresses := by repeat' rt_step
  exact ⟨fun l e rest => bind_some (h.1 l e rest), h.2⟩
macro_rules | `(tactic| rt_step) => `(tactic| with_reducible apply ok_Validators)

theorem ok_ExtensionData (R : Rt) (x : ExtensionData) : RTs (wExtensionData R x) (rExtensionData R) x := by
  have h : RTs (wNull (wArr (wNull wBytes)) x.data) (rNull (rArr (rNull rBytes))) x.data := by repeat' rt_step
  intro l e rest
  exact bind_some (h l e rest)
macro_rules | `(tactic| rt_step) => `(tactic| with_reducible apply ok_ExtensionData)

theorem ok_list0 {w : W} {r : Rd α} {x : α} (h : ∀ l, w = some l → ∃ ts, r l = some (x, ts)) : Ok (wList w) (rList r) x := by
  cases hw : w with
  | none => exact ⟨fun l e => by simp [wList] at e, fun l e => by simp [wList] at e⟩
  | some l0 =>
    refine ok_item (by simp) fun rest => ?_
    obtain ⟨ts, e⟩ := h l0 hw
    show (r l0).map _ = _
    rw [e]
    rfl

/-- Parts that are written at the end of a list, where the reader may look whether there is more. -/
theorem rt0_cons {w : W} {ws : List W} {r : Rd α} {f : α → Rd β} {a : α} {x : β} (h1 : RTs w r a)
    (h2 : ∀ l, seqW ws = some l → ∃ ts, f a l = some (x, ts)) : ∀ l, seqW (w :: ws) = some l → ∃ ts, (r >>= f) l = some (x, ts) := by
  intro l h
  simp only [seqW] at h
  cases hw : w with
  | none => rw [hw] at h; simp at h
  | some a1 =>
    cases hs : seqW ws with
    | none => rw [hw, hs] at h; simp at h
    | some b1 =>
      rw [hw, hs] at h
      simp only [Option.bind_some, Option.map_some, Option.some.injEq] at h
      subst h
      rw [bind_some (h1 a1 hw b1)]
      exact h2 b1 hs

theorem hasNext_bind {f : Bool → Rd β} (ts : List T) : (hasNext >>= f) ts = f (!ts.isEmpty) ts := rfl

theorem ok_Result (R : Rt) (x : Result) : Ok (wResult R x) (rResult R) x := by
  unfold wResult rResult
  apply ok_list0
  apply rt0_cons
  · repeat' rt_step
  apply rt0_cons
  · repeat' rt_step
  apply rt0_cons
  · repeat' rt_step
  intro l h
  rw [hasNext_bind]
  cases he : x.extensionData with
  | none =>
    rw [he] at h
    simp only [seqW, Option.bind_some, Option.map_some, Option.some.injEq, List.append_nil] at h
    subst h
    refine ⟨[], ?_⟩
    rw [← he]
    rfl
  | some e =>
    rw [he] at h
    simp only [seqW] at h
    cases hw : wNest R (wExtensionData R) e with
    | none => rw [hw] at h; simp at h
    | some a =>
      rw [hw] at h
      simp only [Option.map_some, Option.bind_some, List.append_nil, Option.some.injEq] at h
      subst h
      have ok : Ok (wNest R (wExtensionData R) e) (rNest R (rExtensionData R)) e := ok_nest (ok_ExtensionData R e)
      obtain ⟨t, ts, e1, _⟩ := ok.2 a hw
      have hn : (!a.isEmpty) = true := by subst e1; rfl
      rw [hn]
      have h1 := ok.1 a hw []
      rw [List.append_nil] at h1
      refine ⟨[], ?_⟩
      simp only [if_true]
      rw [bind_some (req_some h1), ← he]
      rfl
macro_rules | `(tactic| rt_step) => `(tactic| with_reducible apply ok_Result)
theorem ok_BlockHeader (R : Rt) (x : BlockHeader) : Ok (wBlockHeader R x) (rBlockHeader R) x := by
  unfold wBlockHeader rBlockHeader
  repeat' rt_step
macro_rules | `(tactic| rt_step) => `(tactic| with_reducible apply ok_BlockHeader)

theorem ok_EventLog (R : Rt) (x : EventLog) : Ok (wEventLog R x) (rEventLog R) x := by
  unfold wEventLog rEventLog
  repeat' rt_step
macro_rules | `(tactic| rt_step) => `(tactic| with_reducible apply ok_EventLog)

theorem seqW_none : ∀ ws : List W, none ∈ ws → seqW ws = none
  | [], h => by simp at h
  | w :: ws, h => by
    simp only [seqW]
    cases w with
    | none => rfl
    | some a =>
      have : none ∈ ws := by simpa using h
      rw [seqW_none ws this]
      rfl

theorem all_some_id : ∀ es : List (Option α), none ∉ es → (es.filterMap id).map some = es
  | [], _ => rfl
  | none :: es, h => absurd (by simp) h
  | some e :: es, h => by
    have : none ∉ es := fun m => h (by simp [m])
    simp only [List.filterMap_cons, id_eq, List.map_cons]
    rw [all_some_id es this]

/-- With event logs. -/
theorem ok_Receipt (R : Rt) (x : Receipt) (h : x.eventLogs ≠ none) : Ok (wReceipt R x) (rReceipt R) x := by
  cases he : x.eventLogs with
  | none => exact absurd he h
  | some es =>
    unfold wReceipt rReceipt
    rw [he]
    by_cases hall : none ∈ es
    · have h0 : wArr (wReq (wNest R (wEventLog R))) es = none := by
        unfold wArr
        rw [seqW_none]
        · rfl
        · exact List.mem_map.2 ⟨none, hall, rfl⟩
      have h1 : wNull (wArr (wReq (wNest R (wEventLog R)))) (some es) = none := h0
      rw [h1]
      have h2 : ∀ (a b c d e f g h : W), wList (seqW [a, b, c, d, e, f, none, g, h]) = none := by
        intro a b c d e f g h
        rw [seqW_none _ (by simp)]
        rfl
      rw [h2]
      exact ⟨fun l e => by simp at e, fun l e => by simp at e⟩
    · have hf : RTs (wNull (wArr (wReq (wNest R (wEventLog R)))) (some es)) (rArr (rNull (rNest R (rEventLog R)))) es := by
        show RTs (wArr _ es) _ es
        repeat' rt_step
      apply ok_list
      iterate 6
        apply rt_cons
        · repeat' rt_step
      apply rt_cons
      · exact hf
      apply rt_cons
      · repeat' rt_step
      apply rt_cons
      · repeat' rt_step
      rw [all_some_id es hall, ← he]
      exact rt_nil
theorem ok_MessageEvent (R : Rt) (x : MessageEvent) : Ok (wMessageEvent R x) (rMessageEvent R) x := by
  unfold wMessageEvent rMessageEvent
  repeat' rt_step
macro_rules | `(tactic| rt_step) => `(tactic| with_reducible apply ok_MessageEvent)

theorem ok_MTA (R : Rt) (x : MTA) : Ok (wMTA R x) (rMTA R) x := by
  unfold wMTA rMTA
  apply ok_list
  iterate 7
    apply rt_cons
    · repeat' rt_step
  intro l h rest
  have ok : Ok1 (wNull wInt x.cacheIdx) (rNull rInt) x.cacheIdx := by repeat' rt_step
  cases hw : wNull wInt x.cacheIdx with
  | none => simp only [seqW, hw] at h; simp at h
  | some a =>
    simp only [seqW, hw, Option.bind_some, Option.map_some, List.append_nil, Option.some.injEq] at h
    subst h
    have hl := ok.2 a hw
    rw [hasNext_bind]
    have hn : (!(a ++ rest).isEmpty) = true := by
      cases a with
      | nil => simp at hl
      | cons _ _ => rfl
    rw [hn]
    simp only [if_true]
    rw [bind_some (ok.1 a hw rest)]
    rfl
macro_rules | `(tactic| rt_step) => `(tactic| with_reducible apply ok_MTA)
theorem ok_IProperties (R : Rt) (x : IProperties) : Ok (wIProperties R x) (rIProperties R) x := by
  unfold wIProperties rIProperties
  repeat' rt_step
macro_rules | `(tactic| rt_step) => `(tactic| with_reducible apply ok_IProperties)

theorem ok_BlockUpdate (R : Rt) (x : BlockUpdate) : Ok (wBlockUpdate R x) (rBlockUpdate R) x := by
  unfold wBlockUpdate rBlockUpdate
  repeat' rt_step
macro_rules | `(tactic| rt_step) => `(tactic| with_reducible apply ok_BlockUpdate)

theorem ok_BlockProof (R : Rt) (x : BlockProof) : Ok (wBlockProof R x) (rBlockProof R) x := by
  unfold wBlockProof rBlockProof
  repeat' rt_step
macro_rules | `(tactic| rt_step) => `(tactic| with_reducible apply ok_BlockProof)

theorem ok_IRelayMessage (R : Rt) (x : IRelayMessage) : Ok (wIRelayMessage R x) (rIRelayMessage R) x := by
  unfold wIRelayMessage rIRelayMessage
  repeat' rt_step
macro_rules | `(tactic| rt_step) => `(tactic| with_reducible apply ok_IRelayMessage)

set_option linter.unusedSimpArgs false

/-! ### what can be written -/

theorem can_bytes (b : Bytes) : (wBytes b).isSome ↔ True := by simp [wBytes]
theorem can_str (R : Rt) (s : Str) : (wStr R s).isSome ↔ True := by simp [wStr]
theorem can_big (i : Int) : (wBig i).isSome ↔ True := by simp [wBig]
theorem can_long (i : Int64) : (wLong i).isSome ↔ True := by simp [wLong]
theorem can_int (i : Int32) : (wInt i).isSome ↔ True := by simp [wInt]
theorem can_bool (b : Bool) : (wBool b).isSome ↔ True := by simp [wBool]
theorem can_addr (a : Addr) : (wAddr a).isSome ↔ True := by simp [wAddr]
theorem can_btp (R : Rt) (a : JAddr) : (wBtp R a).isSome ↔ True := by simp [wBtp, wStr]
theorem can_list (w : W) : (wList w).isSome ↔ w.isSome := by cases w <;> simp [wList]
theorem can_nil : (seqW []).isSome ↔ True := by simp [seqW]
theorem can_cons (w : W) (ws : List W) : (seqW (w :: ws)).isSome ↔ w.isSome ∧ (seqW ws).isSome := by
  cases w <;> cases h : seqW ws <;> simp [seqW, h]
theorem can_req (w : α → W) (o : Option α) : (wReq w o).isSome ↔ ∃ x, o = some x ∧ (w x).isSome := by cases o <;> simp [wReq]
theorem can_null (w : α → W) (o : Option α) : (wNull w o).isSome ↔ ∀ x, o = some x → (w x).isSome := by cases o <;> simp [wNull]
theorem can_arr (w : α → W) (xs : List α) : (wArr w xs).isSome ↔ ∀ x ∈ xs, (w x).isSome := by
  unfold wArr
  rw [can_list]
  induction xs with
  | nil => simp [seqW]
  | cons x xs ih => rw [List.map_cons, can_cons, ih]; simp
theorem can_nest (R : Rt) (w : α → W) (x : α) : (wNest R w x).isSome ↔ (w x).isSome := by unfold wNest; cases w x <;> simp

/-- What must not be null. -/
def CanBMVStatus (x : BMVStatus) : Prop :=
  x.extra.isSome

theorem can_BMVStatus (R : Rt) (x : BMVStatus) : (wBMVStatus R x).isSome ↔ CanBMVStatus x := by
  unfold wBMVStatus CanBMVStatus
  simp only [can_bytes, can_str, can_big, can_long, can_int, can_bool, can_addr, can_btp, can_list, can_nil, can_cons, can_req, can_null, can_arr, can_nest]
  try simp [Option.isSome_iff_exists]

/-- Nothing must be set. -/
def CanBMCMessage (_ : BMCMessage) : Prop := True

theorem can_BMCMessage (R : Rt) (x : BMCMessage) : (wBMCMessage R x).isSome ↔ CanBMCMessage x := by
  unfold wBMCMessage CanBMCMessage
  simp only [can_bytes, can_str, can_big, can_long, can_int, can_bool, can_addr, can_btp, can_list, can_nil, can_cons, can_req, can_null, can_arr, can_nest]
  try simp [Option.isSome_iff_exists]

/-- What must not be null. -/
def CanBMCRequest (x : BMCRequest) : Prop :=
  x.dst.isSome ∧ x.msg.isSome ∧ x.caller.isSome

theorem can_BMCRequest (R : Rt) (x : BMCRequest) : (wBMCRequest R x).isSome ↔ CanBMCRequest x := by
  unfold wBMCRequest CanBMCRequest
  simp only [can_bytes, can_str, can_big, can_long, can_int, can_bool, can_addr, can_btp, can_list, can_nil, can_cons, can_req, can_null, can_arr, can_nest, can_BMCMessage, CanBMCMessage]
  try simp [Option.isSome_iff_exists]

/-- Nothing must be set. -/
def CanRoute (_ : Route) : Prop := True

theorem can_Route (R : Rt) (x : Route) : (wRoute R x).isSome ↔ CanRoute x := by
  unfold wRoute CanRoute
  simp only [can_bytes, can_str, can_big, can_long, can_int, can_bool, can_addr, can_btp, can_list, can_nil, can_cons, can_req, can_null, can_arr, can_nest]
  try simp [Option.isSome_iff_exists]

/-- What must not be null. -/
def CanInitMessage (x : InitMessage) : Prop :=
  x.links.isSome

theorem can_InitMessage (R : Rt) (x : InitMessage) : (wInitMessage R x).isSome ↔ CanInitMessage x := by
  unfold wInitMessage CanInitMessage
  simp only [can_bytes, can_str, can_big, can_long, can_int, can_bool, can_addr, can_btp, can_list, can_nil, can_cons, can_req, can_null, can_arr, can_nest]
  try simp [Option.isSome_iff_exists]

/-- Nothing must be set. -/
def CanLinkMessage (_ : LinkMessage) : Prop := True

theorem can_LinkMessage (R : Rt) (x : LinkMessage) : (wLinkMessage R x).isSome ↔ CanLinkMessage x := by
  unfold wLinkMessage CanLinkMessage
  simp only [can_bytes, can_str, can_big, can_long, can_int, can_bool, can_addr, can_btp, can_list, can_nil, can_cons, can_req, can_null, can_arr, can_nest]
  try simp [Option.isSome_iff_exists]

/-- Nothing must be set. -/
def CanUnlinkMessage (_ : UnlinkMessage) : Prop := True

theorem can_UnlinkMessage (R : Rt) (x : UnlinkMessage) : (wUnlinkMessage R x).isSome ↔ CanUnlinkMessage x := by
  unfold wUnlinkMessage CanUnlinkMessage
  simp only [can_bytes, can_str, can_big, can_long, can_int, can_bool, can_addr, can_btp, can_list, can_nil, can_cons, can_req, can_null, can_arr, can_nest]
  try simp [Option.isSome_iff_exists]

/-- What must not be null. -/
def CanFeeInfo (x : FeeInfo) : Prop :=
  x.network.isSome ∧ (∃ y, x.values = some y ∧ ∀ z ∈ y, z.isSome)

theorem can_FeeInfo (R : Rt) (x : FeeInfo) : (wFeeInfo R x).isSome ↔ CanFeeInfo x := by
  unfold wFeeInfo CanFeeInfo
  simp only [can_bytes, can_str, can_big, can_long, can_int, can_bool, can_addr, can_btp, can_list, can_nil, can_cons, can_req, can_null, can_arr, can_nest]
  try simp [Option.isSome_iff_exists]

/-- What must not be null. -/
def CanLink (x : Link) : Prop :=
  (∀ y, x.reachable = some y → ∀ z ∈ y, z.isSome)

theorem can_Link (R : Rt) (x : Link) : (wLink R x).isSome ↔ CanLink x := by
  unfold wLink CanLink
  simp only [can_bytes, can_str, can_big, can_long, can_int, can_bool, can_addr, can_btp, can_list, can_nil, can_cons, can_req, can_null, can_arr, can_nest]
  try simp [Option.isSome_iff_exists]

/-- What must not be null. -/
def CanResponseInfo (x : ResponseInfo) : Prop :=
  x.nsn.isSome ∧ (∀ y, x.feeInfo = some y → CanFeeInfo y)

theorem can_ResponseInfo (R : Rt) (x : ResponseInfo) : (wResponseInfo R x).isSome ↔ CanResponseInfo x := by
  unfold wResponseInfo CanResponseInfo
  simp only [can_bytes, can_str, can_big, can_long, can_int, can_bool, can_addr, can_btp, can_list, can_nil, can_cons, can_req, can_null, can_arr, can_nest, can_FeeInfo]
  try simp [Option.isSome_iff_exists]

/-- What must not be null. -/
def CanBTPMessage (x : BTPMessage) : Prop :=
  x.src.isSome ∧ x.dst.isSome ∧ x.svc.isSome ∧ x.sn.isSome ∧ x.payload.isSome ∧ x.nsn.isSome ∧ (∀ y, x.feeInfo = some y → CanFeeInfo y)

theorem can_BTPMessage (R : Rt) (x : BTPMessage) : (wBTPMessage R x).isSome ↔ CanBTPMessage x := by
  unfold wBTPMessage CanBTPMessage
  simp only [can_bytes, can_str, can_big, can_long, can_int, can_bool, can_addr, can_btp, can_list, can_nil, can_cons, can_req, can_null, can_arr, can_nest, can_FeeInfo]
  try simp [Option.isSome_iff_exists]

/-- What must not be null. -/
def CanClaimMessage (x : ClaimMessage) : Prop :=
  x.amount.isSome ∧ x.receiver.isSome

theorem can_ClaimMessage (R : Rt) (x : ClaimMessage) : (wClaimMessage R x).isSome ↔ CanClaimMessage x := by
  unfold wClaimMessage CanClaimMessage
  simp only [can_bytes, can_str, can_big, can_long, can_int, can_bool, can_addr, can_btp, can_list, can_nil, can_cons, can_req, can_null, can_arr, can_nest]
  try simp [Option.isSome_iff_exists]

/-- Nothing must be set. -/
def CanResponseMessage (_ : ResponseMessage) : Prop := True

theorem can_ResponseMessage (R : Rt) (x : ResponseMessage) : (wResponseMessage R x).isSome ↔ CanResponseMessage x := by
  unfold wResponseMessage CanResponseMessage
  simp only [can_bytes, can_str, can_big, can_long, can_int, can_bool, can_addr, can_btp, can_list, can_nil, can_cons, can_req, can_null, can_arr, can_nest]
  try simp [Option.isSome_iff_exists]

/-- Nothing must be set. -/
def CanNAsset (_ : NAsset) : Prop := True

theorem can_NAsset (R : Rt) (x : NAsset) : (wNAsset R x).isSome ↔ CanNAsset x := by
  unfold wNAsset CanNAsset
  simp only [can_bytes, can_str, can_big, can_long, can_int, can_bool, can_addr, can_btp, can_list, can_nil, can_cons, can_req, can_null, can_arr, can_nest]
  try simp [Option.isSome_iff_exists]

/-- Nothing must be set. -/
def CanTransferRequest (_ : TransferRequest) : Prop := True

theorem can_TransferRequest (R : Rt) (x : TransferRequest) : (wTransferRequest R x).isSome ↔ CanTransferRequest x := by
  unfold wTransferRequest CanTransferRequest
  simp only [can_bytes, can_str, can_big, can_long, can_int, can_bool, can_addr, can_btp, can_list, can_nil, can_cons, can_req, can_null, can_arr, can_nest, can_NAsset, CanNAsset]
  try simp [Option.isSome_iff_exists]

/-- What must not be null. -/
def CanTransferResponse (x : TransferResponse) : Prop :=
  x.code.isSome

theorem can_TransferResponse (R : Rt) (x : TransferResponse) : (wTransferResponse R x).isSome ↔ CanTransferResponse x := by
  unfold wTransferResponse CanTransferResponse
  simp only [can_bytes, can_str, can_big, can_long, can_int, can_bool, can_addr, can_btp, can_list, can_nil, can_cons, can_req, can_null, can_arr, can_nest]
  try simp [Option.isSome_iff_exists]

/-- Nothing must be set. -/
def CanNCSMessage (_ : NCSMessage) : Prop := True

theorem can_NCSMessage (R : Rt) (x : NCSMessage) : (wNCSMessage R x).isSome ↔ CanNCSMessage x := by
  unfold wNCSMessage CanNCSMessage
  simp only [can_bytes, can_str, can_big, can_long, can_int, can_bool, can_addr, can_btp, can_list, can_nil, can_cons, can_req, can_null, can_arr, can_nest]
  try simp [Option.isSome_iff_exists]

/-- Nothing must be set. -/
def CanNBalance (_ : NBalance) : Prop := True

theorem can_NBalance (R : Rt) (x : NBalance) : (wNBalance R x).isSome ↔ CanNBalance x := by
  unfold wNBalance CanNBalance
  simp only [can_bytes, can_str, can_big, can_long, can_int, can_bool, can_addr, can_btp, can_list, can_nil, can_cons, can_req, can_null, can_arr, can_nest]
  try simp [Option.isSome_iff_exists]

/-- Nothing must be set. -/
def CanAssetTransferDetail (_ : AssetTransferDetail) : Prop := True

theorem can_AssetTransferDetail (R : Rt) (x : AssetTransferDetail) : (wAssetTransferDetail R x).isSome ↔ CanAssetTransferDetail x := by
  unfold wAssetTransferDetail CanAssetTransferDetail
  simp only [can_bytes, can_str, can_big, can_long, can_int, can_bool, can_addr, can_btp, can_list, can_nil, can_cons, can_req, can_null, can_arr, can_nest]
  try simp [Option.isSome_iff_exists]

/-- Nothing must be set. -/
def CanTransferTransaction (_ : TransferTransaction) : Prop := True

theorem can_TransferTransaction (R : Rt) (x : TransferTransaction) : (wTransferTransaction R x).isSome ↔ CanTransferTransaction x := by
  unfold wTransferTransaction CanTransferTransaction
  simp only [can_bytes, can_str, can_big, can_long, can_int, can_bool, can_addr, can_btp, can_list, can_nil, can_cons, can_req, can_null, can_arr, can_nest, can_AssetTransferDetail, CanAssetTransferDetail]
  try simp [Option.isSome_iff_exists]

/-- Nothing must be set. -/
def CanNCSProperties (_ : NCSProperties) : Prop := True

theorem can_NCSProperties (R : Rt) (x : NCSProperties) : (wNCSProperties R x).isSome ↔ CanNCSProperties x := by
  unfold wNCSProperties CanNCSProperties
  simp only [can_bytes, can_str, can_big, can_long, can_int, can_bool, can_addr, can_btp, can_list, can_nil, can_cons, can_req, can_null, can_arr, can_nest]
  try simp [Option.isSome_iff_exists]

/-- What must not be null. -/
def CanCallRequest (x : CallRequest) : Prop :=
  x.from_.isSome ∧ x.to_.isSome

theorem can_CallRequest (R : Rt) (x : CallRequest) : (wCallRequest R x).isSome ↔ CanCallRequest x := by
  unfold wCallRequest CanCallRequest
  simp only [can_bytes, can_str, can_big, can_long, can_int, can_bool, can_addr, can_btp, can_list, can_nil, can_cons, can_req, can_null, can_arr, can_nest]
  try simp [Option.isSome_iff_exists]

/-- Nothing must be set. -/
def CanCSMessage (_ : CSMessage) : Prop := True

theorem can_CSMessage (R : Rt) (x : CSMessage) : (wCSMessage R x).isSome ↔ CanCSMessage x := by
  unfold wCSMessage CanCSMessage
  simp only [can_bytes, can_str, can_big, can_long, can_int, can_bool, can_addr, can_btp, can_list, can_nil, can_cons, can_req, can_null, can_arr, can_nest]
  try simp [Option.isSome_iff_exists]

/-- What must not be null. -/
def CanCSMessageRequest (x : CSMessageRequest) : Prop :=
  x.from_.isSome ∧ x.to_.isSome ∧ x.sn.isSome

theorem can_CSMessageRequest (R : Rt) (x : CSMessageRequest) : (wCSMessageRequest R x).isSome ↔ CanCSMessageRequest x := by
  unfold wCSMessageRequest CanCSMessageRequest
  simp only [can_bytes, can_str, can_big, can_long, can_int, can_bool, can_addr, can_btp, can_list, can_nil, can_cons, can_req, can_null, can_arr, can_nest]
  try simp [Option.isSome_iff_exists]

/-- What must not be null. -/
def CanCSMessageResponse (x : CSMessageResponse) : Prop :=
  x.sn.isSome

theorem can_CSMessageResponse (R : Rt) (x : CSMessageResponse) : (wCSMessageResponse R x).isSome ↔ CanCSMessageResponse x := by
  unfold wCSMessageResponse CanCSMessageResponse
  simp only [can_bytes, can_str, can_big, can_long, can_int, can_bool, can_addr, can_btp, can_list, can_nil, can_cons, can_req, can_null, can_arr, can_nest]
  try simp [Option.isSome_iff_exists]

/-- What must not be null. -/
def CanBToken (x : BToken) : Prop :=
  x.name.isSome ∧ x.symbol.isSome ∧ x.decimals.isSome ∧ x.feeNumerator.isSome

theorem can_BToken (R : Rt) (x : BToken) : (wBToken R x).isSome ↔ CanBToken x := by
  unfold wBToken CanBToken
  simp only [can_bytes, can_str, can_big, can_long, can_int, can_bool, can_addr, can_btp, can_list, can_nil, can_cons, can_req, can_null, can_arr, can_nest]
  try simp [Option.isSome_iff_exists]

/-- What must not be null. -/
def CanBAsset (x : BAsset) : Prop :=
  x.name.isSome ∧ x.value.isSome ∧ x.fee.isSome

theorem can_BAsset (R : Rt) (x : BAsset) : (wBAsset R x).isSome ↔ CanBAsset x := by
  unfold wBAsset CanBAsset
  simp only [can_bytes, can_str, can_big, can_long, can_int, can_bool, can_addr, can_btp, can_list, can_nil, can_cons, can_req, can_null, can_arr, can_nest]
  try simp [Option.isSome_iff_exists]

/-- What must not be null. -/
def CanTransferAsset (x : TransferAsset) : Prop :=
  x.from_.isSome ∧ x.to_.isSome ∧ (∃ y, x.assets = some y ∧ ∀ z ∈ y, ∃ u, z = some u ∧ CanBAsset u)

theorem can_TransferAsset (R : Rt) (x : TransferAsset) : (wTransferAsset R x).isSome ↔ CanTransferAsset x := by
  unfold wTransferAsset CanTransferAsset
  simp only [can_bytes, can_str, can_big, can_long, can_int, can_bool, can_addr, can_btp, can_list, can_nil, can_cons, can_req, can_null, can_arr, can_nest, can_BAsset]
  try simp [Option.isSome_iff_exists]

/-- What must not be null. -/
def CanBBalance (x : BBalance) : Prop :=
  x.usable.isSome ∧ x.locked.isSome ∧ x.refundable.isSome

theorem can_BBalance (R : Rt) (x : BBalance) : (wBBalance R x).isSome ↔ CanBBalance x := by
  unfold wBBalance CanBBalance
  simp only [can_bytes, can_str, can_big, can_long, can_int, can_bool, can_addr, can_btp, can_list, can_nil, can_cons, can_req, can_null, can_arr, can_nest]
  try simp [Option.isSome_iff_exists]

/-- What must not be null. -/
def CanBBTPAddress (x : BBTPAddress) : Prop :=
  x.protocol.isSome ∧ x.net.isSome ∧ x.contract.isSome

theorem can_BBTPAddress (R : Rt) (x : BBTPAddress) : (wBBTPAddress R x).isSome ↔ CanBBTPAddress x := by
  unfold wBBTPAddress CanBBTPAddress
  simp only [can_bytes, can_str, can_big, can_long, can_int, can_bool, can_addr, can_btp, can_list, can_nil, can_cons, can_req, can_null, can_arr, can_nest]
  try simp [Option.isSome_iff_exists]

/-- What must not be null. -/
def CanSyndication (x : Syndication) : Prop :=
  x.id.isSome ∧ x.tokenAmount.isSome ∧ x.totalDeposited.isSome

theorem can_Syndication (R : Rt) (x : Syndication) : (wSyndication R x).isSome ↔ CanSyndication x := by
  unfold wSyndication CanSyndication
  simp only [can_bytes, can_str, can_big, can_long, can_int, can_bool, can_addr, can_btp, can_list, can_nil, can_cons, can_req, can_null, can_arr, can_nest]
  try simp [Option.isSome_iff_exists]

/-- What must not be null. -/
def CanFToken (x : FToken) : Prop :=
  x.name.isSome ∧ x.address.isSome

theorem can_FToken (R : Rt) (x : FToken) : (wFToken R x).isSome ↔ CanFToken x := by
  unfold wFToken CanFToken
  simp only [can_bytes, can_str, can_big, can_long, can_int, can_bool, can_addr, can_btp, can_list, can_nil, can_cons, can_req, can_null, can_arr, can_nest]
  try simp [Option.isSome_iff_exists]

/-- What must not be null. -/
def CanKStatusExtra (x : KStatusExtra) : Prop :=
  x.sequenceOffset.isSome ∧ x.firstMessageSN.isSome ∧ x.messageCount.isSome

theorem can_KStatusExtra (R : Rt) (x : KStatusExtra) : (wKStatusExtra R x).isSome ↔ CanKStatusExtra x := by
  unfold wKStatusExtra CanKStatusExtra
  simp only [can_bytes, can_str, can_big, can_long, can_int, can_bool, can_addr, can_btp, can_list, can_nil, can_cons, can_req, can_null, can_arr, can_nest]
  try simp [Option.isSome_iff_exists]

/-- What must not be null. -/
def CanKProperties (x : KProperties) : Prop :=
  x.srcNetworkID.isSome ∧ x.bmc.isSome ∧ x.height.isSome ∧ x.sequenceOffset.isSome

theorem can_KProperties (R : Rt) (x : KProperties) : (wKProperties R x).isSome ↔ CanKProperties x := by
  unfold wKProperties CanKProperties
  simp only [can_bytes, can_str, can_big, can_long, can_int, can_bool, can_addr, can_btp, can_list, can_nil, can_cons, can_req, can_null, can_arr, can_nest]
  try simp [Option.isSome_iff_exists]

/-- What must not be null. -/
def CanProofNode (x : ProofNode) : Prop :=
  x.value.isSome

theorem can_ProofNode (R : Rt) (x : ProofNode) : (wProofNode R x).isSome ↔ CanProofNode x := by
  unfold wProofNode CanProofNode
  simp only [can_bytes, can_str, can_big, can_long, can_int, can_bool, can_addr, can_btp, can_list, can_nil, can_cons, can_req, can_null, can_arr, can_nest]
  try simp [Option.isSome_iff_exists]

/-- What must not be null. -/
def CanTypePrefixedMessage (x : TypePrefixedMessage) : Prop :=
  x.payload.isSome

theorem can_TypePrefixedMessage (R : Rt) (x : TypePrefixedMessage) : (wTypePrefixedMessage R x).isSome ↔ CanTypePrefixedMessage x := by
  unfold wTypePrefixedMessage CanTypePrefixedMessage
  simp only [can_bytes, can_str, can_big, can_long, can_int, can_bool, can_addr, can_btp, can_list, can_nil, can_cons, can_req, can_null, can_arr, can_nest]
  try simp [Option.isSome_iff_exists]

/-- What must not be null. -/
def CanKRelayMessage (x : KRelayMessage) : Prop :=
  ∃ y, x.messages = some y ∧ ∀ z ∈ y, ∃ u, z = some u ∧ CanTypePrefixedMessage u

theorem can_KRelayMessage (R : Rt) (x : KRelayMessage) : (wKRelayMessage R x).isSome ↔ CanKRelayMessage x := by
  unfold wKRelayMessage CanKRelayMessage
  simp only [can_bytes, can_str, can_big, can_long, can_int, can_bool, can_addr, can_btp, can_list, can_nil, can_cons, can_req, can_null, can_arr, can_nest, can_TypePrefixedMessage]
  try simp [Option.isSome_iff_exists]

/-- What must not be null. -/
def CanBlockWitness (x : BlockWitness) : Prop :=
  (∀ y, x.witness = some y → ∀ z ∈ y, z.isSome)

theorem can_BlockWitness (R : Rt) (x : BlockWitness) : (wBlockWitness R x).isSome ↔ CanBlockWitness x := by
  unfold wBlockWitness CanBlockWitness
  simp only [can_bytes, can_str, can_big, can_long, can_int, can_bool, can_addr, can_btp, can_list, can_nil, can_cons, can_req, can_null, can_arr, can_nest]
  try simp [Option.isSome_iff_exists]

/-- Nothing must be set. -/
def CanIStatusExtra (_ : IStatusExtra) : Prop := True

theorem can_IStatusExtra (R : Rt) (x : IStatusExtra) : (wIStatusExtra R x).isSome ↔ CanIStatusExtra x := by
  unfold wIStatusExtra CanIStatusExtra
  simp only [can_bytes, can_str, can_big, can_long, can_int, can_bool, can_addr, can_btp, can_list, can_nil, can_cons, can_req, can_null, can_arr, can_nest]
  try simp [Option.isSome_iff_exists]

/-- What must not be null. -/
def CanProofs (x : Proofs) : Prop :=
  ∀ y, x.proofs = some y → ∀ z ∈ y, z.isSome

theorem can_Proofs (R : Rt) (x : Proofs) : (wProofs R x).isSome ↔ CanProofs x := by
  unfold wProofs CanProofs
  simp only [can_bytes, can_str, can_big, can_long, can_int, can_bool, can_addr, can_btp, can_list, can_nil, can_cons, can_req, can_null, can_arr, can_nest]
  try simp [Option.isSome_iff_exists]

/-- What must not be null. -/
def CanMPTProof (x : MPTProof) : Prop :=
  (∀ y, x.proofs = some y → CanProofs y)

theorem can_MPTProof (R : Rt) (x : MPTProof) : (wMPTProof R x).isSome ↔ CanMPTProof x := by
  unfold wMPTProof CanMPTProof
  simp only [can_bytes, can_str, can_big, can_long, can_int, can_bool, can_addr, can_btp, can_list, can_nil, can_cons, can_req, can_null, can_arr, can_nest, can_Proofs]
  try simp [Option.isSome_iff_exists]

/-- What must not be null. -/
def CanReceiptProof (x : ReceiptProof) : Prop :=
  (∀ y, x.proofs = some y → CanProofs y) ∧ (∀ y, x.eventProofs = some y → ∀ z ∈ y, ∀ u, z = some u → CanMPTProof u)

theorem can_ReceiptProof (R : Rt) (x : ReceiptProof) : (wReceiptProof R x).isSome ↔ CanReceiptProof x := by
  unfold wReceiptProof CanReceiptProof
  simp only [can_bytes, can_str, can_big, can_long, can_int, can_bool, can_addr, can_btp, can_list, can_nil, can_cons, can_req, can_null, can_arr, can_nest, can_MPTProof, can_Proofs]
  try simp [Option.isSome_iff_exists]

/-- Nothing must be set. -/
def CanPartSetId (_ : PartSetId) : Prop := True

theorem can_PartSetId (R : Rt) (x : PartSetId) : (wPartSetId R x).isSome ↔ CanPartSetId x := by
  unfold wPartSetId CanPartSetId
  simp only [can_bytes, can_str, can_big, can_long, can_int, can_bool, can_addr, can_btp, can_list, can_nil, can_cons, can_req, can_null, can_arr, can_nest]
  try simp [Option.isSome_iff_exists]

/-- Nothing must be set. -/
def CanVoteMessage (_ : VoteMessage) : Prop := True

theorem can_VoteMessage (R : Rt) (x : VoteMessage) : (wVoteMessage R x).isSome ↔ CanVoteMessage x := by
  unfold wVoteMessage CanVoteMessage
  simp only [can_bytes, can_str, can_big, can_long, can_int, can_bool, can_addr, can_btp, can_list, can_nil, can_cons, can_req, can_null, can_arr, can_nest, can_PartSetId, CanPartSetId]
  try simp [Option.isSome_iff_exists]

/-- Nothing must be set. -/
def CanVote (_ : Vote) : Prop := True

theorem can_Vote (R : Rt) (x : Vote) : (wVote R x).isSome ↔ CanVote x := by
  unfold wVote CanVote
  simp only [can_bytes, can_str, can_big, can_long, can_int, can_bool, can_addr, can_btp, can_list, can_nil, can_cons, can_req, can_null, can_arr, can_nest]
  try simp [Option.isSome_iff_exists]

/-- What must not be null. -/
def CanVotes (x : Votes) : Prop :=
  (∃ y, x.items = some y ∧ ∀ z ∈ y, z.isSome)

theorem can_Votes (R : Rt) (x : Votes) : (wVotes R x).isSome ↔ CanVotes x := by
  unfold wVotes CanVotes
  simp only [can_bytes, can_str, can_big, can_long, can_int, can_bool, can_addr, can_btp, can_list, can_nil, can_cons, can_req, can_null, can_arr, can_nest, can_PartSetId, CanPartSetId, can_Vote, CanVote]
  try simp [Option.isSome_iff_exists]

/-- What must not be null. -/
def CanValidators (x : Validators) : Prop :=
  ∃ y, x.addresses = some y ∧ ∀ z ∈ y, z.isSome

theorem can_Validators (R : Rt) (x : Validators) : (wValidators R x).isSome ↔ CanValidators x := by
  unfold wValidators CanValidators
  simp only [can_bytes, can_str, can_big, can_long, can_int, can_bool, can_addr, can_btp, can_list, can_nil, can_cons, can_req, can_null, can_arr, can_nest]
  try simp [Option.isSome_iff_exists]

/-- Nothing must be set. -/
def CanExtensionData (_ : ExtensionData) : Prop := True

theorem can_ExtensionData (R : Rt) (x : ExtensionData) : (wExtensionData R x).isSome ↔ CanExtensionData x := by
  unfold wExtensionData CanExtensionData
  simp only [can_bytes, can_str, can_big, can_long, can_int, can_bool, can_addr, can_btp, can_list, can_nil, can_cons, can_req, can_null, can_arr, can_nest]
  try simp [Option.isSome_iff_exists]

/-- Nothing must be set. -/
def CanResult (_ : Result) : Prop := True

theorem can_Result (R : Rt) (x : Result) : (wResult R x).isSome ↔ CanResult x := by
  unfold wResult CanResult
  cases x.extensionData <;> simp only [can_bytes, can_str, can_big, can_long, can_int, can_bool, can_addr, can_btp, can_list, can_nil, can_cons, can_req, can_null, can_arr, can_nest, CanExtensionData, can_ExtensionData] <;> simp [Option.isSome_iff_exists]

/-- Nothing must be set. -/
def CanBlockHeader (_ : BlockHeader) : Prop := True

theorem can_BlockHeader (R : Rt) (x : BlockHeader) : (wBlockHeader R x).isSome ↔ CanBlockHeader x := by
  unfold wBlockHeader CanBlockHeader
  simp only [can_bytes, can_str, can_big, can_long, can_int, can_bool, can_addr, can_btp, can_list, can_nil, can_cons, can_req, can_null, can_arr, can_nest, can_Result, CanResult]
  try simp [Option.isSome_iff_exists]

/-- What must not be null. -/
def CanEventLog (x : EventLog) : Prop :=
  (∃ y, x.indexed = some y ∧ ∀ z ∈ y, z.isSome) ∧ (∃ y, x.data = some y ∧ ∀ z ∈ y, z.isSome)

theorem can_EventLog (R : Rt) (x : EventLog) : (wEventLog R x).isSome ↔ CanEventLog x := by
  unfold wEventLog CanEventLog
  simp only [can_bytes, can_str, can_big, can_long, can_int, can_bool, can_addr, can_btp, can_list, can_nil, can_cons, can_req, can_null, can_arr, can_nest]
  try simp [Option.isSome_iff_exists]

/-- What must not be null. -/
def CanReceipt (x : Receipt) : Prop :=
  (∀ y, x.eventLogs = some y → ∀ z ∈ y, ∃ u, z = some u ∧ CanEventLog u)

theorem can_Receipt (R : Rt) (x : Receipt) : (wReceipt R x).isSome ↔ CanReceipt x := by
  unfold wReceipt CanReceipt
  simp only [can_bytes, can_str, can_big, can_long, can_int, can_bool, can_addr, can_btp, can_list, can_nil, can_cons, can_req, can_null, can_arr, can_nest, can_EventLog]
  try simp [Option.isSome_iff_exists]

/-- Nothing must be set. -/
def CanMessageEvent (_ : MessageEvent) : Prop := True

theorem can_MessageEvent (R : Rt) (x : MessageEvent) : (wMessageEvent R x).isSome ↔ CanMessageEvent x := by
  unfold wMessageEvent CanMessageEvent
  simp only [can_bytes, can_str, can_big, can_long, can_int, can_bool, can_addr, can_btp, can_list, can_nil, can_cons, can_req, can_null, can_arr, can_nest]
  try simp [Option.isSome_iff_exists]

/-- Nothing must be set. -/
def CanMTA (_ : MTA) : Prop := True

theorem can_MTA (R : Rt) (x : MTA) : (wMTA R x).isSome ↔ CanMTA x := by
  unfold wMTA CanMTA
  simp only [can_bytes, can_str, can_big, can_long, can_int, can_bool, can_addr, can_btp, can_list, can_nil, can_cons, can_req, can_null, can_arr, can_nest]
  try simp [Option.isSome_iff_exists]

/-- What must not be null. -/
def CanIProperties (x : IProperties) : Prop :=
  (∀ y, x.validators = some y → CanValidators y)

theorem can_IProperties (R : Rt) (x : IProperties) : (wIProperties R x).isSome ↔ CanIProperties x := by
  unfold wIProperties CanIProperties
  simp only [can_bytes, can_str, can_big, can_long, can_int, can_bool, can_addr, can_btp, can_list, can_nil, can_cons, can_req, can_null, can_arr, can_nest, can_MTA, CanMTA, can_Validators]
  try simp [Option.isSome_iff_exists]

/-- What must not be null. -/
def CanBlockUpdate (x : BlockUpdate) : Prop :=
  (∀ y, x.votes = some y → CanVotes y) ∧ (∀ y, x.nextValidators = some y → CanValidators y)

theorem can_BlockUpdate (R : Rt) (x : BlockUpdate) : (wBlockUpdate R x).isSome ↔ CanBlockUpdate x := by
  unfold wBlockUpdate CanBlockUpdate
  simp only [can_bytes, can_str, can_big, can_long, can_int, can_bool, can_addr, can_btp, can_list, can_nil, can_cons, can_req, can_null, can_arr, can_nest, can_BlockHeader, CanBlockHeader, can_Validators, can_Votes]
  try simp [Option.isSome_iff_exists]

/-- What must not be null. -/
def CanBlockProof (x : BlockProof) : Prop :=
  (∀ y, x.blockWitness = some y → CanBlockWitness y)

theorem can_BlockProof (R : Rt) (x : BlockProof) : (wBlockProof R x).isSome ↔ CanBlockProof x := by
  unfold wBlockProof CanBlockProof
  simp only [can_bytes, can_str, can_big, can_long, can_int, can_bool, can_addr, can_btp, can_list, can_nil, can_cons, can_req, can_null, can_arr, can_nest, can_BlockHeader, CanBlockHeader, can_BlockWitness]
  try simp [Option.isSome_iff_exists]

/-- What must not be null. -/
def CanIRelayMessage (x : IRelayMessage) : Prop :=
  (∀ y, x.blockUpdates = some y → ∀ z ∈ y, ∀ u, z = some u → CanBlockUpdate u) ∧ (∀ y, x.blockProof = some y → CanBlockProof y) ∧ (∀ y, x.receiptProofs = some y → ∀ z ∈ y, ∀ u, z = some u → CanReceiptProof u)

theorem can_IRelayMessage (R : Rt) (x : IRelayMessage) : (wIRelayMessage R x).isSome ↔ CanIRelayMessage x := by
  unfold wIRelayMessage CanIRelayMessage
  simp only [can_bytes, can_str, can_big, can_long, can_int, can_bool, can_addr, can_btp, can_list, can_nil, can_cons, can_req, can_null, can_arr, can_nest, can_BlockProof, can_BlockUpdate, can_ReceiptProof]
  try simp [Option.isSome_iff_exists]

/-! ### addresses as text -/

theorem indexOf_sep (r : Str) : ∀ p : Str, indexOf sep p = none → indexOf sep (p ++ sep ++ r) = some p.length
  | [], _ => by simp [indexOf, sep, List.isPrefixOf]
  | a :: t, h => by
    simp only [indexOf] at h
    by_cases hp : sep.isPrefixOf (a :: t) = true
    · rw [if_pos hp] at h; simp at h
    · rw [if_neg hp] at h
      have ht : indexOf sep t = none := by
        cases hx : indexOf sep t with
        | none => rfl
        | some i => rw [hx] at h; simp at h
      have hn : ¬ sep.isPrefixOf (a :: (t ++ sep ++ r)) = true := by
        intro e
        apply hp
        cases t with
        | nil => simp [sep, List.isPrefixOf] at e
        | cons b t =>
          cases t with
          | nil => simp [sep, List.isPrefixOf] at e
          | cons c t => simpa [sep, List.isPrefixOf] using e
      simp only [List.cons_append, indexOf]
      rw [if_neg hn, indexOf_sep r t ht]
      simp

theorem indexOf_take : ∀ (s : Str) (i : Nat), indexOf sep s = some i → indexOf sep (s.take i) = none
  | [], i, h => by simp [indexOf, sep] at h
  | a :: t, i, h => by
    simp only [indexOf] at h
    by_cases hp : sep.isPrefixOf (a :: t) = true
    · rw [if_pos hp] at h
      cases h
      simp [indexOf, sep]
    · rw [if_neg hp] at h
      obtain ⟨j, hj, rfl⟩ := Option.map_eq_some_iff.1 h
      have ih := indexOf_take t j hj
      simp only [List.take_succ_cons, indexOf]
      have hn : ¬ sep.isPrefixOf (a :: t.take j) = true := by
        intro e
        apply hp
        obtain ⟨r, hr⟩ := (isPrefixOf_iff _ _).1 e
        refine (isPrefixOf_iff _ _).2 ⟨r ++ t.drop j, ?_⟩
        rw [← List.append_assoc, ← hr, List.cons_append, List.take_append_drop]
      rw [if_neg hn, ih]
      rfl

/-- C153: an address whose protocol has no "://" and whose network has no "/" is read back from its text. -/
theorem C153_stable (a : JAddr) (hp : indexOf sep a.protocol = none) (hn : '/' ∉ a.net) : Stable a := by
  unfold Stable jParse JAddr.toStr
  have e : a.protocol ++ sep ++ a.net ++ ['/'] ++ a.account = a.protocol ++ sep ++ (a.net ++ '/' :: a.account) := by simp
  rw [e, indexOf_sep _ _ hp]
  have e1 : (a.protocol ++ sep ++ (a.net ++ '/' :: a.account)).take a.protocol.length = a.protocol := by simp
  have e2 : (a.protocol ++ sep ++ (a.net ++ '/' :: a.account)).drop (a.protocol.length + 3) = a.net ++ '/' :: a.account := by
    rw [show a.protocol.length + 3 = (a.protocol ++ sep).length by simp [sep], List.drop_left]
  simp only [e1, e2]
  rw [indexOf_slash_append _ _ hn]
  simp only
  have e3 : (a.net ++ '/' :: a.account).drop (a.net.length + 1) = a.account := by
    rw [show a.net.length + 1 = (a.net ++ ['/']).length by simp, show a.net ++ '/' :: a.account = (a.net ++ ['/']) ++ a.account by simp,
      List.drop_left]
  rw [e3]
  cases a
  simp

/-- C153: every address that came out of the parser is read back from its text, whatever text it was made from. -/
theorem C153_parsed_stable (s : Str) : Stable (jParse s) := by
  apply C153_stable
  · unfold jParse
    cases hi : indexOf sep s with
    | none => simp only; split <;> rfl
    | some i => simp only; split <;> exact indexOf_take s i hi
  · unfold jParse
    cases hi : indexOf sep s with
    | none =>
      simp only
      cases hj : indexOf ['/'] s with
      | none => simp
      | some j => exact indexOf_slash s j hj
    | some i =>
      simp only
      cases hj : indexOf ['/'] (s.drop (i + 3)) with
      | none => simp
      | some j => exact indexOf_slash _ j hj

/-- C153: the addresses that contracts make themselves (`new BTPAddress(net, account)`). -/
theorem C153_own_stable (net acc : Str) (h : '/' ∉ net) : Stable ⟨pBtp, net, acc⟩ := C153_stable _ (show indexOf sep pBtp = none by decide) h

/-- C153 does not hold for every address: a "/" in the network moves to the account. -/
theorem C153_unstable : ¬ Stable ⟨pBtp, ['a', '/', 'b'], ['c']⟩ := by unfold Stable; decide

/-! ### the classes -/

/-- `P` says what can be written, and what was written and satisfies `Q` is read back. -/
def Codec (R : Rt) (w : Rt → α → W) (r : Rt → Rd α) (P Q : α → Prop) : Prop :=
  (∀ x, P x ↔ ∃ b, toBytes R w x = some b) ∧ ∀ x b, Q x → toBytes R w x = some b → fromBytes R r b = some x

theorem codec {R : Rt} {w : Rt → α → W} {r : Rt → Rd α} {P Q : α → Prop} (h1 : ∀ x, (w R x).isSome ↔ P x)
    (h2 : ∀ x, Q x → RTs (w R x) (r R) x) : Codec R w r P Q := by
  refine ⟨fun x => ?_, fun x b hq h => ?_⟩
  · rw [← h1 x]
    unfold toBytes
    cases w R x <;> simp
  · unfold toBytes at h
    cases hw : w R x with
    | none => rw [hw] at h; simp at h
    | some l =>
      rw [hw] at h
      simp only [Option.map_some, Option.some.injEq] at h
      subst h
      unfold fromBytes
      rw [R.ok]
      have := h2 x hq l hw []
      rw [List.append_nil] at this
      simp only [this]
      rfl

/-- C153: the classes of bmc and lib. -/
theorem C153_bmc_partial (R : Rt) :
    Codec R wBMVStatus rBMVStatus CanBMVStatus (fun _ => True) ∧
    Codec R wBMCMessage rBMCMessage CanBMCMessage (fun _ => True) ∧
    Codec R wBMCRequest rBMCRequest CanBMCRequest (fun _ => True) ∧
    Codec R wRoute rRoute CanRoute StRoute ∧
    Codec R wInitMessage rInitMessage CanInitMessage StInitMessage ∧
    Codec R wLinkMessage rLinkMessage CanLinkMessage StLinkMessage ∧
    Codec R wUnlinkMessage rUnlinkMessage CanUnlinkMessage StUnlinkMessage ∧
    Codec R wFeeInfo rFeeInfo CanFeeInfo (fun _ => True) ∧
    Codec R wLink rLink CanLink StLink ∧
    Codec R wResponseInfo rResponseInfo CanResponseInfo (fun _ => True) ∧
    Codec R wBTPMessage rBTPMessage CanBTPMessage (fun _ => True) ∧
    Codec R wClaimMessage rClaimMessage CanClaimMessage (fun _ => True) ∧
    Codec R wResponseMessage rResponseMessage CanResponseMessage (fun _ => True) :=
  ⟨codec (can_BMVStatus R) fun x _ => (ok_BMVStatus R x).rt,
   codec (can_BMCMessage R) fun x _ => (ok_BMCMessage R x).rt,
   codec (can_BMCRequest R) fun x _ => (ok_BMCRequest R x).rt,
   codec (can_Route R) fun x hx => (ok_Route R x hx).rt,
   codec (can_InitMessage R) fun x hx => (ok_InitMessage R x hx).rt,
   codec (can_LinkMessage R) fun x hx => (ok_LinkMessage R x hx).rt,
   codec (can_UnlinkMessage R) fun x hx => (ok_UnlinkMessage R x hx).rt,
   codec (can_FeeInfo R) fun x _ => (ok_FeeInfo R x).rt,
   codec (can_Link R) fun x hx => (ok_Link R x hx).rt,
   codec (can_ResponseInfo R) fun x _ => (ok_ResponseInfo R x).rt,
   codec (can_BTPMessage R) fun x _ => (ok_BTPMessage R x).rt,
   codec (can_ClaimMessage R) fun x _ => (ok_ClaimMessage R x).rt,
   codec (can_ResponseMessage R) fun x _ => (ok_ResponseMessage R x).rt⟩

/-- C153: the classes of nativecoin. -/
theorem C153_nativecoin (R : Rt) :
    Codec R wNAsset rNAsset CanNAsset (fun _ => True) ∧
    Codec R wTransferRequest rTransferRequest CanTransferRequest (fun _ => True) ∧
    Codec R wTransferResponse rTransferResponse CanTransferResponse (fun _ => True) ∧
    Codec R wNCSMessage rNCSMessage CanNCSMessage (fun _ => True) ∧
    Codec R wNBalance rNBalance CanNBalance (fun _ => True) ∧
    Codec R wAssetTransferDetail rAssetTransferDetail CanAssetTransferDetail (fun _ => True) ∧
    Codec R wTransferTransaction rTransferTransaction CanTransferTransaction (fun _ => True) ∧
    Codec R wNCSProperties rNCSProperties CanNCSProperties (fun _ => True) :=
  ⟨codec (can_NAsset R) fun x _ => (ok_NAsset R x).rt,
   codec (can_TransferRequest R) fun x _ => (ok_TransferRequest R x).rt,
   codec (can_TransferResponse R) fun x _ => (ok_TransferResponse R x).rt,
   codec (can_NCSMessage R) fun x _ => (ok_NCSMessage R x).rt,
   codec (can_NBalance R) fun x _ => (ok_NBalance R x).rt,
   codec (can_AssetTransferDetail R) fun x _ => (ok_AssetTransferDetail R x).rt,
   codec (can_TransferTransaction R) fun x _ => (ok_TransferTransaction R x).rt,
   codec (can_NCSProperties R) fun x _ => (ok_NCSProperties R x).rt⟩

/-- C153: the classes of xcall. -/
theorem C153_xcall (R : Rt) :
    Codec R wCallRequest rCallRequest CanCallRequest (fun _ => True) ∧
    Codec R wCSMessage rCSMessage CanCSMessage (fun _ => True) ∧
    Codec R wCSMessageRequest rCSMessageRequest CanCSMessageRequest (fun _ => True) ∧
    Codec R wCSMessageResponse rCSMessageResponse CanCSMessageResponse (fun _ => True) :=
  ⟨codec (can_CallRequest R) fun x _ => (ok_CallRequest R x).rt,
   codec (can_CSMessage R) fun x _ => (ok_CSMessage R x).rt,
   codec (can_CSMessageRequest R) fun x _ => (ok_CSMessageRequest R x).rt,
   codec (can_CSMessageResponse R) fun x _ => (ok_CSMessageResponse R x).rt⟩

/-- C153: the classes of bsh and fee-aggregation. -/
theorem C153_bsh (R : Rt) :
    Codec R wBToken rBToken CanBToken (fun _ => True) ∧
    Codec R wBAsset rBAsset CanBAsset (fun _ => True) ∧
    Codec R wTransferAsset rTransferAsset CanTransferAsset (fun _ => True) ∧
    Codec R wBBalance rBBalance CanBBalance (fun _ => True) ∧
    Codec R wBBTPAddress rBBTPAddress CanBBTPAddress (fun _ => True) ∧
    Codec R wSyndication rSyndication CanSyndication (fun _ => True) ∧
    Codec R wFToken rFToken CanFToken (fun _ => True) :=
  ⟨codec (can_BToken R) fun x _ => (ok_BToken R x).rt,
   codec (can_BAsset R) fun x _ => (ok_BAsset R x).rt,
   codec (can_TransferAsset R) fun x _ => (ok_TransferAsset R x).rt,
   codec (can_BBalance R) fun x _ => (ok_BBalance R x).rt,
   codec (can_BBTPAddress R) fun x _ => (ok_BBTPAddress R x).rt,
   codec (can_Syndication R) fun x _ => (ok_Syndication R x).rt,
   codec (can_FToken R) fun x _ => (ok_FToken R x).rt⟩

/-- C153: the classes of bmv/btpblock. -/
theorem C153_btpblock (R : Rt) :
    Codec R wKStatusExtra rKStatusExtra CanKStatusExtra (fun _ => True) ∧
    Codec R wKProperties rKProperties CanKProperties (fun _ => True) ∧
    Codec R wProofNode rProofNode CanProofNode (fun _ => True) ∧
    Codec R wTypePrefixedMessage rTypePrefixedMessage CanTypePrefixedMessage (fun _ => True) ∧
    Codec R wKRelayMessage rKRelayMessage CanKRelayMessage (fun _ => True) :=
  ⟨codec (can_KStatusExtra R) fun x _ => (ok_KStatusExtra R x).rt,
   codec (can_KProperties R) fun x _ => (ok_KProperties R x).rt,
   codec (can_ProofNode R) fun x _ => (ok_ProofNode R x).rt,
   codec (can_TypePrefixedMessage R) fun x _ => (ok_TypePrefixedMessage R x).rt,
   codec (can_KRelayMessage R) fun x _ => (ok_KRelayMessage R x).rt⟩

/-- C153: the classes of bmv/icon. -/
theorem C153_icon_partial (R : Rt) :
    Codec R wBlockWitness rBlockWitness CanBlockWitness (fun _ => True) ∧
    Codec R wIStatusExtra rIStatusExtra CanIStatusExtra (fun _ => True) ∧
    Codec R wProofs rProofs CanProofs (fun _ => True) ∧
    Codec R wMPTProof rMPTProof CanMPTProof (fun _ => True) ∧
    Codec R wReceiptProof rReceiptProof CanReceiptProof (fun _ => True) ∧
    Codec R wPartSetId rPartSetId CanPartSetId (fun _ => True) ∧
    Codec R wVoteMessage rVoteMessage CanVoteMessage (fun _ => True) ∧
    Codec R wVote rVote CanVote (fun _ => True) ∧
    Codec R wVotes rVotes CanVotes (fun _ => True) ∧
    Codec R wValidators rValidators CanValidators (fun _ => True) ∧
    Codec R wExtensionData rExtensionData CanExtensionData (fun _ => True) ∧
    Codec R wResult rResult CanResult (fun _ => True) ∧
    Codec R wBlockHeader rBlockHeader CanBlockHeader (fun _ => True) ∧
    Codec R wEventLog rEventLog CanEventLog (fun _ => True) ∧
    Codec R wReceipt rReceipt CanReceipt (fun x => x.eventLogs ≠ none) ∧
    Codec R wMessageEvent rMessageEvent CanMessageEvent (fun _ => True) ∧
    Codec R wMTA rMTA CanMTA (fun _ => True) ∧
    Codec R wIProperties rIProperties CanIProperties (fun _ => True) ∧
    Codec R wBlockUpdate rBlockUpdate CanBlockUpdate (fun _ => True) ∧
    Codec R wBlockProof rBlockProof CanBlockProof (fun _ => True) ∧
    Codec R wIRelayMessage rIRelayMessage CanIRelayMessage (fun _ => True) :=
  ⟨codec (can_BlockWitness R) fun x _ => (ok_BlockWitness R x).rt,
   codec (can_IStatusExtra R) fun x _ => (ok_IStatusExtra R x).rt,
   codec (can_Proofs R) fun x _ => ok_Proofs R x,
   codec (can_MPTProof R) fun x _ => (ok_MPTProof R x).rt,
   codec (can_ReceiptProof R) fun x _ => (ok_ReceiptProof R x).rt,
   codec (can_PartSetId R) fun x _ => (ok_PartSetId R x).rt,
   codec (can_VoteMessage R) fun x _ => (ok_VoteMessage R x).rt,
   codec (can_Vote R) fun x _ => (ok_Vote R x).rt,
   codec (can_Votes R) fun x _ => (ok_Votes R x).rt,
   codec (can_Validators R) fun x _ => (ok_Validators R x).rt,
   codec (can_ExtensionData R) fun x _ => ok_ExtensionData R x,
   codec (can_Result R) fun x _ => (ok_Result R x).rt,
   codec (can_BlockHeader R) fun x _ => (ok_BlockHeader R x).rt,
   codec (can_EventLog R) fun x _ => (ok_EventLog R x).rt,
   codec (can_Receipt R) fun x hx => (ok_Receipt R x hx).rt,
   codec (can_MessageEvent R) fun x _ => (ok_MessageEvent R x).rt,
   codec (can_MTA R) fun x _ => (ok_MTA R x).rt,
   codec (can_IProperties R) fun x _ => (ok_IProperties R x).rt,
   codec (can_BlockUpdate R) fun x _ => (ok_BlockUpdate R x).rt,
   codec (can_BlockProof R) fun x _ => (ok_BlockProof R x).rt,
   codec (can_IRelayMessage R) fun x _ => (ok_IRelayMessage R x).rt⟩

/-- C153: different objects have different bytes (for the headers, votes and validators whose bytes are hashed and signed). -/
theorem C153_injective {R : Rt} {w : Rt → α → W} {r : Rt → Rd α} {P Q : α → Prop} (h : Codec R w r P Q) (x y : α) (hx : Q x) (hy : Q y)
    (b : Bytes) (h1 : toBytes R w x = some b) (h2 : toBytes R w y = some b) : x = y := by
  have e1 := h.2 x b hx h1
  have e2 := h.2 y b hy h2
  rw [e1] at e2
  exact Option.some.inj e2

/-- C153: blocks of the ICON verifier: different headers, vote messages or validators have different bytes. -/
theorem C153_header_injective (R : Rt) :
    (∀ (x y : BlockHeader) b, toBytes R wBlockHeader x = some b → toBytes R wBlockHeader y = some b → x = y) ∧
    (∀ (x y : VoteMessage) b, toBytes R wVoteMessage x = some b → toBytes R wVoteMessage y = some b → x = y) ∧
    (∀ (x y : Validators) b, toBytes R wValidators x = some b → toBytes R wValidators y = some b → x = y) :=
  ⟨fun x y b => C153_injective (codec (P := CanBlockHeader) (Q := fun _ => True) (can_BlockHeader R) fun x _ => (ok_BlockHeader R x).rt) x y trivial trivial b,
   fun x y b => C153_injective (codec (P := CanVoteMessage) (Q := fun _ => True) (can_VoteMessage R) fun x _ => (ok_VoteMessage R x).rt) x y trivial trivial b,
   fun x y b => C153_injective (codec (P := CanValidators) (Q := fun _ => True) (can_Validators R) fun x _ => (ok_Validators R x).rt) x y trivial trivial b⟩

/-! ### where it fails -/

theorem bind_apply (r : Rd α) (f : α → Rd β) (ts : List T) :
    (r >>= f) ts = match r ts with | none => none | some (x, ts') => f x ts' := rfl
theorem pure_apply (x : α) (ts : List T) : (pure x : Rd α) ts = some (x, ts) := rfl

theorem enc_inj (R : Rt) {a b : List T} (h : R.enc a = R.enc b) : a = b := by
  have := congrArg R.dec h
  rw [R.ok, R.ok] at this
  exact Option.some.inj this

def receipt0 : Receipt := ⟨0, none, none, none, none, none, none, none, none⟩

/-- C153 fails for receipts without a list of event logs: they are written (a null), and what is written cannot be read. -/
theorem C153_receipt_false (R : Rt) : ∃ b, toBytes R wReceipt receipt0 = some b ∧ fromBytes R rReceipt b = none := by
  refine ⟨_, rfl, ?_⟩
  unfold fromBytes
  rw [R.ok]
  rfl

/-- C153: the writer leaves missing extension data out, and the reader does not accept a null in its place. -/
theorem C153_result_null (R : Rt) : fromBytes R rResult (R.enc [.list [.null, .null, .null, .null]]) = none := by
  unfold fromBytes
  rw [R.ok]
  rfl

def result0 : Result := ⟨some [1], none, some [2], some ⟨some [some [3]]⟩⟩
def header0 : BlockHeader := ⟨2, 7, 8, none, some [4], none, some [5], none, none, none, some result0⟩

/-- A result with a fifth field. -/
def result5 (R : Rt) : List T := [.list [.bytes [1], .null, .bytes [2], .bytes (R.enc [.list [.bytes [3]]]), .bytes [9]]]

/-- The bytes of a header like `header0` whose result has a fifth field. -/
def block0 (R : Rt) : Bytes :=
  R.enc [.list [.bytes [2], .bytes [7], .bytes [8], .null, .bytes [4], .null, .bytes [5], .null, .null, .null, .bytes (R.enc (result5 R))]]

theorem result5_read (R : Rt) : rResult R (result5 R) = some (result0, []) := by
  have h : rNest R (rExtensionData R) [.bytes (R.enc [.list [.bytes [3]]]), .bytes [9]] = some (⟨some [some [3]]⟩, [.bytes [9]]) := by
    have e : rExtensionData R [.list [.bytes [3]]] = some (⟨some [some [3]]⟩, []) := rfl
    show (match R.dec (R.enc [.list [.bytes [3]]]) with | none => none | some l => (rExtensionData R l).map fun (p : ExtensionData × List T) => (p.1, [T.bytes [9]])) = _
    rw [R.ok]
    simp only [e]
    rfl
  have h' : Ok (wList (seqW [wNull wBytes (some [1]), wNull wBytes none, wNull wBytes (some [2]),
      some [.bytes (R.enc [.list [.bytes [3]]]), .bytes [9]]])) (rResult R) result0 := by
    unfold rResult
    apply ok_list0
    iterate 3
      apply rt0_cons
      · repeat' rt_step
    intro l e
    simp only [seqW, Option.bind_some, Option.map_some, List.append_nil, Option.some.injEq] at e
    subst e
    refine ⟨[.bytes [9]], ?_⟩
    rw [hasNext_bind]
    simp only [List.isEmpty_cons, Bool.not_false, if_true]
    rw [bind_some (req_some h)]
    rfl
  exact h'.1 _ rfl []

/-- C153: the ICON verifier does not hash the bytes it is given but the bytes of the header it has read (BTPMessageVerifier.java:183, 221).
These are not the same: the bytes of a block whose result has a fifth field are read without complaint, and the bytes written then are
others. The hash compared with the votes and with the accumulator is not the hash of that block. -/
theorem C153_reencode_false (R : Rt) : ∃ b, fromBytes R rBlockHeader (block0 R) = some header0 ∧ toBytes R wBlockHeader header0 = some b ∧
    b ≠ block0 R := by
  refine ⟨_, ?_, rfl, ?_⟩
  · unfold fromBytes block0
    rw [R.ok]
    have h5 : RTs (some [.bytes (R.enc (result5 R))]) (rNull (rNest R (rResult R))) (some result0) := by
      intro l e rest
      simp only [Option.some.injEq] at e
      subst e
      refine null_some ?_ ⟨_, _, rfl, by simp⟩
      show (match R.dec (R.enc (result5 R)) with | none => none | some l => (rResult R l).map fun (p : Result × List T) => (p.1, rest)) = _
      rw [R.ok]
      simp only [result5_read]
      rfl
    have h : Ok (wList (seqW [wLong 2, wLong 7, wLong 8, wNull wAddr none, wNull wBytes (some [4]), wNull wBytes none, wNull wBytes (some [5]),
        wNull wBytes none, wNull wBytes none, wNull wBytes none, some [.bytes (R.enc (result5 R))]])) (rBlockHeader R) header0 := by
      unfold rBlockHeader
      apply ok_list
      iterate 10
        apply rt_cons
        · repeat' rt_step
      apply rt_cons h5
      exact rt_nil
    have h1 := h.1 _ rfl []
    have b2 : bigIntToBytes (Int64.toInt 2) = [2] := by decide +kernel
    have b7 : bigIntToBytes (Int64.toInt 7) = [7] := by decide +kernel
    have b8 : bigIntToBytes (Int64.toInt 8) = [8] := by decide +kernel
    simp only [b2, b7, b8, List.cons_append, List.nil_append, List.append_nil] at h1
    simp only [h1]
    rfl
  · intro e
    have h := enc_inj R e
    simp only [List.cons_append, List.nil_append, List.cons.injEq, T.list.injEq, T.bytes.injEq, and_true, true_and] at h
    have h3 := enc_inj R h.2.2.2
    simp [result5] at h3

/-! ### a runtime -/

mutual
/-- Some encoding of the items, to show that there is one: a tag, every byte after a 1, a 0 or 3 at the end. -/
def tEnc : T → Bytes
  | .null => [0]
  | .bytes b => 1 :: (b.flatMap (fun c => [1, c]) ++ [0])
  | .list ts => 2 :: (tsEnc ts ++ [3])
def tsEnc : List T → Bytes
  | [] => []
  | t :: ts => tEnc t ++ tsEnc ts
end

def bDec : Bytes → Option (Bytes × Bytes)
  | 0 :: r => some ([], r)
  | 1 :: c :: r => (bDec r).map fun p => (c :: p.1, p.2)
  | _ => none

def tsDec : Nat → Bytes → Option (List T × Bytes)
  | 0, _ => none
  | _ + 1, [] => some ([], [])
  | n + 1, c :: r =>
    if c = 3 then some ([], c :: r)
    else if c = 0 then (tsDec n r).map fun p => (.null :: p.1, p.2)
    else if c = 1 then
      match bDec r with
      | none => none
      | some (b, r') => (tsDec n r').map fun p => (.bytes b :: p.1, p.2)
    else
      match tsDec n r with
      | some (l, 3 :: r') => (tsDec n r').map fun p => (.list l :: p.1, p.2)
      | _ => none

theorem bDec_ok (rest : Bytes) : ∀ b : Bytes, bDec (b.flatMap (fun c => [1, c]) ++ 0 :: rest) = some (b, rest)
  | [] => rfl
  | c :: b => by
    have ih := bDec_ok rest b
    simp only [List.flatMap_cons, List.cons_append, List.nil_append, bDec]
    rw [ih]
    rfl

theorem tsDec_ok : ∀ (n : Nat) (l : List T) (rest : Bytes), (tsEnc l).length < n → (rest = [] ∨ ∃ r, rest = 3 :: r) →
    tsDec n (tsEnc l ++ rest) = some (l, rest)
  | 0, _, _, h, _ => by omega
  | n + 1, [], rest, _, hr => by
    rcases hr with rfl | ⟨r, rfl⟩ <;> rfl
  | n + 1, .null :: ts, rest, h, hr => by
    simp only [tsEnc, tEnc, List.cons_append, List.nil_append, List.length_cons] at h ⊢
    rw [tsDec, if_neg (by decide), if_pos rfl, tsDec_ok n ts rest (by omega) hr]
    rfl
  | n + 1, .bytes b :: ts, rest, h, hr => by
    simp only [tsEnc, tEnc, List.cons_append, List.append_assoc, List.nil_append, List.length_cons, List.length_append] at h ⊢
    rw [tsDec, if_neg (by decide), if_neg (by decide), if_pos rfl, bDec_ok]
    simp only
    rw [tsDec_ok n ts rest (by omega) hr]
    rfl
  | n + 1, .list l :: ts, rest, h, hr => by
    simp only [tsEnc, tEnc, List.cons_append, List.append_assoc, List.nil_append, List.length_cons, List.length_append] at h ⊢
    rw [tsDec, if_neg (by decide), if_neg (by decide), if_neg (by decide), tsDec_ok n l (3 :: (tsEnc ts ++ rest)) (by omega) (Or.inr ⟨_, rfl⟩)]
    simp only
    rw [tsDec_ok n ts rest (by omega) hr]
    rfl

/-- Some encoding of texts. -/
def cEnc (s : Str) : Bytes := s.flatMap fun c => [UInt8.ofNat (c.toNat / 65536), UInt8.ofNat (c.toNat / 256 % 256), UInt8.ofNat (c.toNat % 256)]

def cDec : Bytes → Option Str
  | [] => some []
  | a :: b :: c :: r => (cDec r).map (Char.ofNat (a.toNat * 65536 + b.toNat * 256 + c.toNat) :: ·)
  | _ => none

theorem cDec_ok : ∀ s : Str, cDec (cEnc s) = some s
  | [] => rfl
  | c :: s => by
    have ih := cDec_ok s
    have hc : c.toNat < 1114112 := by
      have := c.valid
      unfold UInt32.isValidChar Nat.isValidChar at this
      show c.val.toNat < 1114112
      omega
    simp only [cEnc, List.flatMap_cons, List.cons_append, List.nil_append, cDec] at ih ⊢
    rw [ih]
    simp only [UInt8.toNat_ofNat', Option.map_some, Option.some.injEq, List.cons.injEq, and_true]
    have e : c.toNat / 65536 % 2 ^ 8 * 65536 + c.toNat / 256 % 256 % 2 ^ 8 * 256 + c.toNat % 256 % 2 ^ 8 = c.toNat := by omega
    rw [e, Char.ofNat_toNat]

def rt0 : Rt where
  enc := tsEnc
  dec b := (tsDec (b.length + 1) b).map fun p => p.1
  ok l := by
    have h := tsDec_ok ((tsEnc l).length + 1) l [] (by omega) (Or.inl rfl)
    rw [List.append_nil] at h
    rw [h]
    rfl
  utf8 := cEnc
  unUtf8 := cDec
  utf8_ok := cDec_ok

/-! ### examples -/

def fee0 : FeeInfo := ⟨some ['n'], some [some 5, some (-3)]⟩
def msg0 : BTPMessage := ⟨some ['a'], some ['b'], some ['s'], some 300, some [1, 2], some 7, some fee0⟩

example : (toBytes rt0 wBTPMessage msg0).bind (fromBytes rt0 rBTPMessage) = some msg0 := by decide +kernel
example : toBytes rt0 wBTPMessage { msg0 with src := none } = none := by decide +kernel
example : CanBTPMessage msg0 := by simp [CanBTPMessage, CanFeeInfo, msg0, fee0]
example : (toBytes rt0 wBlockHeader header0).bind (fromBytes rt0 rBlockHeader) = some header0 := by decide +kernel
example : fromBytes rt0 rBlockHeader (block0 rt0) = some header0 ∧ toBytes rt0 wBlockHeader header0 ≠ some (block0 rt0) := by decide +kernel

def addr0 : JAddr := ⟨pBtp, ['n'], ['c']⟩
def link0 : Link := ⟨some addr0, some 3, some 4, some [some addr0]⟩
example : StLink link0 := by
  have h : Stable addr0 := C153_own_stable _ _ (by decide)
  constructor
  · intro a e; cases e; exact h
  · intro l e o ho a ea; cases e; simp at ho; subst ho; cases ea; exact h
example : (toBytes rt0 wLink link0).bind (fromBytes rt0 rLink) = some link0 := by decide +kernel
example : (toBytes rt0 wLink { link0 with addr := some ⟨pBtp, ['a', '/', 'b'], ['c']⟩ }).bind (fromBytes rt0 rLink) =
    some { link0 with addr := some ⟨pBtp, ['a'], ['b', '/', 'c']⟩ } := by decide +kernel

def event0 : EventLog := ⟨some ⟨List.replicate 21 1, rfl⟩, some [some [1], some [2, 3]], some []⟩
def receipt1 : Receipt := ⟨1, some [1], none, none, none, none, some [some event0, some event0], none, some [4]⟩
example : receipt1.eventLogs ≠ none ∧ (toBytes rt0 wReceipt receipt1).bind (fromBytes rt0 rReceipt) = some receipt1 := by decide +kernel

def mta0 : MTA := ⟨5, some [some [1], none, some [2]], -3, some 10, some 2, some [], some true, none⟩
def props0 : IProperties := ⟨some ⟨List.replicate 21 2, rfl⟩, some ['i'], 9, some ⟨some [some ⟨List.replicate 21 3, rfl⟩]⟩, some mta0⟩
example : (toBytes rt0 wIProperties props0).bind (fromBytes rt0 rIProperties) = some props0 := by decide +kernel

def update0 : BlockUpdate := ⟨some header0, some ⟨1, some ⟨1, some [9]⟩, some [some ⟨4, some [5]⟩]⟩, some ⟨some [some ⟨List.replicate 21 3, rfl⟩]⟩⟩
def relay0 : IRelayMessage := ⟨some [some update0, none], some ⟨some header0, some ⟨8, some [some [1]]⟩⟩,
  some [some ⟨3, some ⟨some [some [1]]⟩, some [some ⟨0, some ⟨none⟩⟩, none]⟩]⟩
example : (toBytes rt0 wIRelayMessage relay0).bind (fromBytes rt0 rIRelayMessage) = some relay0 := by decide +kernel

end Verif.JavaObj
