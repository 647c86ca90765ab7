import Verif.EndToEnd
/-!
C135: from a message given to the BTP network on ICON to its handling on the EVM chain.
-/
namespace Verif.EndToEnd
open Verif Verif.Rlp Verif.IntConv Verif.SolRlp Verif.SolRelay

/-! ### messages as bytes -/

theorem sval_be {k : Nat} {n : Int} (hk : 1 ≤ k) (hf : fits k n) : sval (be k (n % 256 ^ k).toNat) = n := by
  have hne : be k (n % 256 ^ k).toNat ≠ [] := by
    intro h; have := be_nil h; omega
  have hp : (0 : Int) < 256 ^ k := by rw [← cast256]; exact Int.ofNat_lt.mpr (Nat.pow_pos (by omega))
  have hm1 := Int.emod_nonneg n (Int.ne_of_gt hp)
  have hm2 := Int.emod_lt_of_pos n hp
  have hbe : (beNat (be k (n % 256 ^ k).toNat) : Int) = n % 256 ^ k := by
    rw [beNat_be, Nat.mod_eq_of_lt]
    · omega
    · have : ((256 ^ k : Nat) : Int) = 256 ^ k := cast256 k
      omega
  have e2 : (256 ^ k : Int) = 2 * 2 ^ (8 * k - 1) := by
    rw [show (256 : Int) = 2 ^ 8 by decide, ← Int.pow_mul, show 8 * k = (8 * k - 1) + 1 by omega, Int.pow_succ]
    rw [show 8 * k - 1 + 1 - 1 = 8 * k - 1 by omega]; omega
  have e3 : (2 ^ (8 * k) : Int) = 256 ^ k := by rw [show (256 : Int) = 2 ^ 8 by decide, ← Int.pow_mul]
  have e4 : ((2 ^ (8 * k - 1) : Nat) : Int) = 2 ^ (8 * k - 1) := cast2 _
  unfold fits at hf
  have hlen := be_length k (n % 256 ^ k).toNat
  generalize be k (n % 256 ^ k).toNat = X at *
  by_cases hn : 0 ≤ n
  · have : n % 256 ^ k = n := Int.emod_eq_of_lt hn (by omega)
    rw [this] at hbe
    rw [sval_of_lt hne, hbe]
    rw [hlen]; omega
  · have : n % 256 ^ k = n + 256 ^ k := by
      rw [← Int.add_emod_right]; exact Int.emod_eq_of_lt (by omega) (by omega)
    rw [this] at hbe
    rw [sval_of_ge hne, hbe, hlen, e3]
    · omega
    · rw [hlen]; omega

/-- A number that fits `k` bytes is written with at most `k` bytes. -/
theorem bigInt_len {k : Nat} {n : Int} (hk : 1 ≤ k) (hf : fits k n) : (bigIntToBytes n).length ≤ k := by
  obtain ⟨h1, h2⟩ := C04_bigInt_roundtrip n
  have hne : be k (n % 256 ^ k).toNat ≠ [] := by
    intro h; have := be_nil h; omega
  have := h2.2 (be k (n % 256 ^ k).toNat) hne (by rw [sval_be hk hf, ← C04_bigIntSetBytes_value, h1])
  rwa [be_length] at this

theorem int_reads {n : Int} (h : fits 31 n) : Reads toInt (wBytes (bigIntToBytes n)) n := by
  intro rest
  rw [toInt_wBytes _ _ (bigInt_len (by omega) h) (bigIntToBytes_ne n), ← C04_bigIntSetBytes_value, (C04_bigInt_roundtrip n).1]

theorem int_wh {n : Int} (h : fits 31 n) : Whole (wBytes (bigIntToBytes n)) :=
  wBytes_whole _ (by have := bigInt_len (by omega) h; omega)

theorem val_reads {n : Nat} (h : n < 2 ^ 255) : Reads toUint (uEnc n) n := by
  intro rest
  have hf : fits 32 (n : Int) := ⟨by omega, by omega⟩
  unfold uEnc
  rw [toUint_wBytes _ _ (bigInt_len (by omega) hf)]
  have h1 := (C04_bigInt_roundtrip (n : Int)).1
  rw [C04_bigIntSetBytes_value] at h1
  have hne := bigIntToBytes_ne n
  generalize bigIntToBytes n = b at *
  match b, hne with
  | c :: t, _ =>
    simp only [sval] at h1
    split at h1
    · have := beNat_lt (c :: t)
      have : (beNat (c :: t) : Int) < 256 ^ (t.length + 1) := by
        rw [← cast256]; exact Int.ofNat_lt.mpr this
      omega
    · rw [show beNat (c :: t) = n by omega]

theorem val_wh {n : Nat} (h : n < 2 ^ 255) : Whole (uEnc n) :=
  wBytes_whole _ (by have := bigInt_len (k := 32) (n := (n : Int)) (by omega) ⟨by omega, by omega⟩; omega)

/-- A message whose numbers the EVM can hold and that is not too long. -/
structure Fits (m : JavaBmc.Msg) : Prop where
  sn : -(2 ^ 247) ≤ m.sn ∧ m.sn < 2 ^ 247
  nsn : -(2 ^ 247) ≤ m.nsn ∧ m.nsn < 2 ^ 247
  values : ∀ f, m.fee = some f → ∀ v ∈ f.values, v < 2 ^ 255
  len : (wMsg m).length < 2 ^ 63

def feeOf : Option SolBmc.FeeInfo → FeeInfo
  | none => ⟨[], []⟩
  | some f => ⟨utf8 f.network, f.values⟩

theorem fee_reads {f : Option SolBmc.FeeInfo} (hv : ∀ g, f = some g → ∀ v ∈ g.values, v < 2 ^ 255) (hl : (wFee f).length < 2 ^ 63) :
    Reads decodeFeeInfo (wFee f) (feeOf f) := by
  intro rest
  cases f with
  | none => simp [decodeFeeInfo, SolRlp.isNull, wFee, nullSeq, byte0, feeOf]
  | some f =>
    have hv := hv f rfl
    simp only [wFee] at hl ⊢
    have l0 := Nat.lt_of_le_of_lt (wList_ge _) hl
    have l1 := wList_ge (f.values.map uEnc).flatten
    simp only [List.flatten_cons, List.flatten_nil, List.append_nil, List.length_append] at l0
    have hw : ∀ e ∈ f.values.map uEnc, Whole e := by
      intro e he
      simp only [List.mem_map] at he
      obtain ⟨n, hn, rfl⟩ := he
      exact val_wh (hv n hn)
    have hws : ∀ e ∈ [wBytes (utf8 f.network), wList (f.values.map uEnc).flatten], Whole e := by
      intro e he
      simp only [List.mem_cons, List.not_mem_nil, or_false] at he
      rcases he with rfl | rfl
      · exact bytes_whole (by omega)
      · exact wList_whole _ (by omega)
    unfold decodeFeeInfo
    rw [if_neg]
    · rw [toList_wList _ (by simp only [List.flatten_cons, List.flatten_nil, List.append_nil, List.length_append]; omega) hws rest]
      simp only [itemsOf, Option.bind_some, List.flatten_nil, List.nil_append]
      rw [toList_wList _ (by omega) hw rest]
      simp only [Option.bind_some]
      rw [mapM_reads toUint uEnc f.values rest (fun n hn => val_reads (hv n hn)), bytes_reads (by omega)]
      rfl
    · have r2 := (hws (wBytes (utf8 f.network)) (by simp)).1
      have r3 := (hws (wList (f.values.map uEnc).flatten) (by simp)).1
      obtain ⟨hd, q1, q2⟩ := wList_hdr [wBytes (utf8 f.network), wList (f.values.map uEnc).flatten].flatten (by
        simp only [List.flatten_cons, List.flatten_nil, List.append_nil, List.length_append]; omega)
      obtain ⟨_, _, _, r4⟩ := hdr_read (Or.inr rfl) q2 []
      have q3 := congrArg List.length q1
      rw [List.length_append] at q3
      have q4 : [wBytes (utf8 f.network), wList (f.values.map uEnc).flatten].flatten.length =
        (wBytes (utf8 f.network)).length + (wList (f.values.map uEnc).flatten).length := by simp
      unfold SolRlp.isNull
      simp only [decide_eq_true_eq]
      rintro ⟨p1, _⟩
      omega

/-- C135: the EVM's message center decodes the bytes ICON's message center writes for a message to that message, whatever
lies behind them in memory. -/
theorem C135_codec (m : JavaBmc.Msg) (h : Fits m) (junk : Bytes) : decodeMsg (wMsg m) junk = some (seen m) := by
  have hl := h.len
  have l0 := Nat.lt_of_le_of_lt (wList_ge _) hl
  simp only [List.flatten_cons, List.flatten_nil, List.append_nil, List.length_append] at l0
  have hfee := fee_reads h.values (f := m.fee)
  have hfw : Whole (wFee m.fee) := by
    cases hm : m.fee with
    | none => exact null_whole
    | some f =>
      have := wList_ge [wBytes (utf8 f.network), wList (f.values.map uEnc).flatten].flatten
      rw [hm] at l0
      simp only [wFee] at l0 ⊢
      exact wList_whole _ (by omega)
  unfold decodeMsg decodeBTPMessage toRlpItem wMsg
  rw [toList_wList _ (by simp only [List.flatten_cons, List.flatten_nil, List.append_nil, List.length_append]; omega) (by
    intro e he
    simp only [List.mem_cons, List.not_mem_nil, or_false] at he
    rcases he with rfl | rfl | rfl | rfl | rfl | rfl | rfl
    · exact bytes_whole (by omega)
    · exact bytes_whole (by omega)
    · exact bytes_whole (by omega)
    · exact int_wh h.sn
    · exact bytes_whole (by omega)
    · exact int_wh h.nsn
    · exact hfw) junk]
  simp only [itemsOf, Option.bind_some]
  rw [bytes_reads (by omega), bytes_reads (by omega), bytes_reads (by omega), int_reads h.sn, bytes_reads (by omega), int_reads h.nsn,
    hfee (by omega)]
  simp only [Option.bind_some, Option.map_some, ofStruct, seen]
  cases m.fee <;> rfl

/-! ### the EVM chain -/

theorem decodeAll_get {junk : Nat → Bytes} {k : Nat} {bs : List Bytes} {ms : List SolBmc.Msg} (h : decodeAll junk k bs = some ms) :
    ms.length = bs.length ∧ ∀ (i : Nat) (m : SolBmc.Msg), ms[i]? = some m → ∃ b, bs[i]? = some b ∧ ∃ j, decodeMsg b j = some m := by
  induction bs generalizing k ms with
  | nil => simp only [decodeAll, Option.some.injEq] at h; subst h; simp
  | cons b t ih =>
    simp only [decodeAll] at h
    cases hd : decodeMsg b (junk k) with
    | none => rw [hd] at h; simp at h
    | some m =>
      rw [hd] at h
      simp only [Option.bind_some, Option.map_eq_some_iff] at h
      obtain ⟨ms', h1, rfl⟩ := h
      obtain ⟨i1, i2⟩ := ih h1
      refine ⟨by simp [i1], fun i m' hi => ?_⟩
      cases i with
      | zero =>
        simp only [List.getElem?_cons_zero, Option.some.injEq] at hi
        subst hi
        exact ⟨b, rfl, junk k, hd⟩
      | succ i => simpa using i2 i m' (by simpa using hi)

theorem items_msgs (beh : Nat → Beh) (k : Nat) (ms : List SolBmc.Msg) : (items beh k ms).msgs = ms := by
  induction ms generalizing k with
  | nil => rfl
  | cons m t ih => simp [items, SolBmc.Items.msgs, ih]

theorem items_calm {beh : Nat → Beh} {busy : List String} (h : ∀ k, (beh k).acts.calm busy) (k : Nat) (ms : List SolBmc.Msg) :
    (items beh k ms).calm busy := by
  induction ms generalizing k with
  | nil => simp [items, SolBmc.Items.calm]
  | cons m t ih => simp only [items, SolBmc.Items.calm]; exact ⟨h k, ih _⟩

theorem relayCall_ok {P : Par} {s : St} {env : SolBmc.Env} {caller : Nat} {msg : Bytes} {mem : Mem} {junk : Nat → Bytes}
    {beh : Nat → Beh} {x : SolBmc.St × SolBtpBlock.St × List Bytes} (h : relayCall P s env caller msg mem junk beh = some x) :
    handleBytes P.E P.C s.bmv ⟨P.bmc, P.net, s.bmc.rx P.link, msg, mem⟩ = some (x.2.1, x.2.2) ∧ env.isRelay P.link caller = true ∧
    ∃ ms b, decodeAll junk 0 x.2.2 = some ms ∧
      SolBmc.execItems P.other (items beh 0 ms) caller P.link (s.bmc.rx P.link) s.bmc = some b ∧
      x.1 = { b with rx := SolBmc.upd b.rx P.link (b.rx P.link + ms.length) } := by
  unfold relayCall at h
  cases hv : handleBytes P.E P.C s.bmv ⟨P.bmc, P.net, s.bmc.rx P.link, msg, mem⟩ with
  | none => rw [hv] at h; simp at h
  | some v =>
    rw [hv] at h
    simp only [Option.bind_some] at h
    split at h
    · rename_i hr
      cases hd : decodeAll junk 0 v.2 with
      | none => rw [hd] at h; simp at h
      | some ms =>
        rw [hd] at h
        simp only [Option.bind_some, Option.map_eq_some_iff] at h
        obtain ⟨b, h1, rfl⟩ := h
        exact ⟨rfl, hr, ms, b, hd, h1, rfl⟩
    · cases h

/-- C135: a relay call by one who is no relay of the link changes nothing. -/
theorem C135_relays_only (P : Par) (s : St) (env : SolBmc.Env) (caller : Nat) (msg : Bytes) (mem : Mem) (junk : Nat → Bytes)
    (beh : Nat → Beh) (h : env.isRelay P.link caller = false) : step P s (.relay env caller msg mem junk beh) = s := by
  simp only [step]
  cases hx : relayCall P s env caller msg mem junk beh with
  | none => rfl
  | some x => have := (relayCall_ok hx).2.1; rw [h] at this; cases this

theorem handleBytes_seq {E : SolBtpBlock.Env} {C : SolBtpBlock.Cfg} {s s' : SolBtpBlock.St} {c : BCall} {out : List Bytes}
    (h : handleBytes E C s c = some (s', out)) : c.sn = C.off + s.next ∧ s'.next = s.next + out.length ∧ c.caller = C.bmc ∧ c.net = C.src := by
  unfold handleBytes at h
  cases hr : c.read with
  | none => rw [hr] at h; simp at h
  | some c' =>
    rw [hr] at h
    simp only [Option.bind_some] at h
    have e : c'.sn = c.sn ∧ c'.caller = c.caller ∧ c'.net = c.net := by
      unfold BCall.read at hr
      simp only [Option.map_eq_some_iff] at hr
      obtain ⟨ms, _, rfl⟩ := hr
      exact ⟨rfl, rfl, rfl⟩
    have h1 := (SolBtpBlock.C50_solidity_sequence E C s []).2 c' s' out h
    have h2 := (SolBtpBlock.C50_solidity_sequence E C s [c']).1
    simp only [SolBtpBlock.run, h, List.append_nil] at h1 h2
    simp only [List.length_nil, Nat.add_zero] at h1
    exact ⟨by rw [← e.1, h1.1], h2, by rw [← e.2.1, h1.2.1], by rw [← e.2.2, h1.2.2]⟩

/-- The message at a place after the `r`-th was decoded from the message released at the place `o` before. -/
def From (r : Nat) (out : List Bytes) (o : Nat) (_ : String) (n : Nat) (m : SolBmc.Msg) : Prop :=
  r < n → ∃ k b j, n = o + k + 1 ∧ out[k]? = some b ∧ decodeMsg b j = some m

theorem From.mono {r : Nat} {out out' : List Bytes} {o : Nat} {l : String} {n : Nat} {m : SolBmc.Msg} (h : From r out o l n m) :
    From r (out ++ out') o l n m := by
  intro hr
  obtain ⟨k, b, j, h1, h2, h3⟩ := h hr
  refine ⟨k, b, j, h1, ?_, h3⟩
  have := (List.getElem?_eq_some_iff.mp h2).1
  rw [List.getElem?_append_left this, h2]

structure Inv (P : Par) (r n0 : Nat) (s : St) : Prop where
  good : SolBmc.GoodQ (From r s.out (P.C.off + n0)) P.link s.bmc
  next : s.bmv.next = n0 + s.out.length

theorem step_inv {P : Par} {r n0 : Nat} {s : St} (i : Inv P r n0 s) (o : Op) (hc : o.calm P) : Inv P r n0 (step P s o) := by
  cases o with
  | call o =>
    refine ⟨?_, i.next⟩
    simp only [step]
    cases h : SolBmc.exec P.other o s.bmc with
    | none => exact i.good
    | some s1 =>
      refine (SolBmc.exec_calm P.other _ [] o hc s.bmc s1 h).2 P.link (by simp) ?_ i.good
      intro _ ms hv
      simp [Par.other] at hv
  | relay env caller msg mem junk beh =>
    simp only [step]
    cases h : relayCall P s env caller msg mem junk beh with
    | none => exact i
    | some x =>
      obtain ⟨h1, _, ms, b, h2, h3, h4⟩ := relayCall_ok h
      obtain ⟨q1, q2, _⟩ := handleBytes_seq h1
      simp only at q1
      have hx := SolBmc.execItems_calm P.other (From r s.out (P.C.off + n0)) [P.link] P.link (by simp) (items beh 0 ms)
        (items_calm hc 0 ms) caller _ s.bmc b h3
      rw [items_msgs] at hx
      obtain ⟨-, ⟨hrx, hd⟩, -⟩ := hx
      obtain ⟨d1, d2⟩ := decodeAll_get h2
      simp only
      refine ⟨⟨?_, fun k m hk => ?_⟩, ?_⟩
      · rw [h4]
        simp only [SolBmc.upd, if_pos]
        rw [hd, hrx, List.length_append, List.length_map, i.good.1]
      · rw [h4] at hk
        simp only at hk
        rw [hd, List.getElem?_append] at hk
        split at hk
        · exact (i.good.2 k m hk).mono
        · rename_i hge
          rw [List.getElem?_map, Option.map_eq_some_iff] at hk
          obtain ⟨m', hm1, hm2⟩ := hk
          cases hm2
          obtain ⟨bb, hb, j, hj⟩ := d2 _ _ hm1
          have h5 := i.good.1
          have h6 := i.next
          refine fun _ => ⟨s.out.length + (k - (s.bmc.disp P.link).length), bb, j, by omega, ?_, hj⟩
          rw [List.getElem?_append_right (by omega), Nat.add_sub_cancel_left, hb]
      · simp only [List.length_append]
        rw [q2, i.next, Nat.add_assoc]

theorem run_inv {P : Par} {r n0 : Nat} {s : St} (i : Inv P r n0 s) (ops : List Op) (hc : ∀ o ∈ ops, o.calm P) : Inv P r n0 (run P s ops) := by
  induction ops generalizing s with
  | nil => exact i
  | cons o t ih => exact ih (step_inv i o (hc o (by simp))) (fun o' h => hc o' (by simp [h]))

theorem run_calls (P : Par) (s : St) (ops : List Op) :
    (runBytes P.E P.C s.bmv (calls P s ops)).1 = (run P s ops).bmv ∧
    (run P s ops).out = s.out ++ (runBytes P.E P.C s.bmv (calls P s ops)).2 := by
  induction ops generalizing s with
  | nil => simp [calls, runBytes, run]
  | cons o t ih =>
    cases o with
    | call o => exact ih (step P s (.call o))
    | relay env caller msg mem junk beh =>
      have := ih (step P s (.relay env caller msg mem junk beh))
      simp only [calls, run, List.foldl_cons] at this ⊢
      cases h : relayCall P s env caller msg mem junk beh with
      | none =>
        simp only [step, h] at this ⊢
        exact this
      | some x =>
        obtain ⟨h1, _⟩ := relayCall_ok h
        simp only [step, h, List.cons_append, List.nil_append] at this ⊢
        simp only [runBytes, h1]
        exact ⟨this.1, by rw [this.2, List.append_assoc]⟩

/-- A message center reached by any history, with any verifiers, has handled (or its owner has given up) as many messages of a
link as its number says. -/
theorem C135_counted (c : SolBmc.Cfg) (l : String) (ops : List SolBmc.Op) (hc : ∀ o ∈ ops, o.calm []) :
    ((SolBmc.run c ops).disp l).length = (SolBmc.run c ops).rx l := by
  exact (SolBmc.run_goodQ c (fun _ _ _ => True) l (fun _ _ _ => by simp) ops hc).1

/-- C135: on the EVM chain, from any state of the message center on and over any history of calls with any relay messages, the
number of the link is the number of messages handled (or given up by the owner), and the message handled at each place is one
the verifier released, decoded: the one as many places after the first as its number is after the number the verifier began
with. -/
theorem C135_released (P : Par) (b : SolBmc.St) (v : SolBtpBlock.St) (hb : (b.disp P.link).length = b.rx P.link) (ops : List Op)
    (hc : ∀ o ∈ ops, o.calm P) :
    let s := run P (start b v) ops
    (s.bmc.disp P.link).length = s.bmc.rx P.link ∧ s.out = (runBytes P.E P.C v (calls P (start b v) ops)).2 ∧
    ∀ i m, b.rx P.link ≤ i → (s.bmc.disp P.link)[i]? = some (some m) →
      ∃ k x j, i = P.C.off + v.next + k ∧ s.out[k]? = some x ∧ decodeMsg x j = some m := by
  have i0 : Inv P (b.rx P.link) v.next (start b v) := by
    refine ⟨⟨hb, fun i m h hr => ?_⟩, rfl⟩
    have := (List.getElem?_eq_some_iff.mp h).1
    simp only [start] at this
    omega
  have h := run_inv i0 ops hc
  refine ⟨h.good.1, by rw [(run_calls P (start b v) ops).2]; rfl, fun i m hr hi => ?_⟩
  obtain ⟨k, x, j, h1, h2, h3⟩ := h.good.2 i m hi (by omega)
  exact ⟨k, x, j, by omega, h2, h3⟩

/-! ### both chains -/

theorem given_fst (id : Nat) (log : List JavaBmc.Event) (acc : List (Nat × JavaBmc.Msg)) :
    (given id log acc).map Prod.fst = JavaBmc.sentTo id log (acc.map Prod.fst) := by
  induction log generalizing acc with
  | nil => rfl
  | cons e t ih =>
    cases e <;> simp only [given, JavaBmc.sentTo] <;> rw [ih] <;> split <;> simp

/-- C135: on ICON, the messages given to the BTP network of a link carry the numbers after the offset, in order. -/
theorem C135_given (c : JavaBmc.Cfg) (creator : Nat) (ops : List JavaBmc.Op) (link : String) (id : Nat)
    (h : (JavaBmc.run c creator ops).netIds link = some id) :
    ∃ o, (JavaBmc.run c creator ops).offsets id = some o ∧
      ∀ k n m, (given id (JavaBmc.run c creator ops).log [])[k]? = some (n, m) → n = o + k + 1 := by
  obtain ⟨o, h1, _, h3⟩ := JavaBmc.C71_java_network_numbers_partial c creator ops link id h
  refine ⟨o, h1, fun k n m hk => ?_⟩
  have := given_fst id (JavaBmc.run c creator ops).log []
  simp only [List.map_nil] at this
  rw [h3] at this
  have h4 : ((given id (JavaBmc.run c creator ops).log []).map Prod.fst)[k]? = some n := by
    rw [List.getElem?_map, hk]; rfl
  rw [this] at h4
  have h5 := (List.getElem?_eq_some_iff.mp h4).1
  rw [List.getElem?_range' (by simpa using h5)] at h4
  simp only [Option.some.injEq] at h4
  omega

theorem init_off {E : SolBtpBlock.Env} {bmc src : Bytes} {ty off : Nat} {J : Mem} {hb : Bytes} {C : SolBtpBlock.Cfg}
    {v : SolBtpBlock.St} (h : initBytes E bmc src ty off J hb = some (C, v)) : C.off = off := by
  unfold initBytes at h
  rw [Option.bind_eq_some_iff] at h
  obtain ⟨h0, _, h⟩ := h
  unfold SolBtpBlock.init at h
  split at h
  · cases h
  · rw [Option.map_eq_some_iff] at h
    obtain ⟨_, _, h⟩ := h
    simp only [Prod.mk.injEq] at h
    rw [← h.1]

/-- C135, part: the message center of ICON after any history, its link bound to a BTP network; a chain of blocks of that network
which carries, in order, the messages it was given (`bs`); a message center of an EVM chain, after any history, with a verifier
set up from the bytes of a header of that chain and the offset of the network; then any calls on the EVM chain, with any relay
messages. Then a message handled on the EVM chain at a place is the message of ICON with the number of that place - if the last
section the verifier took is one of the chain and all proofs it accepted are placed, and no service re-enters the message
center for the link, or else a hash collision or a preimage of zero shows. -/
theorem C135_end_to_end_partial
    -- ICON
    (cj : JavaBmc.Cfg) (creator : Nat) (jops : List JavaBmc.Op) (jlink : String) (id o : Nat)
    (hid : (JavaBmc.run cj creator jops).netIds jlink = some id) (ho : (JavaBmc.run cj creator jops).offsets id = some o)
    (hfit : ∀ x ∈ given id (JavaBmc.run cj creator jops).log [], Fits x.2)
    -- the blocks of the BTP network
    (nid : Int) (pre bs : List BtpBlock.Block) (hbs : ∀ b ∈ bs, b.msgs.length < 2 ^ 31)
    (hsent : bs.flatMap (·.msgs) <+: (given id (JavaBmc.run cj creator jops).log []).map (fun x => wMsg x.2))
    -- the verifier
    (P : Par) (hH : ∀ x, (P.E.H x).length = 32) (src : Bytes) (ty : Nat) (J : Mem) (hb0 : Bytes) (h0 : SolBtpBlock.Header)
    (hd : decodeHeader J hb0 = some h0) (v : SolBtpBlock.St) (hi : initBytes P.E P.bmc src ty o J hb0 = some (P.C, v))
    (hpre : SolBtpBlock.optOf h0.prev = BtpBlock.tip P.E.H none (BtpBlock.chain P.E.H nid none 0 pre))
    (hsm : ∀ x ∈ BtpBlock.chain P.E.H nid none 0 pre, (BtpBlock.secBytes x).length < 2 ^ 63)
    -- the EVM chain
    (b : SolBmc.St) (hb : (b.disp P.link).length = b.rx P.link) (ops : List Op) (hc : ∀ o ∈ ops, o.calm P)
    (hf : PlacedBytes P.E P.C v (calls P (start b v) ops))
    (htip : BtpBlock.tip P.E.H none (BtpBlock.chain P.E.H nid none 0 bs) = some (run P (start b v) ops).bmv.secHash) :
    let accepted := (SolBtpBlock.run P.E P.C v ((calls P (start b v) ops).filterMap BCall.read)).2.1
    (∃ x ∈ BtpBlock.secBytes h0.sec :: accepted.flatMap (SolBtpBlock.hashed P.E.H), P.E.H x = SolBtpBlock.zero32) ∨
    Mbt.Collision P.E.H ((BtpBlock.chain P.E.H nid none 0 pre).map BtpBlock.secBytes ++
        BtpBlock.secBytes h0.sec :: accepted.flatMap (SolBtpBlock.hashed P.E.H)) (SolBtpBlock.honestHashed P.E.H nid bs) ∨
    ∀ i m, b.rx P.link ≤ i → ((run P (start b v) ops).bmc.disp P.link)[i]? = some (some m) →
      ∃ x, (i + 1, x) ∈ given id (JavaBmc.run cj creator jops).log [] ∧ m = seen x := by
  intro accepted
  obtain ⟨_, hout, hdisp⟩ := C135_released P b v hb ops hc
  rw [← (run_calls P (start b v) ops).1] at htip
  rcases C133_in_order_partial P.E hH P.bmc src ty o J hb0 h0 hd P.C v hi _ hf nid pre bs hbs hpre hsm htip with h | h | h
  · exact Or.inl h
  · exact Or.inr (Or.inl h)
  refine Or.inr (Or.inr (fun i m hr hm => ?_))
  obtain ⟨pre', done, last, k, e1, _, e3, e4⟩ := h
  obtain ⟨k', x, j, i1, i2, i3⟩ := hdisp i m hr hm
  rw [hout, e4] at i2
  have h1 : (bs.flatMap (·.msgs))[v.next + k']? = some x := by
    have hl := (List.getElem?_eq_some_iff.mp i2).1
    rw [e1, List.flatMap_append, List.flatMap_append, List.append_assoc, List.getElem?_append_right (by omega), e3,
      Nat.add_sub_cancel_left]
    rw [List.getElem?_append] at i2 ⊢
    split
    · rename_i hlt; rw [if_pos hlt] at i2; exact i2
    · rename_i hlt
      rw [if_neg hlt, List.getElem?_take] at i2
      split at i2
      · simpa using i2
      · cases i2
  obtain ⟨rest, hrest⟩ := hsent
  have h2 : ((given id (JavaBmc.run cj creator jops).log []).map (fun x => wMsg x.2))[v.next + k']? = some x := by
    rw [← hrest, List.getElem?_append_left (List.getElem?_eq_some_iff.mp h1).1, h1]
  rw [List.getElem?_map, Option.map_eq_some_iff] at h2
  obtain ⟨⟨n, jm⟩, h3, h4⟩ := h2
  obtain ⟨o', ho', hn⟩ := C135_given cj creator jops jlink id hid
  rw [ho] at ho'
  cases ho'
  have h5 := hn _ _ _ h3
  have h6 : (n, jm) ∈ given id (JavaBmc.run cj creator jops).log [] := List.mem_of_getElem? h3
  have hoff := init_off hi
  refine ⟨jm, ?_, ?_⟩
  · have : i + 1 = n := by omega
    rw [this]; exact h6
  · have := C135_codec jm (hfit _ h6) j
    simp only at h4
    rw [h4, i3] at this
    exact Option.some.inj this

/-! ### nothing is lost -/

theorem decodeAll_map (ms : List JavaBmc.Msg) (hf : ∀ m ∈ ms, Fits m) (junk : Nat → Bytes) (k : Nat) :
    decodeAll junk k (ms.map wMsg) = some (ms.map seen) := by
  induction ms generalizing k with
  | nil => rfl
  | cons m t ih =>
    simp only [List.map_cons, decodeAll, C135_codec m (hf m (by simp)) (junk k), Option.bind_some,
      ih (fun x hx => hf x (by simp [hx])), Option.map_some]

/-- C135: a relay call whose bytes the verifier accepts, releasing messages of ICON, made by a relay of the link, hands exactly
these messages on, in order - if handling them does not revert. -/
theorem C135_progress (P : Par) (s : St) (env : SolBmc.Env) (caller : Nat) (msg : Bytes) (mem : Mem) (junk : Nat → Bytes)
    (beh : Nat → Beh) (ms : List JavaBmc.Msg) (hf : ∀ m ∈ ms, Fits m) (v : SolBtpBlock.St)
    (hv : handleBytes P.E P.C s.bmv ⟨P.bmc, P.net, s.bmc.rx P.link, msg, mem⟩ = some (v, ms.map wMsg))
    (hr : env.isRelay P.link caller = true) (hc : ∀ k, (beh k).acts.calm [P.link])
    (hx : (SolBmc.execItems P.other (items beh 0 (ms.map seen)) caller P.link (s.bmc.rx P.link) s.bmc).isSome) :
    let s' := step P s (.relay env caller msg mem junk beh)
    s'.bmv = v ∧ s'.out = s.out ++ ms.map wMsg ∧ s'.bmc.rx P.link = s.bmc.rx P.link + ms.length ∧
    s'.bmc.disp P.link = s.bmc.disp P.link ++ ms.map (fun m => some (seen m)) := by
  cases h : SolBmc.execItems P.other (items beh 0 (ms.map seen)) caller P.link (s.bmc.rx P.link) s.bmc with
  | none => rw [h] at hx; cases hx
  | some b =>
    have hq := SolBmc.execItems_calm P.other (fun _ _ _ => True) [P.link] P.link (by simp) (items beh 0 (ms.map seen))
      (items_calm hc 0 _) caller _ s.bmc b h
    rw [items_msgs] at hq
    obtain ⟨-, ⟨h1, h2⟩, -⟩ := hq
    have h3 : relayCall P s env caller msg mem junk beh =
        some ({ b with rx := SolBmc.upd b.rx P.link (b.rx P.link + ms.length) }, v, ms.map wMsg) := by
      unfold relayCall
      rw [hv]
      simp only [Option.bind_some]
      rw [if_pos hr, decodeAll_map ms hf]
      simp only [Option.bind_some]
      rw [h]
      simp
    simp only [step, h3]
    refine ⟨trivial, trivial, ?_, ?_⟩
    · simp [SolBmc.upd, h1]
    · rw [h2, List.map_map]; rfl

/-! ### texts -/

theorem toNat_ofByte (x : UInt8) : (Char.ofNat x.toNat).toNat = x.toNat := by
  have h : x.toNat < 256 := x.toNat_lt
  have hv : x.toNat.isValidChar := Or.inl (by omega)
  unfold Char.ofNat
  rw [dif_pos hv]
  simp [Char.toNat, Char.ofNatAux]

theorem utf8_eq (s : String) : utf8 s = s.toList.flatMap String.utf8EncodeChar := by
  unfold utf8
  have : s.toByteArray = s.toList.utf8Encode := by simp
  rw [this, List.utf8Encode, List.data_toByteArray]

theorem text_inj {a b : Bytes} (h : text a = text b) : a = b := by
  unfold text at h
  have h1 : (a.map (fun x => Char.ofNat x.toNat)) = b.map (fun x => Char.ofNat x.toNat) := by
    have := congrArg String.toList h
    simpa using this
  refine List.map_inj_right (fun x y hxy => ?_) |>.mp h1
  have := congrArg Char.toNat hxy
  rw [toNat_ofByte, toNat_ofByte] at this
  exact UInt8.toNat_inj.mp this

theorem utf8_inj {a b : String} (h : utf8 a = utf8 b) : a = b := by
  unfold utf8 at h
  have h1 : a.toByteArray.data = b.toByteArray.data := Array.toList_inj.mp h
  have h2 : a.toByteArray = b.toByteArray := by
    cases ha : a.toByteArray; cases hb : b.toByteArray
    rw [ha, hb] at h1; simpa using h1
  exact String.toByteArray_inj.mp h2

/-- C135: two messages of ICON that look the same on the EVM chain are the same, but for a missing and an empty fee. -/
theorem C135_seen_inj (m m' : JavaBmc.Msg) (h : seen m = seen m') :
    { m with fee := none } = { m' with fee := none } ∧ (m.fee = m'.fee ∨ (m.fee.getD ⟨"", []⟩ = ⟨"", []⟩ ∧ m'.fee.getD ⟨"", []⟩ = ⟨"", []⟩)) := by
  unfold seen at h
  simp only [SolBmc.Msg.mk.injEq] at h
  obtain ⟨h1, h2, h3, h4, h5, h6, h7⟩ := h
  obtain ⟨a, b, c, d, e, f, g⟩ := m
  obtain ⟨a', b', c', d', e', f', g'⟩ := m'
  simp only at h1 h2 h3 h4 h5 h6 h7
  have e0 : text (utf8 "") = "" := rfl
  refine ⟨by simp [utf8_inj (text_inj h1), utf8_inj (text_inj h2), utf8_inj (text_inj h3), h4, h5, h6], ?_⟩
  cases g with
  | none =>
    cases g' with
    | none => exact Or.inl rfl
    | some y =>
      simp only [SolBmc.FeeInfo.mk.injEq] at h7
      refine Or.inr ⟨rfl, ?_⟩
      obtain ⟨y1, y2⟩ := y
      simp only at h7
      rw [← e0] at h7
      simp [← utf8_inj (text_inj h7.1), ← h7.2]
  | some x =>
    cases g' with
    | none =>
      simp only [SolBmc.FeeInfo.mk.injEq] at h7
      refine Or.inr ⟨?_, rfl⟩
      obtain ⟨y1, y2⟩ := x
      simp only at h7
      rw [← e0] at h7
      simp [utf8_inj (text_inj h7.1), h7.2]
    | some y =>
      simp only [SolBmc.FeeInfo.mk.injEq] at h7
      obtain ⟨x1, x2⟩ := x
      obtain ⟨y1, y2⟩ := y
      simp only at h7
      exact Or.inl (by rw [utf8_inj (text_inj h7.1), h7.2])

/-- C135: ASCII texts arrive as they are. -/
theorem C135_ascii (s : String) (h : ∀ c ∈ s.toList, c.toNat < 128) : text (utf8 s) = s := by
  have key : ∀ l : List Char, (∀ c ∈ l, c.toNat < 128) → (l.flatMap String.utf8EncodeChar).map (fun x => Char.ofNat x.toNat) = l := by
    intro l
    induction l with
    | nil => intro _; rfl
    | cons c t ih =>
      intro hl
      have hc : c.val.toNat < 128 := hl c (by simp)
      rw [List.flatMap_cons, List.map_append, ih (fun x hx => hl x (by simp [hx])), String.utf8EncodeChar.eq_1, if_pos (by omega)]
      have : (UInt8.ofNat c.val.toNat).toNat = c.toNat := by
        rw [UInt8.toNat_ofNat']
        simp only [Char.toNat]
        omega
      simp only [List.map_cons, List.map_nil, this, Char.ofNat_toNat, List.cons_append, List.nil_append]
  unfold text
  rw [utf8_eq, key _ h, String.ofList_toList]

/-! ### Concrete cases -/
namespace Demo
open Verif.SolRelay.Toy (addr env sigs headerBytes)

/-- ICON with a link to "e" and its BTP network 3: the announcement of the links, then two messages of service "s". -/
def jcfg : JavaBmc.Cfg := JavaBmc.Demo.cfg (fun _ => [])
def jenv : JavaBmc.Env := JavaBmc.Demo.env
def jops : List JavaBmc.Op := [.conf jenv 1 (.addVerifier "e" 30), .conf jenv 1 (.addService "s" 5), .conf jenv 1 (.addBTPLink "e/A" 3),
  .send jenv 5 0 "e" "s" 0 [7, 8], .send jenv 5 0 "e" "s" 0 [9]]
def g1 : JavaBmc.Msg := ⟨"icon", "e", "bmc", 0, [3], 1, none⟩
def g2 : JavaBmc.Msg := ⟨"icon", "e", "s", 0, [7, 8], 2, some ⟨"icon", []⟩⟩
def g3 : JavaBmc.Msg := ⟨"icon", "e", "s", 0, [9], 3, some ⟨"icon", []⟩⟩

theorem given_eq : given 3 (JavaBmc.run jcfg 1 jops).log [] = [(1, g1), (2, g2), (3, g3)] := by decide +kernel
theorem bound : (JavaBmc.run jcfg 1 jops).netIds "e/A" = some 3 ∧ (JavaBmc.run jcfg 1 jops).offsets 3 = some 0 := by decide +kernel

/-- A block with the three messages, and a relay message with the block and a proof for the first two. -/
abbrev h : Bytes → Bytes := SolRelay.Toy.hash
def block : BtpBlock.Block := ⟨true, [wMsg g1, wMsg g2, wMsg g3]⟩
def first0 : SolBtpBlock.Header := SolRelay.Toy.first0
def v0 : SolBtpBlock.St := SolRelay.Toy.start0
def header : SolBtpBlock.Header :=
  ⟨11, 0, h [4, 4], [], 3, 1, v0.secHash, 3, Merkle.mroot h (block.msgs.map h), [addr 8]⟩
def upd : Bytes := wList [wBytes (headerBytes header), wBytes (wList (wList (sigs.map sigEnc).flatten))].flatten
def proof : Bytes := wList [nullSeq, wList ([wMsg g1, wMsg g2].map wBytes).flatten, wList (pairEnc (1, h (wMsg g3)))].flatten
def relayBytes : Bytes := relayEnc [(1, upd), (2, proof)]

/-- The message center "e" with a link to "icon" and a relay 9. -/
def par : Par where
  c := { SolBmc.Demo.cfg with net := "e" }
  E := env
  C := ⟨[7], [0x62], 1, 3, 0⟩
  bmc := [7]
  link := "icon"
  net := [0x62]

def beh : Nat → Beh := fun _ => ⟨SolBmc.Demo.env, true, .nil⟩
def ops : List Op := [.call (.claim SolBmc.Demo.env 9 2 "icon" "0x64"),
  .relay SolBmc.Demo.env 9 (relayBytes.take 40) (fun _ => []) (fun _ => []) beh,
  .relay SolBmc.Demo.env 9 relayBytes (fun _ => []) (fun _ => [1, 2]) beh,
  .relay SolBmc.Demo.env 9 relayBytes (fun _ => []) (fun _ => [1, 2]) beh]

theorem ran : (run par (start SolBmc.init v0) ops).bmc.disp "icon" = [some (seen g1), some (seen g2)] ∧
    (run par (start SolBmc.init v0) ops).bmc.rx "icon" = 2 ∧
    (run par (start SolBmc.init v0) ops).out = [wMsg g1, wMsg g2] := by decide +kernel

theorem fits : ∀ x ∈ given 3 (JavaBmc.run jcfg 1 jops).log [], Fits x.2 := by
  rw [given_eq]
  have key : ∀ m ∈ [g1, g2, g3], (-(2 ^ 247) ≤ m.sn ∧ m.sn < 2 ^ 247) ∧ (-(2 ^ 247) ≤ m.nsn ∧ m.nsn < 2 ^ 247) ∧
      (∀ v ∈ (m.fee.getD ⟨"", []⟩).values, v < 2 ^ 255) ∧ (wMsg m).length < 2 ^ 63 := by decide +kernel
  intro x hx
  obtain ⟨h1, h2, h3, h4⟩ := key x.2 (by
    simp only [List.mem_cons, List.not_mem_nil, or_false] at hx ⊢
    rcases hx with rfl | rfl | rfl <;> simp)
  exact ⟨h1, h2, fun f hf => by rw [hf] at h3; exact h3, h4⟩

/-- One relay call. -/
def ops1 : List Op := [.relay SolBmc.Demo.env 9 relayBytes (fun _ => []) (fun _ => [1, 2]) beh]

theorem placed : PlacedBytes par.E par.C v0 (calls par (start SolBmc.init v0) ops1) := by
  have hr : (⟨[7], [0x62], 0, relayBytes, fun _ => []⟩ : BCall).read =
      some ⟨[7], [0x62], 0, [.upd header sigs, .proof ⟨[], [wMsg g1, wMsg g2], [(1, h (wMsg g3))]⟩]⟩ := by decide +kernel
  have hu : SolBtpBlock.handleUpdate par.E par.C v0 0 header sigs =
      some ({ v0 with secHash := h (BtpBlock.secBytes header.sec), height := 11, root := header.root, cnt := 3, vals := [addr 8] }, 3) := by
    decide +kernel
  simp only [ops1, calls, List.append_nil]
  split
  · trivial
  · show PlacedBytes par.E par.C v0 [⟨[7], [0x62], 0, relayBytes, fun _ => []⟩]
    unfold PlacedBytes
    rw [hr]
    simp only
    split
    · trivial
    · refine ⟨fun x hx => ?_, trivial⟩
      rw [show v0.cnt - (v0.next - v0.first) = 0 from rfl, hu] at hx
      simp only [Option.some.injEq] at hx
      subst hx
      exact ⟨⟨rfl, by decide⟩, fun _ _ => trivial⟩

/-- The hypotheses of `C135_end_to_end_partial` are met. -/
example := C135_end_to_end_partial jcfg 1 jops "e/A" 3 0 bound.1 bound.2 fits 3 [] [⟨true, []⟩, block] (by decide +kernel)
  (by rw [given_eq]; exact ⟨[], rfl⟩) par SolRelay.Toy.hash_len [0x62] 1 (fun _ => []) (headerBytes first0) first0 (by decide +kernel)
  v0 (by decide +kernel) (by decide +kernel) (by intro x hx; cases hx) SolBmc.init rfl ops1
  (by intro o ho; simp only [ops1, List.mem_singleton] at ho; subst ho; intro k; trivial) placed (by decide +kernel)

/-- The messages handled are the first two of ICON. -/
example : (run par (start SolBmc.init v0) ops1).bmc.disp "icon" = [some (seen g1), some (seen g2)] ∧
    seen g2 = ⟨"icon", "e", "s", 0, [7, 8], 2, ⟨"icon", []⟩⟩ := by decide +kernel

/-- C135, codec: a message with a fee, and what follows it in memory. -/
example : decodeMsg (wMsg ⟨"0x1.icon", "0x2.eth", "xcall", -3, [1, 2, 3], 200, some ⟨"0x1.icon", [5, 1000]⟩⟩) [9, 9] =
    some ⟨"0x1.icon", "0x2.eth", "xcall", -3, [1, 2, 3], 200, ⟨"0x1.icon", [5, 1000]⟩⟩ := by decide +kernel

/-- Two messages that look the same: the fee missing, and empty. -/
example : seen ⟨"a", "b", "s", 1, [], 1, none⟩ = seen ⟨"a", "b", "s", 1, [], 1, some ⟨"", []⟩⟩ := by decide +kernel

end Demo

end Verif.EndToEnd
