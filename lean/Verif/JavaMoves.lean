import Verif.SolAnswerInv
import Verif.JavaBmcLemmas
/-!
The calls of the ICON message center (JavaBmc) as moves of SolAnswer.

* A message of the ICON message center is read by an EVM message center as `tr`: the fee that is missing in messages between message
  centers is read as the empty fee (RLPDecodeStruct.sol:23-25 `_decodeFeeInfo`).
* An emitted `Message` event and a message accepted by the chain (`sendBTPMessage`) are both messages sent. The ghost events `start` and
  `bind` are not.
* An answer owed is a stored ResponseInfo; the empty storage slot of the EVM side stands for null.
* Three things are needed of the state: no service is called `bmc` (`addService` refuses it), answers owed have positive numbers, and one
  owed in the name of `bmc` is stored under the number of the message (which claimReward uses as sn). Of the messages taken is needed:
  requests have positive numbers and a fee, and those in the name of `bmc` have the number of the message as sn.
-/
namespace Verif.MixNet
open Verif
open Verif.SolBmc (FM FeeInfo)
open Verif.SolNet (Abs Mv Mvs SameMsg owed msgsOf)
open Verif.JavaBmc

/-! ### Reading ICON's messages -/

/-- RLPDecodeStruct.sol:18-36, 84-96: a message as the EVM message center reads it. -/
def tr (m : Msg) : SolBmc.Msg := ⟨m.src, m.dst, m.svc, m.sn, m.body, m.nsn, m.fee.getD ⟨"", []⟩⟩

/-- RLPEncodeStruct.sol:18-33 always writes the fee: a message of an EVM message center as that of ICON reads it. -/
def emb (m : SolBmc.Msg) : Msg := ⟨m.src, m.dst, m.svc, m.sn, m.body, m.nsn, some m.fee⟩

theorem tr_emb (m : SolBmc.Msg) : tr (emb m) = m := rfl

def trEv : Event → List SolBmc.Event
  | .message next seq m => [.message next seq (tr m)]
  | .chain _ next seq m => [.message next seq (tr m)]
  | .dropped prev seq m => [.dropped prev seq (tr m) 0]
  | .start _ => []
  | .bind _ _ => []

/-- The messages sent. -/
def sentEv : Event → List Msg
  | .message _ _ m => [m]
  | .chain _ _ _ m => [m]
  | _ => []

def trLog (l : List Event) : List SolBmc.Event := l.flatMap trEv
def sentBy (l : List Event) : List Msg := l.flatMap sentEv

theorem trLog_append (a b : List Event) : trLog (a ++ b) = trLog a ++ trLog b := List.flatMap_append ..
theorem sentBy_append (a b : List Event) : sentBy (a ++ b) = sentBy a ++ sentBy b := List.flatMap_append ..

theorem msgsOf_trLog (l : List Event) : msgsOf (trLog l) = (sentBy l).map tr := by
  induction l with
  | nil => rfl
  | cons e t ih =>
    have h1 : trLog (e :: t) = trEv e ++ trLog t := rfl
    have h2 : sentBy (e :: t) = sentEv e ++ sentBy t := rfl
    rw [h1, h2, SolNet.msgsOf_append, ih, List.map_append]
    cases e <;> rfl

def trResp : Option Resp → SolBmc.Resp
  | none => SolBmc.Resp.empty
  | some r => ⟨r.nsn, r.fee⟩

def trMap (l : FM (String × String × Int) (Option Resp)) : FM (String × String × Int) SolBmc.Resp := l.map fun p => (p.1, trResp p.2)

/-- What the moves are about. -/
def absJ (s : St) : Abs := ⟨trMap s.resp, s.nsn, true⟩

theorem get_map (l : FM (String × String × Int) (Option Resp)) (k : String × String × Int) :
    (trMap l).get SolBmc.Resp.empty k = trResp (l.get none k) := by
  induction l with
  | nil => rfl
  | cons p t ih =>
    obtain ⟨a, b⟩ := p
    simp only [trMap, List.map_cons, FM.get] at ih ⊢
    split
    · rfl
    · exact ih

theorem set_map (l : FM (String × String × Int) (Option Resp)) (k : String × String × Int) (v : Option Resp) :
    trMap (l.set k v) = (trMap l).set k (trResp v) := by
  induction l with
  | nil => rfl
  | cons p t ih =>
    obtain ⟨a, b⟩ := p
    simp only [trMap, List.map_cons, FM.set] at ih ⊢
    split
    · rfl
    · rw [List.map_cons, ih]

theorem set_set {K V : Type} [DecidableEq K] (l : FM K V) (k : K) (v w : V) : (l.set k v).set k w = l.set k w := by
  induction l with
  | nil => simp [FM.set]
  | cons p t ih =>
    obtain ⟨a, b⟩ := p
    by_cases h : a = k
    · simp [FM.set, h]
    · simp [FM.set, h, ih]

theorem owedJ (s : St) (k : String × String × Int) : owed (absJ s) k = (trResp (s.resp.get none k)).nsn := by
  unfold owed absJ
  rw [get_map]

/-! ### What is needed -/

/-- Of the state. -/
structure Own (s : St) : Prop where
  bmc : s.services "bmc" = none
  resp : ∀ key r, s.resp.get none key = some r → 0 < r.nsn ∧ (key.2.1 = "bmc" → r.nsn = key.2.2)

/-- Of a message taken. -/
structure Wire (m : Msg) : Prop where
  pos : 0 < m.sn → 0 < m.nsn
  fee : 0 < m.sn → m.fee.isSome = true
  bmc : m.svc = "bmc" → 0 < m.sn → m.sn = m.nsn

/-- A stretch of a call that takes the messages `i`. -/
def JGo (net : String) (s : St) (i : List Msg) (s' : St) : Prop :=
  Own s → (∀ m ∈ i, Wire m) → Own s' ∧ ∃ evs, s'.log = s.log ++ evs ∧ Mvs net (absJ s) (i.map tr) (trLog evs) (absJ s') ∧
    ∀ m ∈ sentBy evs, 0 < m.sn → m.fee.isSome = true

theorem JGo.trans {net : String} {a b d : St} {i j : List Msg} (h1 : JGo net a i b) (h2 : JGo net b j d) : JGo net a (i ++ j) d := by
  intro o w
  obtain ⟨o1, e, l1, m1, f1⟩ := h1 o (fun m hm => w m (List.mem_append_left _ hm))
  obtain ⟨o2, f, l2, m2, f2⟩ := h2 o1 (fun m hm => w m (List.mem_append_right _ hm))
  refine ⟨o2, e ++ f, by rw [l2, l1, List.append_assoc], ?_, ?_⟩
  · rw [trLog_append, List.map_append]; exact m1.trans m2
  · intro m hm
    rw [sentBy_append] at hm
    rcases List.mem_append.1 hm with h | h
    · exact f1 m h
    · exact f2 m h

theorem JGo.trans0 {net : String} {a b d : St} {i : List Msg} (h1 : JGo net a [] b) (h2 : JGo net b i d) : JGo net a i d := h1.trans h2
theorem JGo.trans1 {net : String} {a b d : St} {i : List Msg} (h1 : JGo net a i b) (h2 : JGo net b [] d) : JGo net a i d := by
  have := h1.trans h2
  rwa [List.append_nil] at this

/-- Nothing of interest changes. -/
structure Calm (s s' : St) : Prop where
  services : s'.services = s.services
  resp : s'.resp = s.resp
  nsn : s'.nsn = s.nsn
  log : s'.log = s.log

theorem Calm.refl (s : St) : Calm s s := ⟨rfl, rfl, rfl, rfl⟩
theorem Calm.trans {a b d : St} (h1 : Calm a b) (h2 : Calm b d) : Calm a d :=
  ⟨h2.1.trans h1.1, h2.2.trans h1.2, h2.3.trans h1.3, h2.4.trans h1.4⟩
theorem Calm.abs {s s' : St} (h : Calm s s') : absJ s' = absJ s := by unfold absJ; rw [h.resp, h.nsn]
theorem Calm.own {s s' : St} (h : Calm s s') (o : Own s) : Own s' := ⟨by rw [h.services]; exact o.bmc, by rw [h.resp]; exact o.resp⟩

theorem Calm.go {s s' : St} (h : Calm s s') (net : String) : JGo net s [] s' := by
  intro o _
  refine ⟨h.own o, [], by rw [h.log, List.append_nil], ?_, fun m hm => nomatch hm⟩
  rw [h.abs]; exact .nil _

/-- An event that is no message and no message given up. -/
theorem silent_go {net : String} {s s' : St} {e : Event} (hl : s'.log = s.log ++ [e]) (he : trEv e = []) (h1 : s'.services = s.services)
    (h2 : s'.resp = s.resp) (h3 : s'.nsn = s.nsn) : JGo net s [] s' := by
  intro o _
  refine ⟨⟨by rw [h1]; exact o.bmc, by rw [h2]; exact o.resp⟩, [e], hl, ?_, ?_⟩
  · have e1 : trLog [e] = [] := by show trEv e ++ [] = []; rw [he]; rfl
    have e2 : absJ s' = absJ s := by unfold absJ; rw [h2, h3]
    rw [e1, e2]; exact .nil _
  · intro m hm
    have h : msgsOf (trLog [e]) = (sentBy [e]).map tr := msgsOf_trLog _
    have e1 : trLog [e] = [] := by show trEv e ++ [] = []; rw [he]; rfl
    rw [e1] at h
    have : (sentBy [e]) = [] := List.map_eq_nil_iff.1 h.symm
    rw [this] at hm
    exact nomatch hm

/-- An answer less is owed. -/
structure Pop (key : String × String × Int) (s s' : St) : Prop where
  services : s'.services = s.services
  resp : s'.resp = s.resp.set key none
  nsn : s'.nsn = s.nsn
  log : s'.log = s.log

theorem Pop.calm {key : String × String × Int} {a b d : St} (h1 : Pop key a b) (h2 : Calm b d) : Pop key a d :=
  ⟨h2.1.trans h1.1, h2.2.trans h1.2, h2.3.trans h1.3, h2.4.trans h1.4⟩

theorem Calm.pop {key : String × String × Int} {a b d : St} (h1 : Calm a b) (h2 : Pop key b d) : Pop key a d :=
  ⟨h2.1.trans h1.1, by rw [h2.2, h1.2], h2.3.trans h1.3, h2.4.trans h1.4⟩

theorem addReward_calm (s : St) (a : Nat) (n : String) (v : Nat) : Calm s (addReward s a n v) := by
  unfold addReward
  split <;> exact ⟨rfl, rfl, rfl, rfl⟩

theorem addIn_calm (s : St) (n : String) (v : Nat) : Calm s (addIn s n v) := ⟨rfl, rfl, rfl, rfl⟩
theorem addLost_calm (s : St) (n : String) (v : Nat) : Calm s (addLost s n v) := ⟨rfl, rfl, rfl, rfl⟩

theorem inFee_calm (s : St) (f : Option FeeInfo) : Calm s (inFee s f) := by cases f <;> exact ⟨rfl, rfl, rfl, rfl⟩
theorem lostFee_calm (s : St) (f : Option FeeInfo) : Calm s (lostFee s f) := by cases f <;> exact ⟨rfl, rfl, rfl, rfl⟩
theorem twiceFee_calm (s : St) (f : Option FeeInfo) : Calm s (twiceFee s f) := by cases f <;> exact ⟨rfl, rfl, rfl, rfl⟩

theorem collect_calm (c : Cfg) (s : St) (f : Option FeeInfo) : Calm s (collect c s f) := by
  cases f with
  | none => exact Calm.refl s
  | some f => exact addReward_calm _ _ _ _

theorem accumulate_calm (s : St) (a : Nat) (f : Option FeeInfo) : Calm s (accumulate s a f).1 := by
  cases f with
  | none => exact Calm.refl s
  | some f =>
    simp only [accumulate]
    split
    · exact Calm.refl s
    · exact addReward_calm _ _ _ _

theorem accumulate_some (s : St) (a : Nat) (f : Option FeeInfo) : (accumulate s a f).2.isSome = f.isSome := by
  cases f with
  | none => rfl
  | some f =>
    simp only [accumulate]
    split <;> rfl

theorem putLink_calm (c : Cfg) (s : St) (l : Link) : Calm s (putLink c s l) := by
  unfold putLink
  split <;> exact ⟨rfl, rfl, rfl, rfl⟩

/-! ### Sending -/

/-- A message is sent, or nothing changes. -/
theorem sendMsg_out {c : Cfg} {env : Env} {s s' : St} {next : String} {m : Msg} {r : Option Ex} (h : sendMsg c env s next m = (r, s')) :
    (r ≠ none ∧ s' = s) ∨ (r = none ∧ s'.services = s.services ∧ s'.resp = s.resp ∧ s'.nsn = s.nsn ∧
      ∃ ev k, s'.log = s.log ++ [ev] ∧ trEv ev = [.message next k (tr m)] ∧ sentEv ev = [m]) := by
  rcases Tr.sendMsg (c := c) (env := env) (s := s) (next := next) (m := m) with ⟨e1, e⟩ | ⟨e1, l, hl, ⟨hid, e⟩ | ⟨id, hid, _, e⟩⟩
  all_goals rw [h] at e e1; dsimp only at e e1; subst e
  · exact .inl ⟨e1, rfl⟩
  · have hp := putLink_calm c s { l with tx := l.tx + 1 }
    exact .inr ⟨e1, hp.services, hp.resp, hp.nsn, _, l.tx + 1, rfl, rfl, rfl⟩
  · have hp := putLink_calm c s { l with tx := l.tx + 1 }
    exact .inr ⟨e1, hp.services, hp.resp, hp.nsn, _, l.tx + 1, rfl, rfl, rfl⟩

/-- A message sent from a state `s1` that differs from `s` in the numbers or in an answer owed. -/
theorem send_go {c : Cfg} {env : Env} {s s1 s' : St} {next : String} {m : Msg} {i : List Msg} (h : sendMsg c env s1 next m = (none, s'))
    (hl : s1.log = s.log) (ho : Own s → (∀ m ∈ i, Wire m) → Own s1)
    (hm : Own s → (∀ m ∈ i, Wire m) → ∀ k, Mv c.net (absJ s) (i.map tr) [.message next k (tr m)] (absJ s1)) (hf : Own s → (∀ m ∈ i, Wire m) → 0 < m.sn → m.fee.isSome = true) :
    JGo c.net s i s' := by
  intro o w
  rcases sendMsg_out h with ⟨e, -⟩ | ⟨-, h1, h2, h3, ev, k, h4, h5, h6⟩
  · exact absurd rfl e
  have o1 := ho o w
  refine ⟨⟨by rw [h1]; exact o1.bmc, by rw [h2]; exact o1.resp⟩, [ev], by rw [h4, hl], ?_, ?_⟩
  · have e1 : trLog [ev] = [.message next k (tr m)] := by show trEv ev ++ [] = _; rw [h5]; rfl
    have e2 : absJ s' = absJ s1 := by unfold absJ; rw [h2, h3]
    rw [e1, e2]
    exact .one (hm o w k)
  · intro x hx
    have e1 : sentBy [ev] = [m] := by show sentEv ev ++ [] = _; rw [h6]; rfl
    rw [e1, List.mem_singleton] at hx
    subst hx
    exact hf o w

theorem trResp_set_own {s : St} (o : Own s) (key : String × String × Int) (s' : St) (h1 : s'.services = s.services)
    (h2 : s'.resp = s.resp.set key none) : Own s' := by
  refine ⟨by rw [h1]; exact o.bmc, ?_⟩
  intro k r h
  rw [h2, FM.get_set] at h
  split at h
  · cases h
  · exact o.resp k r h

theorem owed_some {s : St} {key : String × String × Int} {r : Resp} (h : s.resp.get none key = some r) : owed (absJ s) key = r.nsn := by
  rw [owedJ, h]; rfl

theorem absJ_pop {s s' : St} (key : String × String × Int) (h2 : s'.resp = s.resp.set key none) (h3 : s'.nsn = s.nsn) :
    absJ s' = ⟨(absJ s).resp.set key SolBmc.Resp.empty, (absJ s).nsn, (absJ s).ic⟩ := by
  unfold absJ
  rw [h2, h3, set_map]; rfl

theorem sendReply_ok {c : Cfg} {env : Env} {s s' : St} {next to svc : String} {value : Nat} {sn k : Int} {body : Bytes}
    (h : sendReply c env s next value to svc sn body = (.ok k, s')) : JGo c.net s [] s' := by
  unfold sendReply at h
  split at h
  · cases h
  rename_i r hr
  dsimp only at h
  split at h
  · cases h
  rename_i s3 hs
  simp only [Prod.mk.injEq] at h
  obtain ⟨-, rfl⟩ := h
  have h1 : Calm { s with resp := s.resp.set (to, svc, sn) none, coins := s.coins + value }
      (addReward (addIn { s with resp := s.resp.set (to, svc, sn) none, coins := s.coins + value } c.net value) c.addr c.net value) :=
    (addIn_calm _ _ _).trans (addReward_calm _ _ _ _)
  refine send_go hs h1.log (fun o _ => h1.own (trResp_set_own o (to, svc, sn) _ rfl rfl)) (fun o _ k => ?_) (fun _ _ e => absurd e (Int.lt_irrefl _))
  rw [h1.abs, absJ_pop (s := s) (s' := { s with resp := s.resp.set (to, svc, sn) none, coins := s.coins + value }) (to, svc, sn) rfl rfl]
  have hw := owed_some hr
  have hp := (o.resp _ _ hr).1
  exact .answer (absJ s) next k (tr ⟨c.net, to, svc, 0, body, -r.nsn, some r.fee⟩) sn (by show 0 < owed (absJ s) (to, svc, sn); rw [hw]; exact hp) rfl
    (by show -r.nsn = -owed (absJ s) (to, svc, sn); rw [hw]) (.inl rfl)

/-- What is left of a reply that is not sent: nothing, or an answer less owed. -/
theorem sendReply_err {c : Cfg} {env : Env} {s s' : St} {next to svc : String} {value : Nat} {sn : Int} {body : Bytes} {e : Ex}
    (h : sendReply c env s next value to svc sn body = (.error e, s')) :
    Calm s s' ∨ (s.resp.get none (to, svc, sn) ≠ none ∧ Pop (to, svc, sn) s s') := by
  unfold sendReply at h
  split at h
  · simp only [Prod.mk.injEq] at h
    rw [← h.2]; exact .inl (Calm.refl s)
  rename_i r hr
  dsimp only at h
  split at h
  · rename_i e' s3 hs
    simp only [Prod.mk.injEq] at h
    obtain ⟨-, rfl⟩ := h
    have h1 : Calm { s with resp := s.resp.set (to, svc, sn) none, coins := s.coins + value }
        (addReward (addIn { s with resp := s.resp.set (to, svc, sn) none, coins := s.coins + value } c.net value) c.addr c.net value) :=
      (addIn_calm _ _ _).trans (addReward_calm _ _ _ _)
    refine .inr ⟨by rw [hr]; simp, ?_⟩
    rcases sendMsg_out hs with ⟨-, h2⟩ | ⟨h2, -⟩
    · subst h2
      have h2 : Pop (to, svc, sn) s { s with resp := s.resp.set (to, svc, sn) none, coins := s.coins + value } := ⟨rfl, rfl, rfl, rfl⟩
      exact (h2.calm h1).calm (lostFee_calm _ _)
    · cases h2
  · cases h

theorem sendRequest_ok {c : Cfg} {env : Env} {s s' : St} {next to svc : String} {value : Nat} {sn k : Int} {body : Bytes}
    (h : sendRequest c env s next value to svc sn body = (.ok k, s')) (hsn : 0 ≤ sn ∨ sn = s.nsn + 1)
    (hb : Own s → svc = "bmc" → 0 < sn → sn = s.nsn + 1) : JGo c.net s [] s' := by
  unfold sendRequest at h
  dsimp only at h
  split at h
  · cases h
  split at h
  · cases h
  rename_i s3 hs
  simp only [Prod.mk.injEq] at h
  obtain ⟨-, rfl⟩ := h
  have h1 := (addIn_calm { s with nsn := s.nsn + 1, coins := s.coins + value } c.net value).trans (addReward_calm _ c.addr c.net
    (value - (feeList { s with nsn := s.nsn + 1 } to (decide (sn > 0))).sum))
  refine send_go hs h1.log (fun o _ => h1.own ⟨o.bmc, o.resp⟩) (fun o _ k => ?_) (fun _ _ _ => rfl)
  rw [h1.abs]
  exact .fresh (absJ s) next k (tr ⟨c.net, to, svc, sn, body, s.nsn + 1, some ⟨c.net, _⟩⟩) rfl rfl hsn (hb o)

theorem sendWithFee_ok {c : Cfg} {env : Env} {s s' : St} {to svc : String} {value : Nat} {sn k : Int} {body : Bytes} {isR fill : Bool}
    (h : sendWithFee c env s value to svc sn body isR fill = (.ok k, s')) (hsn : 0 ≤ sn)
    (hb : Own s → isR = false → fill = false → svc = "bmc" → sn ≤ 0) : JGo c.net s [] s' := by
  unfold sendWithFee at h
  split at h
  · cases h
  split at h
  · exact sendReply_ok h
  · rename_i hr
    refine sendRequest_ok h ?_ ?_
    · cases fill
      · exact .inl hsn
      · exact .inr rfl
    · intro o e1 e2
      cases fill
      · simp only [Bool.false_eq_true, if_false] at e2 ⊢
        have := hb o (by simpa using hr) rfl e1
        omega
      · rfl

theorem sendMessage_go {c : Cfg} {env : Env} {s s' : St} {caller value : Nat} {to svc : String} {sn : Int} {body : Bytes}
    (h : sendMessage c env s caller value to svc sn body = some s') : JGo c.net s [] s' := by
  unfold sendMessage at h
  split at h
  · cases h
  rename_i a ha
  split at h
  · cases h
  split at h
  · cases h
  rename_i k s1 hs
  simp only [Option.some.injEq] at h
  subst h
  refine sendWithFee_ok hs ?_ ?_
  · split <;> omega
  · intro o _ _ e
    rw [e, o.bmc] at ha
    cases ha

theorem sendInternal_go {c : Cfg} {env : Env} {s s' : St} {next to : String} {body : Bytes}
    (h : sendInternal c env s next to body = (none, s')) : JGo c.net s [] s' := by
  unfold sendInternal at h
  refine send_go h rfl (fun o _ => ⟨o.bmc, o.resp⟩) (fun o _ k => ?_) (fun _ _ e => absurd e (Int.lt_irrefl _))
  exact .fresh (absJ s) next k (tr ⟨c.net, to, "bmc", 0, body, s.nsn + 1, none⟩) rfl rfl (.inl (Int.le_refl _)) (fun _ e => absurd e (Int.lt_irrefl _))

theorem propagate_go {c : Cfg} {env : Env} {body : Bytes} : ∀ (l : List (String × Link)) {s s' : St}, propagate c env body l s = some s' → JGo c.net s [] s'
  | [], s, s', h => by
    simp only [propagate, Option.some.injEq] at h
    subst h; exact (Calm.refl s).go _
  | (_, l) :: t, s, s', h => by
    simp only [propagate] at h
    split at h
    · cases h
    · rename_i s1 h1
      exact (sendInternal_go h1).trans0 (propagate_go t h)

/-! ### Receiving -/

theorem handleResponse_calm {s s' : St} {nsn : Int} {result : Nat} {r : Option Ex} (h : handleResponse s nsn result = (r, s')) : Calm s s' := by
  unfold handleResponse at h
  split at h
  · simp only [Prod.mk.injEq] at h
    rw [← h.2]; exact Calm.refl s
  · rename_i q hq
    simp only [Prod.mk.injEq] at h
    rw [← h.2]
    have h1 : Calm s { s with req := s.req.set nsn none } := ⟨rfl, rfl, rfl, rfl⟩
    split
    · have := h1.trans (addReward_calm _ q.caller q.dst q.amount)
      exact ⟨this.1, this.2, this.3, this.4⟩
    · exact ⟨rfl, rfl, rfl, rfl⟩

theorem addReach_calm {c : Cfg} {s s' : St} {net : String} {rs : List String} {r : Option Ex} (h : addReach c s net rs = (r, s')) : Calm s s' := by
  unfold addReach at h
  split at h <;> simp only [Prod.mk.injEq] at h <;> rw [← h.2]
  · exact Calm.refl s
  · exact putLink_calm _ _ _

theorem removeReach_calm {c : Cfg} {s s' : St} {net x : String} {r : Option Ex} (h : removeReach c s net x = (r, s')) : Calm s s' := by
  unfold removeReach at h
  split at h <;> simp only [Prod.mk.injEq] at h <;> rw [← h.2]
  · exact Calm.refl s
  · exact putLink_calm _ _ _

theorem internalHandle_ok {c : Cfg} {env : Env} {s s' : St} {src : String} {nsn : Int} {body : Bytes}
    (h : internalHandle c env s src nsn body = (none, s')) : JGo c.net s [] s' := by
  unfold internalHandle at h
  split at h
  · cases h
  · split at h
    · cases h
    rename_i _ amount receiver _ _ a _
    dsimp only at h
    split at h
    · cases h
    rename_i k s2 hs
    simp only [Prod.mk.injEq] at h
    obtain ⟨-, rfl⟩ := h
    have h9 : Calm s2 { s2 with credited := s2.credited + amount } := ⟨rfl, rfl, rfl, rfl⟩
    refine (((addIn_calm s c.net amount).trans (addReward_calm _ a c.net amount)).go c.net).trans0 (JGo.trans1 (b := s2) ?_ (h9.go c.net))
    unfold sendWithFee at hs
    split at hs
    · cases hs
    · rw [if_pos rfl] at hs
      exact sendReply_ok hs
  · exact (handleResponse_calm h).go _
  · exact (addReach_calm h).go _
  · exact (removeReach_calm h).go _
  · exact (addReach_calm h).go _

theorem internalHandle_err {c : Cfg} {env : Env} {s s' : St} {src : String} {nsn : Int} {body : Bytes} {e : Ex}
    (h : internalHandle c env s src nsn body = (some e, s')) :
    Calm s s' ∨ (s.resp.get none (src, "bmc", nsn) ≠ none ∧ Pop (src, "bmc", nsn) s s') := by
  unfold internalHandle at h
  split at h
  · simp only [Prod.mk.injEq] at h
    rw [← h.2]; exact .inl (Calm.refl s)
  · split at h
    · simp only [Prod.mk.injEq] at h
      rw [← h.2]; exact .inl (Calm.refl s)
    rename_i _ amount receiver _ _ a _
    dsimp only at h
    split at h
    · rename_i e' s2 hs
      simp only [Prod.mk.injEq] at h
      obtain ⟨-, rfl⟩ := h
      have h1 := (addIn_calm s c.net amount).trans (addReward_calm _ a c.net amount)
      have h9 : Calm s2 { s2 with doubled := s2.doubled + amount } := ⟨rfl, rfl, rfl, rfl⟩
      unfold sendWithFee at hs
      split at hs
      · simp only [Prod.mk.injEq] at hs
        rw [hs.2] at h1; exact .inl (h1.trans h9)
      · rw [if_pos rfl] at hs
        rcases sendReply_err hs with h2 | ⟨h2, h3⟩
        · exact .inl ((h1.trans h2).trans h9)
        · rw [h1.resp] at h2
          exact .inr ⟨h2, (h1.pop h3).calm h9⟩
    · cases h
  · exact .inl (handleResponse_calm h)
  · exact .inl (addReach_calm h)
  · exact .inl (removeReach_calm h)
  · exact .inl (addReach_calm h)

/-- The fee of a message to this network with sn ≥ 0: a request is stored. -/
theorem storeFee_pos (c : Cfg) (s : St) (m : Msg) (f : FeeInfo) (hf : m.fee = some f) (hp : 0 < m.sn) :
    (storeFee c s m).services = s.services ∧ (storeFee c s m).resp = s.resp.set (m.src, m.svc, m.sn) (some ⟨m.nsn, f⟩) ∧
      (storeFee c s m).nsn = s.nsn ∧ (storeFee c s m).log = s.log := by
  unfold storeFee
  rw [hf]
  dsimp only
  rw [if_pos hp]
  have h := collect_calm c s ((s.resp.get none (m.src, m.svc, m.sn)).map (·.fee))
  exact ⟨h.services, by dsimp only; rw [h.resp], h.nsn, h.log⟩

theorem storeFee_zero (c : Cfg) (s : St) (m : Msg) (hp : ¬ 0 < m.sn) : Calm s (storeFee c s m) := by
  unfold storeFee
  cases m.fee with
  | none => exact Calm.refl s
  | some f =>
    dsimp only
    rw [if_neg hp]
    exact collect_calm _ _ _

theorem unstoreFee_pos (s : St) (m : Msg) (f : FeeInfo) (hf : m.fee = some f) (hp : 0 < m.sn) : Pop (m.src, m.svc, m.sn) s (unstoreFee s m) := by
  unfold unstoreFee
  rw [hf]
  dsimp only
  rw [if_pos hp]
  have h : Pop (m.src, m.svc, m.sn) s { s with resp := s.resp.set (m.src, m.svc, m.sn) none } := ⟨rfl, rfl, rfl, rfl⟩
  split
  · exact h
  · exact h.calm ((lostFee_calm _ _).trans (twiceFee_calm _ _))

theorem unstoreFee_zero (s : St) (m : Msg) (hp : ¬ 0 < m.sn) : unstoreFee s m = s := by
  unfold unstoreFee
  cases m.fee with
  | none => rfl
  | some f => exact if_neg hp

theorem fee_cases {m m0 : Msg} (w : Wire m0) (hf : m.fee.isSome = m0.fee.isSome) (hp : 0 < m0.sn) : ∃ f, m.fee = some f := by
  have := w.fee hp
  rw [← hf] at this
  exact Option.isSome_iff_exists.1 this

/-- A request stored. -/
theorem store_go (c : Cfg) (s : St) (m0 m : Msg) (hm : m = { m0 with fee := m.fee }) (hf : m.fee.isSome = m0.fee.isSome) (hd : m0.dst = c.net) (hp : 0 < m0.sn) :
    JGo c.net s [m0] (storeFee c s m) := by
  intro o w
  have w := w m0 (List.mem_singleton.2 rfl)
  obtain ⟨f, hf⟩ := fee_cases w hf hp
  have e1 : m.src = m0.src := by rw [hm]
  have e2 : m.svc = m0.svc := by rw [hm]
  have e3 : m.sn = m0.sn := by rw [hm]
  have e4 : m.nsn = m0.nsn := by rw [hm]
  obtain ⟨h1, h2, h3, h4⟩ := storeFee_pos c s m f hf (by rw [e3]; exact hp)
  rw [e1, e2, e3, e4] at h2
  refine ⟨⟨by rw [h1]; exact o.bmc, ?_⟩, [], by rw [h4, List.append_nil], ?_, fun x hx => nomatch hx⟩
  · intro key r h
    rw [h2, FM.get_set] at h
    split at h
    · rename_i hk
      subst hk
      obtain rfl := Option.some.inj h
      exact ⟨w.pos hp, fun e => (w.bmc e hp).symm⟩
    · exact o.resp key r h
  · have : absJ (storeFee c s m) = ⟨(absJ s).resp.set (m0.src, m0.svc, m0.sn) ⟨m0.nsn, f⟩, (absJ s).nsn, (absJ s).ic⟩ := by
      unfold absJ
      rw [h2, h3, set_map]; rfl
    rw [this]
    exact .one (.store (absJ s) (tr m0) f hd hp)

theorem receive_go (c : Cfg) (s s' : St) (m0 : Msg) (h : Calm s s') (hd : m0.dst = c.net) (hp : ¬ 0 < m0.sn) : JGo c.net s [m0] s' := by
  intro o _
  refine ⟨h.own o, [], by rw [h.log, List.append_nil], ?_, fun x hx => nomatch hx⟩
  rw [h.abs]
  exact .one (.receive (absJ s) (tr m0) hd (by show m0.sn ≤ 0; omega))

/-- A message for this network that is handled. -/
theorem handleMessage_ok {c : Cfg} {env : Env} {out : Out} {call : St → St} (hc : ∀ s, JGo c.net s [] (call s)) {s s' : St} {m0 m : Msg}
    (hm : m = { m0 with fee := m.fee }) (hf : m.fee.isSome = m0.fee.isSome) (hd : m0.dst = c.net)
    (h : handleMessage c env out call s m = (none, s')) : JGo c.net s [m0] s' := by
  have e3 : m.sn = m0.sn := by rw [hm]
  unfold handleMessage at h
  split at h
  · dsimp only at h
    have h0 : JGo c.net s [m0] (storeFee c s m) := by
      by_cases hp : 0 < m0.sn
      · exact store_go c s m0 m hm hf hd hp
      · exact receive_go c s _ m0 (storeFee_zero c s m (by rw [e3]; exact hp)) hd hp
    generalize storeFee c s m = s1 at h h0
    refine h0.trans1 ?_
    split at h
    · rename_i s2 hr
      simp only [Prod.mk.injEq, true_and] at h
      subst h
      split at hr
      · exact internalHandle_ok hr
      · split at hr
        · cases hr
        · split at hr
          · simp only [Prod.mk.injEq, true_and] at hr
            subst hr
            exact hc s1
          · cases hr
    · cases h
  · rename_i hn
    dsimp only at h
    have h0 : JGo c.net s [m0] (collect c s m.fee) := receive_go c s _ m0 (collect_calm c s m.fee) hd (by omega)
    generalize collect c s m.fee = s1 at h h0
    refine h0.trans1 ?_
    split at h
    · cases h
    · split at h
      · exact (handleResponse_calm h).go _
      · split at h
        · cases h
        · split at h
          · simp only [Prod.mk.injEq, true_and] at h
            subst h
            exact hc s1
          · cases h

/-- What is left of a message for this network that is not handled: of a request nothing is owed; of another message, maybe what was owed
    for it as a claim. -/
theorem handleMessage_err {c : Cfg} {env : Env} {out : Out} {call : St → St} {s s' : St} {m : Msg} {e : Ex}
    (h : handleMessage c env out call s m = (some e, s')) (hb : m.svc = "bmc" → 0 < m.sn → m.sn = m.nsn) :
    (0 < m.sn → ∀ f, m.fee = some f → Pop (m.src, m.svc, m.sn) (storeFee c s m) s') ∧
    (¬ 0 < m.sn → Calm s s' ∨ (s.resp.get none (m.src, "bmc", m.nsn) ≠ none ∧ Pop (m.src, "bmc", m.nsn) s s')) := by
  unfold handleMessage at h
  split at h
  · dsimp only at h
    split at h
    · cases h
    rename_i e' s2 hr
    simp only [Prod.mk.injEq] at h
    obtain ⟨-, rfl⟩ := h
    have key : Calm (storeFee c s m) s2 ∨ (m.svc = "bmc" ∧ (storeFee c s m).resp.get none (m.src, "bmc", m.nsn) ≠ none ∧
        Pop (m.src, "bmc", m.nsn) (storeFee c s m) s2) := by
      split at hr
      · rename_i hs
        rcases internalHandle_err hr with h1 | h1
        · exact .inl h1
        · exact .inr ⟨hs, h1⟩
      · split at hr
        · simp only [Prod.mk.injEq] at hr
          rw [← hr.2]; exact .inl (Calm.refl _)
        · split at hr
          · cases hr
          · simp only [Prod.mk.injEq] at hr
            rw [← hr.2]; exact .inl (Calm.refl _)
    constructor
    · intro hp f hf
      have h2 := unstoreFee_pos s2 m f hf hp
      rcases key with h1 | ⟨h1, -, h3⟩
      · exact h1.pop h2
      · rw [← h1, ← hb h1 hp] at h3
        exact ⟨h2.1.trans h3.1, by rw [h2.2, h3.2, set_set], h2.3.trans h3.3, h2.4.trans h3.4⟩
    · intro hp
      rw [unstoreFee_zero s2 m hp]
      have h0 := storeFee_zero c s m hp
      rcases key with h1 | ⟨-, h2, h3⟩
      · exact .inl (h0.trans h1)
      · rw [h0.resp] at h2
        exact .inr ⟨h2, h0.pop h3⟩
  · rename_i hn
    refine ⟨fun hp => absurd hp (by omega), fun _ => .inl ?_⟩
    dsimp only at h
    have h0 := collect_calm c s m.fee
    generalize collect c s m.fee = s1 at h h0
    refine h0.trans ?_
    split at h
    · simp only [Prod.mk.injEq] at h
      rw [← h.2]; exact Calm.refl _
    · split at h
      · exact handleResponse_calm h
      · split at h
        · simp only [Prod.mk.injEq] at h
          rw [← h.2]; exact Calm.refl _
        · split at h
          · cases h
          · simp only [Prod.mk.injEq] at h
            rw [← h.2]; exact Calm.refl _

/-- Nothing changes but the log. -/
theorem drop_go {net : String} {s s1 s' : St} {i : List Msg} {prev : String} {seq : Nat} {m' : Msg} (hl1 : s1.log = s.log) (hl : s'.log = s1.log ++ [.dropped prev seq m'])
    (h1 : s'.services = s1.services) (h2 : s'.resp = s1.resp) (h3 : s'.nsn = s1.nsn) (ho : Own s → (∀ m ∈ i, Wire m) → Own s1)
    (hm : Own s → (∀ m ∈ i, Wire m) → Mv net (absJ s) (i.map tr) [.dropped prev seq (tr m') 0] (absJ s1)) : JGo net s i s' := by
  intro o w
  have o1 := ho o w
  refine ⟨⟨by rw [h1]; exact o1.bmc, by rw [h2]; exact o1.resp⟩, [.dropped prev seq m'], by rw [hl, hl1], ?_, fun m hm => nomatch hm⟩
  have e2 : absJ s' = absJ s1 := by unfold absJ; rw [h2, h3]
  rw [e2]
  exact .one (hm o w)

/-- BTPMessageCenter.java:568-581 for a message that was not for this network, or whose effects are undone: `s1` is like `s`. -/
theorem failed_pass {c : Cfg} {env : Env} {prev : String} {seq : Nat} {s s1 : St} {m0 m : Msg} {e : Ex} (hm : m = { m0 with fee := m.fee })
    (h1 : Calm s s1) : JGo c.net s [m0] (failed c env prev seq s1 m e) := by
  have e1 : m.src = m0.src := by rw [hm]
  have e2 : m.svc = m0.svc := by rw [hm]
  have e3 : m.sn = m0.sn := by rw [hm]
  have e4 : m.nsn = m0.nsn := by rw [hm]
  unfold failed
  by_cases hp : m.sn > 0
  · rw [if_pos hp]
    split
    · rename_i s' hs
      unfold sendError at hs
      refine send_go hs h1.log (fun o _ => h1.own o) (fun o _ k => ?_) (fun _ _ hx => absurd hx (by show ¬ 0 < -m.sn; omega))
      rw [h1.abs]
      exact .back (absJ s) prev k (tr m0) _ (by show 0 < m0.sn; omega) rfl e1 e2 (by show -m.sn = -m0.sn; rw [e3]) (by show -m.nsn = -m0.nsn; rw [e4])
    · rename_i e' s' hs
      unfold sendError at hs
      rcases sendMsg_out hs with ⟨-, h2⟩ | ⟨h2, -⟩
      · subst h2
        have h3 := h1.trans (collect_calm c s' (swapFee s' m.src m.fee))
        refine drop_go h3.log rfl rfl rfl rfl (fun o _ => h3.own o) (fun o _ => ?_)
        rw [h3.abs]
        exact .fall (absJ s) prev seq (tr m0) _ 0 rfl (by show 0 < m0.sn; omega) e1 e4
      · cases h2
  · rw [if_neg hp]
    dsimp only
    have h2 := h1.trans (collect_calm c s1 m.fee)
    have h3 : Calm s (if m.dst = c.net then twiceFee (collect c s1 m.fee) m.fee else collect c s1 m.fee) := by
      split
      · exact h2.trans (twiceFee_calm _ _)
      · exact h2
    generalize (if m.dst = c.net then twiceFee (collect c s1 m.fee) m.fee else collect c s1 m.fee) = s3 at h3
    refine drop_go h3.log rfl rfl rfl rfl (fun o _ => h3.own o) (fun o _ => ?_)
    rw [h3.abs]
    exact .giveUp (absJ s) prev seq (tr m0) (tr m) 0 (by show m0.sn ≤ 0; omega) e4

/-- BTPMessageCenter.java:568-581 for a request to this network that was stored. -/
theorem failed_stored {c : Cfg} {env : Env} {prev : String} {seq : Nat} {s s1 : St} {m : Msg} {e : Ex} (hp : 0 < m.sn)
    (hw : Own s → s.resp.get none (m.src, m.svc, m.sn) = some ⟨m.nsn, f⟩) (h1 : Pop (m.src, m.svc, m.sn) s s1) : JGo c.net s [] (failed c env prev seq s1 m e) := by
  unfold failed
  rw [if_pos hp]
  have ho : Own s → Own s1 := fun o => trResp_set_own o _ _ h1.services h1.resp
  split
  · rename_i s' hs
    unfold sendError at hs
    refine send_go hs h1.log (fun o _ => ho o) (fun o _ k => ?_) (fun _ _ hx => absurd hx (by show ¬ 0 < -m.sn; omega))
    have h2 := owed_some (hw o)
    have h3 := (o.resp _ _ (hw o)).1
    rw [absJ_pop (m.src, m.svc, m.sn) h1.resp h1.nsn]
    exact .answer (absJ s) prev k (tr ⟨c.net, m.src, m.svc, -m.sn, _, -m.nsn, _⟩) m.sn (by show 0 < owed (absJ s) (m.src, m.svc, m.sn); rw [h2]; exact h3) rfl
      (by show -m.nsn = -owed (absJ s) (m.src, m.svc, m.sn); rw [h2]) (.inr rfl)
  · rename_i e' s' hs
    unfold sendError at hs
    rcases sendMsg_out hs with ⟨-, h2⟩ | ⟨h2, -⟩
    · subst h2
      have h3 := h1.calm (collect_calm c s' (swapFee s' m.src m.fee))
      refine drop_go h3.log rfl rfl rfl rfl (fun o _ => trResp_set_own o _ _ h3.services h3.resp) (fun o _ => ?_)
      have h4 := owed_some (hw o)
      have h5 := (o.resp _ _ (hw o)).1
      rw [absJ_pop (m.src, m.svc, m.sn) h3.resp h3.nsn]
      exact .forget (absJ s) prev seq (m.src, m.svc, m.sn) _ 0 rfl (by rw [h4]; exact h5) rfl (by rw [h4]; rfl)
    · cases h2

/-- BTPMessageCenter.java:568-581 for a message to this network without answer: given up, and what was owed for it as a claim with it. -/
theorem failed_noted {c : Cfg} {env : Env} {prev : String} {seq : Nat} {s s1 : St} {m : Msg} {e : Ex} (hp : ¬ 0 < m.sn)
    (h1 : Calm s s1 ∨ (s.resp.get none (m.src, "bmc", m.nsn) ≠ none ∧ Pop (m.src, "bmc", m.nsn) s s1)) : JGo c.net s [] (failed c env prev seq s1 m e) := by
  unfold failed
  rw [if_neg hp]
  dsimp only
  have h3 : Calm s1 (if m.dst = c.net then twiceFee (collect c s1 m.fee) m.fee else collect c s1 m.fee) := by
    split
    · exact (collect_calm _ _ _).trans (twiceFee_calm _ _)
    · exact collect_calm _ _ _
  generalize (if m.dst = c.net then twiceFee (collect c s1 m.fee) m.fee else collect c s1 m.fee) = s3 at h3
  rcases h1 with h1 | ⟨h0, h1⟩
  · have h4 := h1.trans h3
    refine drop_go h4.log rfl rfl rfl rfl (fun o _ => h4.own o) (fun o _ => ?_)
    rw [h4.abs]
    exact .note (absJ s) prev seq (tr m) 0
  · have h4 := h1.calm h3
    refine drop_go h4.log rfl rfl rfl rfl (fun o _ => trResp_set_own o _ _ h4.services h4.resp) (fun o _ => ?_)
    cases hr : s.resp.get none (m.src, "bmc", m.nsn) with
    | none => exact absurd hr h0
    | some r =>
      have h5 := owed_some hr
      have h6 := o.resp _ _ hr
      rw [absJ_pop (m.src, "bmc", m.nsn) h4.resp h4.nsn]
      exact .forget (absJ s) prev seq (m.src, "bmc", m.nsn) (tr m) 0 rfl (by rw [h5]; exact h6.1) rfl (by rw [h5]; exact (h6.2 rfl).symm)

theorem item_go {c : Cfg} {env : Env} {out : Out} {call : St → St} (hc : ∀ s, JGo c.net s [] (call s)) (caller : Nat) (prev : String) (gen seq : Nat)
    (s : St) (m0 : Msg) : JGo c.net s [m0] (item c env out call caller prev gen seq s m0) := by
  unfold item
  dsimp only
  have h0 : Calm s { inFee s m0.fee with disp := (inFee s m0.fee).disp ++ [(gen, seq, some m0)] } := by
    have := inFee_calm s m0.fee
    exact ⟨this.1, this.2, this.3, this.4⟩
  generalize ({ inFee s m0.fee with disp := (inFee s m0.fee).disp ++ [(gen, seq, some m0)] } : St) = s0 at h0
  have h1 := h0.trans (accumulate_calm s0 caller m0.fee)
  have hf := accumulate_some s0 caller m0.fee
  generalize accumulate s0 caller m0.fee = q at h1 hf
  obtain ⟨s1, f⟩ := q
  dsimp only at h1 hf ⊢
  refine (h1.go c.net).trans0 ?_
  clear h0 h1
  unfold deliver
  by_cases hd : m0.dst = c.net
  · rw [if_pos (show ({ m0 with fee := f } : Msg).dst = c.net from hd)]
    split
    · rename_i s2 h
      exact handleMessage_ok hc (m := { m0 with fee := f }) rfl hf hd h
    · rename_i e s2 h
      intro o w
      have wm := w m0 (List.mem_singleton.2 rfl)
      have he := handleMessage_err h wm.bmc
      by_cases hp : 0 < m0.sn
      · obtain ⟨f', hf'⟩ := fee_cases (m := { m0 with fee := f }) wm hf hp
        have h2 := he.1 hp f' hf'
        have h3 := storeFee_pos c s1 { m0 with fee := f } f' hf' hp
        refine (store_go c s1 m0 { m0 with fee := f } rfl hf hd hp).trans1 (failed_stored (f := f') hp (fun _ => ?_) h2) o w
        rw [h3.2.1, FM.get_set, if_pos rfl]
      · have h2 := he.2 hp
        exact (receive_go c s1 s1 m0 (Calm.refl _) hd hp).trans1 (failed_noted hp h2) o w
  · rw [if_neg (show ¬ ({ m0 with fee := f } : Msg).dst = c.net from hd)]
    split
    · rename_i s2 h
      split at h
      · cases h
      · rename_i next hn
        refine send_go h rfl (fun o _ => o) (fun o _ k => ?_) (fun _ w hx => ?_)
        · exact .pass (absJ s1) next k (tr m0) _ hd ⟨rfl, rfl, rfl, rfl, rfl, rfl⟩
        · show f.isSome = true
          rw [hf]
          exact (w m0 (List.mem_singleton.2 rfl)).fee hx
    · rename_i e s2 h
      refine failed_pass (m := { m0 with fee := f }) rfl ?_
      split at h
      · simp only [Prod.mk.injEq] at h
        rw [← h.2]; exact Calm.refl _
      · rcases sendMsg_out h with ⟨-, h2⟩ | ⟨h2, -⟩
        · subst h2; exact Calm.refl _
        · cases h2

/-! ### Calls -/

theorem claim_go {c : Cfg} {env : Env} {call : St → St} (hc : ∀ s, JGo c.net s [] (call s)) {s s' : St} {sender value : Nat} {net receiver : String}
    (h : claimReward c env call s sender value net receiver = some s') : JGo c.net s [] s' := by
  unfold claimReward at h
  dsimp only at h
  generalize claimer c s sender = who at h
  split at h
  · cases h
  have h0 : Calm s { s with reward := s.reward.set (who, net) 0 } := ⟨rfl, rfl, rfl, rfl⟩
  split at h
  · split at h
    · cases h
    split at h
    · simp only [Option.some.injEq] at h
      subst h
      have h1 : Calm s { addLost (addIn { s with reward := s.reward.set (who, net) 0, coins := s.coins + value } c.net value) c.net value with
        paid := SolBmc.upd (addLost (addIn { s with reward := s.reward.set (who, net) 0, coins := s.coins + value } c.net value) c.net value).paid net
          ((addLost (addIn { s with reward := s.reward.set (who, net) 0, coins := s.coins + value } c.net value) c.net value).paid net + s.reward.get 0 (who, net)) } := ⟨rfl, rfl, rfl, rfl⟩
      exact (h1.go c.net).trans0 (hc _)
    · cases h
  · split at h
    · cases h
    rename_i k s2 hs
    simp only [Option.some.injEq] at h
    subst h
    have h1 := sendWithFee_ok hs (Int.le_refl 0) (fun _ _ e => nomatch e)
    have h2 : Calm s2 { s2 with req := s2.req.set k (some ⟨net, who, s.reward.get 0 (who, net)⟩) } := ⟨rfl, rfl, rfl, rfl⟩
    exact (h0.go c.net).trans0 (h1.trans1 (h2.go c.net))

theorem addLink_go {c : Cfg} {env : Env} {s s' : St} {link : String} (h : addLink c env s link = some s') : JGo c.net s [] s' := by
  unfold addLink at h
  split at h
  · cases h
  split at h
  · cases h
  split at h
  · cases h
  split at h
  · cases h
  rename_i s1 h1
  simp only at h
  split at h
  · cases h
  rename_i s3 h3
  cases h
  refine (propagate_go _ h1).trans0 (JGo.trans0 ?_ (sendInternal_go h3))
  exact silent_go (s := s1) rfl rfl rfl rfl rfl

theorem removeLink_go {c : Cfg} {env : Env} {s s' : St} {link : String} (h : removeLink c env s link = some s') : JGo c.net s [] s' := by
  unfold removeLink at h
  split at h
  · cases h
  split at h
  · cases h
  split at h
  · cases h
  split at h
  · cases h
  simp only at h
  refine JGo.trans0 (Calm.go ?_ _) (propagate_go _ h)
  unfold unbind
  split <;> exact ⟨rfl, rfl, rfl, rfl⟩

theorem setBTPLink_go {net : String} {s s' : St} {link : String} {id off : Nat} (h : setBTPLink s link id off = some s') : JGo net s [] s' := by
  unfold setBTPLink at h
  split at h
  · cases h
  split at h
  · cases h
  simp only [Option.some.injEq] at h
  subst h
  exact silent_go (s := s) rfl rfl rfl rfl rfl

theorem setFees_calm {c : Cfg} : ∀ (l : List (String × List Nat)) {s s' : St}, setFees c s l = some s' → Calm s s'
  | [], s, s', h => by simp only [setFees, Option.some.injEq] at h; subst h; exact Calm.refl s
  | (d, v) :: t, s, s', h => by
    simp only [setFees] at h
    have h1 : ∀ x, Calm s { s with fees := SolBmc.upd s.fees d x } := fun _ => ⟨rfl, rfl, rfl, rfl⟩
    split at h
    · exact (h1 _).trans (setFees_calm t h)
    · split at h
      · cases h
      · split at h
        · cases h
        · split at h
          · cases h
          · exact (h1 _).trans (setFees_calm t h)

/-- The services change, but none is called `bmc`. -/
theorem services_go {net : String} {s : St} {svc : String} {a : Option Nat} (h : svc = "bmc" → a = none) :
    JGo net s [] { s with services := SolBmc.upd s.services svc a } := by
  intro o _
  refine ⟨⟨?_, o.resp⟩, [], (List.append_nil _).symm, .nil _, fun m hm => nomatch hm⟩
  show (if "bmc" = svc then a else s.services "bmc") = none
  split
  · rename_i e; exact h e.symm
  · exact o.bmc

theorem conf_go {c : Cfg} {env : Env} {s s' : St} {caller : Nat} {k : Conf} (h : conf c env s caller k = some s') : JGo c.net s [] s' := by
  have hown : ∀ (x : Option JavaOwners.St), x.map (fun o => { s with own := o }) = some s' → JGo c.net s [] s' := by
    intro x hx
    cases x with
    | none => cases hx
    | some o => cases hx; (apply Calm.go; exact ⟨rfl, rfl, rfl, rfl⟩)
  unfold conf at h
  split at h
  · exact hown _ h
  · exact hown _ h
  · exact hown _ h
  · split at h
    · cases h
    · split at h
      · split at h
        · cases h
        · cases h; (apply Calm.go; exact ⟨rfl, rfl, rfl, rfl⟩)
      · split at h
        · cases h
        · cases h; (apply Calm.go; exact ⟨rfl, rfl, rfl, rfl⟩)
      · split at h
        · cases h
        · rename_i hn
          cases h
          exact services_go (fun e => absurd (.inr (.inr e)) hn)
      · split at h
        · cases h
        · cases h; exact services_go (fun _ => rfl)
      · exact addLink_go h
      · exact removeLink_go h
      · split at h
        · cases h
        · cases h; (apply Calm.go; exact ⟨rfl, rfl, rfl, rfl⟩)
      · split at h
        · cases h
        · cases h; (apply Calm.go; exact ⟨rfl, rfl, rfl, rfl⟩)
      · exact (setFees_calm _ h).go _
      · cases h; (apply Calm.go; exact ⟨rfl, rfl, rfl, rfl⟩)
      · split at h
        · cases h
        · cases h; (apply Calm.go; exact ⟨rfl, rfl, rfl, rfl⟩)
      · rename_i link a _ _ _
        split at h
        · cases h
        · cases hx : eraseRelay (s.relays link) a with
          | none => rw [hx] at h; cases h
          | some l => rw [hx] at h; cases h; (apply Calm.go; exact ⟨rfl, rfl, rfl, rfl⟩)
      · split at h
        · cases h
        · rename_i s1 h1
          exact (setBTPLink_go h1).trans0 (addLink_go h)
      · split at h
        · cases h
        · exact setBTPLink_go h
      · cases h

mutual
theorem quiet_go {c : Cfg} (o : Op) (s s' : St) (hq : o.quiet = true) (h : exec c o s = some s') : JGo c.net s [] s' := by
  cases o with
  | relay caller prev items => simp [Op.quiet] at hq
  | send env caller value to svc sn body => simp only [exec] at h; exact sendMessage_go h
  | claim env acts caller value net receiver =>
    simp only [exec] at h
    simp only [Op.quiet] at hq
    exact claim_go (fun x => quietOps_go acts x hq) h
  | drop env caller src seq svc sn nsn fn fv => simp [Op.quiet] at hq
  | conf env caller k => simp only [exec] at h; exact conf_go h
theorem quietOps_go {c : Cfg} (acts : Ops) (s : St) (hq : acts.quiet = true) : JGo c.net s [] (execOps c acts s) := by
  cases acts with
  | nil => simp only [execOps]; exact (Calm.refl s).go _
  | cons o t =>
    simp only [execOps]
    simp only [Ops.quiet, Bool.and_eq_true] at hq
    refine JGo.trans0 ?_ (quietOps_go t _ hq.2)
    cases h : exec c o s with
    | none => exact (Calm.refl s).go _
    | some s1 => exact quiet_go o s s1 hq.1 h
end

theorem items_go {c : Cfg} (caller : Nat) (prev : String) (gen : Nat) : ∀ (items : Items) (seq : Nat) (s : St), items.flat = true →
    JGo c.net s items.msgs (execItems c items caller prev gen seq s)
  | .nil, seq, s, _ => by simp only [execItems, Items.msgs]; exact (Calm.refl s).go _
  | .cons m env out acts t, seq, s, hq => by
    simp only [Items.flat, Bool.and_eq_true] at hq
    simp only [execItems, Items.msgs]
    exact (item_go (env := env) (out := out) (fun x => quietOps_go acts x hq.1) caller prev gen seq s m).trans (items_go caller prev gen t (seq + 1) _ hq.2)

theorem relay_go {c : Cfg} {caller : Nat} {prev : String} {items : Items} (hq : items.flat = true) {s s' : St}
    (h : exec c (.relay caller prev items) s = some s') : JGo c.net s items.msgs s' := by
  simp only [exec] at h
  split at h
  · cases h
  rename_i l s1 h1
  simp only [Option.some.injEq] at h
  subst h
  have h0 : Calm s s1 := by
    unfold openRelay at h1
    split at h1
    · cases h1
    · split at h1
      · cases h1
      · split at h1
        · simp only [Option.some.injEq, Prod.mk.injEq] at h1
          rw [← h1.2]
          rename_i l' _ _ _ _ _
          have := putLink_calm c s { l' with rx := l'.rx + items.msgs.length }
          exact ⟨this.1, this.2, this.3, this.4⟩
        · cases h1
  exact (h0.go c.net).trans0 (items_go caller prev l.gen items _ s1 hq)

/-- The owner names the contents of the message dropped, but for the fees. -/
theorem dropMessage_go {c : Cfg} {env : Env} {caller seq : Nat} {m : Msg} {feeNet : String} {feeValues : List Nat} {s s' : St}
    (h : exec c (.drop env caller m.src seq m.svc m.sn m.nsn feeNet feeValues) s = some s') : JGo c.net s [m] s' := by
  simp only [exec] at h
  unfold dropMessage at h
  split at h
  · cases h
  split at h
  · cases h
  rename_i prev hr
  split at h
  · cases h
  rename_i l hl
  split at h
  · cases h
  split at h
  · cases h
  split at h
  · cases h
  dsimp only at h
  have h0 : Calm s { putLink c s { l with rx := seq } with
      taken := SolBmc.upd (putLink c s { l with rx := seq }).taken l.gen seq
      disp := (putLink c s { l with rx := seq }).disp ++ [(l.gen, seq, none)] } := by
    have := putLink_calm c s { l with rx := seq }
    exact ⟨this.1, this.2, this.3, this.4⟩
  generalize ({ putLink c s { l with rx := seq } with
      taken := SolBmc.upd (putLink c s { l with rx := seq }).taken l.gen seq
      disp := (putLink c s { l with rx := seq }).disp ++ [(l.gen, seq, none)] } : St) = s1 at h h0
  have h1 := h0.trans ((inFee_calm s1 (dropFee feeNet feeValues)).trans (accumulate_calm _ c.addr (dropFee feeNet feeValues)))
  generalize accumulate (inFee s1 (dropFee feeNet feeValues)) c.addr (dropFee feeNet feeValues) = q at h h1
  obtain ⟨s2, f⟩ := q
  dsimp only at h h1
  split at h
  · rename_i hp
    split at h
    · rename_i s3 hs
      simp only [Option.some.injEq] at h
      subst h
      unfold sendError at hs
      refine send_go hs h1.log (fun o _ => h1.own o) (fun o _ k => ?_) (fun _ _ hx => absurd hx (by show ¬ 0 < -m.sn; omega))
      rw [h1.abs]
      exact .back (absJ s) prev k (tr m) _ hp rfl rfl rfl rfl rfl
    · cases h
  · rename_i hp
    simp only [Option.some.injEq] at h
    subst h
    have h2 := h1.trans (lostFee_calm s2 f)
    refine drop_go h2.log rfl rfl rfl rfl (fun o _ => h2.own o) (fun o _ => ?_)
    rw [h2.abs]
    exact .giveUp (absJ s) prev seq (tr m) _ 0 (by show m.sn ≤ 0; omega) rfl

end Verif.MixNet
