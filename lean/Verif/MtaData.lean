import Verif.MtaProps
/-!
C69: the data of every leaf added with `AddData` is in the database after a complete flush.
-/
namespace Verif.Mta
open Verif

/-- The data not yet marked as written. -/
def Node.dirty : Node → List Bytes
  | .hash _ => []
  | .data fl d => if fl then [] else [d]
  | .br _ _ l r => l.dirty ++ r.dirty

/-- A branch is marked only when nothing below it is dirty. -/
def Node.WF : Node → Prop
  | .br fl _ l r => (fl = true → l.dirty = [] ∧ r.dirty = []) ∧ l.WF ∧ r.WF
  | _ => True

def rdirty (rs : List (Option Node)) : List Bytes := rs.flatMap (fun r => match r with | none => [] | some n => n.dirty)
def RWF (rs : List (Option Node)) : Prop := ∀ n, some n ∈ rs → n.WF

theorem node_flush_data (H : Bytes → Bytes) (n : Node) (b : Nat) (h : n.WF) :
    (n.flush H b).1.WF ∧ (∀ d ∈ n.dirty, d ∈ (n.flush H b).1.dirty ∨ (H d, d) ∈ (n.flush H b).2.1) ∧
    ((n.flush H b).2.2.2 = true → (n.flush H b).1.dirty = []) := by
  induction n generalizing b with
  | hash x => simp [Node.flush, Node.WF, Node.dirty]
  | data fl d =>
    cases fl with
    | true => simp [Node.flush, Node.WF, Node.dirty]
    | false =>
      simp only [Node.flush, Bool.false_eq_true, if_false]
      split <;> simp [Node.WF, Node.dirty]
  | br fl key l r ihl ihr =>
    obtain ⟨h1, h2, h3⟩ := h
    obtain ⟨l1, l2, l3⟩ := ihl b h2
    obtain ⟨r1, r2, r3⟩ := ihr (l.flush H b).2.2.1 h3
    simp only [Node.flush]
    split
    · rename_i hf
      refine ⟨⟨h1, h2, h3⟩, ?_, ?_⟩
      · intro d hd; exact Or.inl hd
      · intro _; simp [Node.dirty, h1 hf]
    · rename_i hf
      have hdl : ∀ d ∈ l.dirty, d ∈ (l.flush H b).1.dirty ∨ (H d, d) ∈ (l.flush H b).2.1 := l2
      split
      · rename_i okl
        split
        · rename_i okr
          split
          · refine ⟨⟨fun h => absurd h hf, l1, r1⟩, ?_, by simp⟩
            intro d hd
            simp only [Node.dirty, List.mem_append] at hd ⊢
            rcases hd with hd | hd
            · rcases l2 d hd with h | h <;> simp [h]
            · rcases r2 d hd with h | h <;> simp [h]
          · refine ⟨⟨fun _ => ⟨l3 okl, r3 okr⟩, l1, r1⟩, ?_, fun _ => by simp [Node.dirty, l3 okl, r3 okr]⟩
            intro d hd
            simp only [Node.dirty, List.mem_append] at hd ⊢
            rcases hd with hd | hd
            · rcases l2 d hd with h | h <;> simp [h]
            · rcases r2 d hd with h | h <;> simp [h]
        · refine ⟨⟨fun h => absurd h hf, l1, r1⟩, ?_, by simp⟩
          intro d hd
          simp only [Node.dirty, List.mem_append] at hd ⊢
          rcases hd with hd | hd
          · rcases l2 d hd with h | h <;> simp [h]
          · rcases r2 d hd with h | h <;> simp [h]
      · refine ⟨⟨fun h => absurd h hf, l1, h3⟩, ?_, by simp⟩
        intro d hd
        simp only [Node.dirty, List.mem_append] at hd ⊢
        rcases hd with hd | hd
        · rcases l2 d hd with h | h <;> simp [h]
        · simp [hd]

theorem roots_flush_data (H : Bytes → Bytes) (rs : List (Option Node)) (b : Nat) (h : RWF rs) :
    RWF (flushRoots H rs b).1 ∧ (∀ d ∈ rdirty rs, d ∈ rdirty (flushRoots H rs b).1 ∨ (H d, d) ∈ (flushRoots H rs b).2.1) ∧
    ((flushRoots H rs b).2.2.2 = true → rdirty (flushRoots H rs b).1 = []) := by
  induction rs generalizing b with
  | nil => simp [flushRoots, RWF, rdirty]
  | cons o rs ih =>
    have hrs : RWF rs := fun n hn => h n (by simp [hn])
    cases o with
    | none =>
      obtain ⟨i1, i2, i3⟩ := ih b hrs
      simp only [flushRoots]
      refine ⟨?_, ?_, ?_⟩
      · intro n hn; simp at hn; exact i1 n hn
      · intro d hd; simpa [rdirty] using i2 d (by simpa [rdirty] using hd)
      · intro hk; simpa [rdirty] using i3 hk
    | some n =>
      obtain ⟨n1, n2, n3⟩ := node_flush_data H n b (h n (by simp))
      simp only [flushRoots]
      split
      · rename_i hok
        obtain ⟨i1, i2, i3⟩ := ih (n.flush H b).2.2.1 hrs
        refine ⟨?_, ?_, ?_⟩
        · intro m hm
          simp at hm
          rcases hm with rfl | hm
          · exact n1
          · exact i1 m hm
        · intro d hd
          simp only [rdirty, List.flatMap_cons, List.mem_append] at hd ⊢
          rcases hd with hd | hd
          · rcases n2 d hd with h | h <;> simp [h]
          · rcases i2 d hd with h | h
            · left; right; exact h
            · right; right; exact h
        · intro hk
          have a := n3 hok
          have b := i3 hk
          simp only [rdirty] at b ⊢
          simp [a, b]
      · refine ⟨?_, ?_, by simp⟩
        · intro m hm
          simp at hm
          rcases hm with rfl | hm
          · exact n1
          · exact hrs m hm
        · intro d hd
          simp only [rdirty, List.flatMap_cons, List.mem_append] at hd ⊢
          rcases hd with hd | hd
          · rcases n2 d hd with h | h <;> simp [h]
          · left; right; exact hd

theorem addNode_data {H : Bytes → Bytes} (hH : ∀ x, (H x).length = 32) {db : Db} (k : Nat) (rs : List (Option Node)) (n : Node)
    (hs : List Bytes) (hinv : Inv H db k rs hs) (h : RWF rs) (hn : n.WF) :
    RWF (addNode H rs n).1 ∧ (∀ d, d ∈ rdirty rs ∨ d ∈ n.dirty → d ∈ rdirty (addNode H rs n).1) := by
  induction rs generalizing k n hs with
  | nil =>
    refine ⟨fun m hm => ?_, fun d hd => ?_⟩
    · simp [addNode] at hm; subst hm; exact hn
    · simpa [addNode, rdirty] using hd
  | cons o rs ih =>
    have hrs : RWF rs := fun n hn => h n (by simp [hn])
    cases o with
    | none =>
      refine ⟨fun m hm => ?_, fun d hd => ?_⟩
      · simp [addNode] at hm
        rcases hm with rfl | hm
        · exact hn
        · exact hrs m hm
      · simp only [addNode, rdirty, List.flatMap_cons, List.nil_append, List.mem_append] at hd ⊢
        rcases hd with hd | hd
        · exact Or.inr hd
        · exact Or.inl hd
    | some r =>
      obtain ⟨a, b, rfl, h1, h2⟩ := hinv
      obtain ⟨i1, i2⟩ := ih (k + 1) (.br false none r n) a h2 hrs ⟨by simp, h r (by simp), hn⟩
      simp only [addNode]
      rw [if_neg (by rw [(h1.root hH).2.1]; decide)]
      refine ⟨fun m hm => ?_, fun d hd => ?_⟩
      · simp at hm; exact i1 m hm
      · have : d ∈ rdirty rs ∨ d ∈ (Node.br false none r n).dirty := by
          simp only [rdirty, List.flatMap_cons, List.mem_append, Node.dirty] at hd ⊢
          rcases hd with (hd | hd) | hd
          · exact Or.inr (Or.inl hd)
          · exact Or.inl hd
          · exact Or.inr (Or.inr hd)
        have := i2 d this
        simpa only [rdirty, List.flatMap_cons, List.nil_append] using this

theorem node_witness_data (H : Bytes → Bytes) (db : Db) (k : Nat) (n : Node) (idx : Int) (h : n.WF) :
    (n.witnessFor H db k idx).1.WF ∧ (n.witnessFor H db k idx).1.dirty = n.dirty := by
  induction k generalizing n idx with
  | zero => cases n <;> exact ⟨h, rfl⟩
  | succ k ih =>
    have hbr : ∀ fl key l r, (Node.br fl key l r).WF → ((Node.br fl key l r).witnessFor H db (k + 1) idx).1.WF ∧
        ((Node.br fl key l r).witnessFor H db (k + 1) idx).1.dirty = (Node.br fl key l r).dirty := by
      intro fl key l r ⟨h1, h2, h3⟩
      simp only [Node.witnessFor]
      split
      · obtain ⟨a, b⟩ := ih l idx h2
        exact ⟨⟨fun hf => by rw [b]; exact h1 hf, a, h3⟩, by simp only [Node.dirty, b]⟩
      · obtain ⟨a, b⟩ := ih r (idx - 2 ^ k) h3
        exact ⟨⟨fun hf => by rw [b]; exact h1 hf, h2, a⟩, by simp only [Node.dirty, b]⟩
    cases n with
    | br fl key l r => exact hbr fl key l r h
    | data fl d => exact ⟨h, rfl⟩
    | hash x =>
      cases hres : resolve db x with
      | none => simp only [Node.witnessFor, hres, Option.getD_none]; exact ⟨h, trivial⟩
      | some n' =>
        have hb : ∃ fl key l r, n' = .br fl key (.hash l) (.hash r) := by
          unfold resolve at hres
          simp only at hres
          split at hres
          · simp at hres
          · simp at hres; exact ⟨_, _, _, _, hres.symm⟩
        obtain ⟨fl, key, l, r, rfl⟩ := hb
        rw [witnessFor_hash H db k x _ _ hres ⟨_, _, _, _, rfl⟩]
        obtain ⟨a, b⟩ := hbr fl key (.hash l) (.hash r) ⟨fun _ => ⟨rfl, rfl⟩, trivial, trivial⟩
        exact ⟨a, by rw [b]; rfl⟩

theorem rdirty_set (rs : List (Option Node)) (o : Nat) (n n' : Node) (ho : rs[o]? = some (some n)) (hd : n'.dirty = n.dirty) :
    rdirty (rs.set o (some n')) = rdirty rs := by
  induction rs generalizing o with
  | nil => simp at ho
  | cons x rs ih =>
    cases o with
    | zero => simp at ho; subst ho; simp [rdirty, hd]
    | succ o =>
      simp only [List.getElem?_cons_succ] at ho
      have := ih o ho
      simp only [rdirty] at this
      simp only [rdirty, List.set_cons_succ, List.flatMap_cons, this]

theorem wit_data (H : Bytes → Bytes) (db : Db) (a : Acc) (i : Int) (h : RWF a.roots) :
    RWF (a.witnessFor H db i).1.roots ∧ rdirty (a.witnessFor H db i).1.roots = rdirty a.roots := by
  have key : ∀ o idx, RWF (witLoop H db a.roots o idx).1 ∧ rdirty (witLoop H db a.roots o idx).1 = rdirty a.roots := by
    intro o
    induction o with
    | zero => intro idx; exact ⟨h, rfl⟩
    | succ o ih =>
      intro idx
      rw [witLoop]
      split
      · rename_i n hn
        split
        · obtain ⟨w1, w2⟩ := node_witness_data H db o n idx (h n (List.mem_of_getElem? hn))
          refine ⟨?_, rdirty_set _ _ n _ hn w2⟩
          intro m hm
          rcases List.mem_or_eq_of_mem_set hm with hm | hm
          · exact h m hm
          · simp at hm; subst hm; exact w1
        · exact ih _
      · exact ih _
  rw [Acc.witnessFor]
  split
  · exact ⟨h, rfl⟩
  · exact key _ _

/-- The data added (and, after a crash, not lost), now and as of the last complete flush. -/
structure DSt where
  st : St
  datas : List Bytes
  sdatas : List Bytes

/-- `step` together with the added data. -/
def dstep (H : Bytes → Bytes) (F : Format) (key : Bytes) (s : DSt) (o : Op) : Option DSt :=
  (step H F key s.st o).map (fun st =>
    match o with
    | .addData d => ⟨st, s.datas ++ [d], s.sdatas⟩
    | .flush b => if (s.st.acc.flush H F key b).2.2 then ⟨st, s.datas, s.datas⟩ else ⟨st, s.datas, s.sdatas⟩
    | .crash b => if (s.st.acc.flush H F key b).2.2 then ⟨st, s.datas, s.datas⟩ else ⟨st, s.sdatas, s.sdatas⟩
    | _ => ⟨st, s.datas, s.sdatas⟩)

def drun (H : Bytes → Bytes) (F : Format) (key : Bytes) : DSt → List Op → Option DSt
  | s, [] => some s
  | s, o :: ops => (dstep H F key s o).bind (fun s' => drun H F key s' ops)

structure DGood (H : Bytes → Bytes) (s : DSt) : Prop where
  wf : RWF s.st.acc.roots
  cur : ∀ d ∈ s.datas, d ∈ rdirty s.st.acc.roots ∨ (H d, d) ∈ s.st.log
  saved : ∀ d ∈ s.sdatas, (H d, d) ∈ s.st.log
  db : s.st.db = Db.write (fun _ => []) s.st.log

theorem recover_data {F : Format} {key : Bytes} {db : Db} {a : Acc} (h : recover F key db = some a) : RWF a.roots := by
  intro n hn
  rw [recover] at h
  split at h
  · simp at h; subst h; simp at hn
  · split at h
    · simp at h
    · simp at h
      subst h
      simp at hn
      obtain ⟨x, _, hx⟩ := hn
      rw [← hx.2]
      trivial

theorem dgood_step {H : Bytes → Bytes} (hH : ∀ x, (H x).length = 32) {F : Format} {key : Bytes} {s s' : DSt} (hg : DGood H s)
    (hok : ∃ hs, s.st.acc.Ok H s.st.db hs) (o : Op) (h : dstep H F key s o = some s') : DGood H s' := by
  obtain ⟨g1, g2, g3, g4⟩ := hg
  obtain ⟨hs, hok⟩ := hok
  have hfl : ∀ b, RWF (s.st.acc.flush H F key b).1.roots ∧
      (∀ d ∈ rdirty s.st.acc.roots, d ∈ rdirty (s.st.acc.flush H F key b).1.roots ∨ (H d, d) ∈ (s.st.acc.flush H F key b).2.1) ∧
      ((s.st.acc.flush H F key b).2.2 = true → ∀ d ∈ rdirty s.st.acc.roots, (H d, d) ∈ (s.st.acc.flush H F key b).2.1) := by
    intro b
    obtain ⟨r1, r2, r3⟩ := roots_flush_data H s.st.acc.roots b g1
    unfold Acc.flush
    simp only
    split
    · rename_i hk
      have r4 := r3 hk.1
      refine ⟨r1, fun d hd => ?_, fun _ d hd => ?_⟩
      · rcases r2 d hd with h | h
        · exact Or.inl h
        · right; simp [h]
      · rcases r2 d hd with h | h
        · rw [r4] at h; simp at h
        · simp [h]
    · exact ⟨r1, r2, by simp⟩
  simp only [dstep, Option.map_eq_some_iff] at h
  obtain ⟨st, h1, h2⟩ := h
  have hlog := step_log h1
  have hdb : st.db = Db.write (fun _ => []) st.log := by
    rw [hlog, write_append, ← g4]
    cases o with
    | addHash x => simp [step] at h1; subst h1; rfl
    | addData x => simp [step] at h1; subst h1; rfl
    | witness x => simp [step] at h1; subst h1; rfl
    | flush b => simp [step] at h1; subst h1; rfl
    | crash b =>
      simp only [step] at h1
      split at h1
      · simp at h1
      · simp at h1; subst h1; rfl
  cases o with
  | addHash x =>
    simp [step] at h1
    subst h1
    subst h2
    obtain ⟨a1, a2⟩ := addNode_data hH 0 s.st.acc.roots (.hash x) hs hok.1 g1 trivial
    exact ⟨a1, fun d hd => (g2 d hd).imp (fun h => a2 d (Or.inl h)) id, g3, g4⟩
  | addData x =>
    simp [step] at h1
    subst h1
    subst h2
    obtain ⟨a1, a2⟩ := addNode_data hH 0 s.st.acc.roots (.data false x) hs hok.1 g1 trivial
    refine ⟨a1, fun d hd => ?_, g3, g4⟩
    simp at hd
    rcases hd with hd | rfl
    · exact (g2 d hd).imp (fun h => a2 d (Or.inl h)) id
    · exact Or.inl (a2 d (Or.inr (by simp [Node.dirty])))
  | witness i =>
    simp [step] at h1
    subst h1
    subst h2
    obtain ⟨w1, w2⟩ := wit_data H s.st.db s.st.acc i g1
    exact ⟨w1, fun d hd => by simp only; rw [w2]; exact g2 d hd, g3, g4⟩
  | flush b =>
    obtain ⟨f1, f2, f3⟩ := hfl b
    have hacc : st.acc = (s.st.acc.flush H F key b).1 := by simp [step] at h1; subst h1; rfl
    have hl : st.log = s.st.log ++ (s.st.acc.flush H F key b).2.1 := hlog
    have hcur : ∀ d ∈ s.datas, d ∈ rdirty st.acc.roots ∨ (H d, d) ∈ st.log := by
      intro d hd
      rw [hacc, hl]
      rcases g2 d hd with h | h
      · rcases f2 d h with h | h <;> simp [h]
      · simp [h]
    simp only at h2
    split at h2
    · rename_i hk
      subst h2
      refine ⟨by simpa only [hacc] using f1, hcur, fun d hd => ?_, hdb⟩
      rw [hl]
      rcases g2 d hd with h | h
      · simp [f3 hk d h]
      · simp [h]
    · subst h2
      exact ⟨by simpa only [hacc] using f1, hcur, fun d hd => by rw [hl]; simp [g3 d hd], hdb⟩
  | crash b =>
    obtain ⟨f1, f2, f3⟩ := hfl b
    have hl : st.log = s.st.log ++ (s.st.acc.flush H F key b).2.1 := hlog
    have hw : RWF st.acc.roots := by
      simp only [step] at h1
      split at h1
      · simp at h1
      · rename_i a ha; simp at h1; subst h1; exact recover_data ha
    simp only at h2
    split at h2
    · rename_i hk
      subst h2
      have : ∀ d ∈ s.datas, (H d, d) ∈ st.log := by
        intro d hd
        rw [hl]
        rcases g2 d hd with h | h
        · simp [f3 hk d h]
        · simp [h]
      exact ⟨hw, fun d hd => Or.inr (this d hd), this, hdb⟩
    · subst h2
      have : ∀ d ∈ s.sdatas, (H d, d) ∈ st.log := fun d hd => by rw [hl]; simp [g3 d hd]
      exact ⟨hw, fun d hd => Or.inr (this d hd), this, hdb⟩

theorem drun_run (H : Bytes → Bytes) (F : Format) (key : Bytes) (ops : List Op) : ∀ (s s' : DSt), drun H F key s ops = some s' →
    run H F key s.st ops = some s'.st := by
  induction ops with
  | nil => intro s s' h; simp [drun] at h; subst h; rfl
  | cons o ops ih =>
    intro s s' h
    rw [drun] at h
    rw [run_cons]
    cases hd : dstep H F key s o with
    | none => rw [hd] at h; simp at h
    | some s1 =>
      rw [hd] at h
      have hs : step H F key s.st o = some s1.st := by
        simp only [dstep, Option.map_eq_some_iff] at hd
        obtain ⟨st, h1, h2⟩ := hd
        rw [h1, ← h2]
        cases o with
        | flush b => simp only; split <;> rfl
        | crash b => simp only; split <;> rfl
        | _ => rfl
      rw [hs]
      exact ih s1 s' h

/-- C69: in every history, the data of each leaf that was added before the last complete flush is in the database under
its hash. -/
theorem C69_data_stored {H : Bytes → Bytes} (hH : ∀ x, (H x).length = 32) {F : Format} (hF : F.Good) {key : Bytes}
    (hkey : key.length ≠ 32) (ops : List Op) (ho : ∀ o ∈ ops, o.Ok) (s : DSt) (hr : drun H F key ⟨St.init, [], []⟩ ops = some s)
    (hlog : LogOk key s.st.log) (d : Bytes) (hd : d ∈ s.sdatas) : s.st.db (H d) = d := by
  have hrun := drun_run H F key ops _ _ hr
  have hg : DGood H s := by
    suffices gen : ∀ (ops : List Op) (s0 : DSt), (∀ o ∈ ops, o.Ok) → drun H F key s0 ops = some s →
        Good H F key (logVal s.st.log) s0.st → DGood H s0 → DGood H s by
      exact gen ops _ ho hr (good_init H F key _) ⟨by intro n hn; simp [St.init, Acc.empty] at hn, by simp, by simp, rfl⟩
    intro ops
    induction ops with
    | nil => intro s0 _ h _ hdg; simp [drun] at h; subst h; exact hdg
    | cons o ops ih =>
      intro s0 ho h hgood hdg
      rw [drun] at h
      cases hds : dstep H F key s0 o with
      | none => rw [hds] at h; simp at h
      | some s1 =>
        rw [hds] at h
        simp only [Option.bind_some] at h
        have hstep := drun_run H F key [o] s0 s1 (by simp [drun, hds])
        have hstep : step H F key s0.st o = some s1.st := by
          rw [run_cons] at hstep
          cases hs : step H F key s0.st o with
          | none => rw [hs] at hstep; simp at hstep
          | some x => rw [hs] at hstep; simpa [run] using hstep
        obtain ⟨ws, hw⟩ := run_log (drun_run H F key ops s1 s h)
        have hsl := step_log hstep
        obtain ⟨s2, e1, e2, e3⟩ := good_step hH hF hkey hgood o (ho o (by simp)) (fun w hm hk => logVal_eq hlog w (by
          rw [hw, hsl]; simp [hm]) hk)
        rw [hstep] at e1
        simp at e1
        subst e1
        exact ih s1 (fun p hp => ho p (by simp [hp])) h e2 (dgood_step hH hdg ⟨_, hgood.acc⟩ o hds)
  have hin := hg.saved d hd
  rw [hg.db]
  have hne : H d ≠ key := by intro h0; exact hkey (by rw [← h0]; exact hH d)
  exact (logVal_eq hlog (H d, d) hin hne).symm

/-- Concrete: in the history `exOps` the one data leaf flushed is `[2, 3]`; the crash loses `[7]`. -/
example : (drun exH exFormat [97] ⟨St.init, [], []⟩ exOps).map (fun s => (s.datas, s.sdatas, s.st.db (exH [2, 3]))) =
    some ([[2, 3]], [[2, 3]], [2, 3]) := by decide +kernel

end Verif.Mta
