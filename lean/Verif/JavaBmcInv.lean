import Verif.JavaBmcLemmas
/-!
Invariants of the ICON BMC, by induction over the elementary changes.
-/
namespace Verif.JavaBmc
open Verif
open Verif.SolBmc (FM upd FeeInfo)

variable {c : Cfg}

theorem upd_same {K V : Type} [DecidableEq K] (f : K → V) (k : K) (v : V) : upd f k v k = v := by simp [upd]
theorem upd_ne {K V : Type} [DecidableEq K] (f : K → V) {k x : K} (v : V) (h : x ≠ k) : upd f k v x = f x := by simp [upd, h]

/-- Putting a link back under its own network. -/
theorem putLink_eq (s : St) (l : Link) (net : String) (h : c.netOf l.addr = some net) :
    putLink c s l = { s with links := Dict.put s.links net l } := by unfold putLink; rw [h]

/-! ### Links and routes -/

structure WF (c : Cfg) (s : St) : Prop where
  linkKeys : (s.links.map (·.1)).Nodup
  routeKeys : (s.routes.map (·.1)).Nodup
  addr : ∀ net l, Dict.get s.links net = some l → c.netOf l.addr = some net
  names : ∀ net l, Dict.get s.links net = some l → s.names[l.gen]? = some l.addr
  routes : ∀ dst net, Dict.get s.routes dst = some net → (Dict.get s.links net).isSome

theorem WF.put {s : St} (h : WF c s) {net : String} {l l' : Link} (hl : Dict.get s.links net = some l) (ha : l'.addr = l.addr)
    (hg : l'.gen = l.gen) : WF c (putLink c s l') := by
  have hn := h.addr net l hl
  rw [← ha] at hn
  rw [putLink_eq s l' net hn]
  constructor
  · exact Dict.nodup_put _ _ h.linkKeys
  · exact h.routeKeys
  · intro n x hx
    simp only [Dict.get_put] at hx
    split at hx
    · cases hx; rename_i e; rw [← e]; exact hn
    · exact h.addr n x hx
  · intro n x hx
    simp only [Dict.get_put] at hx
    split at hx
    · cases hx; rw [hg, ha]; exact h.names net l hl
    · exact h.names n x hx
  · intro d n hd
    simp only [Dict.get_put]
    split
    · rfl
    · exact h.routes d n hd

theorem Tr.wf {b P s P' s'} (t : Tr c b P s P' s') (h : WF c s) : WF c s' := by
  induction t with
  | refl => exact h
  | trans _ _ ih1 ih2 => exact ih2 (ih1 h)
  | money => exact ⟨h.1, h.2, h.3, h.4, h.5⟩
  | bump => exact ⟨h.1, h.2, h.3, h.4, h.5⟩
  | sent P s next l m hl hid =>
    obtain ⟨net, hn, hg, ha⟩ := getLinkA_some c hl
    have := h.put (l' := { l with tx := l.tx + 1 }) hg rfl rfl
    exact ⟨this.1, this.2, this.3, this.4, this.5⟩
  | chain P s id next l m hl hid =>
    obtain ⟨net, hn, hg, ha⟩ := getLinkA_some c hl
    have := h.put (l' := { l with tx := l.tx + 1 }) hg rfl rfl
    exact ⟨this.1, this.2, this.3, this.4, this.5⟩
  | dropped => exact ⟨h.1, h.2, h.3, h.4, h.5⟩
  | reach P s net l r hl => exact h.put hl rfl rfl
  | settle => exact ⟨h.1, h.2, h.3, h.4, h.5⟩
  | request P s s1 r _ _ _ _ ih => have := ih h; exact ⟨this.1, this.2, this.3, this.4, this.5⟩
  | cfg => exact ⟨h.1, h.2, h.3, h.4, h.5⟩
  | addRoute P s dst net l hl =>
    refine ⟨h.1, Dict.nodup_put _ _ h.2, h.3, h.4, ?_⟩
    intro d n hd
    simp only [Dict.get_put] at hd
    split at hd
    · cases hd; simp [hl]
    · exact h.5 d n hd
  | delRoute P s dst net hr =>
    refine ⟨h.1, (Dict.nodup_del h.2 hr).1, h.3, h.4, ?_⟩
    intro d n hd
    simp only [Dict.get_del h.2 hr] at hd
    split at hd
    · cases hd
    · exact h.5 d n hd
  | addLink P s net link hn hnone =>
    refine ⟨Dict.nodup_put _ _ h.1, h.2, ?_, ?_, ?_⟩
    · intro n x hx
      simp only [Dict.get_put] at hx
      split at hx
      · cases hx; rename_i e; rw [← e]; exact hn
      · exact h.3 n x hx
    · intro n x hx
      simp only [Dict.get_put] at hx
      split at hx
      · cases hx; simp
      · have := h.4 n x hx
        simp only
        rw [List.getElem?_append_left (List.getElem?_eq_some_iff.mp this).1]
        exact this
    · intro d n hd
      simp only [Dict.get_put]
      split
      · rfl
      · exact h.5 d n hd
  | delLink P s net l hl hr hid =>
    refine ⟨(Dict.nodup_del h.1 hl).1, h.2, ?_, ?_, ?_⟩
    · intro n x hx
      simp only [Dict.get_del h.1 hl] at hx
      split at hx
      · cases hx
      · exact h.3 n x hx
    · intro n x hx
      simp only [Dict.get_del h.1 hl] at hx
      split at hx
      · cases hx
      · exact h.4 n x hx
    · intro d n hd
      simp only [Dict.get_del h.1 hl]
      split
      · rename_i e
        subst e
        simp only [List.any_eq_false] at hr
        exact absurd (by simp) (hr _ (Dict.get_mem hd))
      · exact h.5 d n hd
  | delBtp P s net l id hl hr hid =>
    refine ⟨(Dict.nodup_del h.1 hl).1, h.2, ?_, ?_, ?_⟩
    · intro n x hx
      simp only [Dict.get_del h.1 hl] at hx
      split at hx
      · cases hx
      · exact h.3 n x hx
    · intro n x hx
      simp only [Dict.get_del h.1 hl] at hx
      split at hx
      · cases hx
      · exact h.4 n x hx
    · intro d n hd
      simp only [Dict.get_del h.1 hl]
      split
      · rename_i e
        subst e
        simp only [List.any_eq_false] at hr
        exact absurd (by simp) (hr _ (Dict.get_mem hd))
      · exact h.5 d n hd
  | bind => exact ⟨h.1, h.2, h.3, h.4, h.5⟩
  | take P s net l ms _ hl _ =>
    have := h.put (l' := { l with rx := l.rx + ms.length }) hl rfl rfl
    exact ⟨this.1, this.2, this.3, this.4, this.5⟩
  | disp => exact ⟨h.1, h.2, h.3, h.4, h.5⟩

theorem wf_init (creator : Nat) : WF c (initSt creator) :=
  ⟨List.nodup_nil, List.nodup_nil, (by intro _ _ h; cases h), (by intro _ _ h; cases h), (by intro _ _ h; cases h)⟩

theorem wf_run (creator : Nat) (ops : List Op) : WF c (run c creator ops) := (run_tr creator ops).wf (wf_init creator)

/-- The fields of a state a link change leaves alone. -/
theorem putLink_rest (s : St) (l : Link) : (putLink c s l).log = s.log ∧ (putLink c s l).netIds = s.netIds ∧
    (putLink c s l).offsets = s.offsets ∧ (putLink c s l).req = s.req ∧ (putLink c s l).nsn = s.nsn ∧
    (putLink c s l).settle = s.settle ∧ (putLink c s l).disp = s.disp ∧ (putLink c s l).names = s.names ∧
    (putLink c s l).taken = s.taken := by
  unfold putLink; split <;> exact ⟨rfl, rfl, rfl, rfl, rfl, rfl, rfl, rfl, rfl⟩

/-! ### Requests -/

structure ReqInv (s : St) : Prop where
  pos : 0 ≤ s.nsn
  open_ : ∀ n r, s.req.get none n = some r → 1 ≤ n ∧ n ≤ s.nsn
  done : ∀ p ∈ s.settle, 1 ≤ p.1 ∧ p.1 ≤ s.nsn ∧ s.req.get none p.1 = none
  once : (s.settle.map (·.1)).Nodup

theorem ReqInv.same {s s' : St} (h : ReqInv s) (h1 : s'.req = s.req) (h2 : s'.nsn = s.nsn) (h3 : s'.settle = s.settle) : ReqInv s' :=
  ⟨h2 ▸ h.1, by rw [h1, h2]; exact h.2, by rw [h1, h2, h3]; exact h.3, by rw [h3]; exact h.4⟩

theorem Tr.nsn_le {b P s P' s'} (t : Tr c b P s P' s') : s.nsn ≤ s'.nsn := by
  induction t with
  | refl => exact Int.le_refl _
  | trans _ _ ih1 ih2 => exact Int.le_trans ih1 ih2
  | bump P s => show s.nsn ≤ s.nsn + 1; omega
  | sent P s next l m _ _ => exact Int.le_of_eq (putLink_rest s _).2.2.2.2.1.symm
  | chain P s id next l m _ _ => exact Int.le_of_eq (putLink_rest s _).2.2.2.2.1.symm
  | reach P s net l r _ => exact Int.le_of_eq (putLink_rest s _).2.2.2.2.1.symm
  | take P s net l ms _ _ _ => exact Int.le_of_eq (putLink_rest s _).2.2.2.2.1.symm
  | request P s s1 r _ _ _ _ ih => exact ih
  | _ => exact Int.le_refl _

theorem Tr.reqInv {b P s P' s'} (t : Tr c b P s P' s') (h : ReqInv s) : ReqInv s' := by
  have hput : ∀ (s : St) (l : Link), ReqInv s → ReqInv (putLink c s l) := fun s l hs =>
    hs.same (putLink_rest s l).2.2.2.1 (putLink_rest s l).2.2.2.2.1 (putLink_rest s l).2.2.2.2.2.1
  induction t with
  | refl => exact h
  | trans _ _ ih1 ih2 => exact ih2 (ih1 h)
  | money => exact h.same rfl rfl rfl
  | bump P s =>
    refine ⟨?_, ?_, ?_, h.4⟩
    · have := h.1; show (0 : Int) ≤ s.nsn + 1; omega
    · intro n r hr; have := h.2 n r hr; show 1 ≤ n ∧ n ≤ s.nsn + 1; omega
    · intro p hp
      have := h.3 p hp
      exact ⟨this.1, by show p.1 ≤ s.nsn + 1; omega, this.2.2⟩
  | sent P s next l m hl hid => exact (hput s { l with tx := l.tx + 1 } h).same rfl rfl rfl
  | chain P s id next l m hl hid => exact (hput s { l with tx := l.tx + 1 } h).same rfl rfl rfl
  | dropped => exact h.same rfl rfl rfl
  | reach P s net l r hl => exact hput s _ h
  | settle P s nsn r result hr =>
    have hb := h.2 nsn r hr
    refine ⟨h.1, ?_, ?_, ?_⟩
    · intro n r' hr'
      simp only [SolBmc.FM.get_set] at hr'
      split at hr'
      · cases hr'
      · exact h.2 n r' hr'
    · intro p hp
      simp only [SolBmc.FM.get_set]
      rcases List.mem_append.mp hp with hp | hp
      · have := h.3 p hp
        refine ⟨this.1, this.2.1, ?_⟩
        split
        · rfl
        · exact this.2.2
      · simp only [List.mem_cons, List.not_mem_nil, or_false] at hp
        subst hp
        exact ⟨hb.1, hb.2, by simp⟩
    · simp only [List.map_append, List.map_cons, List.map_nil]
      rw [List.nodup_append]
      refine ⟨h.4, by simp, ?_⟩
      intro a ha x hx e
      simp only [List.mem_cons, List.not_mem_nil, or_false] at hx
      subst hx; subst e
      obtain ⟨p, hp, rfl⟩ := List.mem_map.mp ha
      have := (h.3 p hp).2.2
      rw [hr] at this
      cases this
  | request P s s1 r _ e1 e2 e3 ih =>
    have h1 := ih h
    refine ⟨h1.1, ?_, ?_, h1.4⟩
    · intro n r' hr'
      simp only [SolBmc.FM.get_set] at hr'
      split at hr'
      · rename_i e
        show 1 ≤ n ∧ n ≤ s1.nsn
        have := h.1
        omega
      · exact h1.2 n r' hr'
    · intro p hp
      have := h1.3 p hp
      have h0 := h.3 p (e3 ▸ hp)
      refine ⟨this.1, this.2.1, ?_⟩
      simp only [SolBmc.FM.get_set]
      split
      · omega
      · exact this.2.2
  | cfg => exact h.same rfl rfl rfl
  | addRoute => exact h.same rfl rfl rfl
  | delRoute => exact h.same rfl rfl rfl
  | addLink => exact h.same rfl rfl rfl
  | delLink => exact h.same rfl rfl rfl
  | delBtp => exact h.same rfl rfl rfl
  | bind => exact h.same rfl rfl rfl
  | take P s net l ms _ hl _ => exact (hput s { l with rx := l.rx + ms.length } h).same rfl rfl rfl
  | disp => exact h.same rfl rfl rfl

theorem req_run (creator : Nat) (ops : List Op) : ReqInv (run c creator ops) :=
  (run_tr creator ops).reqInv ⟨Int.le_refl _, (by intro _ _ h; cases h), (by intro _ h; cases h), List.nodup_nil⟩

/-! ### Numbers of sent messages -/

/-- Numbers of the messages sent over a link since it was last added. -/
def sentOn (text : String) : List Event → List Nat → List Nat
  | [], acc => acc
  | .message next n _ :: t, acc => sentOn text t (if next = text then acc ++ [n] else acc)
  | .chain _ next n _ :: t, acc => sentOn text t (if next = text then acc ++ [n] else acc)
  | .start link :: t, acc => sentOn text t (if link = text then [] else acc)
  | _ :: t, acc => sentOn text t acc

/-- Numbers of the messages given to a BTP network since it was last bound to a link. -/
def sentTo (id : Nat) : List Event → List Nat → List Nat
  | [], acc => acc
  | .chain i _ n _ :: t, acc => sentTo id t (if i = id then acc ++ [n] else acc)
  | .bind i _ :: t, acc => sentTo id t (if i = id then [] else acc)
  | _ :: t, acc => sentTo id t acc

theorem sentOn_append (text : String) (l2 : List Event) : ∀ (l1 : List Event) (acc : List Nat),
    sentOn text (l1 ++ l2) acc = sentOn text l2 (sentOn text l1 acc)
  | [], acc => rfl
  | e :: t, acc => by
    cases e <;> simp only [List.cons_append, sentOn] <;> exact sentOn_append text l2 t _

theorem sentTo_append (id : Nat) (l2 : List Event) : ∀ (l1 : List Event) (acc : List Nat),
    sentTo id (l1 ++ l2) acc = sentTo id l2 (sentTo id l1 acc)
  | [], acc => rfl
  | e :: t, acc => by
    cases e <;> simp only [List.cons_append, sentTo] <;> exact sentTo_append id l2 t _

/-- Current number of a link, 0 if there is none. -/
def txOf (c : Cfg) (s : St) (text : String) : Nat := ((getLinkA c s text).map (·.tx)).getD 0

structure NumInv (c : Cfg) (s : St) : Prop where
  live : ∀ text l, getLinkA c s text = some l → sentOn text s.log [] = List.range' 1 l.tx
  any : ∀ text, ∃ k, sentOn text s.log [] = List.range' 1 k
  bound : ∀ text id, s.netIds text = some id → ∃ o, s.offsets id = some o ∧ o ≤ txOf c s text ∧
    sentTo id s.log [] = List.range' (o + 1) (txOf c s text - o)
  unique : ∀ t1 t2 id, s.netIds t1 = some id → s.netIds t2 = some id → t1 = t2

theorem getLinkA_congr {s s' : St} (h : s'.links = s.links) (a : String) : getLinkA c s' a = getLinkA c s a := by
  unfold getLinkA; rw [h]

theorem txOf_congr {s s' : St} (h : s'.links = s.links) (a : String) : txOf c s' a = txOf c s a := by
  unfold txOf; rw [getLinkA_congr h]

theorem NumInv.same {s s' : St} (h : NumInv c s) (h1 : s'.links = s.links) (h2 : s'.log = s.log) (h3 : s'.netIds = s.netIds)
    (h4 : s'.offsets = s.offsets) : NumInv c s' :=
  ⟨by intro t l hl; rw [getLinkA_congr h1] at hl; rw [h2]; exact h.1 t l hl, by rw [h2]; exact h.2,
   by intro t id ht; rw [h3] at ht; rw [h4, h2, txOf_congr h1]; exact h.3 t id ht, by rw [h3]; exact h.4⟩

/-- Links after one is put back. -/
theorem getLinkA_put {s : St} {net : String} {l l' : Link} (hw : WF c s) (hl : Dict.get s.links net = some l) (ha : l'.addr = l.addr)
    (text : String) : getLinkA c (putLink c s l') text = if text = l.addr then some l' else getLinkA c s text := by
  have hn := hw.addr net l hl
  have hn' := hn
  rw [← ha] at hn'
  rw [putLink_eq s l' net hn']
  unfold getLinkA
  by_cases e : text = l.addr
  · subst e
    rw [if_pos rfl, hn]
    simp only [Dict.get_put, if_true, ha]
  · rw [if_neg e]
    cases ht : c.netOf text with
    | none => rfl
    | some n =>
      simp only [Dict.get_put]
      by_cases e2 : net = n
      · subst e2
        simp only [if_true, hl, ha, if_neg (fun x : l.addr = text => e x.symm)]
      · simp only [if_neg e2]

theorem getLinkA_live {s : St} {net : String} {l : Link} (hw : WF c s) (hl : Dict.get s.links net = some l) :
    getLinkA c s l.addr = some l := by
  unfold getLinkA
  rw [hw.addr net l hl]
  simp [hl]

theorem range_snoc (a n : Nat) : List.range' a n ++ [a + n] = List.range' a (n + 1) := by
  rw [List.range'_concat]; simp

/-- A change of a link that keeps its number. -/
theorem NumInv.put {s : St} (h : NumInv c s) (hw : WF c s) {net : String} {l l' : Link} (hl : Dict.get s.links net = some l)
    (ha : l'.addr = l.addr) (ht : l'.tx = l.tx) : NumInv c (putLink c s l') := by
  obtain ⟨r1, r2, r3, _⟩ := putLink_rest (c := c) s l'
  have htx : ∀ text, txOf c (putLink c s l') text = txOf c s text := by
    intro text
    unfold txOf
    rw [getLinkA_put hw hl ha]
    split
    · rename_i e; subst e; rw [getLinkA_live hw hl]; simp [ht]
    · rfl
  refine ⟨?_, by rw [r1]; exact h.2, ?_, by rw [r2]; exact h.4⟩
  · intro text x hx
    rw [getLinkA_put hw hl ha] at hx
    rw [r1]
    split at hx
    · cases hx; rename_i e; subst e; rw [ht]; exact h.1 _ l (getLinkA_live hw hl)
    · exact h.1 text x hx
  · intro text id hid
    rw [r2] at hid
    rw [r1, r3, htx]
    exact h.3 text id hid

/-- A message goes out over a link. -/
theorem NumInv.push {s : St} (h : NumInv c s) (hw : WF c s) {next : String} {l : Link} (hl : getLinkA c s next = some l) (ev : Event)
    (hev : (s.netIds next = none ∧ ∃ m, ev = .message next (l.tx + 1) m) ∨
      ∃ id m, s.netIds next = some id ∧ ev = .chain id next (l.tx + 1) m) :
    NumInv c { putLink c s { l with tx := l.tx + 1 } with log := s.log ++ [ev] } := by
  obtain ⟨net, hn, hg, ha⟩ := getLinkA_some c hl
  obtain ⟨r1, r2, r3, _⟩ := putLink_rest (c := c) s { l with tx := l.tx + 1 }
  have hget : ∀ text, getLinkA c { putLink c s { l with tx := l.tx + 1 } with log := s.log ++ [ev] } text =
      if text = l.addr then some { l with tx := l.tx + 1 } else getLinkA c s text := by
    intro text
    exact (getLinkA_congr (s := putLink c s { l with tx := l.tx + 1 }) rfl text).trans (getLinkA_put (l' := { l with tx := l.tx + 1 }) hw hg rfl text)
  have hon : ∀ text, sentOn text (s.log ++ [ev]) [] = if text = next then sentOn text s.log [] ++ [l.tx + 1] else sentOn text s.log [] := by
    intro text
    rw [sentOn_append]
    rcases hev with ⟨_, m, rfl⟩ | ⟨id, m, _, rfl⟩ <;> simp only [sentOn, eq_comm]
  refine ⟨?_, ?_, ?_, ?_⟩
  · intro text x hx
    rw [hget] at hx
    show sentOn text (s.log ++ [ev]) [] = _
    rw [hon, ← ha]
    split at hx
    · rename_i e
      cases hx
      rw [if_pos e, e, ha, h.1 _ l hl, Nat.add_comm l.tx 1]
      simpa [Nat.add_comm] using range_snoc 1 l.tx
    · rename_i e
      rw [if_neg e]
      exact h.1 text x hx
  · intro text
    show ∃ k, sentOn text (s.log ++ [ev]) [] = _
    rw [hon]
    by_cases e : text = next
    · rw [if_pos e, e, h.1 _ l hl]
      exact ⟨l.tx + 1, by simpa [Nat.add_comm] using range_snoc 1 l.tx⟩
    · rw [if_neg e]; exact h.2 text
  · intro text id hid
    have hid' : s.netIds text = some id := by rw [← r2]; exact hid
    obtain ⟨o, ho, hle, hs⟩ := h.3 text id hid'
    refine ⟨o, by rw [← ho]; exact congrFun r3 id, ?_⟩
    show o ≤ txOf c _ text ∧ sentTo id (s.log ++ [ev]) [] = _
    have htx : txOf c { putLink c s { l with tx := l.tx + 1 } with log := s.log ++ [ev] } text =
        if text = next then l.tx + 1 else txOf c s text := by
      unfold txOf
      rw [hget, ha]
      split <;> rfl
    rw [htx, sentTo_append]
    have htn : txOf c s next = l.tx := by unfold txOf; rw [hl]; rfl
    by_cases e : text = next
    · subst e
      rw [if_pos rfl]
      rcases hev with ⟨hnone, _⟩ | ⟨id2, m, h2, rfl⟩
      · rw [hnone] at hid'; cases hid'
      · rw [h2] at hid'
        cases hid'
        simp only [sentTo, if_true]
        rw [htn] at hle hs
        rw [hs]
        refine ⟨by omega, ?_⟩
        have := range_snoc (o + 1) (l.tx - o)
        have e1 : o + 1 + (l.tx - o) = l.tx + 1 := by omega
        have e2 : l.tx + 1 - o = l.tx - o + 1 := by omega
        rw [e1] at this
        rw [e2, this]
    · rw [if_neg e]
      refine ⟨hle, ?_⟩
      rcases hev with ⟨_, m, rfl⟩ | ⟨id2, m, h2, rfl⟩
      · simp only [sentTo]; exact hs
      · have : id2 ≠ id := fun x => e (h.4 text next id hid' (x ▸ h2))
        simp only [sentTo, if_neg this]
        exact hs
  · intro t1 t2 id h1 h2
    exact h.4 t1 t2 id (by rw [← r2]; exact h1) (by rw [← r2]; exact h2)

/-- A link is removed; the BTP network bound to it, if any, is released. -/
theorem NumInv.del {s s' : St} (h : NumInv c s) (hw : WF c s) {net : String} {l : Link} (hl : Dict.get s.links net = some l)
    (h1 : s'.links = Dict.del s.links net) (h2 : s'.log = s.log) (h3 : ∀ t, t ≠ l.addr → s'.netIds t = s.netIds t)
    (h4 : s'.netIds l.addr = none) (h5 : ∀ t id, t ≠ l.addr → s.netIds t = some id → s'.offsets id = s.offsets id) : NumInv c s' := by
  have hn := hw.addr net l hl
  have hget : ∀ text, getLinkA c s' text = if text = l.addr then none else getLinkA c s text := by
    intro text
    unfold getLinkA
    rw [h1]
    by_cases e : text = l.addr
    · subst e
      rw [if_pos rfl, hn]
      simp [Dict.get_del hw.linkKeys hl]
    · rw [if_neg e]
      cases ht : c.netOf text with
      | none => rfl
      | some n =>
        simp only [Dict.get_del hw.linkKeys hl]
        by_cases e2 : net = n
        · subst e2
          simp only [if_true, hl, if_neg (fun x : l.addr = text => e x.symm)]
        · simp only [if_neg e2]
  refine ⟨?_, by rw [h2]; exact h.2, ?_, ?_⟩
  · intro text x hx
    rw [hget] at hx
    rw [h2]
    split at hx
    · cases hx
    · exact h.1 text x hx
  · intro text id hid
    by_cases e : text = l.addr
    · subst e; rw [h4] at hid; cases hid
    · rw [h3 text e] at hid
      rw [h5 text id e hid, h2]
      have : txOf c s' text = txOf c s text := by unfold txOf; rw [hget, if_neg e]
      rw [this]
      exact h.3 text id hid
  · intro t1 t2 id a1 a2
    by_cases e1 : t1 = l.addr
    · subst e1; rw [h4] at a1; cases a1
    · by_cases e2 : t2 = l.addr
      · subst e2; rw [h4] at a2; cases a2
      · rw [h3 t1 e1] at a1; rw [h3 t2 e2] at a2; exact h.4 t1 t2 id a1 a2

theorem Tr.num {b P s P' s'} (t : Tr c b P s P' s') (hw : WF c s) (h : NumInv c s) : NumInv c s' := by
  induction t with
  | refl => exact h
  | trans t1 _ ih1 ih2 => exact ih2 (t1.wf hw) (ih1 hw h)
  | money => exact h.same rfl rfl rfl rfl
  | bump => exact h.same rfl rfl rfl rfl
  | sent P s next l m hl hid => exact h.push hw hl _ (.inl ⟨hid, m, rfl⟩)
  | chain P s id next l m hl hid => exact h.push hw hl _ (.inr ⟨id, m, hid, rfl⟩)
  | dropped P s prev seq m =>
    have e1 : ∀ t, sentOn t (s.log ++ [.dropped prev seq m]) [] = sentOn t s.log [] := by intro t; rw [sentOn_append]; rfl
    have e2 : ∀ i, sentTo i (s.log ++ [.dropped prev seq m]) [] = sentTo i s.log [] := by intro t; rw [sentTo_append]; rfl
    refine ⟨?_, ?_, ?_, h.4⟩
    · intro text l hl
      show sentOn text (s.log ++ [_]) [] = _
      rw [e1]; exact h.1 text l hl
    · intro text
      show ∃ k, sentOn text (s.log ++ [_]) [] = _
      rw [e1]; exact h.2 text
    · intro text id hid
      show ∃ o, _ ∧ _ ∧ sentTo id (s.log ++ [_]) [] = _
      rw [e2]; exact h.3 text id hid
  | reach P s net l r hl => exact h.put hw hl rfl rfl
  | settle => exact h.same rfl rfl rfl rfl
  | request P s s1 r _ _ _ _ ih => exact (ih hw h).same rfl rfl rfl rfl
  | cfg => exact h.same rfl rfl rfl rfl
  | addRoute => exact h.same rfl rfl rfl rfl
  | delRoute => exact h.same rfl rfl rfl rfl
  | addLink P s net link hn hnone =>
    have hlink : getLinkA c s link = none := by unfold getLinkA; rw [hn]; simp [hnone]
    have hget : ∀ text, getLinkA c { s with links := Dict.put s.links net ⟨link, 0, 0, [], s.names.length⟩, names := s.names ++ [link], log := s.log ++ [.start link] } text =
        if text = link then some ⟨link, 0, 0, [], s.names.length⟩ else getLinkA c s text := by
      intro text
      unfold getLinkA
      by_cases e : text = link
      · subst e
        rw [if_pos rfl, hn]
        simp [Dict.get_put]
      · rw [if_neg e]
        cases ht : c.netOf text with
        | none => rfl
        | some n =>
          simp only [Dict.get_put]
          by_cases e2 : net = n
          · subst e2
            simp only [if_true, hnone, if_neg (fun x : link = text => e x.symm)]
          · simp only [if_neg e2]
    have htx : ∀ text, txOf c { s with links := Dict.put s.links net ⟨link, 0, 0, [], s.names.length⟩, names := s.names ++ [link], log := s.log ++ [.start link] } text = txOf c s text := by
      intro text
      unfold txOf
      rw [hget]
      split
      · rename_i e; subst e; rw [hlink]; rfl
      · rfl
    have hon : ∀ text, sentOn text (s.log ++ [.start link]) [] = if link = text then [] else sentOn text s.log [] := by
      intro text; rw [sentOn_append]; simp only [sentOn]
    have hto : ∀ id, sentTo id (s.log ++ [.start link]) [] = sentTo id s.log [] := by
      intro text; rw [sentTo_append]; simp only [sentTo]
    refine ⟨?_, ?_, ?_, h.4⟩
    · intro text l hl
      rw [hget] at hl
      show sentOn text (s.log ++ [_]) [] = _
      rw [hon]
      split at hl
      · cases hl; rename_i e; rw [if_pos e.symm]; rfl
      · rename_i e; rw [if_neg (fun x => e x.symm)]; exact h.1 text l hl
    · intro text
      show ∃ k, sentOn text (s.log ++ [_]) [] = _
      rw [hon]
      split
      · exact ⟨0, rfl⟩
      · exact h.2 text
    · intro text id hid
      rw [htx]
      show ∃ o, _ ∧ _ ∧ sentTo id (s.log ++ [_]) [] = _
      rw [hto]
      exact h.3 text id hid
  | delLink P s net l hl hr hid => exact h.del hw hl rfl rfl (fun _ _ => rfl) hid (fun _ _ _ _ => rfl)
  | delBtp P s net l id hl hr hid =>
    refine h.del hw hl rfl rfl (fun t ht => upd_ne _ _ ht) (upd_same _ _ _) ?_
    intro t id2 ht h2
    exact upd_ne _ _ (fun e => ht (h.4 t l.addr id (e ▸ h2) hid))
  | bind P s link net id hn h1 hoff ha =>
    have hfree : ∀ t, s.netIds t ≠ some id := by
      intro t ht
      obtain ⟨o, ho, _⟩ := h.3 t id ht
      rw [hoff] at ho; cases ho
    have hon : ∀ text, sentOn text (s.log ++ [.bind id link]) [] = sentOn text s.log [] := by
      intro text; rw [sentOn_append]; rfl
    have hto : ∀ i, sentTo i (s.log ++ [.bind id link]) [] = if id = i then [] else sentTo i s.log [] := by
      intro text; rw [sentTo_append]; simp only [sentTo]
    have htx : txOf c s link = ((Dict.get s.links net).map (·.tx)).getD 0 := by
      unfold txOf getLinkA
      rw [hn]
      cases hg : Dict.get s.links net with
      | none => simp [hg]
      | some l => simp [hg, ha l hg]
    refine ⟨?_, ?_, ?_, ?_⟩
    · intro text l hl
      show sentOn text (s.log ++ [_]) [] = _
      rw [hon]; exact h.1 text l hl
    · intro text
      show ∃ k, sentOn text (s.log ++ [_]) [] = _
      rw [hon]; exact h.2 text
    · intro text i hi
      show ∃ o, upd s.offsets id _ i = some o ∧ o ≤ txOf c s text ∧ sentTo i (s.log ++ [_]) [] = List.range' (o + 1) (txOf c s text - o)
      have hi' : upd s.netIds link (some id) text = some i := hi
      rw [hto]
      by_cases e : text = link
      · subst e
        rw [upd_same] at hi'
        cases hi'
        refine ⟨txOf c s text, by rw [upd_same, htx], Nat.le_refl _, by simp⟩
      · rw [upd_ne _ _ e] at hi'
        have hne : i ≠ id := fun x => hfree text (x ▸ hi')
        rw [upd_ne _ _ hne, if_neg (fun x => hne x.symm)]
        exact h.3 text i hi'
    · intro t1 t2 i a1 a2
      have b1 : upd s.netIds link (some id) t1 = some i := a1
      have b2 : upd s.netIds link (some id) t2 = some i := a2
      by_cases e1 : t1 = link
      · by_cases e2 : t2 = link
        · rw [e1, e2]
        · subst e1
          rw [upd_same] at b1
          cases b1
          rw [upd_ne _ _ e2] at b2
          exact absurd b2 (hfree t2)
      · rw [upd_ne _ _ e1] at b1
        by_cases e2 : t2 = link
        · subst e2
          rw [upd_same] at b2
          cases b2
          exact absurd b1 (hfree t1)
        · rw [upd_ne _ _ e2] at b2
          exact h.4 t1 t2 i b1 b2
  | take P s net l ms _ hl _ => exact (h.put (l' := { l with rx := l.rx + ms.length }) hw hl rfl rfl).same rfl rfl rfl rfl
  | disp => exact h.same rfl rfl rfl rfl

theorem num_run (creator : Nat) (ops : List Op) : NumInv c (run c creator ops) := by
  refine (run_tr creator ops).num (wf_init creator) ⟨?_, ?_, ?_, ?_⟩
  · intro t l h
    obtain ⟨net, _, h2, _⟩ := getLinkA_some c h
    cases h2
  · exact fun _ => ⟨0, rfl⟩
  · intro _ _ h; cases h
  · intro _ _ _ h; cases h

/-! ### Numbers of received messages -/

/-- Numbers of the entries of one generation. -/
def nums (g : Nat) (l : List (Nat × Nat × Option Msg)) : List Nat := (l.filter (fun e => e.1 = g)).map (fun e => e.2.1)

theorem nums_append (g : Nat) (a b : List (Nat × Nat × Option Msg)) : nums g (a ++ b) = nums g a ++ nums g b := by
  simp [nums]

theorem nums_entries (g gen : Nat) : ∀ (ms : List (Option Msg)) (n : Nat),
    nums g (entries gen n ms) = if gen = g then List.range' n ms.length else []
  | [], n => by simp [entries, nums]
  | m :: t, n => by
    have ih := nums_entries g gen t (n + 1)
    unfold nums at ih ⊢
    simp only [entries, List.filter_cons]
    by_cases e : gen = g
    · simp only [e, decide_true, if_true, List.map_cons, List.length_cons, List.range'_succ] at ih ⊢
      rw [ih]
    · simp only [e, decide_false, Bool.false_eq_true, if_false] at ih ⊢
      exact ih

/-- Equality of lists, or of multisets. -/
def Rel : Bool → List Nat → List Nat → Prop
  | true, a, b => a = b
  | false, a, b => a.Perm b

theorem Rel.refl (b : Bool) (a : List Nat) : Rel b a a := by
  cases b
  · exact List.Perm.refl a
  · exact rfl

/-- Nobody but the source decides what a verifier returns: the message at each place is the source's message of that number. -/
def Faithful (c : Cfg) (src : String → List Msg) : Prop :=
  ∀ v prev rx msgs, c.verify v prev rx msgs = true → ∀ (i : Nat) (m : Msg), msgs[i]? = some m → (src prev)[rx + i]? = some m

/-- The message at each place is right for that number on the link, whatever `R` says about each link. -/
def Right (c : Cfg) (R : String → Nat → Msg → Prop) : Prop :=
  ∀ v prev rx msgs, c.verify v prev rx msgs = true → ∀ (i : Nat) (m : Msg), msgs[i]? = some m → R prev (rx + i + 1) m

theorem Faithful.right {src : String → List Msg} (F : Faithful c src) : Right c (fun t n m => (src t)[n - 1]? = some m) :=
  fun v prev rx msgs h i m hi => F v prev rx msgs h i m hi

structure Recv (c : Cfg) (R : String → Nat → Msg → Prop) (b : Bool) (P : List (Nat × Nat × Option Msg)) (s : St) : Prop where
  count : ∀ g, Rel b (nums g s.disp ++ nums g P) (List.range' 1 (s.taken g))
  rx : ∀ net l, Dict.get s.links net = some l → l.rx = s.taken l.gen
  fresh : ∀ g, s.names.length ≤ g → s.taken g = 0
  right : ∀ g n m, (g, n, some m) ∈ s.disp ++ P → ∃ t, s.names[g]? = some t ∧ R t n m

theorem Recv.same {R b P s s'} (h : Recv c R b P s) (h1 : ∀ net l, Dict.get s'.links net = some l →
      ∃ l0, Dict.get s.links net = some l0 ∧ l.rx = l0.rx ∧ l.gen = l0.gen)
    (h2 : s'.disp = s.disp) (h3 : s'.names = s.names) (h4 : s'.taken = s.taken) : Recv c R b P s' := by
  refine ⟨by rw [h2, h4]; exact h.1, ?_, by rw [h3, h4]; exact h.3, by rw [h2, h3]; exact h.4⟩
  intro net l hl
  obtain ⟨l0, hl0, e1, e2⟩ := h1 net l hl
  rw [e1, e2, h4]
  exact h.2 net l0 hl0

theorem Recv.put {R b P s} (h : Recv c R b P s) (hw : WF c s) {net : String} {l l' : Link} (hl : Dict.get s.links net = some l)
    (ha : l'.addr = l.addr) (hr : l'.rx = l.rx) (hg : l'.gen = l.gen) : Recv c R b P (putLink c s l') := by
  have hn := hw.addr net l hl
  rw [← ha] at hn
  rw [putLink_eq s l' net hn]
  refine h.same ?_ rfl rfl rfl
  intro n x hx
  simp only [Dict.get_put] at hx
  split at hx
  · cases hx; rename_i e; subst e; exact ⟨l, hl, hr, hg⟩
  · exact ⟨x, hx, rfl, rfl⟩

theorem mem_entries {gen : Nat} : ∀ (ms : List (Option Msg)) (n g k : Nat) (m : Option Msg), (g, k, m) ∈ entries gen n ms →
    g = gen ∧ ∃ i, k = n + i ∧ ms[i]? = some m
  | [], n, g, k, m, h => by simp [entries] at h
  | x :: t, n, g, k, m, h => by
    simp only [entries, List.mem_cons, Prod.mk.injEq] at h
    rcases h with ⟨h1, h2, h3⟩ | h
    · exact ⟨h1, 0, by omega, by simp [h3]⟩
    · obtain ⟨h1, i, h2, h3⟩ := mem_entries t (n + 1) g k m h
      exact ⟨h1, i + 1, by omega, by simpa using h3⟩

/-- No two links have the same generation. -/
theorem WF.gen_inj {s : St} (hw : WF c s) {n1 n2 : String} {l1 l2 : Link} (h1 : Dict.get s.links n1 = some l1)
    (h2 : Dict.get s.links n2 = some l2) (e : l1.gen = l2.gen) : n1 = n2 := by
  have a1 := hw.names n1 l1 h1
  have a2 := hw.names n2 l2 h2
  rw [e, a2] at a1
  have b1 := hw.addr n1 l1 h1
  have b2 := hw.addr n2 l2 h2
  rw [← Option.some.inj a1, b2] at b1
  exact (Option.some.inj b1).symm

theorem range_append (n k : Nat) : List.range' 1 n ++ List.range' (n + 1) k = List.range' 1 (n + k) := by
  rw [Nat.add_comm n 1, List.range'_append_1]

theorem Tr.recv {R b P s P' s'} (hf : Right c R) (t : Tr c b P s P' s') (hw : WF c s) (h : Recv c R b P s) : Recv c R b P' s' := by
  have id_ : ∀ (s s' : St), s'.links = s.links → ∀ net l, Dict.get s'.links net = some l →
      ∃ l0, Dict.get s.links net = some l0 ∧ l.rx = l0.rx ∧ l.gen = l0.gen := by
    intro s s' e net l hl; rw [e] at hl; exact ⟨l, hl, rfl, rfl⟩
  induction t with
  | refl => exact h
  | trans t1 _ ih1 ih2 => exact ih2 (t1.wf hw) (ih1 hw h)
  | money => exact h.same (id_ _ _ rfl) rfl rfl rfl
  | bump => exact h.same (id_ _ _ rfl) rfl rfl rfl
  | sent P s next l m hl hid =>
    obtain ⟨net, hn, hg, ha⟩ := getLinkA_some c hl
    exact (h.put (l' := { l with tx := l.tx + 1 }) hw hg rfl rfl rfl).same (id_ _ _ rfl) rfl rfl rfl
  | chain P s id next l m hl hid =>
    obtain ⟨net, hn, hg, ha⟩ := getLinkA_some c hl
    exact (h.put (l' := { l with tx := l.tx + 1 }) hw hg rfl rfl rfl).same (id_ _ _ rfl) rfl rfl rfl
  | dropped => exact h.same (id_ _ _ rfl) rfl rfl rfl
  | reach P s net l r hl => exact h.put hw hl rfl rfl rfl
  | settle => exact h.same (id_ _ _ rfl) rfl rfl rfl
  | request P s s1 r _ _ _ _ ih => exact (ih hw h).same (id_ _ _ rfl) rfl rfl rfl
  | cfg => exact h.same (id_ _ _ rfl) rfl rfl rfl
  | addRoute => exact h.same (id_ _ _ rfl) rfl rfl rfl
  | delRoute => exact h.same (id_ _ _ rfl) rfl rfl rfl
  | addLink P s net link hn hnone =>
    refine ⟨h.1, ?_, ?_, ?_⟩
    · intro n x hx
      simp only [Dict.get_put] at hx
      split at hx
      · cases hx
        exact (h.3 s.names.length (Nat.le_refl _)).symm
      · exact h.2 n x hx
    · intro g hg
      simp only [List.length_append, List.length_cons, List.length_nil] at hg
      exact h.3 g (by omega)
    · intro g n m hm
      obtain ⟨t, ht, h2⟩ := h.4 g n m hm
      refine ⟨t, ?_, h2⟩
      simp only
      rw [List.getElem?_append_left (List.getElem?_eq_some_iff.mp ht).1]
      exact ht
  | delLink P s net l hl hr hid =>
    refine h.same ?_ rfl rfl rfl
    intro n x hx
    simp only [Dict.get_del hw.linkKeys hl] at hx
    split at hx
    · cases hx
    · exact ⟨x, hx, rfl, rfl⟩
  | delBtp P s net l id hl hr hid =>
    refine h.same ?_ rfl rfl rfl
    intro n x hx
    simp only [Dict.get_del hw.linkKeys hl] at hx
    split at hx
    · cases hx
    · exact ⟨x, hx, rfl, rfl⟩
  | bind => exact h.same (id_ _ _ rfl) rfl rfl rfl
  | take P s net l ms hs hl hv =>
    have hn := hw.addr net l hl
    rw [putLink_eq s { l with rx := l.rx + ms.length } net hn]
    have hrx := h.2 net l hl
    refine ⟨?_, ?_, ?_, ?_⟩
    · intro g
      simp only
      rw [nums_append, nums_entries]
      by_cases e : l.gen = g
      · rw [if_pos e, ← e, upd_same]
        have hg := h.1 l.gen
        rw [← hrx] at hg
        rw [← range_append l.rx ms.length]
        cases b with
        | true =>
          have hP := hs rfl
          subst hP
          simp only [Rel, nums, List.filter_nil, List.map_nil, List.append_nil] at hg ⊢
          rw [hg]
        | false =>
          simp only [Rel] at hg ⊢
          refine List.Perm.trans ?_ (List.Perm.append_right _ hg)
          rw [List.append_assoc]
          exact List.Perm.append_left _ List.perm_append_comm
      · rw [if_neg e, upd_ne _ _ (fun x => e x.symm), List.nil_append]
        exact h.1 g
    · intro n x hx
      simp only [Dict.get_put] at hx
      split at hx
      · cases hx; exact (upd_same _ _ _).symm
      · rename_i e
        have : x.gen ≠ l.gen := fun e2 => e (hw.gen_inj hx hl e2).symm
        show x.rx = upd s.taken l.gen _ x.gen
        rw [upd_ne _ _ this]
        exact h.2 n x hx
    · intro g hg
      have : g ≠ l.gen := by
        intro e
        have := (List.getElem?_eq_some_iff.mp (hw.names net l hl)).1
        simp only at hg
        omega
      show upd s.taken l.gen _ g = 0
      rw [upd_ne _ _ this]
      exact h.3 g hg
    · intro g n m hm
      simp only [List.mem_append] at hm
      rcases hm with hm | hm | hm
      · exact h.4 g n m (List.mem_append.mpr (.inl hm))
      · obtain ⟨rfl, i, rfl, hi⟩ := mem_entries ms _ _ _ _ hm
        obtain ⟨v, msgs, hver, hmi⟩ := hv i m hi
        refine ⟨l.addr, hw.names net l hl, ?_⟩
        have := hf v l.addr l.rx msgs hver i m hmi
        have e : l.rx + 1 + i = l.rx + i + 1 := by omega
        rw [e]
        exact this
      · exact h.4 g n m (List.mem_append.mpr (.inr hm))
  | disp P s g n m =>
    refine ⟨?_, h.2, h.3, ?_⟩
    · intro g'
      have := h.1 g'
      have e : nums g' (s.disp ++ [(g, n, m)]) ++ nums g' P = nums g' s.disp ++ nums g' ((g, n, m) :: P) := by
        rw [nums_append, List.append_assoc, ← nums_append]; rfl
      show Rel b (nums g' (s.disp ++ [(g, n, m)]) ++ nums g' P) _
      rw [e]; exact this
    · intro g' n' m' hm
      apply h.4
      simpa [List.append_assoc] using hm

theorem recv_init (R : String → Nat → Msg → Prop) (b : Bool) (creator : Nat) : Recv c R b [] (initSt creator) :=
  ⟨fun _ => Rel.refl b _, (by intro _ _ h; cases h), fun _ _ => rfl, (by intro _ _ _ h; cases h)⟩

end Verif.JavaBmc
