import Verif.JavaRoutes
/-!
Invariant of what an ICON message center tells and learns (JavaRoutes): by induction over the calls.
-/
namespace Verif.JavaBmc
open Verif
open Verif.SolBmc (FM upd FeeInfo)

variable {c : Cfg}

/-- A link to a network under an address. -/
def Has (s : St) (net a : String) : Prop := ∃ l, Dict.get s.links net = some l ∧ l.addr = a

/-- `d` is the list of messages handled, as far as the links have taken account of them. -/
structure Inv (c : Cfg) (d : List (Nat × Nat × Option Msg)) (s : St) : Prop where
  svc : s.services "bmc" = none
  keys : (s.links.map (·.1)).Nodup
  addr : ∀ net l, Dict.get s.links net = some l → c.netOf l.addr = some net
  names : ∀ net l, Dict.get s.links net = some l → s.names[l.gen]? = some l.addr
  told : ∀ net l, Dict.get s.links net = some l → ∀ x, x ∈ told c s l.addr ↔ ∃ net', net' ≠ net ∧ Has s net' x
  learnt : ∀ net l, Dict.get s.links net = some l → l.reach = learnt c l.gen d
  gens : ∀ e ∈ d, e.1 < s.names.length
  own : ∀ a m, m ∈ since a s.log [] → isAnn c m = true → m.src = c.net ∧ c.netOf a = some m.dst
  known : ∀ a, since a s.log [] ≠ [] → a ∈ s.names

theorem get_core {L L' : List (String × Link)} (h : L'.map core = L.map core) {k : String} {l' : Link} (hg : Dict.get L' k = some l') :
    ∃ l, Dict.get L k = some l ∧ l'.addr = l.addr ∧ l'.reach = l.reach ∧ l'.gen = l.gen := by
  induction L' generalizing L with
  | nil => simp [Dict.get] at hg
  | cons p t ih =>
    cases L with
    | nil => simp at h
    | cons q u =>
      obtain ⟨a, x⟩ := p
      obtain ⟨b, y⟩ := q
      simp only [List.map_cons, List.cons.injEq, core, Prod.mk.injEq] at h
      obtain ⟨⟨h1, h2, h3, h4⟩, h5⟩ := h
      subst h1
      simp only [Dict.get] at hg ⊢
      split at hg
      · rename_i e
        cases hg
        exact ⟨y, by rw [if_pos e], h2, h3, h4⟩
      · rename_i e
        rw [if_neg e]
        exact ih h5 hg

theorem keys_core {L L' : List (String × Link)} (h : L'.map core = L.map core) : L'.map (·.1) = L.map (·.1) := by
  have : ∀ l : List (String × Link), l.map (fun p => p.1) = (l.map core).map (fun x => x.1) := fun l => by rw [List.map_map]; rfl
  rw [this, this, h]

theorem has_core {s s' : St} (h : s'.links.map core = s.links.map core) (n x : String) : Has s' n x ↔ Has s n x := by
  constructor
  · rintro ⟨l, hl, ha⟩
    obtain ⟨l0, h1, h2, -, -⟩ := get_core h hl
    exact ⟨l0, h1, by rw [← h2]; exact ha⟩
  · rintro ⟨l, hl, ha⟩
    obtain ⟨l0, h1, h2, -, -⟩ := get_core h.symm hl
    exact ⟨l0, h1, by rw [← h2]; exact ha⟩

theorem Inv.has_names {d : List (Nat × Nat × Option Msg)} {s : St} (i : Inv c d s) {a : String} (h : a ∈ s.links.map (fun p => p.2.addr)) : a ∈ s.names := by
  obtain ⟨⟨n, l⟩, hm, rfl⟩ := List.mem_map.1 h
  have := i.names n l (Dict.get_of_mem i.keys hm)
  exact List.mem_of_getElem? this

theorem told_q {s s' : St} (q : Q c s s') (a : String) : told c s' a = told c s a := by
  obtain ⟨ms, e, hn, -⟩ := q.log a
  unfold told
  rw [e, List.foldl_append, foldl_ann_none ms _ hn]

theorem Inv.q {d : List (Nat × Nat × Option Msg)} {s s' : St} (i : Inv c d s) (q : Q c s s') : Inv c d s' := by
  refine ⟨q.svc i.svc, by rw [keys_core q.links]; exact i.keys, fun net l hl => ?_, fun net l hl => ?_, fun net l hl x => ?_, fun net l hl => ?_,
    by rw [q.names]; exact i.gens, fun a m hm ha => ?_, fun a ha => ?_⟩
  · obtain ⟨l0, h1, h2, h3, h4⟩ := get_core q.links hl
    rw [h2]; exact i.addr net l0 h1
  · obtain ⟨l0, h1, h2, h3, h4⟩ := get_core q.links hl
    rw [h2, h4, q.names]; exact i.names net l0 h1
  · obtain ⟨l0, h1, h2, h3, h4⟩ := get_core q.links hl
    rw [told_q q, h2, i.told net l0 h1]
    constructor
    · rintro ⟨n, e, h⟩; exact ⟨n, e, (has_core q.links n x).2 h⟩
    · rintro ⟨n, e, h⟩; exact ⟨n, e, (has_core q.links n x).1 h⟩
  · obtain ⟨l0, h1, h2, h3, h4⟩ := get_core q.links hl
    rw [h3, h4]; exact i.learnt net l0 h1
  · obtain ⟨ms, e, hn, -⟩ := q.log a
    rw [e] at hm
    rcases List.mem_append.1 hm with h | h
    · exact i.own a m h ha
    · rw [hn m h] at ha; cases ha
  · obtain ⟨ms, e, -, hl⟩ := q.log a
    rw [q.names]
    by_cases h : since a s.log [] = []
    · rw [e, h, List.nil_append] at ha
      exact i.has_names (hl ha)
    · exact i.known a h

/-- The ghost list of messages handled does not matter. -/
theorem Inv.disp {d : List (Nat × Nat × Option Msg)} {s : St} (i : Inv c d s) (x : List (Nat × Nat × Option Msg)) : Inv c d { s with disp := x } :=
  ⟨i.1, i.2, i.3, i.4, i.5, i.6, i.7, i.8, i.9⟩

/-- One more message handled that is no announcement. -/
theorem Inv.plain {d : List (Nat × Nat × Option Msg)} {s : St} (i : Inv c d s) (g n : Nat) (m : Option Msg) (hg : g < s.names.length)
    (hm : ∀ x, m = some x → isAnn c x = false) : Inv c (d ++ [(g, n, m)]) s := by
  refine ⟨i.1, i.2, i.3, i.4, i.5, fun net l hl => ?_, fun e he => ?_, i.8, i.9⟩
  · rw [learnt_append, handled_one]
    split
    · cases m with
      | none => exact i.learnt net l hl
      | some x =>
        show l.reach = ann c _ x
        rw [ann_none (hm x rfl)]
        exact i.learnt net l hl
    · exact i.learnt net l hl
  · rcases List.mem_append.1 he with h | h
    · exact i.gens e h
    · rw [List.mem_singleton.1 h]; exact hg

theorem Inv.gen_inj {d : List (Nat × Nat × Option Msg)} {s : St} (i : Inv c d s) {n1 n2 : String} {l1 l2 : Link} (h1 : Dict.get s.links n1 = some l1)
    (h2 : Dict.get s.links n2 = some l2) (e : l1.gen = l2.gen) : n1 = n2 := by
  have a := i.names n1 l1 h1
  have b := i.names n2 l2 h2
  rw [e, b] at a
  have c1 := i.addr n1 l1 h1
  have c2 := i.addr n2 l2 h2
  rw [← Option.some.inj a, c2] at c1
  exact (Option.some.inj c1).symm

/-- An announcement is taken account of. -/
theorem Inv.ann {d : List (Nat × Nat × Option Msg)} {s : St} (i : Inv c d s) {net : String} {l : Link} (hl : Dict.get s.links net = some l) (n : Nat) (m : Msg) :
    Inv c (d ++ [(l.gen, n, some m)]) (putLink c s { l with reach := ann c l.reach m }) := by
  have hn := i.addr net l hl
  rw [putLink_eq s { l with reach := JavaBmc.ann c l.reach m } net hn]
  have hget : ∀ k x, Dict.get (Dict.put s.links net { l with reach := JavaBmc.ann c l.reach m }) k = some x →
      (k = net ∧ x = { l with reach := JavaBmc.ann c l.reach m }) ∨ (k ≠ net ∧ Dict.get s.links k = some x) := by
    intro k x hx
    rw [Dict.get_put] at hx
    split at hx
    · rename_i e; cases hx; exact .inl ⟨e.symm, rfl⟩
    · rename_i e; exact .inr ⟨fun e' => e e'.symm, hx⟩
  have hhas : ∀ k x, Has { s with links := Dict.put s.links net { l with reach := JavaBmc.ann c l.reach m } } k x ↔ Has s k x := by
    intro k x
    unfold Has
    show (∃ y, Dict.get (Dict.put _ _ _) k = some y ∧ _) ↔ _
    rw [Dict.get_put]
    by_cases e : net = k
    · subst e
      rw [if_pos rfl]
      constructor
      · rintro ⟨y, h1, h2⟩; cases h1; exact ⟨l, hl, h2⟩
      · rintro ⟨y, h1, h2⟩; rw [hl] at h1; cases h1; exact ⟨_, rfl, h2⟩
    · rw [if_neg e]
  refine ⟨i.svc, Dict.nodup_put _ _ i.keys, fun k x hx => ?_, fun k x hx => ?_, fun k x hx y => ?_, fun k x hx => ?_, fun e he => ?_, i.own, i.known⟩
  · rcases hget k x hx with ⟨rfl, rfl⟩ | ⟨_, h⟩
    · exact hn
    · exact i.addr k x h
  · rcases hget k x hx with ⟨rfl, rfl⟩ | ⟨_, h⟩
    · exact i.names k l hl
    · exact i.names k x h
  · show y ∈ JavaBmc.told c s x.addr ↔ _
    have : y ∈ JavaBmc.told c s x.addr ↔ ∃ net', net' ≠ k ∧ Has s net' y := by
      rcases hget k x hx with ⟨rfl, rfl⟩ | ⟨_, h⟩
      · exact i.told k l hl y
      · exact i.told k x h y
    rw [this]
    constructor
    · rintro ⟨n, e, h⟩; exact ⟨n, e, (hhas n y).2 h⟩
    · rintro ⟨n, e, h⟩; exact ⟨n, e, (hhas n y).1 h⟩
  · rw [learnt_append, handled_one]
    rcases hget k x hx with ⟨rfl, rfl⟩ | ⟨hne, h⟩
    · rw [if_pos rfl]
      show JavaBmc.ann c l.reach m = JavaBmc.ann c (JavaBmc.learnt c l.gen d) m
      rw [i.learnt k l hl]
    · rw [if_neg (fun e => hne (i.gen_inj h hl e.symm))]
      exact i.learnt k x h
  · rcases List.mem_append.1 he with h | h
    · exact i.gens e h
    · rw [List.mem_singleton.1 h]
      exact (List.getElem?_eq_some_iff.1 (i.names net l hl)).1

/-- What a call leaves: the invariant, and lists that only grow (if no link is added twice). -/
structure Keeps (c : Cfg) (d : List (Nat × Nat × Option Msg)) (s s' : St) : Prop where
  inv : Inv c s'.disp s'
  disp : s'.disp = s.disp ++ d
  names : ∃ k, s'.names = s.names ++ k
  log : s'.names.Nodup → ∀ a, ∃ ms, since a s'.log [] = since a s.log [] ++ ms

theorem Inv.keeps {s s' : St} (i : Inv c s.disp s) (q : Q c s s') : Keeps c [] s s' :=
  ⟨by rw [q.disp]; exact i.q q, by rw [q.disp, List.append_nil], ⟨[], by rw [q.names, List.append_nil]⟩, fun _ a => by
    obtain ⟨ms, e, -⟩ := q.log a
    exact ⟨ms, e⟩⟩

theorem Keeps.trans {d d' : List (Nat × Nat × Option Msg)} {s s1 s2 : St} (h : Keeps c d s s1) (k : Keeps c d' s1 s2) : Keeps c (d ++ d') s s2 := by
  obtain ⟨k1, e1⟩ := h.names
  obtain ⟨k2, e2⟩ := k.names
  refine ⟨k.inv, by rw [k.disp, h.disp, List.append_assoc], ⟨k1 ++ k2, by rw [e2, e1, List.append_assoc]⟩, fun hn a => ?_⟩
  have hn1 : s1.names.Nodup := by rw [e2, List.nodup_append] at hn; exact hn.1
  obtain ⟨m1, f1⟩ := h.log hn1 a
  obtain ⟨m2, f2⟩ := k.log hn a
  exact ⟨m1 ++ m2, by rw [f2, f1, List.append_assoc]⟩

/-! ### Relay calls -/

theorem openRelay_q {s s1 : St} {l : Link} {caller : Nat} {prev : String} {msgs : List Msg} (h : openRelay c s caller prev msgs = some (l, s1)) :
    Q c s s1 ∧ getLinkA c s prev = some l := by
  unfold openRelay at h
  split at h
  · cases h
  · rename_i l' hl
    split at h
    · cases h
    · split at h
      · cases h
        obtain ⟨net, hn, hg, ha⟩ := getLinkA_some c hl
        refine ⟨?_, hl⟩
        refine Q.trans (Q.putLink (l' := { l with rx := l.rx + msgs.length }) (by show c.netOf l.addr = _; rw [ha]; exact hn) hg rfl rfl rfl) ?_
        exact Q.same rfl rfl rfl rfl rfl
      · cases h

theorem item_ann (env : Env) (out : Out) (call : St → St) (caller : Nat) (prev : String) (gen seq : Nat) (s : St) (m : Msg) (l : Link)
    (hl : Dict.get s.links m.src = some l) (hdst : m.dst = c.net) (hm : isAnn c m = true) :
    ∃ s1 l1, Q c { s with disp := s.disp ++ [(gen, seq, some m)] } s1 ∧ Dict.get s1.links m.src = some l1 ∧ l1.gen = l.gen ∧
      item c env out call caller prev gen seq s m = putLink c s1 { l1 with reach := ann c l1.reach m } := by
  have h1 : Q c { s with disp := s.disp ++ [(gen, seq, some m)] } { (inFee s m.fee) with disp := (inFee s m.fee).disp ++ [(gen, seq, some m)] } := by
    cases m.fee <;> exact Q.same rfl rfl rfl rfl rfl
  unfold item
  simp only
  generalize { (inFee s m.fee) with disp := (inFee s m.fee).disp ++ [(gen, seq, some m)] } = s0 at h1
  have h2 := h1.trans (Q.accumulate s0 caller m.fee)
  generalize accumulate s0 caller m.fee = q at h2
  have hm' := hm
  unfold isAnn at hm'
  rw [Bool.and_eq_true, Bool.and_eq_true, decide_eq_true_eq, decide_eq_true_eq] at hm'
  obtain ⟨⟨hsv, hsn⟩, hd⟩ := hm'
  obtain ⟨s1, hs1⟩ : ∃ s1, s1 = storeFee c q.1 { m with fee := q.2 } := ⟨_, rfl⟩
  have h3 := h2.trans (Q.storeFee q.1 { m with fee := q.2 })
  rw [← hs1] at h3
  obtain ⟨l1, g1, g2, g3, g4⟩ := get_core (L := s1.links) (L' := s.links) h3.links.symm hl
  have hann : JavaBmc.ann c l1.reach m = match c.decInner m.body with
      | some (.link x) => addAll l1.reach [x]
      | some (.unlink x) => l1.reach.erase x
      | some (.initial l) => addAll l1.reach l
      | _ => l1.reach := by unfold JavaBmc.ann; rw [if_pos hm]; rfl
  refine ⟨s1, l1, h3, g1, g4.symm, ?_⟩
  have hdel : deliver c env out call q.1 { m with fee := q.2 } = (none, putLink c s1 { l1 with reach := ann c l1.reach m }) := by
    unfold deliver
    rw [if_pos hdst]
    unfold handleMessage
    rw [if_pos (show (0 : Int) ≤ m.sn from hsn)]
    simp only
    rw [← hs1, if_pos hsv]
    unfold internalHandle
    cases hb : c.decInner m.body with
    | none => rw [hb] at hd; cases hd
    | some b =>
      rw [hb] at hd hann
      cases b with
      | claim a r => cases hd
      | response r => cases hd
      | link x => simp only [addReach, g1]; rw [hann]; rfl
      | unlink x => simp only [removeReach, g1]; rw [hann]
      | initial x => simp only [addReach, g1]; rw [hann]; rfl
  rw [hdel]

theorem items_inv (hr : Reads c) (net : String) : ∀ (items : Items) (caller : Nat) (prev : String) (gen seq : Nat) (s : St), items.mild = true →
    c.netOf prev = some net → (∀ m ∈ items.msgs, Honest c prev m) → (∃ l, Dict.get s.links net = some l ∧ l.gen = gen) → Inv c s.disp s →
    Keeps c (entries gen seq (items.msgs.map some)) s (execItems c items caller prev gen seq s)
  | .nil, caller, prev, gen, seq, s, _, _, _, _, i => by
    simp only [execItems, Items.msgs, List.map_nil, entries]
    exact i.keeps (Q.refl s)
  | .cons m env out acts t, caller, prev, gen, seq, s, hq, hp, hh, ⟨l, hl, hg⟩, i => by
    simp only [Items.mild, Bool.and_eq_true] at hq
    simp only [execItems]
    have hlen : gen < s.names.length := by
      rw [← hg]; exact (List.getElem?_eq_some_iff.1 (i.names net l hl)).1
    have hnext : Keeps c [(gen, seq, some m)] s (item c env out (fun x => execOps c acts x) caller prev gen seq s m) ∧
        ∃ l', Dict.get (item c env out (fun x => execOps c acts x) caller prev gen seq s m).links net = some l' ∧ l'.gen = gen := by
      cases hm : isAnn c m with
      | false =>
        have q := Q.item hr env out (fun x => execOps c acts x) caller prev gen seq s m (fun x hx => execOps_mild hr acts x hq.1 hx) i.svc hm
        refine ⟨⟨?_, q.disp, ⟨[], by rw [q.names, List.append_nil]⟩, fun _ a => ?_⟩, ?_⟩
        · rw [q.disp]
          exact Inv.q ((i.plain gen seq (some m) hlen (fun x hx => by cases hx; exact hm)).disp _) q
        · obtain ⟨ms, e, -⟩ := q.log a
          exact ⟨ms, e⟩
        · obtain ⟨l', h1, -, -, h4⟩ := get_core q.links.symm hl
          exact ⟨l', h1, by rw [← h4]; exact hg⟩
      | true =>
        obtain ⟨h1, h2⟩ := hh m List.mem_cons_self hm
        rw [hp] at h1
        cases h1
        obtain ⟨s1, l1, q, g1, g2, e⟩ := item_ann env out (fun x => execOps c acts x) caller prev gen seq s m l hl h2 hm
        rw [e]
        have hi : Inv c s.disp s1 := Inv.q (i.disp _) q
        have hgen : l1.gen = gen := g2.trans hg
        have hd : ∀ x, (putLink c s1 x).disp = s1.disp ∧ (putLink c s1 x).names = s1.names ∧ (putLink c s1 x).log = s1.log := by
          intro x; unfold putLink; split <;> exact ⟨rfl, rfl, rfl⟩
        obtain ⟨d1, d2, d3⟩ := hd { l1 with reach := ann c l1.reach m }
        refine ⟨⟨by rw [d1, q.disp, ← hgen]; exact hi.ann g1 seq m, by rw [d1, q.disp], ⟨[], by rw [d2, q.names, List.append_nil]⟩, fun _ a => ?_⟩, ?_⟩
        · obtain ⟨ms, e, -⟩ := q.log a
          rw [d3]
          exact ⟨ms, e⟩
        · rw [putLink_eq s1 { l1 with reach := ann c l1.reach m } m.src (show c.netOf l1.addr = _ from hi.addr _ _ g1)]
          refine ⟨{ l1 with reach := ann c l1.reach m }, ?_, hgen⟩
          show Dict.get (Dict.put _ _ _) _ = _
          rw [Dict.get_put, if_pos rfl]
    have := items_inv hr net t caller prev gen (seq + 1) _ hq.2 hp (fun x hx => hh x (List.mem_cons_of_mem _ hx)) hnext.2 hnext.1.inv
    exact hnext.1.trans this

/-! ### Messages given up by the owner -/

theorem drop_q {env : Env} {s s' : St} {caller : Nat} {src : String} {seq : Nat} {svc : String} {sn nsn : Int} {fn : String} {fv : List Nat}
    {d : List (Nat × Nat × Option Msg)} (i : Inv c d s)
    (h : dropMessage c env s caller src seq svc sn nsn fn fv = some s') :
    ∃ g n, g < s.names.length ∧ Q c { s with disp := s.disp ++ [(g, n, none)] } s' := by
  unfold dropMessage at h
  split at h
  · cases h
  · split at h
    · cases h
    · rename_i prev hp
      split at h
      · cases h
      · rename_i l hl
        split at h
        · cases h
        · split at h
          · cases h
          · split at h
            · cases h
            · simp only at h
              obtain ⟨net, hnet⟩ : ∃ net, net = (c.netOf prev).getD "" := ⟨_, rfl⟩
              rw [← hnet] at hl
              refine ⟨l.gen, seq, (List.getElem?_eq_some_iff.1 (i.names _ l hl)).1, ?_⟩
              have q0 : Q c { s with disp := s.disp ++ [(l.gen, seq, none)] }
                  { (putLink c s { l with rx := seq }) with taken := upd (putLink c s { l with rx := seq }).taken l.gen seq, disp := (putLink c s { l with rx := seq }).disp ++ [(l.gen, seq, none)] } := by
                rw [putLink_eq s { l with rx := seq } net (i.addr net l hl)]
                exact ⟨Q.core_put _ _ _ _ hl rfl rfl rfl, rfl, rfl, id, fun a => ⟨[], by rw [List.append_nil], nofun, fun h => absurd rfl h⟩⟩
              generalize { (putLink c s { l with rx := seq }) with taken := upd (putLink c s { l with rx := seq }).taken l.gen seq, disp := (putLink c s { l with rx := seq }).disp ++ [(l.gen, seq, none)] } = s1 at h q0
              have q1 := q0.trans ((Q.inFee s1 (dropFee fn fv)).trans (Q.accumulate _ c.addr (dropFee fn fv)))
              generalize accumulate (inFee s1 (dropFee fn fv)) c.addr (dropFee fn fv) = z at h q1
              split at h
              · rename_i hsn
                have q2 := Q.sendError (c := c) env z.1 prev ⟨src, "", svc, sn, [], nsn, z.2⟩ exDrop hsn
                split at h
                · rename_i s3 hs
                  cases h
                  rw [hs] at q2
                  exact q1.trans q2
                · cases h
              · cases h
                exact q1.trans ((Q.lostFee _ _).trans (Q.dropped _ _ _ _))

/-! ### Adding and removing links -/

/-- Messages are emitted, nothing else changes. -/
structure Emits (s s' : St) (f : String → List Msg) : Prop where
  links : s'.links.map core = s.links.map core
  names : s'.names = s.names
  disp : s'.disp = s.disp
  svc : s'.services = s.services
  log : ∀ a, since a s'.log [] = since a s.log [] ++ f a

/-- A message `sendInternal` makes. -/
def IsInt (c : Cfg) (body : Bytes) (to : String) (m : Msg) : Prop := m.src = c.net ∧ m.dst = to ∧ m.svc = "bmc" ∧ m.sn = 0 ∧ m.body = body

theorem sendInternal_emits {env : Env} {s s' : St} {next to : String} {body : Bytes} (h : sendInternal c env s next to body = (none, s')) :
    (∃ l, getLinkA c s next = some l) ∧ ∃ m, IsInt c body to m ∧ Emits s s' (fun a => if next = a then [m] else []) := by
  unfold sendInternal at h
  obtain ⟨m, hm⟩ : ∃ m : Msg, m = ⟨c.net, to, "bmc", 0, body, s.nsn + 1, none⟩ := ⟨_, rfl⟩
  rw [← hm] at h
  have hint : IsInt c body to m := by rw [hm]; exact ⟨rfl, rfl, rfl, rfl, rfl⟩
  have hput : ∀ l, getLinkA c { s with nsn := s.nsn + 1 } next = some l → ((putLink c { s with nsn := s.nsn + 1 } { l with tx := l.tx + 1 }).links.map core = s.links.map core ∧
      (putLink c { s with nsn := s.nsn + 1 } { l with tx := l.tx + 1 }).names = s.names ∧ (putLink c { s with nsn := s.nsn + 1 } { l with tx := l.tx + 1 }).disp = s.disp ∧
      (putLink c { s with nsn := s.nsn + 1 } { l with tx := l.tx + 1 }).services = s.services) := by
    intro l hl
    obtain ⟨net, hn, hg, ha⟩ := getLinkA_some c hl
    rw [putLink_eq _ { l with tx := l.tx + 1 } net (by show c.netOf l.addr = _; rw [ha]; exact hn)]
    exact ⟨Q.core_put _ _ _ _ hg rfl rfl rfl, rfl, rfl, rfl⟩
  rcases Tr.sendMsg (c := c) (env := env) (s := { s with nsn := s.nsn + 1 }) (next := next) (m := m) with ⟨e0, e⟩ | ⟨_, l, hl, ⟨_, e⟩ | ⟨id, _, _, e⟩⟩
  · rw [h] at e0; exact absurd rfl e0
  · rw [h] at e
    cases (show s' = _ from e)
    obtain ⟨p1, p2, p3, p4⟩ := hput l hl
    refine ⟨⟨l, hl⟩, m, hint, ⟨p1, p2, p3, p4, fun a => ?_⟩⟩
    show since a (s.log ++ [_]) [] = _
    rw [since_append]
    show (if next = a then _ ++ [m] else _) = _
    split
    · rfl
    · rw [List.append_nil]
  · rw [h] at e
    cases (show s' = _ from e)
    obtain ⟨p1, p2, p3, p4⟩ := hput l hl
    refine ⟨⟨l, hl⟩, m, hint, ⟨p1, p2, p3, p4, fun a => ?_⟩⟩
    show since a (s.log ++ [_]) [] = _
    rw [since_append]
    show (if next = a then _ ++ [m] else _) = _
    split
    · rfl
    · rw [List.append_nil]

theorem propagate_emits {env : Env} {body : Bytes} : ∀ (L : List (String × Link)) (s s' : St), propagate c env body L s = some s' →
    ∃ f, Emits s s' f ∧ ∀ a, (f a).length = (L.map (fun p => p.2.addr)).count a ∧ ∀ m ∈ f a, IsInt c body ((c.netOf a).getD "") m
  | [], s, s', h => by
    simp only [propagate] at h
    cases h
    exact ⟨fun _ => [], ⟨rfl, rfl, rfl, rfl, fun a => by rw [List.append_nil]⟩, fun a => ⟨rfl, nofun⟩⟩
  | (k, l) :: t, s, s', h => by
    simp only [propagate] at h
    split at h
    · cases h
    · rename_i s1 hs
      obtain ⟨-, m, hm, e1⟩ := sendInternal_emits hs
      obtain ⟨f, e2, hf⟩ := propagate_emits t s1 s' h
      refine ⟨fun a => (if l.addr = a then [m] else []) ++ f a, ⟨e2.links.trans e1.links, e2.names.trans e1.names, e2.disp.trans e1.disp, e2.svc.trans e1.svc,
        fun a => by rw [e2.log, e1.log, List.append_assoc]⟩, fun a => ⟨?_, fun x hx => ?_⟩⟩
      · rw [List.length_append, (hf a).1, List.map_cons, List.count_cons]
        by_cases e : l.addr = a
        · simp [e]; omega
        · simp [e]
      · rcases List.mem_append.1 hx with h | h
        · split at h
          · rename_i e; rw [List.mem_singleton.1 h, ← e]; exact hm
          · exact nomatch h
        · exact (hf a).2 x h

theorem Inv.addrs_nodup {d : List (Nat × Nat × Option Msg)} {s : St} (i : Inv c d s) : (s.links.map (fun p => p.2.addr)).Nodup := by
  have h1 : (s.links.map (fun p => p.2.addr)).map c.netOf = (s.links.map (·.1)).map some := by
    rw [List.map_map, List.map_map]
    apply List.map_congr_left
    rintro ⟨n, l⟩ hm
    exact i.addr n l (Dict.get_of_mem i.keys hm)
  have h2 : ((s.links.map (·.1)).map (some : String → Option String)).Nodup :=
    List.Pairwise.map _ (fun a b h e => h (Option.some.inj e)) i.keys
  rw [← h1] at h2
  exact List.Pairwise.of_map _ (fun a b h e => h (by rw [e])) h2

/-- What an announcement does. -/
def act (r : List String) : Inner → List String
  | .link x => addAll r [x]
  | .unlink x => r.erase x
  | .initial l => addAll r l
  | _ => r

theorem ann_int (hr : Reads c) {i : Inner} {to : String} {m : Msg} (h : IsInt c (c.encInner i) to m) (hi : (∃ x, i = .link x) ∨ (∃ x, i = .unlink x) ∨ ∃ x, i = .initial x) :
    isAnn c m = true ∧ ∀ r, ann c r m = act r i := by
  obtain ⟨h1, h2, h3, h4, h5⟩ := h
  have : isAnn c m = true := by
    unfold isAnn
    rw [h3, h4, h5, hr]
    rcases hi with ⟨x, rfl⟩ | ⟨x, rfl⟩ | ⟨x, rfl⟩ <;> rfl
  refine ⟨this, fun r => ?_⟩
  unfold ann
  rw [if_pos this, h5, hr]
  rcases hi with ⟨x, rfl⟩ | ⟨x, rfl⟩ | ⟨x, rfl⟩ <;> rfl

/-- One of a list with one entry. -/
theorem one_of {M : Type} {l : List M} {P : M → Prop} (h : l.length = 1) (hp : ∀ m ∈ l, P m) : ∃ m, l = [m] ∧ P m := by
  match l, h with
  | [m], _ => exact ⟨m, rfl, hp m List.mem_cons_self⟩

theorem Inv.addLink (hr : Reads c) {env : Env} {s s' : St} {link : String} (i : Inv c s.disp s) (h : addLink c env s link = some s') : Keeps c [] s s' := by
  unfold JavaBmc.addLink at h
  split at h
  · cases h
  · rename_i net hnet
    split at h
    · cases h
    · split at h
      · cases h
      · rename_i _ hno
        have hno' : Dict.get s.links net = none := by
          cases e : Dict.get s.links net with
          | none => rfl
          | some l => rw [e] at hno; exact absurd rfl hno
        split at h
        · cases h
        · rename_i s1 hp
          simp only at h
          split at h
          · cases h
          · rename_i s3 hs
            cases h
            obtain ⟨f, e1, hf⟩ := propagate_emits _ _ _ hp
            obtain ⟨-, m0, hm0, e2⟩ := sendInternal_emits hs
            have hd : s'.disp = s.disp := e2.disp.trans e1.disp
            have hnm : s'.names = s.names ++ [link] := by rw [e2.names]; show s1.names ++ _ = _; rw [e1.names]
            -- the links after
            have hget : ∀ k l, Dict.get s'.links k = some l → (k = net ∧ l.addr = link ∧ l.reach = [] ∧ l.gen = s.names.length) ∨
                ∃ l0, Dict.get s.links k = some l0 ∧ l.addr = l0.addr ∧ l.reach = l0.reach ∧ l.gen = l0.gen := by
              intro k l hl
              obtain ⟨l1, g1, g2, g3, g4⟩ := get_core e2.links hl
              have g1' : Dict.get (Dict.put s1.links net ⟨link, 0, 0, [], s1.names.length⟩) k = some l1 := g1
              rw [Dict.get_put] at g1'
              split at g1'
              · rename_i e
                cases g1'
                exact .inl ⟨e.symm, g2, g3, by rw [g4, ← e1.names]⟩
              · obtain ⟨l0, a1, a2, a3, a4⟩ := get_core e1.links g1'
                exact .inr ⟨l0, a1, g2.trans a2, g3.trans a3, g4.trans a4⟩
            have hhas : ∀ k x, Has s' k x ↔ (k = net ∧ x = link) ∨ Has s k x := by
              intro k x
              rw [has_core e2.links]
              show (∃ l, Dict.get (Dict.put s1.links net _) k = some l ∧ _) ↔ _
              rw [Dict.get_put]
              split
              · rename_i e
                subst e
                constructor
                · rintro ⟨l, h1, h2⟩; cases h1; exact .inl ⟨rfl, h2.symm⟩
                · rintro (⟨_, h2⟩ | ⟨l, h1, _⟩)
                  · exact ⟨_, rfl, h2.symm⟩
                  · rw [hno'] at h1; cases h1
              · rename_i e
                rw [show (∃ l, Dict.get s1.links k = some l ∧ l.addr = x) ↔ Has s k x from has_core e1.links k x]
                exact ⟨.inr, fun h => h.elim (fun h => absurd h.1.symm e) id⟩
            have hne : ∀ k l0, Dict.get s.links k = some l0 → k ≠ net ∧ l0.addr ≠ link := by
              intro k l0 hl
              refine ⟨fun e => ?_, fun e => ?_⟩
              · rw [e, hno'] at hl; cases hl
              · have := i.addr k l0 hl
                rw [e, hnet] at this
                cases this
                rw [hno'] at hl; cases hl
            have hsince : ∀ a, a ≠ link → since a s'.log [] = since a s.log [] ++ f a := by
              intro a ha
              rw [e2.log a, if_neg (fun e => ha e.symm), List.append_nil]
              show since a (s1.log ++ [.start link]) [] = _
              rw [since_append]
              show (if link = a then _ else _) = _
              rw [if_neg (fun e => ha e.symm), e1.log a]
            have hsl : since link s'.log [] = [m0] := by
              rw [e2.log link, if_pos rfl]
              show since link (s1.log ++ [.start link]) [] ++ _ = _
              rw [since_append]
              show (if link = link then _ else _) ++ _ = _
              rw [if_pos rfl]; rfl
            have hfone : ∀ k l0, Dict.get s.links k = some l0 → ∃ m, f l0.addr = [m] ∧ IsInt c (c.encInner (.link link)) ((c.netOf l0.addr).getD "") m := by
              intro k l0 hl
              refine one_of ?_ (hf l0.addr).2
              rw [(hf l0.addr).1]
              have hmem : l0.addr ∈ s.links.map (fun p => p.2.addr) := List.mem_map.2 ⟨_, Dict.get_mem hl, rfl⟩
              exact i.addrs_nodup.count.trans (if_pos hmem)
            refine ⟨?_, by rw [hd, List.append_nil], ⟨[link], hnm⟩, fun hnd a => ?_⟩
            rotate_left
            · by_cases e : a = link
              · subst e
                refine ⟨[m0], ?_⟩
                have h0 : since a s.log [] = [] := Classical.byContradiction fun h0 => by
                  have := i.known a h0
                  rw [hnm, List.nodup_append] at hnd
                  exact hnd.2.2 a this a (List.mem_singleton.2 rfl) rfl
                rw [hsl, h0, List.nil_append]
              · exact ⟨f a, hsince a e⟩
            refine ⟨?_, ?_, fun k l hl => ?_, fun k l hl => ?_, fun k l hl x => ?_, fun k l hl => ?_, fun e he => ?_, fun a m hm ha => ?_, fun a ha => ?_⟩
            · rw [e2.svc]; show s1.services "bmc" = _; rw [e1.svc]; exact i.svc
            · rw [keys_core e2.links]
              exact Dict.nodup_put _ _ (by rw [keys_core e1.links]; exact i.keys)
            · rcases hget k l hl with ⟨h1, h2, -, -⟩ | ⟨l0, h1, h2, -, -⟩
              · rw [h2, h1]; exact hnet
              · rw [h2]; exact i.addr k l0 h1
            · rw [hnm]
              rcases hget k l hl with ⟨h1, h2, -, h4⟩ | ⟨l0, h1, h2, -, h4⟩
              · rw [h2, h4, List.getElem?_append_right (Nat.le_refl _), Nat.sub_self]; rfl
              · rw [h2, h4]
                have := i.names k l0 h1
                rw [List.getElem?_append_left (List.getElem?_eq_some_iff.1 this).1]
                exact this
            · rcases hget k l hl with ⟨h1, h2, -, -⟩ | ⟨l0, h1, h2, -, -⟩
              · unfold JavaBmc.told
                rw [h2, hsl]
                show x ∈ JavaBmc.ann c [] m0 ↔ _
                rw [(ann_int hr hm0 (.inr (.inr ⟨_, rfl⟩))).2]
                show x ∈ addAll [] _ ↔ _
                rw [mem_addAll]
                constructor
                · rintro (h | h)
                  · exact nomatch h
                  · obtain ⟨⟨n, y⟩, hy, rfl⟩ := List.mem_map.1 h
                    have hy' := Dict.get_of_mem i.keys hy
                    exact ⟨n, by rw [h1]; exact (hne n y hy').1, (hhas _ _).2 (.inr ⟨y, hy', rfl⟩)⟩
                · rintro ⟨n, e, h⟩
                  rcases (hhas _ _).1 h with ⟨e', -⟩ | ⟨y, hy, rfl⟩
                  · exact absurd (e'.trans h1.symm) e
                  · exact .inr (List.mem_map.2 ⟨_, Dict.get_mem hy, rfl⟩)
              · have hx := i.told k l0 h1 x
                obtain ⟨m, hm1, hm2⟩ := hfone k l0 h1
                have : JavaBmc.told c s' l.addr = JavaBmc.ann c (JavaBmc.told c s l0.addr) m := by
                  unfold JavaBmc.told
                  rw [h2, hsince _ (hne k l0 h1).2, hm1, List.foldl_append]
                  rfl
                rw [this, (ann_int hr hm2 (.inl ⟨_, rfl⟩)).2]
                show x ∈ addAll _ [link] ↔ _
                rw [mem_addAll, hx, List.mem_singleton]
                constructor
                · rintro (⟨n, e, h⟩ | rfl)
                  · exact ⟨n, e, (hhas _ _).2 (.inr h)⟩
                  · exact ⟨net, fun e => (hne k l0 h1).1 e.symm, (hhas _ _).2 (.inl ⟨rfl, rfl⟩)⟩
                · rintro ⟨n, e, h⟩
                  rcases (hhas _ _).1 h with ⟨-, e'⟩ | h
                  · exact .inr e'
                  · exact .inl ⟨n, e, h⟩
            · rw [hd]
              rcases hget k l hl with ⟨h1, -, h3, h4⟩ | ⟨l0, h1, -, h3, h4⟩
              · rw [h3, h4]
                unfold JavaBmc.learnt handled
                rw [List.filter_eq_nil_iff.2 (fun e he => by
                  have := i.gens e he
                  simp only [decide_eq_true_eq]
                  omega)]
                rfl
              · rw [h3, h4]; exact i.learnt k l0 h1
            · rw [hd] at he
              rw [hnm, List.length_append]
              have := i.gens e he
              omega
            · by_cases e : a = link
              · subst e
                rw [hsl] at hm
                rw [List.mem_singleton.1 hm]
                exact ⟨hm0.1, by rw [hnet, hm0.2.1]⟩
              · rw [hsince a e] at hm
                rcases List.mem_append.1 hm with h | h
                · exact i.own a m h ha
                · have hl := (hf a).1
                  have hpos : 0 < (f a).length := List.length_pos_of_mem h
                  rw [hl, List.count_pos_iff] at hpos
                  obtain ⟨⟨n, y⟩, hy, rfl⟩ := List.mem_map.1 hpos
                  have hy' := i.addr n y (Dict.get_of_mem i.keys hy)
                  have := (hf y.addr).2 m h
                  exact ⟨this.1, by rw [this.2.1, hy']; rfl⟩
            · rw [hnm]
              by_cases e : a = link
              · rw [e]; simp
              · rw [hsince a e] at ha
                by_cases h0 : since a s.log [] = []
                · rw [h0, List.nil_append] at ha
                  have hpos : 0 < (f a).length := List.length_pos_iff.2 ha
                  rw [(hf a).1, List.count_pos_iff] at hpos
                  exact List.mem_append_left _ (i.has_names hpos)
                · exact List.mem_append_left _ (i.known a h0)

theorem Inv.removeLink (hr : Reads c) {env : Env} {s s' : St} {link : String} (i : Inv c s.disp s) (h : removeLink c env s link = some s') : Keeps c [] s s' := by
  unfold JavaBmc.removeLink at h
  split at h
  · cases h
  · rename_i net hnet
    split at h
    · cases h
    · rename_i l hl
      split at h
      · cases h
      · rename_i hla
        have hla' : l.addr = link := Classical.byContradiction hla
        split at h
        · cases h
        · simp only at h
          have hu : ∀ x : St, (unbind x link).links = x.links ∧ (unbind x link).names = x.names ∧ (unbind x link).disp = x.disp ∧
              (unbind x link).services = x.services ∧ (unbind x link).log = x.log := by
            intro x; unfold unbind; split <;> exact ⟨rfl, rfl, rfl, rfl, rfl⟩
          obtain ⟨u1, u2, u3, u4, u5⟩ := hu { s with links := Dict.del s.links net }
          generalize unbind { s with links := Dict.del s.links net } link = s1 at h u1 u2 u3 u4 u5
          obtain ⟨f, e1, hf⟩ := propagate_emits _ _ _ h
          have e1l : s'.links.map core = (Dict.del s.links net).map core := by rw [e1.links]; exact congrArg _ u1
          have hd : s'.disp = s.disp := e1.disp.trans u3
          have hnm : s'.names = s.names := e1.names.trans u2
          have hsince : ∀ a, since a s'.log [] = since a s.log [] ++ f a := by
            intro a
            rw [e1.log]
            show since a s1.log [] ++ _ = _
            rw [u5]
          have hfl : ∀ a, (f a).length = ((Dict.del s.links net).map (fun p => p.2.addr)).count a := by
            intro a
            rw [(hf a).1]
            show (s1.links.map _).count a = _
            rw [u1]
          have hkd := Dict.nodup_del i.keys hl
          have hget : ∀ k y, Dict.get s'.links k = some y → k ≠ net ∧ ∃ l0, Dict.get s.links k = some l0 ∧ y.addr = l0.addr ∧ y.reach = l0.reach ∧ y.gen = l0.gen := by
            intro k y hy
            obtain ⟨l1, g1, g2⟩ := get_core e1l hy
            rw [Dict.get_del i.keys hl] at g1
            split at g1
            · cases g1
            · rename_i e; exact ⟨fun e' => e e'.symm, l1, g1, g2⟩
          have hhas : ∀ k x, Has s' k x ↔ k ≠ net ∧ Has s k x := by
            intro k x
            have : Has s' k x ↔ Has { s with links := Dict.del s.links net } k x := has_core e1l k x
            rw [this]
            show (∃ y, Dict.get (Dict.del s.links net) k = some y ∧ _) ↔ _
            rw [Dict.get_del i.keys hl]
            split
            · rename_i e
              constructor
              · rintro ⟨y, h, _⟩; cases h
              · rintro ⟨h, _⟩; exact absurd e.symm h
            · rename_i e
              exact ⟨fun h => ⟨fun e' => e e'.symm, h⟩, fun h => h.2⟩
          have hmemd : ∀ a, a ∈ (Dict.del s.links net).map (fun p => p.2.addr) → ∃ k y, Dict.get s.links k = some y ∧ y.addr = a := by
            intro a ha
            obtain ⟨⟨k, y⟩, hy, rfl⟩ := List.mem_map.1 ha
            exact ⟨k, y, Dict.get_of_mem i.keys (Dict.mem_del hl hy), rfl⟩
          have hnd : ((Dict.del s.links net).map (fun p => p.2.addr)).Nodup := by
            have h1 := ((Dict.del_perm s.links net l hl).map (fun p => p.2.addr)).nodup_iff.2 i.addrs_nodup
            rw [List.map_cons, List.nodup_cons] at h1
            exact h1.2
          refine ⟨?_, by rw [hd, List.append_nil], ⟨[], by rw [hnm, List.append_nil]⟩, fun _ a => ⟨f a, hsince a⟩⟩
          refine ⟨?_, ?_, fun k y hy => ?_, fun k y hy => ?_, fun k y hy x => ?_, fun k y hy => ?_, fun e he => ?_, fun a m hm ha => ?_, fun a ha => ?_⟩
          · rw [e1.svc]; show s1.services "bmc" = _; rw [u4]; exact i.svc
          · rw [keys_core e1l]; exact hkd.1
          · obtain ⟨-, l0, h1, h2, -, -⟩ := hget k y hy
            rw [h2]; exact i.addr k l0 h1
          · obtain ⟨-, l0, h1, h2, -, h4⟩ := hget k y hy
            rw [hnm, h2, h4]; exact i.names k l0 h1
          · obtain ⟨hk, l0, h1, h2, -, -⟩ := hget k y hy
            have hx := i.told k l0 h1 x
            obtain ⟨m, hm1, hm2⟩ : ∃ m, f l0.addr = [m] ∧ IsInt c (c.encInner (.unlink link)) ((c.netOf l0.addr).getD "") m := by
              refine one_of ?_ (hf l0.addr).2
              rw [hfl]
              have hmem : l0.addr ∈ (Dict.del s.links net).map (fun p => p.2.addr) := by
                refine List.mem_map.2 ⟨(k, l0), ?_, rfl⟩
                apply Dict.get_mem
                rw [Dict.get_del i.keys hl, if_neg (fun e => hk e.symm)]
                exact h1
              exact hnd.count.trans (if_pos hmem)
            have hto : JavaBmc.told c s' y.addr = JavaBmc.ann c (JavaBmc.told c s l0.addr) m := by
              unfold JavaBmc.told
              rw [h2, hsince, hm1, List.foldl_append]
              rfl
            have hndt : (JavaBmc.told c s l0.addr).Nodup := nodup_anns _ _ List.nodup_nil
            rw [hto, (ann_int hr hm2 (.inr (.inl ⟨_, rfl⟩))).2]
            show x ∈ (JavaBmc.told c s l0.addr).erase link ↔ _
            rw [hndt.mem_erase_iff, hx]
            constructor
            · rintro ⟨e, n, e', h⟩
              refine ⟨n, e', (hhas _ _).2 ⟨fun e2 => ?_, h⟩⟩
              obtain ⟨z, hz, rfl⟩ := h
              rw [e2, hl] at hz
              cases hz
              exact e hla'
            · rintro ⟨n, e, h⟩
              obtain ⟨h5, h6⟩ := (hhas _ _).1 h
              refine ⟨fun e2 => ?_, n, e, h6⟩
              obtain ⟨z, hz, hza⟩ := h6
              have := i.addr n z hz
              rw [hza, e2, hnet] at this
              cases this
              exact h5 rfl
          · obtain ⟨-, l0, h1, -, h3, h4⟩ := hget k y hy
            rw [hd, h3, h4]; exact i.learnt k l0 h1
          · rw [hd] at he; rw [hnm]; exact i.gens e he
          · rw [hsince a] at hm
            rcases List.mem_append.1 hm with h | h
            · exact i.own a m h ha
            · have hpos : 0 < (f a).length := List.length_pos_of_mem h
              rw [hfl a, List.count_pos_iff] at hpos
              obtain ⟨k, y, hy, rfl⟩ := hmemd a hpos
              have := (hf y.addr).2 m h
              exact ⟨this.1, by rw [this.2.1, i.addr k y hy]; rfl⟩
          · rw [hnm]
            rw [hsince a] at ha
            by_cases h0 : since a s.log [] = []
            · rw [h0, List.nil_append] at ha
              have hpos : 0 < (f a).length := List.length_pos_iff.2 ha
              rw [hfl a, List.count_pos_iff] at hpos
              obtain ⟨k, y, hy, rfl⟩ := hmemd a hpos
              exact List.mem_of_getElem? (i.names k y hy)
            · exact i.known a h0

/-! ### The other methods of the owners -/

theorem setBTPLink_q {s s' : St} {link : String} {id off : Nat} (h : setBTPLink s link id off = some s') : Q c s s' := by
  unfold setBTPLink at h
  split at h
  · cases h
  · split at h
    · cases h
    · cases h
      exact ⟨rfl, rfl, rfl, fun x => x, fun a => ⟨[], by show since a (s.log ++ _) [] = _; rw [since_append, List.append_nil]; rfl, nofun, fun h => absurd rfl h⟩⟩

theorem setFees_q : ∀ (l : List (String × List Nat)) (s s' : St), setFees c s l = some s' → Q c s s'
  | [], s, s', h => by simp only [setFees] at h; cases h; exact Q.refl s
  | (dst, values) :: t, s, s', h => by
    simp only [setFees] at h
    split at h
    · refine Q.trans ?_ (setFees_q t _ _ h)
      exact Q.same rfl rfl rfl rfl rfl
    · split at h
      · cases h
      · split at h
        · cases h
        · split at h
          · cases h
          · refine Q.trans ?_ (setFees_q t _ _ h)
            exact Q.same rfl rfl rfl rfl rfl

theorem Inv.conf (hr : Reads c) {env : Env} {s s' : St} {caller : Nat} {k : Conf} (i : Inv c s.disp s) (h : conf c env s caller k = some s') : Keeps c [] s s' := by
  have hq : ∀ {s'}, Q c s s' → Keeps c [] s s' := i.keeps
  unfold JavaBmc.conf at h
  split at h
  · obtain ⟨o, -, rfl⟩ := Option.map_eq_some_iff.1 h
    exact hq (Q.same rfl rfl rfl rfl rfl)
  · obtain ⟨o, -, rfl⟩ := Option.map_eq_some_iff.1 h
    exact hq (Q.same rfl rfl rfl rfl rfl)
  · obtain ⟨o, -, rfl⟩ := Option.map_eq_some_iff.1 h
    exact hq (Q.same rfl rfl rfl rfl rfl)
  · split at h
    · cases h
    · split at h
      · split at h
        · cases h
        · cases h; exact hq (Q.same rfl rfl rfl rfl rfl)
      · split at h
        · cases h
        · cases h; exact hq (Q.same rfl rfl rfl rfl rfl)
      · rename_i svc a _ _ _
        split at h
        · cases h
        · rename_i hc
          cases h
          refine hq ⟨rfl, rfl, rfl, fun hb => ?_, fun a => ⟨[], by rw [List.append_nil], nofun, fun h => absurd rfl h⟩⟩
          show upd s.services svc _ "bmc" = none
          rw [upd_ne _ _ (fun e => hc (.inr (.inr e.symm)))]
          exact hb
      · rename_i svc _ _ _
        split at h
        · cases h
        · cases h
          refine hq ⟨rfl, rfl, rfl, fun hb => ?_, fun a => ⟨[], by rw [List.append_nil], nofun, fun h => absurd rfl h⟩⟩
          show upd s.services svc _ "bmc" = none
          by_cases e : "bmc" = svc
          · rw [e, upd_same]
          · rw [upd_ne _ _ e]; exact hb
      · exact i.addLink hr h
      · exact i.removeLink hr h
      · split at h
        · cases h
        · cases h; exact hq (Q.same rfl rfl rfl rfl rfl)
      · split at h
        · cases h
        · cases h; exact hq (Q.same rfl rfl rfl rfl rfl)
      · exact hq (setFees_q _ _ _ h)
      · cases h; exact hq (Q.same rfl rfl rfl rfl rfl)
      · split at h
        · cases h
        · cases h; exact hq (Q.same rfl rfl rfl rfl rfl)
      · split at h
        · cases h
        · obtain ⟨o, -, rfl⟩ := Option.map_eq_some_iff.1 h
          exact hq (Q.same rfl rfl rfl rfl rfl)
      · split at h
        · cases h
        · rename_i s1 h1
          exact (hq (setBTPLink_q h1)).trans ((hq (setBTPLink_q h1)).inv.addLink hr h)
      · split at h
        · cases h
        · exact hq (setBTPLink_q h)
      · cases h

/-! ### Calls -/

/-- The messages of a relay call are honest. -/
def Op.Honest (c : Cfg) : Op → Prop
  | .relay _ prev items => ∀ m ∈ items.msgs, JavaBmc.Honest c prev m
  | _ => True

/-- The messages a call handles. -/
def Op.takes (c : Cfg) (s : St) : Op → List (Nat × Nat × Option Msg) → Prop
  | .relay _ prev items, d => ∃ l, getLinkA c s prev = some l ∧ d = entries l.gen (l.rx + 1) (items.msgs.map some)
  | _, d => ∀ e ∈ d, e.2.2 = none

theorem Inv.exec (hr : Reads c) {o : Op} {s s' : St} (i : Inv c s.disp s) (ht : o.tame = true) (hh : o.Honest c) (h : exec c o s = some s') :
    ∃ d, Keeps c d s s' ∧ o.takes c s d := by
  cases o with
  | relay caller prev items =>
    simp only [JavaBmc.exec] at h
    split at h
    · cases h
    · rename_i l s1 h1
      cases h
      obtain ⟨q, hl⟩ := openRelay_q h1
      obtain ⟨net, hn, hg, ha⟩ := getLinkA_some c hl
      obtain ⟨l1, g1, -, -, g4⟩ := get_core q.links.symm hg
      have k := i.keeps q
      exact ⟨_, k.trans (items_inv hr net items caller prev l.gen (l.rx + 1) s1 ht hn hh ⟨l1, g1, g4.symm⟩ k.inv), l, hl, rfl⟩
  | send env caller value to svc sn body =>
    exact ⟨[], i.keeps (exec_mild hr (.send env caller value to svc sn body) s s' rfl i.svc h), fun _ h => nomatch h⟩
  | claim env acts caller value net receiver =>
    exact ⟨[], i.keeps (exec_mild hr (.claim env acts caller value net receiver) s s' (by simp only [Op.mild]; exact ht) i.svc h), fun _ h => nomatch h⟩
  | drop env caller src seq svc sn nsn fn fv =>
    simp only [JavaBmc.exec] at h
    obtain ⟨g, n, hg, q⟩ := drop_q i h
    refine ⟨[(g, n, none)], ⟨?_, q.disp, ⟨[], by rw [q.names, List.append_nil]⟩, fun _ a => ?_⟩, fun e he => by rw [List.mem_singleton.1 he]⟩
    · rw [q.disp]
      exact Inv.q ((i.plain g n none hg (fun x hx => by cases hx)).disp _) q
    · obtain ⟨ms, e, -⟩ := q.log a
      exact ⟨ms, e⟩
  | conf env caller k => simp only [JavaBmc.exec] at h; exact ⟨[], i.conf hr h, fun _ h => nomatch h⟩

theorem inv_init (creator : Nat) : Inv c [] (initSt creator) :=
  ⟨rfl, List.nodup_nil, (fun _ _ h => nomatch h), (fun _ _ h => nomatch h), (fun _ _ h => nomatch h), (fun _ _ h => nomatch h), (fun _ h => nomatch h),
   (fun _ _ h => nomatch h), fun _ h => absurd rfl h⟩

theorem inv_run (hr : Reads c) (creator : Nat) (ops : List Op) (ht : ∀ o ∈ ops, o.tame = true) (hh : ∀ o ∈ ops, o.Honest c) :
    Inv c (run c creator ops).disp (run c creator ops) := by
  have : ∀ (ops : List Op) (s : St), (∀ o ∈ ops, o.tame = true) → (∀ o ∈ ops, o.Honest c) → Inv c s.disp s →
      Inv c (ops.foldl (fun s o => (JavaBmc.exec c o s).getD s) s).disp (ops.foldl (fun s o => (JavaBmc.exec c o s).getD s) s) := by
    intro ops
    induction ops with
    | nil => intro s _ _ i; exact i
    | cons o t ih =>
      intro s h1 h2 i
      rw [List.foldl_cons]
      refine ih _ (fun x hx => h1 x (List.mem_cons_of_mem _ hx)) (fun x hx => h2 x (List.mem_cons_of_mem _ hx)) ?_
      cases e : JavaBmc.exec c o s with
      | none => exact i
      | some s1 =>
        obtain ⟨d, k, -⟩ := i.exec hr (h1 o List.mem_cons_self) (h2 o List.mem_cons_self) e
        exact k.inv
  exact this ops _ ht hh (inv_init creator)

end Verif.JavaBmc
