import Verif.BtpAddress
/-!
C26: composition and parsing of BTP addresses in Go, Solidity and Java, for all strings.
-/
namespace Verif.BtpAddress
open Verif

theorem split_ne (c : Char) (s : Str) : split c s ≠ [] := by
  cases s with
  | nil => simp [split]
  | cons a t =>
    simp only [split]
    split
    · simp
    · split <;> simp

theorem split_none (c : Char) : ∀ s : Str, c ∉ s → split c s = [s]
  | [], _ => rfl
  | a :: t, h => by
    have ha : a ≠ c := fun e => h (by simp [e])
    simp only [split, split_none c t (fun m => h (List.mem_cons_of_mem _ m)), if_neg ha]

theorem split_append (c : Char) (t : Str) : ∀ s : Str, c ∉ s → split c (s ++ c :: t) = s :: split c t
  | [], _ => by
    simp only [List.nil_append, split]
    cases hs : split c t with
    | nil => exact absurd hs (split_ne c t)
    | cons h r => simp
  | a :: s, h => by
    have ha : a ≠ c := fun e => h (by simp [e])
    simp only [List.cons_append, split, split_append c t s (fun m => h (List.mem_cons_of_mem _ m)), if_neg ha]

theorem index_btp (r : Str) : indexOf sep (pBtp ++ sep ++ r) = some 3 := by
  simp [indexOf, sep, pBtp, List.isPrefixOf]

theorem prefix_eq (r : Str) : prefix6 ++ r = pBtp ++ sep ++ r := rfl

theorem protocol_compose (r : Str) : protocol (prefix6 ++ r) = pBtp := by
  rw [prefix_eq]
  simp only [protocol, index_btp]
  simp [pBtp]

theorem split_compose (r : Str) : split '/' (prefix6 ++ r) = [['b', 't', 'p', ':'], []] ++ split '/' r := by
  have h1 : prefix6 ++ r = ['b', 't', 'p', ':'] ++ '/' :: ('/' :: r) := rfl
  rw [h1, split_append _ _ _ (by decide)]
  have h2 : ('/' :: r : Str) = [] ++ '/' :: r := rfl
  rw [h2, split_append _ _ _ (by decide)]
  rfl

theorem networkAddress_prefix (r : Str) : networkAddress (prefix6 ++ r) = (split '/' r).getD 0 [] := by
  simp only [networkAddress, protocol_compose]
  rw [if_pos (by decide), split_compose]
  cases hs : split '/' r with
  | nil => exact absurd hs (split_ne _ _)
  | cons a b => simp

theorem account_prefix (r : Str) : account (prefix6 ++ r) = (split '/' r).getD 1 [] := by
  simp only [account, protocol_compose]
  rw [if_pos (by decide), split_compose]
  cases hs : split '/' r with
  | nil => exact absurd hs (split_ne _ _)
  | cons a b =>
    cases b with
    | nil => simp
    | cons x y => simp

/-- C26, Go: every composed address gives back its parts. -/
theorem C26_go_parts (net acc : Str) (hn : '/' ∉ net) (ha : '/' ∉ acc) :
    protocol (solCompose net acc) = ['b', 't', 'p'] ∧ networkAddress (solCompose net acc) = net ∧
      account (solCompose net acc) = acc ∧ contractAddress (solCompose net acc) = acc := by
  have e : solCompose net acc = prefix6 ++ (net ++ '/' :: acc) := by simp [solCompose]
  have k : account (solCompose net acc) = acc := by
    rw [e, account_prefix, split_append _ _ _ hn, split_none _ _ ha]; simp
  refine ⟨by rw [e, protocol_compose]; rfl, ?_, k, k⟩
  rw [e, networkAddress_prefix, split_append _ _ _ hn]; simp

/-- C26, Go: a network of the form ID.BLOCKCHAIN gives back its parts, and validation accepts exactly icon and iconee. -/
theorem C26_go_network (id bc acc : Str) (h1 : '/' ∉ id) (h2 : '/' ∉ bc) (ha : '/' ∉ acc) (h3 : '.' ∉ id) (h4 : '.' ∉ bc) :
    networkID (solCompose (id ++ '.' :: bc) acc) = id ∧ blockChain (solCompose (id ++ '.' :: bc) acc) = bc ∧
      (validate (solCompose (id ++ '.' :: bc) acc) = true ↔
        acc ≠ [] ∧ (bc = "icon".toList ∨ bc = "iconee".toList)) := by
  have hn : '/' ∉ id ++ '.' :: bc := by
    intro h
    rcases List.mem_append.1 h with m | m
    · exact h1 m
    · rcases List.mem_cons.1 m with m | m
      · revert m; decide
      · exact h2 m
  obtain ⟨p1, p2, p3, _⟩ := C26_go_parts (id ++ '.' :: bc) acc hn ha
  have hne : (id ++ '.' :: bc : Str) ≠ [] := by simp
  have hnet : network (solCompose (id ++ '.' :: bc) acc) = (id, bc) := by
    simp only [network, p2, if_pos hne]
    rw [split_append _ _ _ h3, split_none _ _ h4]
    simp
  have hb : blockChain (solCompose (id ++ '.' :: bc) acc) = bc := by simp [blockChain, hnet]
  refine ⟨by simp [networkID, hnet], hb, ?_⟩
  have hp : protocol (solCompose (id ++ '.' :: bc) acc) = pBtp := p1
  simp only [validate, hp, if_true, hb, p3]
  have e1 : pIcon = "icon".toList := by decide
  have e2 : pIconee = "iconee".toList := by decide
  rw [e1, e2]
  by_cases hc : bc = "icon".toList ∨ bc = "iconee".toList
  · rw [if_pos hc]
    cases acc with
    | nil => simp
    | cons a t => exact ⟨fun _ => ⟨by simp, hc⟩, fun _ => by simp⟩
  · rw [if_neg hc]
    simp only [Bool.false_eq_true, false_iff]
    exact fun h => hc h.2

/-! ### Solidity and Java -/

theorem prefixLoop_some : ∀ (p s : Str), prefixLoop p s = some () ↔ ∃ r, s = p ++ r
  | [], s => by simp [prefixLoop]
  | a :: p, [] => by simp [prefixLoop]
  | a :: p, b :: s => by
    simp only [prefixLoop]
    by_cases h : b ≠ a
    · rw [if_pos h]
      constructor
      · intro k; cases k
      · rintro ⟨r, hr⟩
        exact absurd (by simpa using (List.cons.inj hr).1) h
    · rw [if_neg h, prefixLoop_some p s]
      have h' : b = a := Classical.not_not.1 h
      subst h'
      simp

theorem delimLoop_iff (len : Nat) : ∀ (s : Str) (i o : Nat), delimLoop len i s = some o ↔
    ∃ n a, s = n ++ '/' :: a ∧ '/' ∉ n ∧ o = i + n.length ∧ 6 < o ∧ o < len - 1
  | [], i, o => by simp [delimLoop]
  | b :: t, i, o => by
    simp only [delimLoop]
    by_cases hb : b = '/'
    · rw [if_pos hb]
      constructor
      · intro h
        split at h
        · rename_i hc
          cases h
          exact ⟨[], t, by simp [hb], by simp, by simp, hc.1, hc.2⟩
        · cases h
      · rintro ⟨n, a, e, hn, ho, h1, h2⟩
        cases n with
        | nil =>
          simp at ho
          subst ho
          rw [if_pos ⟨h1, h2⟩]
        | cons c n =>
          exfalso
          rw [hb] at e
          have := (List.cons.inj e).1
          exact hn (by simp [← this])
    · rw [if_neg hb, delimLoop_iff len t (i + 1) o]
      constructor
      · rintro ⟨n, a, e, hn, ho, h⟩
        refine ⟨b :: n, a, by rw [e]; rfl, ?_, by rw [ho]; simp; omega, h⟩
        intro m
        rcases List.mem_cons.1 m with m | m
        · exact hb m.symm
        · exact hn m
      · rintro ⟨n, a, e, hn, ho, h⟩
        cases n with
        | nil => exact absurd (List.cons.inj e).1 hb
        | cons c n =>
          exact ⟨n, a, (List.cons.inj e).2, fun m => hn (List.mem_cons_of_mem _ m), by rw [ho]; simp; omega, h⟩

/-- C26, Solidity: parsing accepts exactly the compositions of a non-empty network without '/' and a non-empty account,
    and returns those. -/
theorem C26_sol_parse_iff (s net acc : Str) :
    solParse s = some (net, acc) ↔ s = solCompose net acc ∧ net ≠ [] ∧ '/' ∉ net ∧ acc ≠ [] := by
  simp only [solParse, solValidate]
  constructor
  · intro h
    cases hp : prefixLoop prefix6 s with
    | none => simp [hp] at h
    | some u =>
      obtain ⟨r, hr⟩ := (prefixLoop_some prefix6 s).1 hp
      simp only [hp] at h
      cases hd : delimLoop s.length 6 (s.drop 6) with
      | none => simp [hd] at h
      | some o =>
        obtain ⟨n, a, e, hn, ho, h1, h2⟩ := (delimLoop_iff _ _ _ _).1 hd
        simp only [hd, Option.some.injEq, Prod.mk.injEq] at h
        have hr' : s.drop 6 = r := by rw [hr]; rfl
        rw [hr'] at e
        subst e
        have hs : s = prefix6 ++ (n ++ '/' :: a) := hr
        have hlen : s.length = 6 + (n.length + (1 + a.length)) := by rw [hs]; simp [prefix6]; omega
        have hnet : slice s 6 o = n := by
          simp only [slice, hr']
          rw [ho]
          simp
        have hacc : slice s (o + 1) s.length = a := by
          simp only [slice]
          have e1 : s.drop (o + 1) = a := by
            rw [hs, ho]
            have : (prefix6 ++ (n ++ '/' :: a)) = (prefix6 ++ n ++ ['/']) ++ a := by simp
            rw [this]
            have hl : 6 + n.length + 1 = (prefix6 ++ n ++ ['/']).length := by simp [prefix6]; omega
            rw [hl, List.drop_left]
          rw [e1]
          exact List.take_of_length_le (by omega)
        rw [hnet, hacc] at h
        obtain ⟨rfl, rfl⟩ := h
        refine ⟨by rw [hs]; simp [solCompose], ?_, hn, ?_⟩
        · intro e; rw [e] at ho; simp at ho; omega
        · intro e; rw [e] at hlen; simp at hlen; omega
  · rintro ⟨e, hn, hns, ha⟩
    have hs : s = prefix6 ++ (net ++ '/' :: acc) := by rw [e]; simp [solCompose]
    have hp := (prefixLoop_some prefix6 s).2 ⟨_, hs⟩
    have hr' : s.drop 6 = net ++ '/' :: acc := by rw [hs]; rfl
    have hlen : s.length = 6 + (net.length + (1 + acc.length)) := by rw [hs]; simp [prefix6]; omega
    have l1 := List.length_pos_iff.2 hn
    have l2 := List.length_pos_iff.2 ha
    have hd := (delimLoop_iff s.length (s.drop 6) 6 (6 + net.length)).2 ⟨net, acc, hr', hns, rfl, by omega, by omega⟩
    simp only [hp, hd, Option.some.injEq, Prod.mk.injEq]
    constructor
    · simp [slice, hr']
    · simp only [slice]
      have e1 : s.drop (6 + net.length + 1) = acc := by
        rw [hs]
        have : (prefix6 ++ (net ++ '/' :: acc)) = (prefix6 ++ net ++ ['/']) ++ acc := by simp
        rw [this]
        have hl : 6 + net.length + 1 = (prefix6 ++ net ++ ['/']).length := by simp [prefix6]; omega
        rw [hl, List.drop_left]
      rw [e1]
      exact List.take_of_length_le (by omega)

theorem isPrefixOf_iff (p s : Str) : p.isPrefixOf s = true ↔ ∃ r, s = p ++ r := by
  rw [List.isPrefixOf_iff_prefix]
  constructor
  · rintro ⟨r, h⟩; exact ⟨r, h.symm⟩
  · rintro ⟨r, h⟩; exact ⟨r, h.symm⟩

theorem indexOf_some (p : Str) (hp : p ≠ []) : ∀ (s : Str) (i : Nat), indexOf p s = some i →
    s = s.take i ++ p ++ s.drop (i + p.length) ∧ i + p.length ≤ s.length
  | [], i, h => by simp [indexOf, hp] at h
  | a :: t, i, h => by
    simp only [indexOf] at h
    by_cases hpre : p.isPrefixOf (a :: t) = true
    · rw [if_pos hpre] at h
      cases h
      obtain ⟨r, hr⟩ := (isPrefixOf_iff _ _).1 hpre
      rw [hr]
      simp
    · rw [if_neg hpre] at h
      obtain ⟨j, hj, rfl⟩ := Option.map_eq_some_iff.1 h
      obtain ⟨e, hl⟩ := indexOf_some p hp t j hj
      refine ⟨?_, by simp; omega⟩
      have : j + 1 + p.length = (j + p.length) + 1 := by omega
      rw [this]
      simpa using e

theorem indexOf_slash : ∀ (s : Str) (i : Nat), indexOf ['/'] s = some i → '/' ∉ s.take i
  | [], i, h => by simp [indexOf] at h
  | a :: t, i, h => by
    simp only [indexOf] at h
    by_cases hpre : (['/'] : Str).isPrefixOf (a :: t) = true
    · rw [if_pos hpre] at h; cases h; simp
    · rw [if_neg hpre] at h
      obtain ⟨j, hj, rfl⟩ := Option.map_eq_some_iff.1 h
      have ih := indexOf_slash t j hj
      have ha : a ≠ '/' := by
        intro e
        apply hpre
        rw [e]
        simp [List.isPrefixOf]
      simp only [List.take_succ_cons, List.mem_cons, not_or]
      exact ⟨fun e => ha e.symm, ih⟩

theorem indexOf_slash_append (t : Str) : ∀ n : Str, '/' ∉ n → indexOf ['/'] (n ++ '/' :: t) = some n.length
  | [], _ => by simp [indexOf, List.isPrefixOf]
  | a :: n, h => by
    have ha : a ≠ '/' := fun e => h (by simp [e])
    simp only [List.cons_append, indexOf]
    have hpre : ¬ (['/'] : Str).isPrefixOf (a :: (n ++ '/' :: t)) = true := by
      simp only [List.isPrefixOf, Bool.and_true, beq_iff_eq]
      exact fun e => ha e.symm
    rw [if_neg hpre, indexOf_slash_append t n (fun m => h (List.mem_cons_of_mem _ m))]
    simp

/-- C26, Java: an accepted address is its protocol, network and account joined, with no '/' in the network. -/
theorem C26_java_parse (s : Str) (a : JAddr) (h : jValueOf s = some a) :
    s = a.toStr ∧ a.protocol ≠ [] ∧ a.net ≠ [] ∧ '/' ∉ a.net ∧ a.account ≠ [] := by
  simp only [jValueOf] at h
  split at h
  · cases h
  · rename_i hv
    simp only [Option.some.injEq] at h
    simp only [Bool.not_eq_true, Bool.not_eq_false', JAddr.isValid, Bool.and_eq_true, h] at hv
    simp only [Bool.not_eq_true', List.isEmpty_eq_false_iff] at hv
    obtain ⟨⟨v1, v2⟩, v3⟩ := hv
    unfold jParse at h
    cases hi : indexOf sep s with
    | none =>
      simp only [hi] at h
      cases hj : indexOf ['/'] s with
      | none => simp only [hj] at h; subst h; exact absurd rfl v1
      | some j => simp only [hj] at h; subst h; exact absurd rfl v1
    | some i =>
      simp only [hi] at h
      cases hj : indexOf ['/'] (s.drop (i + 3)) with
      | none => simp only [hj] at h; subst h; exact absurd rfl v2
      | some j =>
        simp only [hj] at h
        subst h
        have e1 := (indexOf_some sep (by decide) s i hi).1
        have e2 := (indexOf_some ['/'] (by decide) _ j hj).1
        have hl : sep.length = 3 := rfl
        rw [hl] at e1
        have hl1 : (['/'] : Str).length = 1 := rfl
        rw [hl1] at e2
        refine ⟨?_, v1, v2, indexOf_slash _ j hj, v3⟩
        simp only [JAddr.toStr]
        generalize hd : s.drop (i + 3) = d at e1 e2 ⊢
        rw [List.append_assoc, List.append_assoc, ← List.append_assoc (d.take j), ← e2]
        exact e1

theorem jParse_compose (net acc : Str) (hn : '/' ∉ net) : jParse (solCompose net acc) = ⟨pBtp, net, acc⟩ := by
  have e : solCompose net acc = pBtp ++ sep ++ (net ++ '/' :: acc) := by simp [solCompose, prefix6, pBtp, sep]
  unfold jParse
  rw [e]
  simp only [index_btp]
  have e1 : (pBtp ++ sep ++ (net ++ '/' :: acc)).take 3 = pBtp := by simp [pBtp, sep]
  have e2 : (pBtp ++ sep ++ (net ++ '/' :: acc)).drop (3 + 3) = net ++ '/' :: acc := by simp [pBtp, sep]
  rw [e1, e2, indexOf_slash_append _ _ hn]
  simp only [JAddr.mk.injEq, true_and]
  constructor
  · simp
  · rw [show net.length + 1 = (net ++ ['/']).length by simp]
    rw [show net ++ '/' :: acc = (net ++ ['/']) ++ acc by simp, List.drop_left]

/-- C26: for every string, the Solidity and the Java parser accept the same "btp" addresses with the same parts. -/
theorem C26_java_sol_agree (s net acc : Str) :
    solParse s = some (net, acc) ↔ jValueOf s = some ⟨['b', 't', 'p'], net, acc⟩ := by
  rw [C26_sol_parse_iff]
  constructor
  · rintro ⟨rfl, hn, hns, ha⟩
    have hp := jParse_compose net acc hns
    simp only [jValueOf, hp]
    have hv : (JAddr.mk pBtp net acc).isValid = true := by
      simp [JAddr.isValid, pBtp, hn, ha]
    rw [hv]
    simp [pBtp]
  · intro h
    obtain ⟨e, _, hn, hns, ha⟩ := C26_java_parse s _ h
    refine ⟨by rw [e]; simp [JAddr.toStr, solCompose, sep, prefix6], hn, hns, ha⟩

/-- C26: what Solidity accepts, the relay reads the same way when the account contains no '/'; if it does, the relay sees
    the part before the first '/'. -/
theorem C26_go_sol_agree (s net acc : Str) (h : solParse s = some (net, acc)) :
    networkAddress s = net ∧ account s = (split '/' acc).getD 0 [] ∧ ('/' ∉ acc → account s = acc) := by
  obtain ⟨rfl, hn, hns, ha⟩ := (C26_sol_parse_iff s net acc).1 h
  have e : solCompose net acc = prefix6 ++ (net ++ '/' :: acc) := by simp [solCompose]
  have k : account (solCompose net acc) = (split '/' acc).getD 0 [] := by
    rw [e, account_prefix, split_append _ _ _ hns]; simp
  refine ⟨?_, k, fun h2 => ?_⟩
  · rw [e, networkAddress_prefix, split_append _ _ _ hns]; simp
  · rw [k, split_none _ _ h2]; simp

/-- C26 is false as stated: composed addresses of other chains do not pass the relay's validation, an account may hide
    a '/' from the relay, and Java accepts any protocol. -/
theorem C26_fails :
    validate "btp://0x1.bsc/0xabc".toList = false ∧ solParse "btp://0x1.bsc/0xabc".toList = some ("0x1.bsc".toList, "0xabc".toList) ∧
    (solParse "btp://0x1.icon/a/b".toList = some ("0x1.icon".toList, "a/b".toList) ∧ account "btp://0x1.icon/a/b".toList = "a".toList) ∧
    (jValueOf "http://0x1.icon/a".toList = some ⟨"http".toList, "0x1.icon".toList, "a".toList⟩ ∧ solParse "http://0x1.icon/a".toList = none) := by
  decide +kernel

/-- Non-vacuity. -/
example : solParse (solCompose "0x1.icon".toList "cx01".toList) = some ("0x1.icon".toList, "cx01".toList) ∧
    networkID "btp://0x1.icon/cx01".toList = "0x1".toList ∧ validate "btp://0x1.icon/cx01".toList = true := by
  decide +kernel

end Verif.BtpAddress
