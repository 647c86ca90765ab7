/-!
Model of the directory archiver (C179): common/cli/helper.go:509-594, `addDirectoryToZip` and `ZipDirectory`. Nothing in the repository calls it.

Paths are lists of names (`path.Join` puts "/" between them; names of a file system have none). An archive is the list of its entries; the
zip format is left out, as are times and permissions but for the mark of a symbolic link, which `zip.FileInfoHeader` takes from the entry. The file
system is a tree, so links that lead back to a directory above them are left out. Regular expressions are a predicate on names.
-/
namespace Verif.Zip

abbrev Bytes := List UInt8
abbrev Name := List Char

/-- A file: its bytes, whether it can be opened, and after how many bytes reading fails (never, if there are fewer). -/
structure File where
  body : Bytes
  opens : Bool
  fails : Nat

/-- What the text of a link names when taken from the working directory. -/
inductive Look where
  | missing
  | dir
  | file (f : File)

mutual
/-- What is in a directory. A link has what its text names from the working directory, and what it leads to. -/
inductive Node where
  | file (f : File)
  | dir (readable : Bool) (l : Dir)
  | link (look : Look) (n : Node)
/-- The entries of a directory in order of their names. -/
inductive Dir where
  | nil
  | cons (name : Name) (n : Node) (t : Dir)
end

/-- An entry of the archive. -/
structure Entry where
  path : List Name
  body : Bytes
  link : Bool
deriving DecidableEq

/-- helper.go:548-562: a file is opened and copied; errors of `CreateHeader` and `io.Copy` are not looked at. -/
def addFile (path : List Name) (f : File) (link : Bool) : Option (List Entry) :=
  if f.opens = true then some [⟨path, f.body.take f.fails, link⟩] else none

mutual
/-- helper.go:524-563: one entry of a directory. A link is read by its text (532), looked up from the working directory (536); if that is a
directory, the link itself is read as one (540). -/
def addNode (ex : Name → Bool) (path : List Name) : Node → Option (List Entry)
  | .file f => addFile path f false
  | .dir r l => if r = true then addDir ex path l else none
  | .link look n =>
    match look, n with
    | .missing, _ => none
    | .file f, _ => addFile path f true
    | .dir, .dir r l => if r = true then addDir ex path l else none
    | .dir, .file _ => none
    | .dir, .link _ _ => none
/-- helper.go:509-566: the loop over the entries of a directory. -/
def addDir (ex : Name → Bool) (uri : List Name) : Dir → Option (List Entry)
  | .nil => some []
  | .cons name n t =>
    if ex name = true then addDir ex uri t
    else (addNode ex (uri ++ [name]) n).bind fun a => (addDir ex uri t).map fun b => a ++ b
end

/-- helper.go:568-594 `ZipDirectory`; `none` is an error. The node is what the path given leads to (links on the way to it are followed), so never
a link. Patterns that do not compile are left out. -/
def zip (ex : Name → Bool) : Node → Option (List Entry)
  | .dir r l => if r = true then addDir ex [] l else none
  | _ => none

/-! ### What an archive should hold, said without the archiver -/

/-- `At l p f`: along the path `p` of directories of `l` there is the file `f`. -/
inductive At : Dir → List Name → File → Prop where
  | here {name f t} : At (.cons name (.file f) t) [name] f
  | sub {name r l t p f} : At l p f → At (.cons name (.dir r l) t) (name :: p) f
  | next {name n t p f} : At t p f → At (.cons name n t) p f

mutual
/-- No links below. -/
def Node.plain : Node → Prop
  | .file _ => True
  | .dir _ l => l.plain
  | .link _ _ => False
def Dir.plain : Dir → Prop
  | .nil => True
  | .cons _ n t => n.plain ∧ t.plain
end

/-- The names in a directory. -/
def Dir.names : Dir → List Name
  | .nil => []
  | .cons name _ t => name :: t.names

mutual
/-- Names are told apart in every directory, as in a file system. -/
def Node.distinct : Node → Prop
  | .file _ => True
  | .dir _ l => l.distinct
  | .link _ n => n.distinct
def Dir.distinct : Dir → Prop
  | .nil => True
  | .cons name n t => name ∉ t.names ∧ n.distinct ∧ t.distinct
end

/-! ### C179 -/

theorem mem_addFile {path : List Name} {f : File} {k : Bool} {es : List Entry} (h : addFile path f k = some es) (e : Entry) :
    e ∈ es ↔ e = ⟨path, f.body.take f.fails, k⟩ := by
  unfold addFile at h
  split at h
  · cases h; simp
  · cases h

theorem addDir_mem (ex : Name → Bool) : ∀ (l : Dir) (uri : List Name) (es : List Entry), l.plain → addDir ex uri l = some es →
    ∀ e, e ∈ es ↔ ∃ p f, At l p f ∧ (∀ x ∈ p, ex x = false) ∧ e = ⟨uri ++ p, f.body.take f.fails, false⟩
  | .nil, uri, es, _, h, e => by
    rw [addDir] at h
    cases h
    constructor
    · intro h; cases h
    · rintro ⟨p, f, h, _⟩; cases h
  | .cons name n t, uri, es, hp, h, e => by
    rw [Dir.plain] at hp
    rw [addDir] at h
    by_cases hx : ex name = true
    · rw [if_pos hx] at h
      rw [addDir_mem ex t uri es hp.2 h e]
      constructor
      · rintro ⟨p, f, ha, hr⟩
        exact ⟨p, f, .next ha, hr⟩
      · rintro ⟨p, f, ha, hall, he⟩
        cases ha with
        | here => have := hall name (by simp); rw [hx] at this; cases this
        | sub _ => have := hall name (by simp); rw [hx] at this; cases this
        | next ha => exact ⟨p, f, ha, hall, he⟩
    · rw [if_neg hx] at h
      have hx : ex name = false := by cases h : ex name <;> simp_all
      cases hn : addNode ex (uri ++ [name]) n with
      | none => rw [hn] at h; cases h
      | some a =>
        rw [hn] at h
        cases ht : addDir ex uri t with
        | none => rw [ht] at h; cases h
        | some b =>
          rw [ht] at h
          cases h
          rw [List.mem_append, addDir_mem ex t uri b hp.2 ht e]
          cases n with
          | file f =>
            rw [addNode] at hn
            rw [mem_addFile hn]
            constructor
            · rintro (rfl | ⟨p, g, ha, hr⟩)
              · exact ⟨[name], f, .here, by simpa using hx, rfl⟩
              · exact ⟨p, g, .next ha, hr⟩
            · rintro ⟨p, g, ha, hall, he⟩
              cases ha with
              | here => exact .inl he
              | next ha => exact .inr ⟨p, g, ha, hall, he⟩
          | dir r l =>
            rw [addNode] at hn
            split at hn
            · rw [addDir_mem ex l (uri ++ [name]) a (by have := hp.1; rwa [Node.plain] at this) hn e]
              constructor
              · rintro (⟨p, f, ha, hall, rfl⟩ | ⟨p, g, ha, hr⟩)
                · refine ⟨name :: p, f, .sub ha, ?_, by simp⟩
                  intro x hxm
                  rcases List.mem_cons.mp hxm with rfl | hxm
                  · exact hx
                  · exact hall x hxm
                · exact ⟨p, g, .next ha, hr⟩
              · rintro ⟨p, g, ha, hall, he⟩
                cases ha with
                | sub ha =>
                  exact .inl ⟨_, g, ha, fun x h => hall x (List.mem_cons_of_mem _ h), by rw [he]; simp⟩
                | next ha => exact .inr ⟨p, g, ha, hall, he⟩
            · cases hn
          | link k m => exact absurd hp.1 (by rw [Node.plain]; exact id)

/-- The archive of a directory without links holds exactly its files with no excluded name on their path, each under its path — with the bytes that
could be read before an error. -/
theorem C179_exact_partial (ex : Name → Bool) (r : Bool) (l : Dir) (es : List Entry) (hp : l.plain) (h : zip ex (.dir r l) = some es) (e : Entry) :
    e ∈ es ↔ ∃ p f, At l p f ∧ (∀ x ∈ p, ex x = false) ∧ e = ⟨p, f.body.take f.fails, false⟩ := by
  unfold zip at h
  dsimp only at h
  split at h
  · exact addDir_mem ex l [] es hp h e
  · cases h

/-- The files are whole if reading never fails. -/
theorem C179_whole_partial (ex : Name → Bool) (r : Bool) (l : Dir) (es : List Entry) (hp : l.plain) (h : zip ex (.dir r l) = some es)
    (hr : ∀ p f, At l p f → f.body.length ≤ f.fails) (e : Entry) :
    e ∈ es ↔ ∃ p f, At l p f ∧ (∀ x ∈ p, ex x = false) ∧ e = ⟨p, f.body, false⟩ := by
  rw [C179_exact_partial ex r l es hp h e]
  constructor
  · rintro ⟨p, f, ha, hall, he⟩
    exact ⟨p, f, ha, hall, by rw [he, List.take_of_length_le (hr p f ha)]⟩
  · rintro ⟨p, f, ha, hall, he⟩
    exact ⟨p, f, ha, hall, by rw [he, List.take_of_length_le (hr p f ha)]⟩

mutual
theorem addNode_prefix (ex : Name → Bool) : ∀ (n : Node) (path : List Name) (es : List Entry), addNode ex path n = some es → ∀ e ∈ es, path <+: e.path
  | .file f, path, es, h, e, he => by
    rw [addNode] at h
    rw [(mem_addFile h e).mp he]
    exact List.prefix_refl _
  | .dir r l, path, es, h, e, he => by
    rw [addNode] at h
    split at h
    · obtain ⟨x, _, hx⟩ := addDir_prefix ex l path es h e he
      exact (List.prefix_append path [x]).trans hx
    · cases h
  | .link .missing n, path, es, h, e, he => by
    rw [addNode] at h
    cases h
  | .link (.file f) n, path, es, h, e, he => by
    rw [addNode] at h
    rw [(mem_addFile h e).mp he]
    exact List.prefix_refl _
  | .link .dir (.dir r l), path, es, h, e, he => by
    rw [addNode] at h
    split at h
    · obtain ⟨x, _, hx⟩ := addDir_prefix ex l path es h e he
      exact (List.prefix_append path [x]).trans hx
    · cases h
  | .link .dir (.file f), path, es, h, e, he => by rw [addNode] at h; cases h
  | .link .dir (.link a b), path, es, h, e, he => by rw [addNode] at h; cases h
theorem addDir_prefix (ex : Name → Bool) : ∀ (l : Dir) (uri : List Name) (es : List Entry), addDir ex uri l = some es → ∀ e ∈ es,
    ∃ x ∈ l.names, uri ++ [x] <+: e.path
  | .nil, uri, es, h, e, he => by rw [addDir] at h; cases h; cases he
  | .cons name n t, uri, es, h, e, he => by
    rw [addDir] at h
    split at h
    · obtain ⟨x, hx, hp⟩ := addDir_prefix ex t uri es h e he
      exact ⟨x, List.mem_cons_of_mem _ hx, hp⟩
    · cases hn : addNode ex (uri ++ [name]) n with
      | none => rw [hn] at h; cases h
      | some a =>
        rw [hn] at h
        cases ht : addDir ex uri t with
        | none => rw [ht] at h; cases h
        | some b =>
          rw [ht] at h
          cases h
          rcases List.mem_append.mp he with he | he
          · exact ⟨name, List.mem_cons_self, addNode_prefix ex n _ a hn e he⟩
          · obtain ⟨x, hx, hp⟩ := addDir_prefix ex t uri b ht e he
            exact ⟨x, List.mem_cons_of_mem _ hx, hp⟩
end

theorem prefix_same {u : List Name} {x y : Name} {p : List Name} (h1 : u ++ [x] <+: p) (h2 : u ++ [y] <+: p) : x = y := by
  obtain ⟨a, rfl⟩ := h1
  obtain ⟨b, h⟩ := h2
  simp only [List.append_assoc, List.singleton_append, List.append_cancel_left_eq, List.cons.injEq] at h
  exact h.1.symm

mutual
theorem addNode_nodup (ex : Name → Bool) : ∀ (n : Node) (path : List Name) (es : List Entry), n.distinct → addNode ex path n = some es → (es.map Entry.path).Nodup
  | .file f, path, es, hd, h => by
    rw [addNode] at h
    unfold addFile at h
    split at h
    · cases h; simp
    · cases h
  | .dir r l, path, es, hd, h => by
    rw [addNode] at h
    rw [Node.distinct] at hd
    split at h
    · exact addDir_nodup ex l path es hd h
    · cases h
  | .link .missing n, path, es, hd, h => by rw [addNode] at h; cases h
  | .link (.file f) n, path, es, hd, h => by
    rw [addNode] at h
    unfold addFile at h
    split at h
    · cases h; simp
    · cases h
  | .link .dir (.dir r l), path, es, hd, h => by
    rw [addNode] at h
    rw [Node.distinct, Node.distinct] at hd
    split at h
    · exact addDir_nodup ex l path es hd h
    · cases h
  | .link .dir (.file f), path, es, hd, h => by rw [addNode] at h; cases h
  | .link .dir (.link a b), path, es, hd, h => by rw [addNode] at h; cases h
theorem addDir_nodup (ex : Name → Bool) : ∀ (l : Dir) (uri : List Name) (es : List Entry), l.distinct → addDir ex uri l = some es → (es.map Entry.path).Nodup
  | .nil, uri, es, hd, h => by rw [addDir] at h; cases h; simp
  | .cons name n t, uri, es, hd, h => by
    rw [Dir.distinct] at hd
    rw [addDir] at h
    split at h
    · exact addDir_nodup ex t uri es hd.2.2 h
    · cases hn : addNode ex (uri ++ [name]) n with
      | none => rw [hn] at h; cases h
      | some a =>
        rw [hn] at h
        cases ht : addDir ex uri t with
        | none => rw [ht] at h; cases h
        | some b =>
          rw [ht] at h
          cases h
          rw [List.map_append, List.nodup_append]
          refine ⟨addNode_nodup ex n _ a hd.2.1 hn, addDir_nodup ex t uri b hd.2.2 ht, ?_⟩
          rintro p hp q hq rfl
          obtain ⟨e, he, rfl⟩ := List.mem_map.mp hp
          obtain ⟨e', he', hee⟩ := List.mem_map.mp hq
          obtain ⟨x, hx, hpx⟩ := addDir_prefix ex t uri b ht e' he'
          have := addNode_prefix ex n _ a hn e he
          rw [hee] at hpx
          exact hd.1 (prefix_same this hpx ▸ hx)
end

/-- No two entries of an archive have the same path, with links as well. -/
theorem C179_distinct (ex : Name → Bool) (n : Node) (es : List Entry) (hd : n.distinct) (h : zip ex n = some es) : (es.map Entry.path).Nodup := by
  cases n with
  | file f => cases h
  | link a b => cases h
  | dir r l =>
    unfold zip at h
    dsimp only at h
    rw [Node.distinct] at hd
    split at h
    · exact addDir_nodup ex l [] es hd h
    · cases h

/-- A file with an excluded name on its path is not even looked at: the archive is that of the directory without the entry. -/
theorem C179_excluded (ex : Name → Bool) (name : Name) (n : Node) (t : Dir) (h : ex name = true) : zip ex (.dir true (.cons name n t)) = zip ex (.dir true t) := by
  simp [zip, addDir, h]

theorem addDir_fails (ex : Name → Bool) (l : Dir) (p : List Name) (f : File) (ha : At l p f) (hx : ∀ x ∈ p, ex x = false) (ho : f.opens = false) :
    ∀ uri, addDir ex uri l = none := by
  induction ha with
  | here =>
    intro uri
    rw [addDir, if_neg (by rw [hx _ (by simp)]; decide), addNode, addFile, if_neg (by rw [ho]; decide)]
    rfl
  | @sub name r l t p f ha ih =>
    intro uri
    rw [addDir, if_neg (by rw [hx _ (by simp)]; decide), addNode, ih (fun x h => hx x (List.mem_cons_of_mem _ h)) ho]
    split <;> rfl
  | @next name n t p f ha ih =>
    intro uri
    rw [addDir, ih hx ho]
    split
    · rfl
    · cases addNode ex (uri ++ [name]) n <;> rfl

/-- One file that cannot be opened, anywhere, makes the whole call fail. -/
theorem C179_fails (ex : Name → Bool) (r : Bool) (l : Dir) (p : List Name) (f : File) (ha : At l p f) (hx : ∀ x ∈ p, ex x = false)
    (ho : f.opens = false) : zip ex (.dir r l) = none := by
  unfold zip
  dsimp only
  rw [addDir_fails ex l p f ha hx ho]
  split <;> rfl

/-- `Stop l p`: at the end of the path `p` there is a file that cannot be opened or a directory that cannot be read. -/
inductive Stop : Dir → List Name → Prop where
  | file {name f t} : f.opens = false → Stop (.cons name (.file f) t) [name]
  | dir {name l t} : Stop (.cons name (.dir false l) t) [name]
  | sub {name r l t p} : Stop l p → Stop (.cons name (.dir r l) t) (name :: p)
  | next {name n t p} : Stop t p → Stop (.cons name n t) p

theorem addDir_stop (ex : Name → Bool) : ∀ (l : Dir) (uri : List Name), l.plain →
    (addDir ex uri l = none ↔ ∃ p, Stop l p ∧ ∀ x ∈ p, ex x = false)
  | .nil, uri, _ => by
    rw [addDir]
    constructor
    · intro h; cases h
    · rintro ⟨p, h, _⟩; cases h
  | .cons name n t, uri, hp => by
    rw [Dir.plain] at hp
    have iht := addDir_stop ex t uri hp.2
    rw [addDir]
    by_cases hx : ex name = true
    · rw [if_pos hx, iht]
      constructor
      · rintro ⟨p, h, hall⟩
        exact ⟨p, .next h, hall⟩
      · rintro ⟨p, h, hall⟩
        cases h with
        | next h => exact ⟨p, h, hall⟩
        | file _ => have := hall name (by simp); rw [hx] at this; cases this
        | dir => have := hall name (by simp); rw [hx] at this; cases this
        | sub _ => have := hall name (by simp); rw [hx] at this; cases this
    · rw [if_neg hx]
      have hx : ex name = false := by cases h : ex name <;> simp_all
      have key : ((addNode ex (uri ++ [name]) n).bind fun a => (addDir ex uri t).map fun b => a ++ b) = none ↔
          addNode ex (uri ++ [name]) n = none ∨ addDir ex uri t = none := by
        cases addNode ex (uri ++ [name]) n <;> cases addDir ex uri t <;> simp
      rw [key, iht]
      cases n with
      | link a b => exact absurd hp.1 (by rw [Node.plain]; exact id)
      | file f =>
        rw [addNode, addFile]
        constructor
        · rintro (h | ⟨p, h, hall⟩)
          · refine ⟨[name], .file ?_, by simpa using hx⟩
            cases ho : f.opens with
            | false => rfl
            | true => rw [ho, if_pos rfl] at h; cases h
          · exact ⟨p, .next h, hall⟩
        · rintro ⟨p, h, hall⟩
          cases h with
          | file ho => exact .inl (by rw [ho]; rfl)
          | next h => exact .inr ⟨p, h, hall⟩
      | dir r l =>
        have ihl := addDir_stop ex l (uri ++ [name]) (by have := hp.1; rwa [Node.plain] at this)
        rw [addNode]
        constructor
        · rintro (h | ⟨p, h, hall⟩)
          · cases r with
            | false => exact ⟨[name], .dir, by simpa using hx⟩
            | true =>
              rw [if_pos rfl, ihl] at h
              obtain ⟨p, h, hall⟩ := h
              refine ⟨name :: p, .sub h, ?_⟩
              intro x hm
              rcases List.mem_cons.mp hm with rfl | hm
              · exact hx
              · exact hall x hm
          · exact ⟨p, .next h, hall⟩
        · rintro ⟨p, h, hall⟩
          cases h with
          | dir => exact .inl rfl
          | sub h =>
            refine .inl ?_
            split
            · exact ihl.mpr ⟨_, h, fun x hm => hall x (List.mem_cons_of_mem _ hm)⟩
            · rfl
          | next h => exact .inr ⟨p, h, hall⟩

/-- The call fails exactly if the directory cannot be read, or something below that is not excluded cannot be opened or read. -/
theorem C179_fails_exactly_partial (ex : Name → Bool) (r : Bool) (l : Dir) (hp : l.plain) :
    zip ex (.dir r l) = none ↔ r = false ∨ ∃ p, Stop l p ∧ ∀ x ∈ p, ex x = false := by
  unfold zip
  dsimp only
  cases r with
  | false => simp
  | true => rw [if_pos rfl, addDir_stop ex l [] hp]; simp

/-- What is no directory is refused. -/
theorem C179_not_a_directory (ex : Name → Bool) (f : File) : zip ex (.file f) = none := rfl

/-! ### What is lost -/

/-- A file whose reading fails is in the archive cut off, and the call succeeds. -/
theorem C179_cut_false : ∃ (l : Dir) (es : List Entry), l.plain ∧ zip (fun _ => false) (.dir true l) = some es ∧ At l [['a']] ⟨[1, 2, 3], true, 1⟩ ∧
    es = [⟨[['a']], [1], false⟩] :=
  ⟨.cons ['a'] (.file ⟨[1, 2, 3], true, 1⟩) .nil, _, by simp [Dir.plain, Node.plain], rfl, .here, rfl⟩

/-- A link to a file beside it is not looked up there but in the working directory: what is there under its name goes into the archive, marked as a
link; if nothing is, the call fails. -/
theorem C179_link_false (f g : File) (ho : g.opens = true) (name : Name) :
    zip (fun _ => false) (.dir true (.cons name (.link (.file g) (.file f)) .nil)) = some [⟨[name], g.body.take g.fails, true⟩] ∧
      zip (fun _ => false) (.dir true (.cons name (.link .missing (.file f)) .nil)) = none := by
  constructor
  · simp [zip, addDir, addNode, addFile, ho]
  · simp [zip, addDir, addNode]

/-- A link to a directory is archived as that directory would be, if its text names a directory from the working directory too; it need not be the same. -/
theorem C179_link_to_directory (ex : Name → Bool) (name : Name) (r : Bool) (l t : Dir) :
    zip ex (.dir true (.cons name (.link .dir (.dir r l)) t)) = zip ex (.dir true (.cons name (.dir r l) t)) := by
  simp [zip, addDir, addNode]

/-- Empty directories are lost: they leave nothing in the archive. -/
theorem C179_empty_lost (ex : Name → Bool) (name : Name) (t : Dir) : zip ex (.dir true (.cons name (.dir true .nil) t)) = zip ex (.dir true t) := by
  by_cases h : ex name = true
  · exact C179_excluded ex name _ t h
  · simp [zip, addDir, addNode, h]

/-! ### A case -/

example : zip (fun n => decide (n = ['x']))
    (.dir true (.cons ['a'] (.file ⟨[1], true, 9⟩) (.cons ['d'] (.dir true (.cons ['a'] (.file ⟨[2], true, 9⟩) (.cons ['x'] (.file ⟨[3], false, 9⟩) .nil)))
      (.cons ['e'] (.dir true .nil) .nil)))) = some [⟨[['a']], [1], false⟩, ⟨[['d'], ['a']], [2], false⟩] := by decide +kernel

end Verif.Zip
