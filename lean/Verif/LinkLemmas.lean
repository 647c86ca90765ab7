import Verif.Link
/-! Relations between the states before and after a method of the link: what holds of the few primitive steps holds
of every method. -/
namespace Verif.Link
section
variable {ρ β γ : Type}

/-- The method relates its start to its end by `Q`, whatever its outcome. -/
def Pres {α : Type} (Q : L ρ β γ → L ρ β γ → Prop) (m : M ρ β γ α) : Prop := ∀ s, Q s (m s).2

/-- `Q` is reflexive, transitive and holds of every primitive step. -/
structure Closed (R0 : Rcv ρ β γ) (Q : L ρ β γ → L ρ β γ → Prop) : Prop where
  refl : ∀ s, Q s s
  trans : ∀ s t u, Q s t → Q t u → Q s u
  item : ∀ s, Q s { s with rmis := s.rmis ++ [[]], size := 0 }
  push : ∀ it s, Q s (push it s).2
  cell : ∀ c b s, Q s { s with cells := setCell s.cells c b }
  send : ∀ c s, Q s (sendRelay R0 c s).2
  rcv : ∀ r s, Q s { s with r := r }

variable {R0 : Rcv ρ β γ} {Q : L ρ β γ → L ρ β γ → Prop}

theorem Pres.bnd {α α' : Type} (h : Closed R0 Q) {m : M ρ β γ α} {f : α → M ρ β γ α'} (hm : Pres Q m)
    (hf : ∀ a, Pres Q (f a)) : Pres Q (bnd m f) := by
  intro s
  have h1 := hm s
  unfold Link.bnd
  split <;> rename_i heq <;> rw [heq] at h1
  · exact h.trans _ _ _ h1 (hf _ _)
  all_goals exact h1

theorem Pres.ign {m : M ρ β γ Unit} (hm : Pres Q m) : Pres Q (ign m) := by
  intro s
  have h1 := hm s
  unfold Link.ign
  split
  · rename_i heq; rw [heq] at h1; exact h1
  · exact h1

theorem Pres.ret {α : Type} (h : Closed R0 Q) (a : α) : Pres Q (ret a : M ρ β γ α) := fun s => h.refl s

theorem Pres.getHeader (h : Closed R0 Q) (c n : Nat) : Pres Q (getHeader R0 c n) := by
  induction n with
  | zero => intro s; exact h.refl s
  | succ n ih =>
    intro s
    unfold Link.getHeader
    split
    · split
      · exact h.rcv _ _
      · exact h.trans _ _ _ (h.rcv _ _) (ih _)
    all_goals exact h.rcv _ _

theorem Pres.updBls (h : Closed R0 Q) (c : Nat) (it : Item β) : Pres Q (updBls c it : M ρ β γ Unit) :=
  fun s => h.cell c it.next s

theorem Pres.buildMessageProof (h : Closed R0 Q) (c : Nat) : Pres Q (buildMessageProof R0 c) := by
  intro s
  unfold Link.buildMessageProof
  split
  · exact h.refl s
  · exact Pres.bnd h (h.push _) (fun _ => Pres.updBls h _ _) s
  all_goals exact h.refl s

theorem Pres.buildBlockProof (h : Closed R0 Q) (c : Nat) (x : Int) : Pres Q (buildBlockProof R0 c x) := by
  intro s
  unfold Link.buildBlockProof
  split
  · exact h.refl s
  · exact Pres.bnd h (h.push _) (fun _ => Pres.updBls h _ _) s
  all_goals exact h.refl s

theorem Pres.isOverLimit (h : Closed R0 Q) (x : Int) : Pres Q (isOverLimit x : M ρ β γ Bool) := by
  intro s
  unfold Link.isOverLimit
  split
  · exact h.item s
  · exact h.refl s

theorem Pres.overLimitProof (h : Closed R0 Q) (c : Nat) (bu : Option (Item β)) : Pres Q (overLimitProof R0 c bu) := by
  intro s
  unfold Link.overLimitProof
  split
  · exact h.refl s
  · exact Pres.buildBlockProof h _ _ s

theorem Pres.proofLoop (h : Closed R0 Q) (c : Nat) (bu : Option (Item β)) (rs : RS) (n : Nat) :
    Pres Q (proofLoop R0 c bu rs n) := by
  induction n with
  | zero => intro s; exact h.refl s
  | succ n ih =>
    intro s
    unfold Link.proofLoop
    split
    · exact h.refl s
    · refine Pres.bnd h (Pres.bnd h (Pres.isOverLimit h _) (fun b => ?_)) (fun _ => ih) s
      cases b
      · exact Pres.buildMessageProof h c
      · exact Pres.bnd h (Pres.ign (h.send c)) (fun _ => Pres.bnd h (Pres.overLimitProof h c bu)
          (fun _ => Pres.buildMessageProof h c))

theorem Pres.buildProof (h : Closed R0 Q) (n c : Nat) (bu : Option (Item β)) : Pres Q (buildProof R0 n c bu) := by
  intro s
  unfold Link.buildProof
  split
  · exact h.refl s
  · exact Pres.proofLoop h _ _ _ _ s

theorem Pres.updates (h : Closed R0 Q) (n c : Nat) (bus : List (Item β)) : Pres Q (updates R0 n c bus) := by
  induction bus with
  | nil => exact Pres.ret h ()
  | cons b bs ih =>
    exact Pres.bnd h (h.push b) fun _ => Pres.bnd h (Pres.updBls h _ _) fun _ =>
      Pres.bnd h (Pres.buildProof h _ _ _) fun _ => Pres.bnd h (h.send _) fun _ => ih

theorem Pres.createItem (h : Closed R0 Q) : Pres Q (createItem : M ρ β γ Unit) := fun s => h.item s

theorem Pres.buildRelayMessage (h : Closed R0 Q) (n c : Nat) : Pres Q (buildRelayMessage R0 n c) := by
  intro s
  unfold Link.buildRelayMessage
  refine Pres.bnd h ?_ (fun _ => Pres.bnd h (Pres.getHeader h _ _) fun bus => Pres.bnd h (Pres.updates h _ _ _)
    fun _ => ?_) s
  · split
    · exact Pres.createItem h
    · exact Pres.ret h ()
  · intro t
    refine Pres.bnd h (Pres.isOverLimit h _) (fun b => ?_) t
    cases b
    · exact Pres.ret h ()
    · exact Pres.ign (h.send c)

theorem Pres.checkLoop (h : Closed R0 Q) (n c : Nat) (q : Int) (k : Nat) : Pres Q (checkLoop R0 n c q k) := by
  induction k with
  | zero => intro s; exact h.refl s
  | succ k ih =>
    intro s
    unfold Link.checkLoop
    dsimp only
    split
    · exact h.refl s
    · split
      · split
        · exact h.refl s
        · split
          · exact h.push _ s
          · exact h.refl s
        all_goals exact h.refl s
      · split
        · exact Pres.bnd h (Pres.buildProof h _ _ _) (fun _ => ih) s
        · exact h.refl s

theorem Pres.checkStatus (h : Closed R0 Q) (n c : Nat) : Pres Q (checkStatus R0 n c) := by
  intro s
  unfold Link.checkStatus
  refine Pres.bnd h (Pres.checkLoop h _ _ _ _) (fun _ => ?_) s
  intro t
  dsimp only
  split
  · exact Pres.ign (h.send c) t
  · exact h.refl t

end
end Verif.Link
