import Verif.Task.Model

/-! What every action and handler of the tasks keeps, the coordinator keeps. -/
namespace Casual.Task

variable {S M A B : Type}

/-- A relation between states that is reflexive and transitive and that every action and
every handler respects. -/
structure Keeps (ops : Ops S M A B) (R : S → S → Prop) : Prop where
  refl : ∀ s, R s s
  trans : ∀ {a b c}, R a b → R b c → R a c
  act : ∀ a b s, R s (ops.act a b s).1
  handle : ∀ b m h, ops.handle b m = some h → ∀ s, R s (h s).1

variable {ops : Ops S M A B} {R : S → S → Prop}

theorem Keeps.groupStart (k : Keeps ops R) : ∀ (g : List (TUnit A B)) (s : S), R s (groupStart ops g s).1
  | [], s => k.refl s
  | u :: us, s => by
    have h1 : R s (unitStart ops u s).1 := by
      unfold unitStart
      split
      · exact k.act _ _ _
      · exact k.refl s
    have h2 := k.groupStart us (unitStart ops u s).1
    unfold Task.groupStart
    dsimp only
    split
    · exact k.trans h1 h2
    · exact k.trans h1 h2

theorem Keeps.groupMsg (k : Keeps ops R) (m : M) : ∀ (g : List (TUnit A B)) (s : S), R s (groupMsg ops m g s).1
  | [], s => k.refl s
  | u :: us, s => by
    have h1 : R s (unitMsg ops m u s).1 := by
      unfold unitMsg
      split
      · rename_i h hh; exact k.handle _ _ _ hh s
      · exact k.refl s
    have h2 := k.groupMsg m us (unitMsg ops m u s).1
    unfold Task.groupMsg
    dsimp only
    split
    · exact k.trans h1 h2
    · exact k.trans h1 h2

theorem Keeps.coordMsg (k : Keeps ops R) (m : M) : ∀ (cs : List (List (TUnit A B))) (s : S), R s (coordMsg ops m cs s).1
  | [], s => by rw [Task.coordMsg]; exact k.refl s
  | g :: rest, s => by
    have h1 := k.groupMsg m g s
    unfold Task.coordMsg
    dsimp only
    split
    · cases rest with
      | nil => exact h1
      | cons n rest' =>
        have h2 := k.groupStart n (Task.groupMsg ops m g s).1
        have h3 := k.coordMsg m ((Task.groupStart ops n (Task.groupMsg ops m g s).1).2.1 :: rest')
          (Task.groupStart ops n (Task.groupMsg ops m g s).1).1
        exact k.trans h1 (k.trans h2 h3)
    · exact h1
termination_by cs => cs.length

theorem Keeps.coordThen (k : Keeps ops R) (g : List (TUnit A B)) (cs : List (List (TUnit A B))) (s : S) :
    R s (coordThen ops g cs s).1 := by
  unfold Task.coordThen
  dsimp only
  split
  · unfold coordStart
    split
    · exact k.refl s
    · dsimp only
      split
      · exact k.groupStart _ s
      · exact k.groupStart _ s
  · exact k.refl s

/-- What every unit that is started has, every unit that is kept has: a predicate on the
units that starting and messages respect. -/
theorem groupStart_units {P : TUnit A B → Prop} (h : ∀ u s, P u → P (unitStart ops u s).2.1) :
    ∀ (g : List (TUnit A B)) (s : S), (∀ u ∈ g, P u) → ∀ u ∈ (groupStart ops g s).2.1, P u
  | [], _, _ => by intro u hu; cases hu
  | x :: xs, s, hg => by
    have ih := groupStart_units h xs (unitStart ops x s).1 (fun u hu => hg u (List.mem_cons_of_mem _ hu))
    unfold groupStart
    dsimp only
    split
    · intro u hu
      rcases List.mem_cons.mp hu with rfl | hu
      · exact h _ _ (hg x List.mem_cons_self)
      · exact ih u hu
    · exact ih

theorem groupMsg_units {P : TUnit A B → Prop} (m : M) (h : ∀ u s, P u → P (unitMsg ops m u s).2.1) :
    ∀ (g : List (TUnit A B)) (s : S), (∀ u ∈ g, P u) → ∀ u ∈ (groupMsg ops m g s).2.1, P u
  | [], _, _ => by intro u hu; cases hu
  | x :: xs, s, hg => by
    have ih := groupMsg_units m h xs (unitMsg ops m x s).1 (fun u hu => hg u (List.mem_cons_of_mem _ hu))
    unfold groupMsg
    dsimp only
    split
    · intro u hu
      rcases List.mem_cons.mp hu with rfl | hu
      · exact h _ _ (hg x List.mem_cons_self)
      · exact ih u hu
    · exact ih

end Casual.Task
