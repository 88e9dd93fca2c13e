import Verif.Task.Model

/-! Units whose actions are all of some kind keep what that kind of action keeps. -/
namespace Casual.Task

variable {S M A B : Type}

/-- Actions that satisfy `P`, and handlers, keep `I`. -/
structure Bound (ops : Ops S M A B) (P : A → Prop) (I : S → Prop) : Prop where
  act : ∀ a b s, P a → I s → I (ops.act a b s).1
  handle : ∀ b m h, ops.handle b m = some h → ∀ s, I s → I (h s).1

/-- All actions that are still to be invoked satisfy `P`. -/
def ActsAre (P : A → Prop) (us : List (TUnit A B)) : Prop := ∀ u ∈ us, ∀ a, u.action = some a → P a

variable {ops : Ops S M A B} {P : A → Prop} {I : S → Prop}

theorem ActsAre.append {a b : List (TUnit A B)} : ActsAre P (a ++ b) ↔ ActsAre P a ∧ ActsAre P b := by
  unfold ActsAre
  constructor
  · intro h
    exact ⟨fun u hu => h u (List.mem_append.mpr (Or.inl hu)), fun u hu => h u (List.mem_append.mpr (Or.inr hu))⟩
  · intro h u hu
    rcases List.mem_append.mp hu with hu | hu
    · exact h.1 u hu
    · exact h.2 u hu

theorem Bound.groupStart (k : Bound ops P I) : ∀ (g : List (TUnit A B)) (s : S), ActsAre P g → I s →
    I (groupStart ops g s).1 ∧ ActsAre P (groupStart ops g s).2.1
  | [], s, _, h => ⟨h, fun u hu => by cases hu⟩
  | u :: us, s, hp, h => by
    have h1 : I (unitStart ops u s).1 := by
      unfold unitStart
      split
      · rename_i a ha
        exact k.act a u.body s (hp u (List.mem_cons_self ..) a ha) h
      · exact h
    have h2 : ActsAre P [(unitStart ops u s).2.1] := by
      intro v hv a ha
      rw [List.mem_singleton.mp hv] at ha
      unfold unitStart at ha
      split at ha
      · cases ha
      · exact hp u (List.mem_cons_self ..) a ha
    have h3 := k.groupStart us _ (fun v hv => hp v (List.mem_cons_of_mem _ hv)) h1
    unfold Task.groupStart
    dsimp only
    split
    · exact ⟨h3.1, (ActsAre.append (a := [_])).mpr ⟨h2, h3.2⟩⟩
    · exact h3

theorem Bound.groupMsg (k : Bound ops P I) (m : M) : ∀ (g : List (TUnit A B)) (s : S), ActsAre P g → I s →
    I (groupMsg ops m g s).1 ∧ ActsAre P (groupMsg ops m g s).2.1
  | [], s, _, h => ⟨h, fun u hu => by cases hu⟩
  | u :: us, s, hp, h => by
    have h1 : I (unitMsg ops m u s).1 := by
      unfold unitMsg
      split
      · rename_i f hf
        exact k.handle u.body m f hf s h
      · exact h
    have h2 : ActsAre P [(unitMsg ops m u s).2.1] := by
      intro v hv a ha
      rw [List.mem_singleton.mp hv] at ha
      unfold unitMsg at ha
      split at ha
      · exact hp u (List.mem_cons_self ..) a ha
      · exact hp u (List.mem_cons_self ..) a ha
    have h3 := k.groupMsg m us _ (fun v hv => hp v (List.mem_cons_of_mem _ hv)) h1
    unfold Task.groupMsg
    dsimp only
    split
    · exact ⟨h3.1, (ActsAre.append (a := [_])).mpr ⟨h2, h3.2⟩⟩
    · exact h3

theorem Bound.coordMsg (k : Bound ops P I) (m : M) : ∀ (cs : List (List (TUnit A B))) (s : S), ActsAre P cs.flatten → I s →
    I (coordMsg ops m cs s).1 ∧ ActsAre P (coordMsg ops m cs s).2.1.flatten
  | [], s, hp, h => by rw [Task.coordMsg]; exact ⟨h, hp⟩
  | g :: rest, s, hp, h => by
    rw [List.flatten_cons, ActsAre.append] at hp
    have h1 := k.groupMsg m g s hp.1 h
    rw [Task.coordMsg.eq_def]
    dsimp only
    split
    · cases rest with
      | nil => exact ⟨h1.1, fun u hu => by cases hu⟩
      | cons n rest' =>
        have hp2 := hp.2
        rw [List.flatten_cons, ActsAre.append] at hp2
        have h2 := k.groupStart n (Task.groupMsg ops m g s).1 hp2.1 h1.1
        exact k.coordMsg m ((Task.groupStart ops n (Task.groupMsg ops m g s).1).2.1 :: rest')
          (Task.groupStart ops n (Task.groupMsg ops m g s).1).1 (by rw [List.flatten_cons, ActsAre.append]; exact ⟨h2.2, hp2.2⟩) h2.1
    · refine ⟨h1.1, ?_⟩
      dsimp only
      rw [List.flatten_cons, ActsAre.append]
      exact ⟨h1.2, hp.2⟩
termination_by cs => cs.length

theorem Bound.coordThen (k : Bound ops P I) (g : List (TUnit A B)) (cs : List (List (TUnit A B))) (s : S)
    (hg : ActsAre P g) (hp : ActsAre P cs.flatten) (h : I s) :
    I (coordThen ops g cs s).1 ∧ ActsAre P (coordThen ops g cs s).2.1.flatten := by
  unfold Task.coordThen
  dsimp only
  split
  · rename_i hl
    have hcs : cs = [] := by
      cases cs with
      | nil => rfl
      | cons a b => simp at hl
    subst hcs
    have h1 := k.groupStart g s hg h
    unfold coordStart
    dsimp only [List.nil_append]
    split
    · exact ⟨h1.1, fun u hu => by cases hu⟩
    · refine ⟨h1.1, ?_⟩
      dsimp only
      rw [List.flatten_cons, ActsAre.append]
      exact ⟨h1.2, hp⟩
  · refine ⟨h, ?_⟩
    dsimp only
    rw [List.flatten_append, ActsAre.append, List.flatten_cons, ActsAre.append]
    exact ⟨hp, hg, fun u hu => by cases hu⟩

end Casual.Task
