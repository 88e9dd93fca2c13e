import Verif.Task.Model

/-! Something that is counted in the state and in the units: starting a unit, and messages,
do not make more of it. -/
namespace Casual.Task

variable {S M A B : Type}

/-- The sum over the units. -/
def sumW (w : TUnit A B → Nat) (us : List (TUnit A B)) : Nat := (us.map w).sum

structure Weighs (ops : Ops S M A B) (f : S → Nat) (w : TUnit A B → Nat) : Prop where
  start : ∀ u s, f (unitStart ops u s).1 + w (unitStart ops u s).2.1 ≤ f s + w u
  msg : ∀ m u s, f (unitMsg ops m u s).1 + w (unitMsg ops m u s).2.1 ≤ f s + w u

variable {ops : Ops S M A B} {f : S → Nat} {w : TUnit A B → Nat}

theorem Weighs.groupStart (k : Weighs ops f w) : ∀ (g : List (TUnit A B)) (s : S),
    f (groupStart ops g s).1 + sumW w (groupStart ops g s).2.1 ≤ f s + sumW w g
  | [], s => Nat.le_refl _
  | u :: us, s => by
    have h1 := k.start u s
    have h2 := k.groupStart us (unitStart ops u s).1
    unfold Task.groupStart
    dsimp only
    unfold sumW at *
    split
    · simp only [List.map_cons, List.sum_cons] at *; omega
    · simp only [List.map_cons, List.sum_cons] at *; omega

theorem Weighs.groupMsg (k : Weighs ops f w) (m : M) : ∀ (g : List (TUnit A B)) (s : S),
    f (groupMsg ops m g s).1 + sumW w (groupMsg ops m g s).2.1 ≤ f s + sumW w g
  | [], s => Nat.le_refl _
  | u :: us, s => by
    have h1 := k.msg m u s
    have h2 := k.groupMsg m us (unitMsg ops m u s).1
    unfold Task.groupMsg
    dsimp only
    unfold sumW at *
    split
    · simp only [List.map_cons, List.sum_cons] at *; omega
    · simp only [List.map_cons, List.sum_cons] at *; omega

theorem sumW_append (w : TUnit A B → Nat) (a b : List (TUnit A B)) : sumW w (a ++ b) = sumW w a + sumW w b := by
  unfold sumW
  rw [List.map_append, List.sum_append]

theorem Weighs.coordMsg (k : Weighs ops f w) (m : M) : ∀ (cs : List (List (TUnit A B))) (s : S),
    f (coordMsg ops m cs s).1 + sumW w (coordMsg ops m cs s).2.1.flatten ≤ f s + sumW w cs.flatten
  | [], s => by rw [Task.coordMsg]; exact Nat.le_refl _
  | g :: rest, s => by
    have h1 := k.groupMsg m g s
    rw [Task.coordMsg.eq_def]
    dsimp only
    split
    · rename_i he
      rw [List.isEmpty_iff.mp he] at h1
      cases rest with
      | nil =>
        show f _ + sumW w [] ≤ _
        rw [List.flatten_cons, sumW_append]
        simp only [sumW, List.map_nil, List.sum_nil, List.flatten_nil] at *
        omega
      | cons n rest' =>
        have h2 := k.groupStart n (Task.groupMsg ops m g s).1
        have h3 := k.coordMsg m ((Task.groupStart ops n (Task.groupMsg ops m g s).1).2.1 :: rest')
          (Task.groupStart ops n (Task.groupMsg ops m g s).1).1
        have e : sumW w ([] : List (TUnit A B)) = 0 := rfl
        rw [List.flatten_cons, sumW_append] at h3
        rw [List.flatten_cons, List.flatten_cons, sumW_append, sumW_append]
        dsimp only
        omega
    · dsimp only
      rw [List.flatten_cons, List.flatten_cons, sumW_append, sumW_append]
      omega
termination_by cs => cs.length

theorem Weighs.coordThen (k : Weighs ops f w) (g : List (TUnit A B)) (cs : List (List (TUnit A B))) (s : S) :
    f (coordThen ops g cs s).1 + sumW w (coordThen ops g cs s).2.1.flatten ≤ f s + sumW w cs.flatten + sumW w g := by
  unfold Task.coordThen
  dsimp only
  split
  · rename_i hl
    have hcs : cs = [] := by
      cases cs with
      | nil => rfl
      | cons a b => simp at hl
    subst hcs
    have h := k.groupStart g s
    have e : sumW w ([] : List (TUnit A B)) = 0 := rfl
    unfold coordStart
    dsimp only [List.nil_append]
    split
    · dsimp only [List.flatten_nil]; omega
    · dsimp only
      rw [List.flatten_cons, sumW_append, List.flatten_nil]
      omega
  · dsimp only
    rw [List.flatten_append, sumW_append, List.flatten_cons, List.flatten_nil, List.append_nil]
    omega

end Casual.Task
