import Verif.DManager.ConnectSpec

/-! Processes and their pids. -/
namespace Casual.DManager

/-- The process was spawned for the entity, and has not exited since. -/
def Alive (log : List Item) (e : EId) (p : Pid) : Prop :=
  ∃ a b, log = a ++ .spawned e p :: b ∧ .inp (.exit p) ∉ b

/-- What the system sees to: a process that is spawned gets a pid that no other child has, and not that
of the domain manager itself. -/
def UniquePids (pm : Pid) (log : List Item) : Prop :=
  Always (fun before a => match a with
    | .spawned _ p => p ≠ 0 ∧ p ≠ pm ∧ ∀ e, ¬ Alive before e p
    | _ => True) log

end Casual.DManager
