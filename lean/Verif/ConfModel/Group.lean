import Verif.ConfModel.Model
/-
  Which entities are enabled: `configuration::group::Coordinator`,
  `middleware/configuration/source/group.cpp:20-67`.

  `algorithm::partition` (`algorithm.h:795-800`) is not stable; the order of the groups does
  not matter here, two filters stand for it.
-/
namespace Casual.ConfModel

/-- `transitive_dependencies`, `group.cpp:49-54`. -/
def transitive (groups : List DGroup) : List String :=
  groups.foldl (fun result g => appendUnique g.dependencies result) []

theorem transitive_nil : transitive [] = [] := rfl

/-- The groups that are members, the first part of the partition, `group.cpp:39-42`. -/
def members (memberships : List String) (groups : List DGroup) : List DGroup :=
  groups.filter fun g => memberships.any fun m => decide (m = g.name)

/-- The groups that are not, the second part of the partition, `group.cpp:39-42`. -/
def others (memberships : List String) (groups : List DGroup) : List DGroup :=
  groups.filter fun g => !(memberships.any fun m => decide (m = g.name))

theorem others_self {ms : List String} {gs : List DGroup} (h : members ms gs = []) : others ms gs = gs := by
  apply List.filter_eq_self.2
  intro g hg
  have := List.filter_eq_nil_iff.1 h g hg
  cases hc : (ms.any fun m => decide (m = g.name)) with
  | true => exact absurd hc this
  | false => rfl

theorem others_lt {ms : List String} {gs : List DGroup} (h : members ms gs ≠ []) :
    (others ms gs).length < gs.length := by
  obtain ⟨d, hd⟩ := List.exists_mem_of_ne_nil _ h
  have hm := List.mem_filter.1 hd
  exact List.length_filter_lt_length_iff_exists.2 ⟨d, hm.1, by rw [hm.2]; exact Bool.false_ne_true⟩

/-- `local::enabled`, `group.cpp:33-57`. -/
def groupsEnabled (memberships : List String) (groups : List DGroup) : Bool :=
  if memberships = [] ∨ groups = [] then true
  else if (members memberships groups).any fun g => !g.enabled then false
  else groupsEnabled (transitive (members memberships groups)) (others memberships groups)
termination_by 2 * groups.length + if memberships = [] then 0 else 1
decreasing_by
  rename_i h _
  rw [if_neg fun e => h (Or.inl e)]
  by_cases hd : members memberships groups = []
  · rw [others_self hd, hd, transitive_nil, if_pos rfl]
    omega
  · have := others_lt hd
    split <;> omega

/-- `Coordinator::enabled`, `group.cpp:24-32,61-67`: asked with the groups of the
configuration. -/
def Coordinator.enabled (configured : List DGroup) (memberships : List String) : Bool :=
  groupsEnabled memberships configured

end Casual.ConfModel
