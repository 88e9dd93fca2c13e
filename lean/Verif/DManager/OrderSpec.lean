import Verif.DManager.Order

/-! What the boot order is about: groups that depend on each other. -/
namespace Casual.DManager

/-- Group `a` says that it depends on group `b`. -/
def DependsOn (gs : List Group) (a b : Gid) : Prop := ∃ g ∈ gs, g.id = a ∧ b ∈ g.deps

/-- Group `a` needs group `b`: it depends on it, or on one that needs it. -/
inductive Needs (gs : List Group) : Gid → Gid → Prop
  | direct {a b} : DependsOn gs a b → Needs gs a b
  | through {a b c} : DependsOn gs a b → Needs gs b c → Needs gs a c

/-- Every group is listed after the groups it depends on, and no two have the same name. -/
def DependenciesFirst : List Group → List Gid → Prop
  | [], _ => True
  | g :: gs, seen => g.id ∉ seen ∧ (∀ d ∈ g.deps, d ∈ seen) ∧ DependenciesFirst gs (g.id :: seen)

/-- What is relied on of `std::stable_sort`: it permutes, and it leaves alone a range
where nothing is less than anything before it. -/
structure StableSort (sort : List Group → List Group) : Prop where
  perm : ∀ l, (sort l).Perm l
  sorted : ∀ l, l.Pairwise (fun a b => less b a = false) → sort l = l

/-- The position of the batch that has the entity. -/
def At (bs : List Batch) (i : Nat) (e : EId) : Prop := ∃ b, bs[i]? = some b ∧ e ∈ b.members

end Casual.DManager
