/-
  Model of the order in which a domain boots and shuts down its servers and
  executables: `middleware/domain/source/manager/state/order.cpp`, the comparison of
  groups in `middleware/domain/source/manager/state.cpp` and the groups of the domain in
  `middleware/domain/source/manager/transform.cpp`.

  Simplifications.  A group is identified by its number; in the code it has a generated
  number and a name, the names of the configuration are unique, and the only thing done
  with a name is to find the number.  `note` and `enabled` are left out.
-/
namespace Casual.DManager

/-- `strong::group::id`. -/
abbrev Gid := Nat

/-- Which of the two kinds of entities. -/
inductive Kind where
  | server | executable
deriving DecidableEq, Repr

/-- `strong::server::id` and `strong::executable::id`, `state.h`: generated numbers. -/
structure EId where
  kind : Kind
  num : Nat
deriving DecidableEq, Repr

/-- `state::Group`, `middleware/domain/include/domain/manager/state.h:41-73`. -/
structure Group where
  id : Gid
  deps : List Gid := []
deriving DecidableEq, Repr

/-- `Group::boot::Order`, `state.cpp:71-77`. -/
def less (lhs rhs : Group) : Bool :=
  rhs.deps.contains lhs.id && !lhs.deps.contains rhs.id

/-- What the order needs to know of an entity: `id` and `memberships`, `state.h:82-97`. -/
structure Member where
  id : EId
  groups : List Gid
deriving DecidableEq, Repr

/-- `state::dependency::Group`, `state.h:266-283`: the group that gave the batch its
name, its servers and then its executables. -/
structure Batch where
  group : Gid
  members : List EId
deriving DecidableEq, Repr

/-- `batch_transform` over the groups, `order.cpp:39-69`: every group takes those
of the entities that are left and that are members of it. -/
def consume : List Group → List Member → List Batch
  | [], _ => []
  | g :: gs, ms =>
    let mine := ms.filter fun m => m.groups.contains g.id
    let rest := ms.filter fun m => !m.groups.contains g.id
    { group := g.id
      members := (mine.filter fun m => m.id.kind = .server).map (·.id) ++
        (mine.filter fun m => m.id.kind = .executable).map (·.id) } :: consume gs rest

/-- `order::boot`, `order.cpp:18-77`.  `sort` is `std::stable_sort` with `less`. -/
def bootOrder (sort : List Group → List Group) (groups : List Group) (ms : List Member)
    (manager : EId) : List Batch :=
  ((consume (sort groups).reverse (ms.filter fun m => m.id ≠ manager)).filter
    fun b => !b.members.isEmpty).reverse

/-- `order::shutdown`, `order.cpp:85-88`. -/
def shutdownOrder (sort : List Group → List Group) (groups : List Group) (ms : List Member)
    (manager : EId) : List Batch :=
  (bootOrder sort groups ms manager).reverse

/-! The groups of the domain. -/

/-- The numbers of the groups every domain has, `transform.cpp:332-350`, `:374-375`. -/
def core : Gid := 0
def master : Gid := 1
def transaction : Gid := 2
def queue : Gid := 3
def global : Gid := 4
def gateway : Gid := 5

/-- The first five groups, `transform.cpp:333-354`. -/
def firstGroups : List Group :=
  [⟨core, []⟩, ⟨master, [core]⟩, ⟨transaction, [master]⟩, ⟨queue, [transaction]⟩,
    ⟨global, [queue, transaction]⟩]

/-- The groups of the state, `transform.cpp:332-381`, from those of the configuration:
`local::groups`, `transform.cpp:48-68`, gives every one of them what it depends on, by
name (an unknown name is refused, `transform.cpp:41`); the gateway's group depends on all
the others. -/
def domainGroups (user : List Group) : List Group :=
  firstGroups ++ user ++ [⟨gateway, (firstGroups ++ user).map (·.id)⟩]

/-! `std::stable_sort`. -/

/-- The inner loop of an insertion sort (`std::__unguarded_linear_insert`): from the
back, past everything the element is less than.  The list is the sorted part, reversed. -/
def insertBack (x : Group) : List Group → List Group
  | [] => [x]
  | y :: ys => if less x y then y :: insertBack x ys else x :: y :: ys

/-- An insertion sort; the accumulator is the sorted part, reversed. -/
def insertAll (acc : List Group) : List Group → List Group
  | [] => acc.reverse
  | x :: xs => insertAll (insertBack x acc) xs

/-- `std::merge`: the second range's element only if it is less. -/
def mergeG : List Group → List Group → List Group
  | [], bs => bs
  | as, [] => as
  | a :: as, b :: bs => if less b a then b :: mergeG (a :: as) bs else a :: mergeG as (b :: bs)
termination_by a b => a.length + b.length

/-- Chunks of `n + 1`. -/
def chunks (n : Nat) : Nat → List Group → List (List Group)
  | 0, _ => []
  | _, [] => []
  | k + 1, l => l.take (n + 1) :: chunks n k (l.drop (n + 1))

/-- One pass of merges of neighbours. -/
def mergePairs : List (List Group) → List (List Group)
  | a :: b :: rest => mergeG a b :: mergePairs rest
  | l => l

/-- Passes until one chunk is left; `k` bounds their number. -/
def mergeAll : Nat → List (List Group) → List Group
  | 0, l => l.flatten
  | k + 1, l => mergeAll k (mergePairs l)

/-- `std::stable_sort` as libstdc++ has it when it gets its buffer: insertion sorts of
chunks of seven, then passes of merges. -/
def libstdcxxSort (l : List Group) : List Group :=
  mergeAll l.length ((chunks 6 l.length l).map (insertAll []))

end Casual.DManager
