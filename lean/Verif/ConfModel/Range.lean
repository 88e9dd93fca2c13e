/-
  The operations on lists of configured entities that the set operations on configurations
  are made of: `configuration::model::local::range` and `local::predicate::equal`,
  `middleware/configuration/source/model.cpp:27-116`, together with the algorithms they use
  (`common/include/common/algorithm.h:703-770,935-949`, `algorithm/coalesce.h:25-68`).
-/
namespace Casual.ConfModel

variable {α κ : Type}

/-- One round of the loop of `range::update`, `model.cpp:74-86`: the first element that
compares equal to `v` is replaced by `f found v`; if there is none `v` is pushed back. -/
def upsert (cmp : α → α → Bool) (f : α → α → α) (v : α) : List α → List α
  | [] => [v]
  | x :: xs => if cmp x v then f x v :: xs else x :: upsert cmp f v xs

/-- `range::update`, `model.cpp:74-86` (`f` is the `set_union` of the elements). -/
def update (cmp : α → α → Bool) (f : α → α → α) (source target : List α) : List α :=
  source.foldl (fun t v => upsert cmp f v t) target

/-- `range::replace`, `model.cpp:88-101`. -/
def replace (cmp : α → α → Bool) (source target : List α) : List α :=
  update cmp (fun _ v => v) source target

/-- `range::remove`, `model.cpp:103-107`, with `algorithm::intersection`
(`algorithm.h:940-949`, a stable partition; the first part is erased). -/
def remove (cmp : α → α → Bool) (source target : List α) : List α :=
  target.filter fun t => !(source.any (cmp t))

/-- `range::intersection`, `model.cpp:109-113` (the second part is erased). -/
def intersect (cmp : α → α → Bool) (source target : List α) : List α :=
  target.filter fun t => source.any (cmp t)

/-- `algorithm::append_unique`, `algorithm.h:717-727,762-770`: `(range, output)`. -/
def appendUnique [DecidableEq α] (range output : List α) : List α :=
  range.foldl (fun out v => if out.any (fun o => decide (o = v)) then out else out ++ [v]) output

/-- `algorithm::coalesce` of two strings, `coalesce.h:25-68`. -/
def coalesce (a b : String) : String := if a = "" then b else a

/-- `algorithm::coalesce` of two optionals. -/
def coalesceO (a b : Option α) : Option α := match a with | some x => some x | none => b

/-- `predicate::equal::alias` and `equal::name`, `model.cpp:33-42,52-60`: two entities
without a name never compare equal. -/
def equalName (name : α → String) (l r : α) : Bool :=
  if name l = "" ∧ name r = "" then false else decide (name l = name r)

/-- `predicate::equal::key`, and the comparison of addresses and of variable names,
`model.cpp:62-68,149,415`. -/
def equalKey [DecidableEq κ] (key : α → κ) (l r : α) : Bool := decide (key l = key r)

/-- `predicate::conjunction( alias, connect)`, `model.cpp:44-50,438`. -/
def equalBoth [DecidableEq κ] (name : α → String) (connect : α → κ) (l r : α) : Bool :=
  equalName name l r && equalKey connect l r

end Casual.ConfModel
