/-
  Model of `configuration::model::change::calculate`,
  `middleware/configuration/include/configuration/model/change.h:44-90`: what must be
  added, modified and removed to go from one list of configured entities to another.

  `algorithm::intersection( range, lookup, pred)` (`common/include/common/algorithm.h:935-960`)
  partitions `range`, stably, into the elements that have a match in `lookup` and those
  that have not; the partition is a pair of filters here.
-/
namespace Casual.Config

variable {E K : Type}

/-- `change::Result`, `change.h:18-30`. -/
structure Change (E : Type) where
  added : List E
  modified : List E
  removed : List E
deriving DecidableEq, Repr

/-- `algorithm::intersection`, `algorithm.h:940-949`. -/
def intersection (range lookup : List E) (p : E → E → Bool) : List E × List E :=
  (range.filter fun v => lookup.any (p v), range.filter fun v => !(lookup.any (p v)))

/-- `change::calculate`, `change.h:44-56`, with the predicate "same alias"
(`change.h:34-40`); `differ` is compared with the full equality. -/
def calculate [DecidableEq E] [DecidableEq K] (alias : E → K) (current wanted : List E) : Change E :=
  let same := fun a b => decide (alias a = alias b)
  let differ := (intersection wanted current fun a b => decide (a = b)).2
  let split := intersection differ current same
  { modified := split.1
    added := split.2
    removed := (intersection current wanted same).2 }

end Casual.Config
