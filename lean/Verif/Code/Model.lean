/-!
# XA and TX codes

Models `middleware/common/source/code/xa.cpp` (severity, `severest`),
`middleware/common/source/code/convert.cpp` (`convert::to::tx`) and
`middleware/common/source/code/tx.cpp` (`operator +`).
-/
namespace Casual.Code

/-- `enum class xa`, middleware/common/include/common/code/xa.h:36-65.
The wire values are not modelled here (they play no part in these functions).  A value
outside the enumeration (which the C++ maps to `resource_error` with an error log,
xa.cpp:160-161) is not representable. -/
inductive Xa
  | rollback_unspecified | rollback_communication | rollback_deadlock | rollback_other
  | rollback_protocoll | rollback_timeout | rollback_transient | rollback_integrity
  | no_migrate | heuristic_hazard | heuristic_commit | heuristic_rollback | heuristic_mix
  | retry | read_only | ok
  | outstanding_async | invalid_xid | argument | protocol | resource_fail | resource_error
  | duplicate_xid | outside
  deriving DecidableEq, Repr

/-- `enum struct order`, middleware/common/source/code/xa.cpp:71-97: the position in the
enumeration is the value; a lower value is more severe. -/
def order : List Xa :=
  [ .heuristic_hazard, .heuristic_mix, .heuristic_commit, .heuristic_rollback,
    .resource_fail, .resource_error, .rollback_integrity, .rollback_communication,
    .rollback_unspecified, .rollback_other, .rollback_deadlock, .protocol,
    .rollback_protocoll, .rollback_timeout, .rollback_transient, .argument,
    .no_migrate, .outside, .outstanding_async, .retry, .duplicate_xid,
    .invalid_xid, .ok, .read_only ]

/-- `severity::order convert( code::xa)`, xa.cpp:134-162. -/
def toOrder : Xa → Nat
  | .heuristic_hazard => 0
  | .heuristic_mix => 1
  | .heuristic_commit => 2
  | .heuristic_rollback => 3
  | .resource_fail => 4
  | .resource_error => 5
  | .rollback_integrity => 6
  | .rollback_communication => 7
  | .rollback_unspecified => 8
  | .rollback_other => 9
  | .rollback_deadlock => 10
  | .protocol => 11
  | .rollback_protocoll => 12
  | .rollback_timeout => 13
  | .rollback_transient => 14
  | .argument => 15
  | .no_migrate => 16
  | .outside => 17
  | .outstanding_async => 18
  | .retry => 19
  | .duplicate_xid => 20
  | .invalid_xid => 21
  | .ok => 22
  | .read_only => 23

/-- `code::xa convert( severity::order)`, xa.cpp:99-132; out of range gives
`resource_error` (xa.cpp:130-131). -/
def ofOrder : Nat → Xa
  | 0 => .heuristic_hazard
  | 1 => .heuristic_mix
  | 2 => .heuristic_commit
  | 3 => .heuristic_rollback
  | 4 => .resource_fail
  | 5 => .resource_error
  | 6 => .rollback_integrity
  | 7 => .rollback_communication
  | 8 => .rollback_unspecified
  | 9 => .rollback_other
  | 10 => .rollback_deadlock
  | 11 => .protocol
  | 12 => .rollback_protocoll
  | 13 => .rollback_timeout
  | 14 => .rollback_transient
  | 15 => .argument
  | 16 => .no_migrate
  | 17 => .outside
  | 18 => .outstanding_async
  | 19 => .retry
  | 20 => .duplicate_xid
  | 21 => .invalid_xid
  | 22 => .ok
  | 23 => .read_only
  | _ => .resource_error

/-- `severest`, xa.cpp:194-197. -/
def severest (a b : Xa) : Xa := ofOrder (min (toOrder a) (toOrder b))

/-- `enum class tx`, middleware/common/include/common/code/tx.h:20-39. -/
inductive Tx
  | not_supported | ok | outside | rollback | mixed | hazard | protocol | error | fail
  | argument | committed | no_begin
  | no_begin_rollback | no_begin_mixed | no_begin_hazard | no_begin_committed
  deriving DecidableEq, Repr

/-- The C values, middleware/xatmi/include/casual/tx/code.h:10-26. -/
def Tx.value : Tx → Int
  | .not_supported => 1
  | .ok => 0
  | .outside => -1
  | .rollback => -2
  | .mixed => -3
  | .hazard => -4
  | .protocol => -5
  | .error => -6
  | .fail => -7
  | .argument => -8
  | .committed => -9
  | .no_begin => -100
  | .no_begin_rollback => -102
  | .no_begin_mixed => -103
  | .no_begin_hazard => -104
  | .no_begin_committed => -109

/-- `convert::to::tx( code::xa)`, middleware/common/source/code/convert.cpp:21-58
(note the fall-through of all the rollback codes to `hazard`). -/
def toTx : Xa → Tx
  | .rollback_unspecified | .rollback_communication | .rollback_deadlock
  | .rollback_integrity | .rollback_other | .rollback_protocoll | .rollback_timeout
  | .rollback_transient | .no_migrate | .heuristic_hazard => .hazard
  | .heuristic_commit | .heuristic_rollback | .heuristic_mix => .mixed
  | .read_only => .ok
  | .ok => .ok
  | .invalid_xid => .no_begin
  | .argument | .protocol => .protocol
  | .resource_error | .resource_fail => .fail
  | .retry | .outstanding_async | .duplicate_xid => .argument
  | .outside => .outside

/-- `no_begin_combination`, middleware/common/source/code/tx.cpp:94-105. -/
def noBeginCombination : Tx → Tx
  | .rollback => .no_begin_rollback
  | .mixed => .no_begin_mixed
  | .hazard => .no_begin_hazard
  | .committed => .no_begin_committed
  | _ => .no_begin

/-- `prioritized_range`, tx.cpp:127-139. -/
def prioritized : List Tx :=
  [ .not_supported, .argument, .hazard, .mixed, .fail, .error, .committed, .rollback,
    .protocol, .outside, .ok ]

/-- `algorithm::find( range, value)` returns the sub range starting at the first match; this
is its size (0 = not found). tx.cpp:142-144. -/
def foundSize (t : Tx) : List Tx → Nat
  | [] => 0
  | x :: xs => if x = t then (x :: xs).length else foundSize t xs

/-- `operator +`, tx.cpp:89-148. -/
def Tx.add (lhs rhs : Tx) : Tx :=
  if lhs = rhs then lhs
  else if lhs = .no_begin then noBeginCombination rhs
  else if rhs = .no_begin then noBeginCombination lhs
  else if lhs.value < Tx.no_begin.value then lhs
  else if rhs.value < Tx.no_begin.value then rhs
  else
    let l := foundSize lhs prioritized
    let r := foundSize rhs prioritized
    if l ≠ 0 ∧ r ≠ 0 then (if r ≤ l then lhs else rhs) else lhs

end Casual.Code
