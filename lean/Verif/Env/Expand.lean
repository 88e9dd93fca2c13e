import Verif.ConfModel.Model
/-
  Environment variables, and how they are put into configured values:
  `middleware/common/source/environment/expand.cpp`,
  `middleware/common/source/environment.cpp:46-135`,
  `middleware/common/include/common/environment/variable.h:21-77`,
  `common/include/common/range/adapter.h`, `algorithm.h:922-933`.

  Text is a list of characters without the character 0.
-/
namespace Casual.Env

open Casual.ConfModel (Variable)

/-! ### The variables of a process, `environment.cpp:46-135` -/

/-- `local::Coordinator`: the variables that are set by casual, and those of the system (a name
and a value; `getenv` finds the first). -/
structure Vars where
  prioritized : List Variable := []
  system : List (List Char × List Char) := []
deriving DecidableEq, Repr

/-- `string::compose( name, '=', value)` as a variable, `environment.cpp:88,90`. -/
def make (name value : List Char) : Variable := { text := String.ofList (name ++ '=' :: value) }

/-- `getenv`. -/
def getenv (system : List (List Char × List Char)) (name : List Char) : Option (List Char) :=
  (system.find? fun p => decide (p.1 = name)).map (·.2)

namespace Vars

/-- `exists`, `environment.cpp:57-65`. -/
def has (v : Vars) (name : List Char) : Bool :=
  if v.prioritized.any (fun x => decide (x.name = name)) then true else (getenv v.system name).isSome

/-- `get`, `environment.cpp:67-81`. -/
def get (v : Vars) (name : List Char) : Option (List Char) :=
  match v.prioritized.find? (fun x => decide (x.name = name)) with
  | some x => some x.value
  | none => getenv v.system name

/-- The first with the name is replaced, or the new one is put last, `environment.cpp:87-90`. -/
def assign (name : List Char) (x : Variable) : List Variable → List Variable
  | [] => [x]
  | y :: ys => if y.name = name then x :: ys else y :: assign name x ys

/-- `set`, `environment.cpp:83-91`. -/
def set (v : Vars) (name value : List Char) : Vars :=
  { v with prioritized := assign name (make name value) v.prioritized }

/-- The first with the name is erased, `environment.cpp:97-98`. -/
def erase (name : List Char) : List Variable → List Variable
  | [] => []
  | y :: ys => if y.name = name then ys else y :: erase name ys

/-- `unset`, `environment.cpp:93-102`; `::unsetenv` removes all with the name. It fails for a
name that is empty or has a `=` (`EINVAL`): `none`, with what has been done. -/
def unset (v : Vars) (name : List Char) : Option Vars :=
  if name = [] ∨ '=' ∈ name then none
  else some { prioritized := erase name v.prioritized, system := v.system.filter fun p => decide (p.1 ≠ name) }

/-- `current`, `environment.cpp:119-132`: what is passed on to a process that is started;
`append_unique` by name. -/
def current (v : Vars) : List Variable :=
  (v.system.map fun p => make p.1 p.2).foldl
    (fun out s => if out.any (fun o => decide (o.name = s.name)) then out else out ++ [s]) v.prioritized

end Vars

/-! ### `expand`, `expand.cpp:25-100` -/

/-- `algorithm::search( range, "${")`: what is before it, and the rest from it. -/
def findOpen : List Char → Option (List Char × List Char)
  | [] => none
  | '$' :: '{' :: r => some ([], '$' :: '{' :: r)
  | c :: r => match findOpen r with
    | some (a, b) => some (c :: a, b)
    | none => none

/-- `next_range`, `expand.cpp:32-44`: the next part, and the rest. -/
def nextPart (l : List Char) : List Char × List Char :=
  match findOpen l with
  | none => (l, [])
  | some ([], rest) =>
    match findOpen (rest.drop 2) with
    | none => (rest, [])
    | some (a, b) => (rest.take 2 ++ a, b)
  | some (a, rest) => (a, rest)

/-- `handle_part`, `expand.cpp:46-88`. -/
def handlePart (lookup : List Char → List Char) (part : List Char) : List Char :=
  if part.length < 4 ∨ part.take 2 ≠ ['$', '{'] then part
  else if '}' ∈ part then
    lookup ((part.takeWhile (· != '}')).drop 2) ++ (part.dropWhile (· != '}')).drop 1
  else part

/-- The loop over the parts, `adapter.h:20-63`, `expand.cpp:90-92`; `n` is a bound for the number
of parts. -/
def expandParts (lookup : List Char → List Char) : Nat → List Char → List Char
  | 0, _ => []
  | n + 1, l =>
    if l = [] then []
    else
      let p := nextPart l
      handlePart lookup p.1 ++ expandParts lookup n p.2

/-- `local::expand`: every part has at least one character. -/
def expandWith (lookup : List Char → List Char) (l : List Char) : List Char := expandParts lookup l.length l

/-- `expand( value)`, `expand.cpp:104-111`. -/
def expand (v : Vars) (l : List Char) : List Char := expandWith (fun n => (v.get n).getD []) l

/-- `expand( value, local)`, `expand.cpp:113-124`. -/
def expandLocal (v : Vars) (loc : List Variable) (l : List Char) : List Char :=
  expandWith (fun n => match loc.find? (fun x => decide (x.name = n)) with
    | some x => x.value
    | none => (v.get n).getD []) l

end Casual.Env
