import Verif.Http.TextProps
/-
  Durations as text: `middleware/common/source/chronology.cpp`, used for what a configuration says about time.
-/
namespace Casual.Chrono
open Casual.Http (Text isDigit digitsVal showNat showLong)

/-- What a duration can hold: nanoseconds in 64 bits (`platform::time::unit`, `middleware/common/include/casual/platform.h:397-417`,
the clock is `std::chrono::system_clock`). -/
def most : Nat := 9223372036854775807

/-- What becomes of a text. -/
inductive Res where
  /-- An exception: invalid argument. -/
  | refused
  /-- Arithmetic that does not fit: undefined. -/
  | overflow
  /-- Nanoseconds. -/
  | ok (n : Nat)
  deriving DecidableEq, Repr

/-- The units, in nanoseconds: `middleware/common/source/chronology.cpp:162-176`. -/
def units : List (Text × Nat) :=
  [([], 1000000000), ("s".toList, 1000000000), ("us".toList, 1000), ("ms".toList, 1000000), ("min".toList, 60000000000),
   ("h".toList, 3600000000000), ("d".toList, 86400000000000), ("ns".toList, 1)]

/-- White space, here: `middleware/common/source/chronology.cpp:140`. -/
def isBlank (c : Char) : Bool := c == ' '

/-- Without spaces before and after: `middleware/common/source/chronology.cpp:140-143`. -/
def trim (t : Text) : Text := ((t.dropWhile isBlank).reverse.dropWhile isBlank).reverse

/-- The number, by `string::from`: 0 if there is none, and 0 if there are too many digits, as `from_chars` then does not give a value and
only what is not a number is refused. `middleware/common/source/chronology.cpp:150-157`, `middleware/common/include/common/string.h:132-138`. -/
def count (ds : Text) : Nat := if digitsVal ds ≤ most then digitsVal ds else 0

/-- One part: `local::string`, `middleware/common/source/chronology.cpp:138-179`. -/
def piece (t : Text) : Res :=
  match units.find? (·.1 == (trim t).dropWhile isDigit) with
  | none => .refused
  | some p => if count ((trim t).takeWhile isDigit) * p.2 ≤ most then .ok (count ((trim t).takeWhile isDigit) * p.2) else .overflow

/-- `accumulate_time`: `middleware/common/source/chronology.cpp:195-198`. What went wrong before is the result. -/
def addPiece (acc : Res) (p : Text) : Res :=
  match acc with
  | .ok a =>
    match piece p with
    | .ok b => if a + b ≤ most then .ok (a + b) else .overflow
    | e => e
  | e => e

/-- What `next_range` gives first: `middleware/common/source/chronology.cpp:189-193`. -/
def first (t : Text) : Text := (t.dropWhile isBlank).takeWhile (· != '+')

/-- What is left for `next_range`: `middleware/common/source/chronology.cpp:189-193`, `middleware/common/include/common/algorithm.h:853-861`. -/
def rest (t : Text) : Text := ((t.dropWhile isBlank).dropWhile (· != '+')).drop 1

theorem dropWhile_length {α} (p : α → Bool) (l : List α) : (l.dropWhile p).length ≤ l.length := (List.dropWhile_suffix p).length_le

theorem rest_shorter (t : Text) (h : ¬(first t = [] ∧ rest t = [])) : (rest t).length < t.length := by
  unfold rest
  have h1 := dropWhile_length isBlank t
  have h2 := dropWhile_length (· != '+') (t.dropWhile isBlank)
  rw [List.length_drop]
  cases ht : t with
  | nil => subst ht; exact absurd ⟨rfl, rfl⟩ h
  | cons c l =>
    rw [ht] at h1 h2
    have : 0 < (c :: l).length := by simp
    omega

/-- The range adapter, until there is nothing more: `middleware/common/source/chronology.cpp:200-203`,
`middleware/common/include/common/range/adapter.h:45-75`. -/
def loop (acc : Res) (t : Text) : Res :=
  if first t = [] ∧ rest t = [] then acc else loop (addPiece acc (first t)) (rest t)
termination_by t.length
decreasing_by exact rest_shorter t (by assumption)

/-- `chronology::from::string`: `middleware/common/source/chronology.cpp:184-204`. -/
def fromString (t : Text) : Res := loop (.ok 0) t

/-- `local::stream`, and the hours: `middleware/common/source/chronology.cpp:213-247`. What has been written, and if anything has. -/
def stream (out : Text × Bool) (value : Int) (unit : Text) : Text × Bool :=
  if value = 0 then out else (out.1 ++ (if out.2 then " + ".toList else []) ++ showLong value ++ unit, true)

/-- `chronology::to::string`: `middleware/common/source/chronology.cpp:230-257`. -/
def toString (d : Int) : Text :=
  if d = 0 then []
  else
    let o := stream ([], false) (d.tdiv 3600000000000) "h".toList
    let o := stream o ((d.tmod 3600000000000).tdiv 60000000000) "min".toList
    let o := stream o ((d.tmod 60000000000).tdiv 1000000000) "s".toList
    let o := stream o ((d.tmod 1000000000).tdiv 1000000) "ms".toList
    let o := stream o ((d.tmod 1000000).tdiv 1000) "us".toList
    (stream o (d.tmod 1000) "ns".toList).1

/-! ### What a text means -/

/-- The units that can be written, and how many nanoseconds they are: a second (also without unit), its parts, a minute, an hour
and a day. -/
def IsUnit (u : Text) (k : Nat) : Prop :=
  (u = [] ∧ k = 10 ^ 9) ∨ (u = "s".toList ∧ k = 10 ^ 9) ∨ (u = "us".toList ∧ k = 10 ^ 3) ∨ (u = "ms".toList ∧ k = 10 ^ 6)
  ∨ (u = "min".toList ∧ k = 60 * 10 ^ 9) ∨ (u = "h".toList ∧ k = 60 * 60 * 10 ^ 9) ∨ (u = "d".toList ∧ k = 24 * 60 * 60 * 10 ^ 9)
  ∨ (u = "ns".toList ∧ k = 1)

/-- A part of a text is a number and a unit, with spaces around. No number is 0. -/
def One (t : Text) (c : Nat × Nat) : Prop :=
  ∃ a b ds u, t = List.replicate a ' ' ++ ds ++ u ++ List.replicate b ' ' ∧ (∀ d ∈ ds, isDigit d = true) ∧ c.1 = digitsVal ds ∧ IsUnit u c.2

/-- A text is parts with `+` between: the numbers and the units of them. -/
inductive Written : Text → List (Nat × Nat) → Prop where
  | one {t c} : One t c → Written t [c]
  | more {t s c cs} : One t c → Written s cs → Written (t ++ '+' :: s) (c :: cs)

/-- What it is together, in nanoseconds. -/
def total (cs : List (Nat × Nat)) : Nat := (cs.map fun c => c.1 * c.2).sum

end Casual.Chrono
