import Verif.DManager.Model

/-! A small domain, for examples and for what is refuted. -/
namespace Casual.DManager

/-- The system: spawned processes get the pids 100, 101, ... -/
def demoLib : Lib := { spawn := fun n => some (100 + n), sort := libstdcxxSort }

/-- The entity of the domain manager itself. -/
def demoManager : Entity :=
  { id := ⟨.server, 0⟩, alias_ := 0, memberships := [master], instances := [{ handle := ⟨1, 1⟩ }] }

/-- A domain with two groups, the second depends on the first. -/
def demoSetup (es : List Entity) : Setup :=
  { groups := domainGroups [⟨6, [master]⟩, ⟨7, [6]⟩], entities := demoManager :: es, manager := ⟨.server, 0⟩, self := ⟨1, 1⟩ }

def demoServer (n : Nat) (g : Gid) (restart : Bool) (k : Nat) : Entity := Entity.make .server n n [g] restart true k

def demoExe (n : Nat) (g : Gid) (restart : Bool) (k : Nat) : Entity := Entity.make .executable n (n + 50) [g] restart true k

def demoRun (es : List Entity) (is : List Input) : State := (State.start demoLib (demoSetup es)).run demoLib is

end Casual.DManager
