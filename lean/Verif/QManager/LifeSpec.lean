import Verif.QManager.Spec

/-!
  Specification vocabulary for the child processes of the queue manager and its
  configuration, on the log.
-/
namespace Casual.QManager

/-- The queue groups that were spawned, in order, with what they are to be. -/
def spawnedGroups (log : List Item) : List (Pid × GroupCfg) :=
  log.filterMap fun x => match x with
    | .out (.spawnGroup pid cfg) => some (pid, cfg)
    | _ => none

/-- The forward groups that were spawned, in order. -/
def spawnedForwards (log : List Item) : List (Pid × FwdCfg) :=
  log.filterMap fun x => match x with
    | .out (.spawnForward pid cfg) => some (pid, cfg)
    | _ => none

/-- The process of this item has exited. -/
def exitOf : Item → Option Pid
  | .inp (.exitEvent pid) => some pid
  | .inp (.childExit pid) => some pid
  | _ => none

/-- The process has exited. -/
def exited (log : List Item) (pid : Pid) : Bool := log.any fun x => exitOf x == some pid

/-- The queue groups that were spawned and have not exited. -/
def liveGroups (log : List Item) : List (Pid × GroupCfg) := (spawnedGroups log).filter fun p => !exited log p.1

/-- The forward groups that were spawned and have not exited. -/
def liveForwards (log : List Item) : List (Pid × FwdCfg) := (spawnedForwards log).filter fun p => !exited log p.1

/-- A process id is not used again after its process has exited. -/
def NoReuse (log : List Item) : Prop :=
  ∀ pre x post pid, log = pre ++ x :: post → exitOf x = some pid →
    pid ∉ (spawnedGroups post).map (·.1) ∧ pid ∉ (spawnedForwards post).map (·.1)

/-- The group has been told to stop, or has exited: it was asked to shut down - at an ipc that it connected with - or, if
it had not connected, terminated. -/
def ToldToStop (log : List Item) (pid : Pid) : Prop :=
  Item.out (.terminate pid) ∈ log ∨ exited log pid = true ∨
  ∃ p : Handle, p.pid = pid ∧ Item.out (.shutdownRequest p.ipc) ∈ log ∧
    (Item.inp (.groupConnect p) ∈ log ∨ Item.inp (.forwardConnect p) ∈ log)

end Casual.QManager
