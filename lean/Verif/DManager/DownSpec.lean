import Verif.DManager.BootSpec
import Verif.DManager.PidsSpec

/-! What is said about the shutdown of a domain. -/
namespace Casual.DManager

/-- The batches in the order they are to be stopped. -/
def Core.stopOrder (lib : Lib) (c : Core) : List Batch := shutdownOrder lib.sort c.groups c.members c.manager

/-- Among what the domain manager lists is a process of the entity that is up: it has a pid and, if
it is one of a server, it has connected. -/
def Up (c : Core) (e : EId) (h : Handle) : Prop :=
  (∃ x ∈ c.entities, x.id = e ∧ ∃ i ∈ x.instances, i.handle = h) ∧ h.pid ≠ 0 ∧ (e.kind = .server → h.ipc ≠ 0)

/-- Something that is on its way to stop the process. -/
def Item.stops (p : Pid) : Item → Prop
  | .terminate q => q = p
  | .prepare hs => ∃ h ∈ hs, h.pid = p
  | .prepareOwn hs => ∃ h ∈ hs, h.pid = p
  | .shutdownReq h => h.pid = p
  | _ => False

/-- The service manager answers what it is asked. -/
def Answers (log : List Item) : Prop :=
  Always (fun before a => ∀ hs, a = .inp (.prepareReply hs) → .prepare hs ∈ before) log

/-- Nobody asks for something else while the domain shuts down. -/
def Input.patient : Input → Bool
  | .scale _ | .shutdown | .restartAliases _ | .restartGroups _ => false
  | _ => true

/-- The domain manager has nothing to do: no tasks, and nothing in its own queue. -/
def State.idle (s : State) : Prop := s.conts = [] ∧ s.st.own = []

end Casual.DManager
