import Verif.DManager.OrderSpec
import Verif.DManager.Model

/-! What is said about the boot and the shutdown. -/
namespace Casual.DManager

/-- Inputs that do not disturb a boot: no request to scale or to shut down. -/
def Input.calm : Input → Bool
  | .scale _ | .shutdown | .fatal => false
  | _ => true

/-- The process has connected, or has exited. -/
def Met (log : List Item) (p : Pid) : Prop :=
  .inp (.exit p) ∈ log ∨ ∃ h x w, .admitted h x w ∈ log ∧ h.pid = p

/-- The entities are as the configuration makes them: no processes yet. -/
def Setup.Clean (u : Setup) : Prop :=
  (u.entities.map (·.id)).Nodup ∧
    ∀ e ∈ u.entities, e.id ≠ u.manager → ∃ n, e.instances = List.replicate n { wanted := keepPhase e.enabled }

/-- The order of the boot. -/
def Setup.bootBatches (lib : Lib) (u : Setup) : List Batch :=
  bootOrder lib.sort u.groups (u.entities.map fun e => ⟨e.id, e.memberships⟩) u.manager

/-- The order of the shutdown. -/
def Setup.shutdownBatches (lib : Lib) (u : Setup) : List Batch :=
  shutdownOrder lib.sort u.groups (u.entities.map fun e => ⟨e.id, e.memberships⟩) u.manager

end Casual.DManager
