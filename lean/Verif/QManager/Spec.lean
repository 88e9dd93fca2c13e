import Verif.QManager.Model

/-!
  Specification vocabulary for the queue manager, on the log of what it received and did
  (`Item`), without reference to its state.
-/
namespace Casual.QManager

/-- The enable flags that are configured for a queue of a group; enabled for both when
the configuration does not mention it. -/
def configuredEnable (cfg : GroupCfg) (n : Name) : Enable :=
  ((cfg.queues.find? (·.name == n)).map (·.enable)).getD {}

/-- `x`, in a history `log`, offers queue `n` with provider `i`: a remote domain
advertises the queue, or one of the manager's own queue groups answers its configuration
with it.  The order is 0 for a local queue, the order of the remote plus one for others. -/
inductive Offers (log : List Item) : Item → Name → Inst → Prop where
  | remote (a : Advertise) (q : QueueCfg) (i : Inst) (hd : a.directive = .update) (hq : q ∈ a.add)
      (hp : i.process = a.process) (hi : i.queue = -1) (ho : i.order = a.order + 1) (he : i.enable = q.enable) :
      Offers log (.inp (.advertise a)) q.name i
  | group (p : Handle) (qs : List (Name × Int)) (n : Name) (cfg : GroupCfg) (i : Inst)
      (hq : (n, i.queue) ∈ qs) (hp : i.process.pid = p.pid) (ho : i.order = 0)
      (hs : Item.out (.spawnGroup p.pid cfg) ∈ log) (he : i.enable = configuredEnable cfg n) :
      Offers log (.inp (.groupReply p qs)) n i

/-- `x` withdraws queue `n` from `p`: the process has exited, its ipc is gone, it resets
or removes what it advertises, or - a queue group - it answers a new configuration
(which may offer the queue anew). -/
def Withdraws (n : Name) (p : Handle) : Item → Prop
  | .inp (.exitEvent pid) => pid = p.pid
  | .inp (.childExit pid) => pid = p.pid
  | .inp (.ipcDestroyed ipc) => ipc = p.ipc
  | .inp (.groupReply q _) => q.pid = p.pid
  | .inp (.advertise a) => a.process.ipc = p.ipc ∧
      (a.directive = .reset ∨ (a.directive = .update ∧ n ∈ a.remove))
  | _ => False

/-- Provider `i` of queue `n` has been offered, and was not withdrawn since.  The last
clause of an advertise that both adds and removes a name is the removal. -/
def OfferedNow (log : List Item) (n : Name) (i : Inst) : Prop :=
  ∃ pre x post, log = pre ++ x :: post ∧ Offers log x n i ∧
    (∀ a, x = .inp (.advertise a) → n ∉ a.remove) ∧ ∀ y ∈ post, ¬ Withdraws n i.process y

/-- The order of the remote with this ipc is changed, by this item, to `o` (plus one). -/
def Reorders (ipc : Ipc) (o : Nat) : Item → Prop
  | .inp (.advertise a) => a.directive = .instance ∧ a.process.ipc = ipc ∧ o = a.order + 1
  | _ => False

/-- The provider may be used for what the lookup wants. -/
def Allowed (e : Enable) : Action → Prop
  | .any => True
  | .enqueue => e.enqueue = true
  | .dequeue => e.dequeue = true

/-- The process has exited, by this item. -/
def IsExit (pid : Pid) : Item → Prop
  | .inp (.exitEvent p) => p = pid
  | .inp (.childExit p) => p = pid
  | _ => False

/-- The ipc of a group process: none yet, or one it connected with. -/
def ConnectedAs (log : List Item) (p : Handle) : Prop := p.ipc = 0 ∨ Item.inp (.groupConnect p) ∈ log

/-- The advertise `a` of a remote, with nothing but `since` after it, offers queue `n`
for `act`, and it was not withdrawn. -/
def RemoteOffers (log : List Item) (n : Name) (act : Action) (a : Advertise) (since : List Item) : Prop :=
  ∃ pre q, log = pre ++ .inp (.advertise a) :: since ∧ a.directive = .update ∧ q ∈ a.add ∧ q.name = n ∧ n ∉ a.remove ∧
    Allowed q.enable act ∧ ∀ y ∈ since, ¬ Withdraws n a.process y

/-- The queue group `p` has answered its configuration with queue `n`, which is
configured for `act`; the group has not exited and was not withdrawn (or given the order
of a remote). -/
def GroupOffers (log : List Item) (n : Name) (act : Action) (p : Handle) : Prop :=
  ∃ pre qs id post, log = pre ++ .inp (.groupReply p qs) :: post ∧ (n, id) ∈ qs ∧
    (∃ cfg, Item.out (.spawnGroup p.pid cfg) ∈ pre) ∧ (∀ y ∈ pre, ¬ IsExit p.pid y) ∧
    (∀ cfg, Item.out (.spawnGroup p.pid cfg) ∈ log → Allowed (configuredEnable cfg n) act) ∧
    ∀ y ∈ post, ∀ h : Handle, h.pid = p.pid → ConnectedAs pre h → ¬ Withdraws n h y ∧ ∀ o, ¬ Reorders h.ipc o y

/-- The manager has been told to stop. -/
def Stopped (log : List Item) : Prop := Item.inp .shutdown ∈ log ∨ Item.inp .abort ∈ log

end Casual.QManager
