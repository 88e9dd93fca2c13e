import Verif.Task.Model
import Verif.Config.Change
/-
  The configuration of the gateway manager: which groups of inbound and outbound connections there are, each a process; at boot, when the configuration is updated, when a group
  dies, and at shutdown. `middleware/gateway/source/manager/configuration.cpp`, `handle.cpp`, `main.cpp`, on the task coordinator of `Task`.
  Simplified: the two lists of groups are one, where each group knows its side; what a group does (`Gateway`) is left out, and so is the admin interface. Processes are spawned with pids
  that have not been used before. `std::partition` in `algorithm::filter` is taken to be stable.
-/
namespace Casual.GConf
open Casual.Task

/-- Inbound or outbound. -/
inductive Side where
  | inb | outb
  deriving DecidableEq, Repr

/-- `configuration::model::gateway::inbound::Group` and `outbound::Group`: `middleware/configuration/include/configuration/model.h:459-482,532-555`. `info` is the rest of it. -/
structure Conf where
  side : Side
  alias : Nat
  reversed : Bool := false
  info : Nat := 0
  deriving DecidableEq, Repr

/-- `state::Runlevel`: `middleware/gateway/include/gateway/manager/state.h:70-75`. -/
inductive Level where
  | configuring | running | shutdown
  deriving DecidableEq, Repr

/-- `state::basic_group`: `state.h:33-47`. `ipc`: the process has connected. Ghost: `told` is the configuration it was told last, `exe` if it is the program for reversed connections. -/
structure Group where
  pid : Nat
  conf : Conf
  ipc : Bool := false
  told : Option Conf := none
  exe : Bool := false
  deriving DecidableEq, Repr

/-- What is sent, ghost. -/
inductive Out where
  | stop (pid : Nat)
  | reply (corr : Nat)
  deriving DecidableEq, Repr

/-- `State`: `state.h:79-112`. `fails` says which of the next spawns fail. -/
structure State where
  level : Level := .configuring
  groups : List Group := []
  nextPid : Nat := 1
  fails : List Bool := []
  sent : List Out := []
  deriving DecidableEq, Repr

/-- `state.runlevel = running`, `middleware/common/include/common/state/machine.h:22-27`: values only increase. -/
def State.up (st : State) : State := { st with level := if st.level = Level.shutdown then .shutdown else .running }

/-- `algorithm::find( groups, alias)`, then the group is changed: the first that there is. -/
def changeFirst (q : Group → Bool) (f : Group → Group) : List Group → List Group
  | [] => []
  | g :: gs => if q g then f g :: gs else g :: changeFirst q f gs

/-- It has the alias: `state.h:39`. -/
def Group.named (s : Side) (a : Nat) (g : Group) : Bool := g.conf.side == s && g.conf.alias == a

/-- It is the process: `state.h:40`. -/
def Group.isProc (pid : Nat) (g : Group) : Bool := g.pid == pid

/-- `spawn::process`, `configuration.cpp:32-60`. -/
def spawn (st : State) : State × Option Nat :=
  match st.fails with
  | true :: fs => ({ st with fails := fs }, none)
  | fs => ({ st with fails := fs.tail, nextPid := st.nextPid + 1 }, some st.nextPid)

/-- The groups that could be spawned: `configuration.cpp:288-301,340-351`. The program depends on the configuration: `state.cpp:36-50`. -/
def spawns : List Conf → State → State × List Group
  | [], st => (st, [])
  | c :: cs, st =>
    let (st, pid) := spawn st
    let (st, gs) := spawns cs st
    (st, (pid.toList.map fun pid => { pid := pid, conf := c, exe := c.reversed }) ++ gs)

/-- What is shared between the action and the handlers of a unit: `configuration.cpp:112-117`. -/
inductive Body where
  | waits (s : Side) (pids : List Nat)
  | exits (pids : List Nat)
  | none
  deriving DecidableEq, Repr

/-- The actions. -/
inductive Act where
  | added (s : Side) (cs : List Conf)
  | modified (s : Side) (cs : List Conf)
  | removed (s : Side) (cs : List Conf)
  | reply (corr : Nat)
  | booted
  deriving DecidableEq, Repr

/-- The messages that tasks have handlers for. -/
inductive Msg where
  | exit (pid : Nat)
  | reply (s : Side) (pid : Nat)
  deriving DecidableEq, Repr

/-- The action of `added_outbound_groups` and `added_inbound_groups`, `configuration.cpp:281-308,333-358`. -/
def added (s : Side) (cs : List Conf) (b : Body) (st : State) : State × Body × Outcome :=
  match spawns cs st with
  | (st, []) => (st, b, .abort)
  | (st, gs) => ({ st with groups := st.groups ++ gs }, .waits s (gs.map (·.pid)), .success)

/-- A group gets another configuration, and is told so if it has connected: `configuration.cpp:127-135,172-180`. -/
def Group.update (c : Conf) (g : Group) : Group := { g with conf := c, told := if g.ipc then some c else g.told }

/-- One by one: the groups that are there are changed. -/
def modifyAll (s : Side) : List Conf → State → State × List Nat
  | [], st => (st, [])
  | c :: cs, st =>
    match st.groups.find? (Group.named s c.alias) with
    | none => modifyAll s cs st
    | some g =>
      let (st, pids) := modifyAll s cs { st with groups := changeFirst (Group.named s c.alias) (Group.update c) st.groups }
      (st, g.pid :: pids)

/-- The action of `modified_outbound_groups` and `modified_inbound_groups`, `configuration.cpp:119-142,164-188`. -/
def modified (s : Side) (cs : List Conf) (b : Body) (st : State) : State × Body × Outcome :=
  match modifyAll s cs st with
  | (st, []) => (st, b, .abort)
  | (st, pids) => (st, .waits s pids, .success)

/-- The action of `removed_outbound_groups` and `removed_inbound_groups`, `configuration.cpp:209-228,248-267`. -/
def removed (s : Side) (cs : List Conf) (b : Body) (st : State) : State × Body × Outcome :=
  match cs.filterMap fun c => (st.groups.find? (Group.named s c.alias)).map (·.pid) with
  | [] => (st, b, .abort)
  | pids => ({ st with sent := st.sent ++ pids.map .stop }, .exits pids, .success)

/-- What the actions do. The last two: `handle.cpp:238-244`, `main.cpp:82-96`. -/
def act : Act → Body → State → State × Body × Outcome
  | .added s cs, b, st => added s cs b st
  | .modified s cs, b, st => modified s cs b st
  | .removed s cs, b, st => removed s cs b st
  | .reply corr, b, st => ({ st.up with sent := st.sent ++ [.reply corr] }, b, .abort)
  | .booted, b, st => (st.up, b, .abort)

/-- `message_process` and `exit_handle`, `configuration.cpp:71-103`. -/
def less (mk : List Nat → Body) (pids : List Nat) (pid : Nat) (st : State) : State × Body × Dispatch :=
  let pids := pids.filter (· ≠ pid)
  (st, mk pids, if pids = [] then .done else .pending)

/-- The handlers of the units. -/
def handle : Body → Msg → Option (State → State × Body × Dispatch)
  | .waits s pids, .reply s' pid => if s = s' then some (less (.waits s) pids pid) else none
  | .waits s pids, .exit pid => some (less (.waits s) pids pid)
  | .exits pids, .exit pid => some (less .exits pids pid)
  | _, _ => none

/-- The tasks of the gateway manager. -/
def ops : Ops State Msg Act Body := { act := act, handle := handle }

/-- The manager: its state, and the task coordinator. -/
abbrev Mgr := Coord State Act Body

/-- `state.tasks.then( ...)`. -/
def Mgr.push (c : Mgr) (us : List (Act × Body)) : Mgr := Coord.step ops c (.then_ us)

/-- `state.tasks( message)`. -/
def Mgr.msg (c : Mgr) (m : Msg) : Mgr := Coord.step ops c (.msg m)

/-- Something else is done with the state. -/
def Mgr.on (c : Mgr) (f : State → State) : Mgr := Coord.step ops c (.owner f)

/-- The configuration of one side. -/
def side (s : Side) (cs : List Conf) : List Conf := cs.filter fun c => c.side = s

/-- A task, if there is something to do. -/
def Mgr.task (c : Mgr) (mk : List Conf → Act) (cs : List Conf) : Mgr := if cs = [] then c else c.push [(mk cs, .none)]

/-- `configuration::conform`, `configuration.cpp:364-407`, with `transform::configuration`, `transform.cpp:208-224`. -/
def conform (c : Mgr) (wanted : List Conf) : Mgr :=
  let current := c.st.groups.map (·.conf)
  if side .inb current = side .inb wanted ∧ side .outb current = side .outb wanted then c
  else
    let outb := Casual.Config.calculate Conf.alias (side .outb current) (side .outb wanted)
    let inb := Casual.Config.calculate Conf.alias (side .inb current) (side .inb wanted)
    let c := c.task (.added .outb) outb.added
    let c := c.task (.added .inb) inb.added
    let c := c.task (.modified .outb) outb.modified
    let c := c.task (.modified .inb) inb.modified
    let c := c.task (.removed .inb) inb.removed
    c.task (.removed .outb) outb.removed

/-- `process::exit`, `handle.cpp:77-120`, with `add::group`, `configuration.cpp:411-421`: a group that dies is started again, if the manager is running. -/
def onExit (c : Mgr) (pid : Nat) : Mgr :=
  let c' := match c.st.groups.find? (Group.isProc pid) with
    | none => c
    | some g =>
      let c' := c.on fun st => { st with groups := st.groups.eraseP (Group.isProc pid) }
      if c.st.level = Level.running then c'.push [(.added g.conf.side [g.conf], .none)] else c'
  c'.msg (.exit pid)

/-- `outbound::connect` and `inbound::connect`, `handle.cpp:124-144,164-184`: the group is told its configuration. -/
def onConnect (c : Mgr) (s : Side) (pid : Nat) : Mgr :=
  c.on fun st => { st with groups := changeFirst (fun g => g.conf.side == s && g.pid == pid) (fun g => { g with ipc := true, told := some g.conf }) st.groups }

/-- `configuration::update::request`, `handle.cpp:221-250`. -/
def onUpdate (c : Mgr) (corr : Nat) (wanted : List Conf) : Mgr :=
  let c := c.on fun st => { st with level := if st.level = Level.running then .configuring else st.level }
  (conform c wanted).push [(.reply corr, .none)]

/-- `handle::shutdown`, `handle.cpp:40-50`. -/
def onShutdown (c : Mgr) : Mgr := conform (c.on fun st => { st with level := .shutdown }) []

/-- What happens to the gateway manager. -/
inductive Ev where
  | exit (pid : Nat)
  | connect (s : Side) (pid : Nat)
  | reply (s : Side) (pid : Nat)
  | update (corr : Nat) (wanted : List Conf)
  | shutdown
  deriving DecidableEq, Repr

/-- `State::done`, `state.cpp:64-72`: the manager ends. -/
def State.done (st : State) : Bool := st.level = .shutdown && st.groups.isEmpty

/-- The handlers: `handle.cpp:271-286`, until the manager is done: `main.cpp:52-57`. -/
def step (c : Mgr) (e : Ev) : Mgr :=
  if c.st.done then c
  else match e with
    | .exit pid => onExit c pid
    | .connect s pid => onConnect c s pid
    | .reply s pid => c.msg (.reply s pid)
    | .update corr wanted => onUpdate c corr wanted
    | .shutdown => onShutdown c

/-- The boot procedure: `main.cpp:68-102`. -/
def boot (fails : List Bool) (wanted : List Conf) : Mgr := (conform { st := { fails := fails } } wanted).push [(.booted, .none)]

/-- Any number of events. -/
def run (c : Mgr) (es : List Ev) : Mgr := es.foldl step c

end Casual.GConf
