import Verif.Task.Model
import Verif.DManager.Order

/-
  Model of the domain manager: `middleware/domain/source/manager/state.cpp`,
  `handle.cpp`, `task/create.cpp` and `main.cpp` (all under
  `middleware/domain/source/manager`), with `state.h` in
  `middleware/domain/include/domain/manager`.

  What is modelled: the entities (servers and executables) and their instances, scaling,
  spawning and stopping, the boot, the shutdown, the tasks that scale and restart (on the
  task coordinator of `Verif/Task/Model.lean`), connects, singletons, lookups,
  assassinations and the manager's own queue.

  Simplifications.
  * A process is a number and 0 is the null process; in the code the null value is -1, and that
    is what is handed to `kill` where the model says `terminate 0`.  The same goes for ipc
    handles and for the identification of singletons.
  * Paths, arguments, environments, notes, spawn times and counters are left out, as are
    the subscribers of events: an event is an item of the log.
  * What the system answers to the `n`-th spawn is a parameter: the pid, or a failure.
  * The handler of an exit is invoked at any time: in the code the signal handler puts it
    on the manager's own queue (`handle.cpp:477-484`) and it is handled in its turn.
  * Runtime configuration (`configuration.cpp`) is not modelled, nor is `bare`.
  * `log` is ghost: what came in and what went out, in order; nothing reads it.
-/
namespace Casual.DManager

open Casual.Task

abbrev Pid := Nat
abbrev Ipc := Nat
abbrev Alias := Nat
/-- The identification of a singleton; 0: none. -/
abbrev Ident := Nat

/-- `process::Handle`, `middleware/common/include/common/process.h:33-60`. -/
structure Handle where
  pid : Pid := 0
  ipc : Ipc := 0
deriving DecidableEq, Repr

/-- `Handle::operator bool`, `process.h:54`. -/
def Handle.ok (h : Handle) : Bool := h.pid ≠ 0 && h.ipc ≠ 0

/-- `instance::Phase`, `state.h:143-149`. -/
inductive Phase where
  | running | exit | disabled | error
deriving DecidableEq, Repr

/-- `instance::State`, `state.h:130-140`. -/
inductive IState where
  | disabled | running | spawned | scaleOut | scaleIn | exit | error
deriving DecidableEq, Repr

/-- `Instance`, `state.h:154-184`. -/
structure Inst where
  handle : Handle := {}
  wanted : Phase := .running
deriving DecidableEq, Repr

/-- `Executable::instance_policy::state`, `state.cpp:146-160`, and
`Server::instance_policy::state`, `state.cpp:233-247`. -/
def Inst.state (k : Kind) (i : Inst) : IState :=
  let alive := match k with
    | .server => i.handle.ok
    | .executable => decide (i.handle.pid ≠ 0)
  match i.wanted with
  | .running => if alive then .running else if i.handle.pid ≠ 0 then .spawned else .scaleOut
  | .exit => if alive then .scaleIn else .exit
  | .disabled => if alive then .scaleIn else .disabled
  | .error => .error

/-- `Process`, `Server` and `Executable`, `state.h:77-263`. -/
structure Entity where
  id : EId
  alias_ : Alias
  memberships : List Gid
  restart : Bool := false
  enabled : Bool := true
  instances : List Inst := []
deriving DecidableEq, Repr

/-- `set_scale_keep`, `state.cpp:100-106`. -/
def keepPhase (enabled : Bool) : Phase := if enabled then .running else .disabled

/-- `local::scale`, `state.cpp:94-140`. -/
def Entity.scale (e : Entity) (count : Nat) : Entity :=
  if e.instances.length < count then
    let all := e.instances ++ List.replicate (count - e.instances.length) ({} : Inst)
    { e with instances := all.map fun i => { i with wanted := keepPhase e.enabled } }
  else
    let sorted := e.instances.filter (fun i => i.state e.id.kind = .running) ++
      e.instances.filter (fun i => i.state e.id.kind ≠ .running)
    let keep := (sorted.take count).map fun i => { i with wanted := keepPhase e.enabled }
    let exit := (sorted.drop count).map fun i => { i with wanted := .exit }
    { e with instances := keep ++ exit.filter fun i => i.state e.id.kind ≠ .exit }

/-- `Executable::remove`, `state.cpp:188-225`, and `Server::remove`, `state.cpp:254-286`: the
first instance with the pid. -/
def removeInst (restart : Bool) (pid : Pid) : List Inst → List Inst
  | [] => []
  | i :: is =>
    if i.handle.pid = pid then
      match i.wanted with
      | .exit => is
      | .running => { handle := {}, wanted := if restart then .running else .exit } :: is
      | .disabled => { i with handle := {} } :: is
      | .error => { i with handle := {} } :: is
    else i :: removeInst restart pid is

/-- `Server::connect`, `state.cpp:288-296`: the first instance with the pid. -/
def connectInst (h : Handle) : List Inst → List Inst
  | [] => []
  | i :: is => if i.handle.pid = h.pid then { i with handle := h } :: is else i :: connectInst h is

/-- The entity has an instance with the pid: `Server::instance`, `state.cpp:249-252`,
`operator ==`, `state.cpp:227-231`, `:324-327`. -/
def Entity.has (e : Entity) (pid : Pid) : Bool := e.instances.any fun i => i.handle.pid = pid

/-- `algorithm::sorted::subrange`, `middleware/common/include/common/algorithm/sorted.h:183-189`:
before, the first series, and after. -/
def series (p : Inst → Bool) (is : List Inst) : List Inst × List Inst × List Inst :=
  let pre := is.takeWhile fun i => !p i
  let rest := is.dropWhile fun i => !p i
  (pre, rest.takeWhile p, rest.dropWhile p)

/-- `shutdownable`, `state.cpp:88-93`. -/
def Entity.shutdownable (e : Entity) : List Inst :=
  (series (fun i => i.state e.id.kind = .scaleIn) e.instances).2.1

/-- `state::Runlevel`, `state.h:345-351`. -/
inductive Runlevel where
  | startup | running | shutdown | error
deriving DecidableEq, Repr

def Runlevel.toNat : Runlevel → Nat
  | .startup => 0 | .running => 1 | .shutdown => 2 | .error => 3

/-- `common::state::Machine::operator =`, `middleware/common/include/common/state/machine.h:23-29`. -/
def Runlevel.raise (current wanted : Runlevel) : Runlevel :=
  if current.toNat < wanted.toNat then wanted else current

/-- A lookup, `middleware/common/include/common/message/domain.h:163-178`. -/
structure Lookup where
  requester : Handle
  corr : Nat
  ident : Ident := 0
  pid : Pid := 0
  direct : Bool := false
deriving DecidableEq, Repr

/-- The contract of an assassination. -/
inductive Contract where
  | linger | interrupt | kill | abort
deriving DecidableEq, Repr

/-- What arrives.  `own` is the next message of those the manager has pushed to itself. -/
inductive Input where
  | own
  | exit (pid : Pid)
  | connect (h : Handle) (singleton : Ident) (whitelist : Bool)
  | prepareReply (processes : List Handle)
  | lookup (l : Lookup)
  | scale (aliases : List (Alias × Nat))
  | restartAliases (aliases : List Alias)
  | restartGroups (names : List Gid)
  | shutdown
  | fatal
  | assassinate (target : Pid) (contract : Contract)
deriving DecidableEq, Repr

/-- Ghost: what happened. -/
inductive Item where
  | inp (i : Input)
  /-- `process::spawn` gave a process -/
  | spawned (e : EId) (pid : Pid)
  | spawnFailed (e : EId)
  /-- `process::terminate`, that is `kill( pid, SIGTERM)` -/
  | terminate (pid : Pid)
  /-- the service manager is asked to prepare the shutdown of processes -/
  | prepare (processes : List Handle)
  /-- no service manager: the manager answers itself -/
  | prepareOwn (processes : List Handle)
  /-- a shutdown request is sent -/
  | shutdownReq (h : Handle)
  /-- it is decided that a process may connect -/
  | admitted (h : Handle) (singleton : Ident) (whitelist : Bool)
  /-- the answers to a process that connects -/
  | approved (h : Handle) (singleton : Ident)
  | denied (h : Handle) (singleton : Ident)
  | lookupReply (l : Lookup) (h : Handle)
  | signal (pid : Pid) (contract : Contract)
  | scaled (ms : List EId)
  | restarted (e : EId)
  | bootDone
  | done (what : Nat)
deriving DecidableEq, Repr

/-- The messages the manager pushes to itself: `handle.cpp:91-102`, `:371-376`. -/
inductive Own where
  | spawn (alias_ : Alias) (pids : List Pid)
  | prepareReply (processes : List Handle)
deriving DecidableEq, Repr

/-- `State`, `state.h:358-...`, without the tasks. -/
structure Core where
  runlevel : Runlevel := .startup
  /-- `servers` and `executables` -/
  entities : List Entity
  groups : List Group
  manager : EId
  singletons : List (Ident × Handle) := []
  whitelisted : List Pid := []
  grandchildren : List Handle := []
  lookups : List Lookup := []
  own : List Own := []
  spawns : Nat := 0
  log : List Item := []
deriving DecidableEq, Repr

/-- What the rest of the system decides. -/
structure Lib where
  /-- what `process::spawn` gives the `n`-th time -/
  spawn : Nat → Option Pid
  /-- `std::stable_sort` with `less` -/
  sort : List Group → List Group

/-- The messages the tasks listen to. -/
inductive Msg where
  | exit (pid : Pid)
  | spawn (alias_ : Alias) (pids : List Pid)
  | connect (pid : Pid)
deriving DecidableEq, Repr

/-- The actions of the units. -/
inductive Act where
  | scale (ms : List EId)
  | bootDone
  | event (what : Nat)
  | restart (e : EId)
deriving DecidableEq, Repr

/-- What a unit shares between its action and its handlers. -/
inductive Body where
  | idle
  | scale (ms : List EId)
  | restart (e : EId) (origin : Bool) (processes : List Handle) (fresh : List Pid)
deriving DecidableEq, Repr

abbrev Unit_ := TUnit Act Body
abbrev State := Coord Core Act Body

/-- `communication::instance::identity::service::manager`. -/
def serviceManager : Ident := 1

/-- `State::entity`, `state.cpp:482-499`. -/
def Core.find (c : Core) (id : EId) : Option Entity := c.entities.find? fun e => e.id = id

/-- A write to an entity. -/
def Core.modify (c : Core) (id : EId) (f : Entity → Entity) : Core :=
  { c with entities := c.entities.map fun e => if e.id = id then f e else e }

def Core.say (c : Core) (items : List Item) : Core := { c with log := c.log ++ items }

/-- `State::server( pid)` and `State::executable( pid)`, `state.cpp:396-431`: the first
of the kind with the pid. -/
def Core.byPid (c : Core) (k : Kind) (pid : Pid) : Option Entity :=
  c.entities.find? fun e => decide (e.id.kind = k) && e.has pid

/-- `State::singleton( id)`, `state.cpp:548-553`. -/
def Core.singleton (c : Core) (x : Ident) : Option Handle := c.singletons.lookup x

/-- `scale::shutdown`, `handle.cpp:352-381`. -/
def Core.shutdownProcs (c : Core) (processes : List Handle) : Core :=
  match c.singleton serviceManager with
  | some h =>
    if h.ok then c.say [.prepare processes]
    else ({ c with own := c.own ++ [.prepareReply processes] } : Core).say [.prepareOwn processes]
  | none => ({ c with own := c.own ++ [.prepareReply processes] } : Core).say [.prepareOwn processes]

/-- `local::scale::in`, `handle.cpp:107-145`. -/
def Core.scaleIn (c : Core) (e : Entity) : Core :=
  let hs := e.shutdownable.reverse.map (·.handle)
  if hs.isEmpty then c
  else match e.id.kind with
    | .executable => c.say (hs.map fun h => .terminate h.pid)
    | .server => c.shutdownProcs hs

/-- The loop of `local::scale::out`, `handle.cpp:67-88`: the instances, the pids of those that
got one, and what happened. -/
def spawnAll (lib : Lib) (e : EId) : Nat → List Inst → List Inst × List Pid × List Item
  | _, [] => ([], [], [])
  | n, i :: is =>
    let r := spawnAll lib e (n + 1) is
    match lib.spawn n with
    | some pid => ({ i with handle := { i.handle with pid := pid } } :: r.1, pid :: r.2.1, .spawned e pid :: r.2.2)
    | none => ({ i with wanted := .error } :: r.1, r.2.1, .spawnFailed e :: r.2.2)

/-- `spawnable`, `state.cpp:80-86`, `:162-165`, `:298-304`: not const, so it is only a server
that is asked whether it is enabled. -/
def Entity.spawnable (e : Entity) : List Inst × List Inst × List Inst :=
  if e.id.kind = .server ∧ e.enabled = false then (e.instances, [], [])
  else series (fun i => i.state e.id.kind = .scaleOut) e.instances

/-- `local::scale::out`, `handle.cpp:52-105`. -/
def Core.scaleOut (lib : Lib) (c : Core) (e : Entity) : Core :=
  let s := e.spawnable
  if s.2.1.isEmpty then c
  else
    let r := spawnAll lib e.id c.spawns s.2.1
    let c := c.modify e.id fun e => { e with instances := s.1 ++ r.1 ++ s.2.2 }
    ({ c with spawns := c.spawns + s.2.1.length, own := c.own ++ [.spawn e.alias_ r.2.1] } : Core).say r.2.2

/-- `scale::instances`, `handle.cpp:388-398`. -/
def Core.scaleInstances (lib : Lib) (c : Core) (id : EId) : Core :=
  match c.find id with
  | some e => (c.scaleIn e).scaleOut lib e
  | none => c

/-- `group::scale`, `create.cpp:360-379`. -/
def Core.scaleMembers (lib : Lib) (c : Core) (ms : List EId) : Core := ms.foldl (Core.scaleInstances lib) c

/-- `is_done`, `create.cpp:386-393`. -/
def Entity.settled (e : Entity) : Bool :=
  e.instances.all fun i => match i.state e.id.kind with
    | .running | .exit | .disabled | .error => true
    | _ => false

/-- `group_done`, `create.cpp:382-414`. -/
def Core.settled (c : Core) (ms : List EId) : Bool :=
  ms.all fun id => match c.find id with
    | some e => e.settled
    | none => true

/-- `range::back`, on what is not empty. -/
def Core.stopLast (c : Core) (k : Kind) (processes : List Handle) : Core :=
  match processes.getLast? with
  | none => c
  | some h => match k with
    | .server => c.shutdownProcs [h]
    | .executable => c.say [.terminate h.pid]

/-- The actions: `create.cpp:421-443` (scale), `handle.cpp:258-273` (boot),
`create.cpp:30-60` (event), `create.cpp:117-140` and `:217-240` (restart). -/
def act (lib : Lib) (a : Act) (b : Body) (c : Core) : Core × Body × Outcome :=
  match a with
  | .scale ms =>
    let c := c.scaleMembers lib ms
    if c.settled ms then (c.say [.scaled ms], .scale ms, .abort) else (c, .scale ms, .success)
  | .bootDone => (({ c with runlevel := c.runlevel.raise .running } : Core).say [.bootDone], b, .abort)
  | .event w => (c.say [.done w], b, .abort)
  | .restart id =>
    match c.find id with
    | none => (c, b, .abort)
    | some e =>
      let hs := e.instances.map (·.handle)
      if hs.isEmpty then (c, b, .abort)
      else
        let c := c.modify id fun e => { e with restart := true }
        (c.stopLast id.kind hs, .restart id e.restart hs [], .success)

/-- `send_done_event`, `create.cpp:101-114`, `:202-215`. -/
def Core.restartDone (c : Core) (id : EId) (origin : Bool) : Core :=
  (c.modify id fun e => { e with restart := origin }).say [.restarted id]

/-- The first with the pid is erased. -/
def eraseProc (pid : Pid) : List Handle → List Handle
  | [] => []
  | h :: hs => if h.pid = pid then hs else h :: eraseProc pid hs

/-- When a fresh process of a server has connected, or has ended: `create.cpp:147-158`,
`:172-184`. -/
def freshGone (id : EId) (origin : Bool) (processes : List Handle) (fresh : List Pid) (pid : Pid) (c : Core) :
    Core × Body × Dispatch :=
  if fresh.contains pid then
    let fresh := fresh.erase pid
    if fresh.isEmpty && processes.isEmpty then
      (c.restartDone id origin, .restart id origin processes fresh, .done)
    else (c.stopLast .server processes, .restart id origin processes fresh, .pending)
  else (c, .restart id origin processes fresh, .pending)

/-- The handlers: `create.cpp:444-456` (scale), `:142-186` (restart of a server), `:242-264`
(restart of an executable). -/
def handle (b : Body) (m : Msg) : Option (Core → Core × Body × Dispatch) :=
  match b with
  | .idle => none
  | .scale ms => some fun c =>
    if c.settled ms then (c.say [.scaled ms], .scale ms, .done) else (c, .scale ms, .pending)
  | .restart id origin processes fresh =>
    match id.kind, m with
    | .server, .exit pid => some (freshGone id origin (eraseProc pid processes) fresh pid)
    | .server, .spawn a pids => some fun c =>
      match c.find id with
      | some e => (c, .restart id origin processes (if e.alias_ = a then fresh ++ pids else fresh), .pending)
      | none => (c, .restart id origin processes fresh, .pending)
    | .server, .connect pid => some (freshGone id origin processes fresh pid)
    | .executable, .exit pid => some fun c => (c, .restart id origin (eraseProc pid processes) fresh, .pending)
    | .executable, .spawn a _ => some fun c =>
      match c.find id with
      | some e =>
        if e.alias_ = a then
          if processes.isEmpty then (c.restartDone id origin, .restart id origin processes fresh, .done)
          else (c.stopLast .executable processes, .restart id origin processes fresh, .pending)
        else (c, .restart id origin processes fresh, .pending)
      | none => (c, .restart id origin processes fresh, .pending)
    | .executable, .connect _ => none

/-- The closures of the tasks of the domain manager. -/
def ops (lib : Lib) : Ops Core Msg Act Body where
  act := act lib
  handle := handle

/-- `state.tasks( message)`. -/
def State.tasks (lib : Lib) (s : State) (m : Msg) : State := s.step (ops lib) (.msg m)

/-- `state.tasks.then( groups)`. -/
def State.thenAll (lib : Lib) (s : State) (gs : List (List (Act × Body))) : State :=
  gs.foldl (fun s g => s.step (ops lib) (.then_ g)) s

/-- A write to the state of the manager. -/
def State.on (s : State) (f : Core → Core) : State := { s with st := f s.st }

/-- What the orders need to know. -/
def Core.members (c : Core) : List Member := c.entities.map fun e => ⟨e.id, e.memberships⟩

/-- `scale::groups`, `create.cpp:466-486`. -/
def scaleGroups (bs : List Batch) : List (List (Act × Body)) := bs.map fun b => [(.scale b.members, .idle)]

/-- `restart::groups`, `create.cpp:325-343`. -/
def restartGroups (bs : List (List EId)) : List (List (Act × Body)) :=
  bs.map fun b => b.map fun id => (.restart id, .idle)

/-- `handle::boot`, `handle.cpp:233-277`. -/
def State.boot (lib : Lib) (s : State) : State :=
  s.thenAll lib (scaleGroups (bootOrder lib.sort s.st.groups s.st.members s.st.manager) ++ [[(.bootDone, .idle)]])

/-- `handle::shutdown`, `handle.cpp:279-309`. -/
def State.shutdown (lib : Lib) (s : State) : State :=
  let s := s.on fun c => { c with runlevel := c.runlevel.raise .shutdown }
  let s : State := s.step (ops lib) .cancel
  let s := s.on fun c => { c with entities := c.entities.map fun e => if e.id = c.manager then e else e.scale 0 }
  s.thenAll lib (scaleGroups (shutdownOrder lib.sort s.st.groups s.st.members s.st.manager) ++ [[(.event 0, .idle)]])

/-- `State::untouchable`, `state.cpp:563-576`. -/
def Core.untouchable (c : Core) (e : Entity) : Bool := c.whitelisted.any fun p => e.has p

/-- `sort` and `unique`. -/
def insertUniq (a : Alias) : List Alias → List Alias
  | [] => [a]
  | b :: bs => if a = b then b :: bs else if a < b then a :: b :: bs else b :: insertUniq a bs

/-- `State::server( alias)` and `State::executable( alias)`, `state.cpp:433-446`. -/
def Core.byAlias (c : Core) (k : Kind) (a : Alias) : Option Entity :=
  c.entities.find? fun e => decide (e.id.kind = k) && decide (e.alias_ = a)

/-- One alias of `State::scalables`, `state.cpp:523-529`. -/
def Core.scalable (c : Core) (a : Alias) : Option Entity :=
  match (c.byAlias .server a).filter (fun e => !c.untouchable e) with
  | some e => some e
  | none => (c.byAlias .executable a).filter (fun e => !c.untouchable e)

/-- `State::scalables`, `state.cpp:519-533`: the servers and then the executables. -/
def Core.scalables (c : Core) (aliases : List Alias) : List EId :=
  let es := (aliases.foldr insertUniq []).filterMap c.scalable
  (es.filter fun e => e.id.kind = .server).map (·.id) ++ (es.filter fun e => e.id.kind = .executable).map (·.id)

/-- The preparation of `scale::aliases`, `handle.cpp:323-336`. -/
def Core.scaleRequested (aliases : List (Alias × Nat)) (c : Core) (id : EId) : Core :=
  c.modify id fun e => match aliases.lookup e.alias_ with
    | some n => e.scale n
    | none => e

/-- `scale::aliases`, `handle.cpp:314-350`. -/
def State.scale (lib : Lib) (s : State) (aliases : List (Alias × Nat)) : State :=
  let ids := s.st.scalables (aliases.map (·.1))
  let s := s.on fun c => ids.foldl (Core.scaleRequested aliases) c
  s.thenAll lib [[(.scale ids, .idle)], [(.event 1, .idle)]]

/-- `restart::aliases`, `handle.cpp:404-423`. -/
def State.restart (lib : Lib) (s : State) (aliases : List Alias) : State :=
  s.thenAll lib (restartGroups [s.st.scalables aliases] ++ [[(.event 2, .idle)]])

/-- `filter_groups` and `filter_untouchables`, `handle.cpp:430-450`.  The predicate of the second
gets a copy of the batch, so it erases the batches that have nothing but
untouchables and leaves the others as they are: it is true when there is nothing left of
both. -/
def Core.restartable (c : Core) (names : List Gid) (bs : List Batch) : List Batch :=
  let bs := if names.isEmpty then bs else bs.filter fun b => names.contains b.group
  bs.filter fun b => !(b.members.all fun id => match c.find id with
    | some e => c.untouchable e
    | none => true)

/-- `restart::groups`, `handle.cpp:425-472`. -/
def State.restartBatches (lib : Lib) (s : State) (names : List Gid) : State :=
  let bs := s.st.restartable names (shutdownOrder lib.sort s.st.groups s.st.members s.st.manager)
  s.thenAll lib (restartGroups (bs.map (·.members)) ++ [[(.event 3, .idle)]])

/-- The handler of the reply of the service manager, `handle.cpp:539-557`. -/
def Core.prepared (c : Core) (processes : List Handle) : Core :=
  c.say (processes.map fun h => if h.ipc ≠ 0 then .shutdownReq h else .terminate h.pid)

/-- `pair.second == pid` is erased from the singletons: the first, `state.cpp:342-353`. -/
def eraseSingleton (pid : Pid) : List (Ident × Handle) → List (Ident × Handle)
  | [] => []
  | x :: xs => if x.2.pid = pid then xs else x :: eraseSingleton pid xs

/-- `State::remove`, `state.cpp:330-392`, up to the entities. -/
def Core.forget (c : Core) (pid : Pid) : Core :=
  { c with
    whitelisted := c.whitelisted.filter (· ≠ pid)
    lookups := c.lookups.filter fun l => l.requester.pid ≠ pid
    singletons := eraseSingleton pid c.singletons }

/-- `State::remove`, `state.cpp:330-392`: the state, and the entity to scale. -/
def Core.remove (c : Core) (pid : Pid) : Core × Option EId :=
  let c := c.forget pid
  let r := match c.byPid .server pid with
    | some e => (c.modify e.id fun e => { e with instances := removeInst e.restart pid e.instances },
        if e.restart && decide (c.runlevel = Runlevel.running) then some e.id else none)
    | none => (c, none)
  match r.2 with
  | some id => (r.1, some id)
  | none =>
    let c := r.1
    let r := match c.byPid .executable pid with
      | some e => (c.modify e.id fun e => { e with instances := removeInst e.restart pid e.instances },
          if e.restart && decide (c.runlevel = Runlevel.running) then some e.id else none)
      | none => (c, none)
    match r.2 with
    | some id => (r.1, some id)
    | none => ({ r.1 with grandchildren := eraseProc pid r.1.grandchildren }, none)

/-- The handler of an exit, `handle.cpp:619-665`. -/
def State.exit (lib : Lib) (s : State) (pid : Pid) : State :=
  let r := s.st.remove pid
  let c := match r.2 with
    | some id => r.1.scaleInstances lib id
    | none => r.1
  State.tasks lib { s with st := c } (.exit pid)

/-- `lookup::pid`, `handle.cpp:795-803`. -/
def Core.handleOf (c : Core) (pid : Pid) : Handle :=
  match c.byPid .server pid with
  | some e => ((e.instances.find? fun i => i.handle.pid = pid).map (·.handle)).getD {}
  | none => (c.grandchildren.find? fun h => h.pid = pid).getD {}

/-- `reply_direct`, `handle.cpp:817-820`. -/
def Core.replyDirect (c : Core) (l : Lookup) : Bool :=
  l.direct || decide (Runlevel.running.toNat < c.runlevel.toNat)

/-- `lookup::request`, `handle.cpp:805-856`: what to answer, `none` if it has to wait.  A request
for nothing gets no answer and does not wait. -/
def Core.answer (c : Core) (l : Lookup) : Option (List Item) :=
  if l.ident ≠ 0 then
    match c.singleton l.ident with
    | some h => some [.lookupReply l h]
    | none => if c.replyDirect l then some [.lookupReply l {}] else none
  else if l.pid ≠ 0 then
    let h := c.handleOf l.pid
    if h.ok || c.replyDirect l then some [.lookupReply l h] else none
  else some []

/-- The pending lookups are tried again, `handle.cpp:884`. -/
def Core.retry (c : Core) : Core :=
  ({ c with lookups := c.lookups.filter fun l => (c.answer l).isNone } : Core).say
    (c.lookups.flatMap fun l => (c.answer l).getD [])

/-- `process::detail::connect`, `handle.cpp:872-888`. -/
def State.connected (lib : Lib) (s : State) (h : Handle) : State :=
  (s.on fun c =>
    (match c.byPid .server h.pid with
      | some e => c.modify e.id fun e => { e with instances := connectInst h e.instances }
      | none => { c with grandchildren := c.grandchildren ++ [h] }).retry).tasks lib (.connect h.pid)

/-- What is adjusted when a second singleton connects, `handle.cpp:934-943`. -/
def Core.adjust (c : Core) (pid : Pid) : Core :=
  match c.byPid .server pid with
  | some e => c.modify e.id fun e => ({ e with instances := removeInst e.restart pid e.instances } : Entity).scale 1
  | none => match c.byPid .executable pid with
    | some e => c.modify e.id fun e => ({ e with instances := removeInst e.restart pid e.instances } : Entity).scale 1
    | none => c

/-- `process::connect`, `handle.cpp:985-1014`, with `singleton::connect`, `:913-981`. -/
def State.connect (lib : Lib) (s : State) (h : Handle) (x : Ident) (whitelist : Bool) : State :=
  if Runlevel.running.toNat < s.st.runlevel.toNat then s.on fun c => c.say [.denied h x]
  else if x ≠ 0 ∧ (s.st.singleton x).isSome then
    s.on fun c => (c.adjust h.pid).say [.denied h x]
  else
    let s := s.on fun c => ({ c with
      singletons := if x ≠ 0 then c.singletons ++ [(x, h)] else c.singletons
      whitelisted := if whitelist then c.whitelisted ++ [h.pid] else c.whitelisted } : Core).say [.admitted h x whitelist]
    (s.connected lib h).on fun c => c.say [.approved h x]

/-- `process::lookup`, `handle.cpp:1016-1025`. -/
def Core.lookup (c : Core) (l : Lookup) : Core :=
  match c.answer l with
  | some items => c.say items
  | none => { c with lookups := c.lookups ++ [l] }

/-- `process::assassination`, `handle.cpp:667-710`. -/
def Core.assassinate (c : Core) (target : Pid) (k : Contract) : Core :=
  if k = .linger then c
  else if c.whitelisted.contains target then c
  else c.say [.signal target k]

/-- The next of the manager's own messages: `handle.cpp:601-617`, `:539-557`. -/
def State.own (lib : Lib) (s : State) : State :=
  match s.st.own with
  | [] => s
  | m :: ms =>
    let s := s.on fun c => { c with own := ms }
    match m with
    | .spawn a pids => s.tasks lib (.spawn a pids)
    | .prepareReply processes => s.on fun c => c.prepared processes

/-- `State::execute`, `state.cpp:602-605`, negated: the manager ends. -/
def State.stopped (s : State) : Bool :=
  decide (Runlevel.shutdown.toNat ≤ s.st.runlevel.toNat) && s.conts.isEmpty

/-- The handlers, `handle.cpp:1139-1170`. A null pid never exits, and a process that connects
has a pid and an ipc. -/
def State.handle (lib : Lib) (s : State) : Input → State
  | .own => s.own lib
  | .exit pid => if pid = 0 then s else s.exit lib pid
  | .connect h x w => if h.ok then s.connect lib h x w else s
  | .prepareReply processes => s.on fun c => c.prepared processes
  | .lookup l => s.on fun c => c.lookup l
  | .scale aliases => s.scale lib aliases
  | .restartAliases aliases => s.restart lib aliases
  | .restartGroups names => s.restartBatches lib names
  | .shutdown => s.shutdown lib
  | .fatal =>
    if s.st.runlevel = .startup then
      (s.on fun c => { c with runlevel := c.runlevel.raise .error }).shutdown lib
    else s
  | .assassinate target k => s.on fun c => c.assassinate target k

/-- One turn of the message pump, `main.cpp:162-172`: nothing is handled when the manager has
ended. -/
def State.input (lib : Lib) (s : State) (i : Input) : State :=
  if s.stopped then s
  else (s.on fun c => c.say [.inp i]).handle lib i

/-- How a domain starts: what the configuration gives, `transform.cpp:319-409`, with the
mandatory servers, `handle.cpp:153-229`. -/
structure Setup where
  groups : List Group
  entities : List Entity
  manager : EId
  /-- the handle of the domain manager -/
  self : Handle
deriving DecidableEq, Repr

/-- `initialize`, `main.cpp:76-132`. -/
def State.start (lib : Lib) (u : Setup) : State :=
  State.boot lib { st :=
    { entities := u.entities, groups := u.groups, manager := u.manager, whitelisted := [u.self.pid] } }

/-- A history of the domain manager. -/
def State.run (lib : Lib) (s : State) (is : List Input) : State := is.foldl (State.input lib) s

/-- An entity as the configuration makes it, `transform.cpp:70-90`. -/
def Entity.make (kind : Kind) (num : Nat) (alias_ : Alias) (memberships : List Gid) (restart enabled : Bool)
    (instances : Nat) : Entity :=
  ({ id := ⟨kind, num⟩, alias_ := alias_, memberships := memberships, restart := restart, enabled := enabled } : Entity).scale
    instances

end Casual.DManager
