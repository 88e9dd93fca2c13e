import Verif.Task.Model
import Verif.Config.Change
/-
  The configuration of the transaction manager: which resources there are, with how many resource proxy processes each, and which servers use which resources; at boot, when the
  configuration is updated and at shutdown. `middleware/transaction/source/manager/configuration.cpp`, `state.cpp`, `handle.cpp`, on the task coordinator of `Task`.
  Simplified: each resource has a name; numbers of instances are not negative; the system configuration does not change; the transaction log is left out, and what resource proxies do
  (`TM`). Processes are spawned with pids that have not been used before. `std::partition` in `Proxy::shutdownable` is taken to be stable.
-/
namespace Casual.TConf
open Casual.Task

/-- `configuration::model::transaction::Resource`: `middleware/configuration/include/configuration/model.h:315-335`. `info` is the rest of it. -/
structure Res where
  name : Nat
  key : Nat
  instances : Nat := 1
  info : Nat := 0
  deriving DecidableEq, Repr

/-- `configuration::model::transaction::Model` with its mappings: `model.h:338-370`. -/
structure Model where
  resources : List Res := []
  mappings : List (Nat × List Nat) := []
  deriving DecidableEq, Repr

/-- `proxy::instance::State`: `middleware/transaction/include/transaction/manager/state.h:72-78`. -/
inductive IState where
  | spawned | idle | busy | shutdown
  deriving DecidableEq, Repr

/-- `proxy::Instance`: `state.h:82-117`. `told` is ghost: the configuration that it has been told when it asked. -/
structure Inst where
  pid : Nat
  state : IState := .spawned
  told : Option Res := none
  deriving DecidableEq, Repr

/-- `resource::Proxy`: `state.h:121-159`. -/
structure Proxy where
  id : Nat
  conf : Res
  insts : List Inst := []
  deriving DecidableEq, Repr

/-- What is sent, ghost: an instance is asked to stop, an update is answered, a resource could not be spawned, the resources for an alias. -/
inductive Out where
  | stop (pid : Nat)
  | reply (corr : Nat)
  | resources (rs : List Nat)
  deriving DecidableEq, Repr

/-- `State`: `state.h:400-492`. `keys` are the resources of the system configuration; `fails` says which of the next spawns fail. `undef`: something that is undefined has been done; `dead`: an exception has
ended the manager. -/
structure State where
  keys : List Nat := []
  proxies : List Proxy := []
  nextId : Nat := 1
  nextPid : Nat := 1
  fails : List Bool := []
  alias : List (Nat × List Nat) := []
  sent : List Out := []
  undef : Bool := false
  dead : Bool := false
  deriving DecidableEq, Repr

/-- The instance runs, and has not been asked to stop: `state.cpp:107-111`. -/
def Inst.running (i : Inst) : Bool := i.state ≠ .shutdown

/-- How many of them. -/
def Proxy.running (p : Proxy) : Nat := p.insts.countP Inst.running

/-- `Instance::state( State)`, `state.cpp:91-95`: shutdown is not left. -/
def Inst.set (i : Inst) (s : IState) : Inst := if i.state = .shutdown then i else { i with state := s }

/-- `State::find_resource( id)`, `state.cpp:277-283`. -/
def State.find (st : State) (id : Nat) : Option Proxy := st.proxies.find? (·.id == id)

/-- `State::find_resource( name)`, `state.cpp:285-291`. -/
def State.named (st : State) (name : Nat) : Option Proxy := st.proxies.find? (·.conf.name == name)

/-- The proxy with the id is changed. -/
def State.change (st : State) (id : Nat) (f : Proxy → Proxy) : State := { st with proxies := st.proxies.map fun p => if p.id = id then f p else p }

/-- `Proxy::shutdownable`, `state.cpp:116-126`: the pids of those. -/
def Proxy.shutdownable (p : Proxy) : List Nat := ((p.insts.filter Inst.running).drop p.conf.instances).map (·.pid)

/-- `algorithm::partition` in `Proxy::shutdownable`: the instances are reordered. -/
def Proxy.partitioned (p : Proxy) : Proxy := { p with insts := p.insts.filter Inst.running ++ p.insts.filter (!·.running) }

/-- `spawn_instance`, `configuration.cpp:80-104`. -/
def spawn (st : State) (p : Proxy) : State × Option Nat :=
  if p.conf.key ∉ st.keys then (st, none)
  else match st.fails with
    | true :: fs => ({ st with fails := fs }, none)
    | fs => ({ st with fails := fs.tail, nextPid := st.nextPid + 1 }, some st.nextPid)

/-- `algorithm::generate_n( n, spawn)`, `common/algorithm.h:361-374`: those that were spawned. -/
def spawns (p : Proxy) : Nat → State → State × List Nat
  | 0, st => (st, [])
  | n + 1, st =>
    let (st, pid) := spawn st p
    let (st, pids) := spawns p n st
    (st, pid.toList ++ pids)

/-- What is shared between the action and the handlers of a unit: `configuration.cpp:123-126,180-183,232-241`. -/
inductive Body where
  | exits (pids : List Nat)
  | ready (pids : List Nat)
  | restart (id : Nat) (restarts spawned : List Nat)
  | none
  deriving DecidableEq, Repr

/-- The actions. -/
inductive Act where
  | scaleIn (id : Nat)
  | scaleOut (id : Nat)
  | restart (id : Nat)
  | remove (ids : List Nat)
  | mappings (wanted : List (Nat × List Nat))
  | reply (corr : Nat)
  deriving DecidableEq, Repr

/-- The messages that tasks have handlers for. -/
inductive Msg where
  | exit (pid : Nat)
  | ready (pid : Nat)
  deriving DecidableEq, Repr

/-- An instance is asked to stop: `configuration.cpp:145-152,258-263`. -/
def stop (st : State) (id pid : Nat) : State :=
  { st.change id fun p => { p with insts := p.insts.map fun i => if i.pid = pid then i.set .shutdown else i } with sent := st.sent ++ [.stop pid] }

/-- The action of `scale_in_resource`, `configuration.cpp:128-157`. -/
def scaleIn (id : Nat) (b : Body) (st : State) : State × Body × Outcome :=
  match st.find id with
  | none => (st, b, .abort)
  | some p =>
    let st := st.change id Proxy.partitioned
    match p.shutdownable with
    | [] => (st, b, .abort)
    | pids => (pids.foldl (fun st pid => stop st id pid) st, .exits pids, .success)

/-- The action of `scale_out_resource`, `configuration.cpp:185-208`. -/
def scaleOut (id : Nat) (b : Body) (st : State) : State × Body × Outcome :=
  match st.find id with
  | none => (st, b, .abort)
  | some p =>
    match spawns p (p.conf.instances - p.running) st with
    | (st, []) => (st, b, .abort)
    | (st, pids) => (st.change id fun p => { p with insts := p.insts ++ pids.map fun pid => { pid := pid } }, .ready pids, .success)

/-- The action of `restart_resource`, `configuration.cpp:246-267`: the first instance that is to be restarted. -/
def restart (id : Nat) (b : Body) (st : State) : State × Body × Outcome :=
  match b, st.find id with
  | .restart _ restarts _, some p =>
    match p.insts.find? (·.pid ∈ restarts) with
    | none => (st, b, .abort)
    | some i => (stop st id i.pid, b, .success)
  | _, _ => (st, b, .abort)

/-- `remove_action`, `configuration.cpp:499-515`: those that have no instances. -/
def removeAll (ids : List Nat) (st : State) : State :=
  ids.foldl (fun st id => { st with proxies := st.proxies.eraseP fun p => p.id == id && p.insts.isEmpty }) st

/-- `emplace` in a `std::map`. -/
def emplace (m : List (Nat × List Nat)) (k : Nat) (v : List Nat) : List (Nat × List Nat) :=
  if m.any (·.1 == k) then m else m.takeWhile (·.1 < k) ++ (k, v) :: m.dropWhile (·.1 < k)

/-- The action of `alias_configuration`, `configuration.cpp:548-583`. The validation, which only logs, is left out. -/
def setMappings (wanted : List (Nat × List Nat)) (st : State) : State :=
  { st with alias := wanted.foldl (fun m c => emplace m c.1 (c.2.filterMap fun n => (st.named n).map (·.id))) [] }

/-- What the actions do. -/
def act : Act → Body → State → State × Body × Outcome
  | .scaleIn id, b, st => scaleIn id b st
  | .scaleOut id, b, st => scaleOut id b st
  | .restart id, b, st => restart id b st
  | .remove ids, b, st => (removeAll ids st, b, .abort)
  | .mappings wanted, b, st => (setMappings wanted st, b, .abort)
  | .reply corr, b, st => ({ st with sent := st.sent ++ [.reply corr] }, b, .abort)

/-- `exit_handle`, `configuration.cpp:106-118`, and `instance_ready` of `scale_out_resource`, `configuration.cpp:210-221`. -/
def less (mk : List Nat → Body) (pids : List Nat) (pid : Nat) (st : State) : State × Body × Dispatch :=
  let pids := pids.filter (· ≠ pid)
  (st, mk pids, if pids = [] then .done else .pending)

/-- Done if there is nothing left, `configuration.cpp:278,317`. -/
def ifDone (id : Nat) (restarts spawned : List Nat) (st : State) : State × Body × Dispatch :=
  (st, .restart id restarts spawned, if restarts = [] ∧ spawned = [] then .done else .pending)

/-- `instance_exit` of `restart_resource`, `configuration.cpp:273-303`. -/
def restartExit (id : Nat) (restarts spawned : List Nat) (pid : Nat) (st : State) : State × Body × Dispatch :=
  if pid ∉ restarts then ifDone id restarts spawned st
  else
    let restarts := restarts.erase pid
    let done (st : State) (spawned : List Nat) : State × Body × Dispatch := (st, .restart id restarts spawned, .done)
    if restarts = [] ∧ spawned = [] then done st spawned
    else match st.find id with
      | none => done st spawned
      | some p =>
        if p.insts.all (·.pid ≠ pid) then done st spawned
        else match spawn st p with
          | (st, some new) => (st.change id fun p => { p with insts := p.insts.map fun i => if i.pid = pid then { pid := new } else i }, .restart id restarts (spawned ++ [new]), .pending)
          | (st, none) => done st spawned

/-- `instance_ready` of `restart_resource`, `configuration.cpp:305-340`. -/
def restartReady (id : Nat) (restarts spawned : List Nat) (pid : Nat) (st : State) : State × Body × Dispatch :=
  if pid ∉ spawned then ifDone id restarts spawned st
  else
    let spawned := spawned.erase pid
    if restarts = [] then (st, .restart id restarts spawned, .done)
    else match st.find id with
      | none => (st, .restart id restarts spawned, .done)
      | some p =>
        match p.insts.find? (·.pid ∈ restarts) with
        | none => (st, .restart id restarts spawned, .done)
        | some i => (stop st id i.pid, .restart id restarts spawned, .pending)

/-- The handlers of the units. -/
def handle : Body → Msg → Option (State → State × Body × Dispatch)
  | .exits pids, .exit pid => some (less .exits pids pid)
  | .ready pids, .exit pid => some (less .ready pids pid)
  | .ready pids, .ready pid => some (less .ready pids pid)
  | .restart id rs ss, .exit pid => some (restartExit id rs ss pid)
  | .restart id rs ss, .ready pid => some (restartReady id rs ss pid)
  | _, _ => none

/-- The tasks of the transaction manager. -/
def ops : Ops State Msg Act Body := { act := act, handle := handle }

/-- The manager: its state, and the task coordinator. -/
abbrev Mgr := Coord State Act Body

/-- `state.task.coordinator.then( ...)`. -/
def Mgr.push (c : Mgr) (us : List (Act × Body)) : Mgr := Coord.step ops c (.then_ us)

/-- `state.task.coordinator( message)`. -/
def Mgr.msg (c : Mgr) (m : Msg) : Mgr := Coord.step ops c (.msg m)

/-- Something else is done with the state. -/
def Mgr.on (c : Mgr) (f : State → State) : Mgr := Coord.step ops c (.owner f)

/-- The task that scales a resource, if any: `configuration.cpp:370-376,465-471`. -/
def scale (st : State) (id : Nat) : List (Act × Body) :=
  match st.find id with
  | none => []
  | some p => if p.conf.instances > p.running then [(.scaleOut id, .none)] else if p.conf.instances < p.running then [(.scaleIn id, .none)] else []

/-- `added_resources`, `configuration.cpp:383-415`. -/
def added (c : Mgr) (rs : List Res) : Mgr :=
  let rs := rs.filter fun r => r.key ∈ c.st.keys
  let ids := (List.range rs.length).map (c.st.nextId + ·)
  let c := c.on fun st => { st with proxies := st.proxies ++ (rs.zip ids).map fun p => { id := p.2, conf := p.1 }, nextId := st.nextId + rs.length }
  c.push (ids.flatMap (scale c.st))

/-- `modified_resources`, `configuration.cpp:427-454`: the resources with those instances that are to be restarted. -/
def contexts : List Res → State → State × List (Nat × List Nat)
  | [], st => (st, [])
  | r :: rs, st =>
    match st.named r.name with
    | none => contexts rs st
    | some p =>
      let less := p.conf.instances - r.instances
      let st := st.change p.id fun p => { p with conf := r }
      let st := if less > p.insts.length then { st with undef := true } else st
      let (st, cs) := contexts rs st
      (st, (p.id, (p.insts.take (p.insts.length - less)).map (·.pid)) :: cs)

/-- `modified_resources`, `configuration.cpp:417-483`. -/
def modified (c : Mgr) (rs : List Res) : Mgr :=
  let (st, cs) := contexts rs c.st
  let c := c.on fun _ => st
  let scales := cs.flatMap fun x => scale c.st x.1
  let c := if scales = [] then c else c.push scales
  let restarts := cs.filterMap fun x => if x.2 = [] then none else some (Act.restart x.1, Body.restart x.1 x.2 [])
  if restarts = [] then c else c.push restarts

/-- `removed_resources`, `configuration.cpp:485-521`. -/
def removed (c : Mgr) (rs : List Res) : Mgr :=
  let ids := rs.filterMap fun r => (c.st.named r.name).map (·.id)
  let c := c.on fun st => ids.foldl (fun st id => st.change id fun p => { p with conf := { p.conf with instances := 0 } }) st
  if ids = [] then c
  else (c.push (ids.flatMap (scale c.st))).push [(.remove ids, .none)]

/-- `State::configuration`, `state.cpp:401-424`: the mappings; `none` for what is not there any more. -/
def State.mappings (st : State) : List (Nat × List (Option Nat)) := st.alias.map fun a => (a.1, a.2.map fun id => (st.find id).map (·.conf.name))

/-- `configuration::conform`, `configuration.cpp:524-539,595-617`. -/
def conform (c : Mgr) (wanted : Model) : Mgr :=
  let current := c.st.mappings
  let change := Casual.Config.calculate Res.name (c.st.proxies.map (·.conf)) wanted.resources
  let c := if change.added = [] then c else added c change.added
  let c := if change.modified = [] then c else modified c change.modified
  let c := if change.removed = [] then c else removed c change.removed
  if current = wanted.mappings.map fun a => (a.1, a.2.map some) then c else c.push [(.mappings wanted.mappings, .none)]

/-- `event::process::exit`, `handle.cpp:1124-1138`: an instance that exits is removed, and the domain manager is told; it tells everybody, and then the tasks get to know it. -/
def onExit (c : Mgr) (pid : Nat) : Mgr :=
  if c.st.proxies.any fun p => p.insts.any (·.pid = pid) then
    c.on fun st => { st with proxies := st.proxies.map fun p => { p with insts := p.insts.filter (·.pid ≠ pid) } }
  else c.msg (.exit pid)

/-- `resource::configuration::request`, `handle.cpp:1051-1068`: an instance asks for the configuration of its resource. -/
def onAsk (c : Mgr) (id pid : Nat) : Mgr :=
  match c.st.find id with
  | none => c.on fun st => { st with dead := true }
  | some _ => c.on fun st => st.change id fun p => { p with insts := p.insts.map fun i => if i.pid = pid then { i with told := some p.conf } else i }

/-- `resource::ready`, `handle.cpp:1072-1086`. -/
def onReady (c : Mgr) (id pid : Nat) : Mgr :=
  let c := c.msg (.ready pid)
  if c.st.proxies.any fun p => p.id = id ∧ p.insts.any (·.pid = pid) then
    c.on fun st => st.change id fun p => { p with insts := p.insts.map fun i => if i.pid = pid then i.set .idle else i }
  else c.on fun st => { st with dead := true }

/-- `configuration::update::request`, `handle.cpp:1232-1262`. -/
def onUpdate (c : Mgr) (corr : Nat) (m : Model) : Mgr := (conform c m).push [(.reply corr, .none)]

/-- `State::configuration( alias::Request)`, `state.cpp:354-399`: the resources by name, and those of the alias; nothing if there is an exception. Sorted, and each once: left out. -/
def State.aliasReply (st : State) (alias : Nat) (names : List Nat) : Option (List Nat) :=
  let named := (st.proxies.filter fun p => p.conf.name ∈ names).map (·.id)
  match st.alias.find? (·.1 == alias) with
  | none => some named
  | some a => if a.2.all fun id => (st.find id).isSome then some (named ++ a.2) else none

/-- `configuration::alias::request`, `handle.cpp:1213-1228`. -/
def onAlias (c : Mgr) (alias : Nat) (names : List Nat) : Mgr :=
  match c.st.aliasReply alias names with
  | some ids => c.on fun st => { st with sent := st.sent ++ [.resources ids] }
  | none => c.on fun st => { st with dead := true }

/-- What happens to the transaction manager. -/
inductive Ev where
  | exit (pid : Nat)
  | ask (id pid : Nat)
  | ready (id pid : Nat)
  | update (corr : Nat) (m : Model)
  | alias (alias : Nat) (names : List Nat)
  | shutdown
  deriving DecidableEq, Repr

/-- The handlers: `handle.cpp:1361-1389`. `shutdown` conforms to nothing: `handle.cpp:1308-1317`. -/
def step (c : Mgr) (e : Ev) : Mgr :=
  if c.st.dead then c
  else match e with
    | .exit pid => onExit c pid
    | .ask id pid => onAsk c id pid
    | .ready id pid => onReady c id pid
    | .update corr m => onUpdate c corr m
    | .alias a ns => onAlias c a ns
    | .shutdown => conform c {}

/-- `configure`, `main.cpp:61-78`. The task that connects to the domain is left out. -/
def boot (keys : List Nat) (fails : List Bool) (m : Model) : Mgr := conform { st := { keys := keys, fails := fails } } m

/-- Any number of events. -/
def run (c : Mgr) (es : List Ev) : Mgr := es.foldl step c

end Casual.TConf
