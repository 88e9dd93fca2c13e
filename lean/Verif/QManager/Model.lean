import Verif.Task.Model
import Verif.Config.Change

/-
  Model of the queue manager, `middleware/queue/source/manager/{handle,state,configuration,
  transform}.cpp` and `queue/include/queue/manager/state.h`: the registry of queues, local
  and remote, lookups, discovery, and the life of the queue groups and forward groups.

  Simplifications.
  * `queues`, an unordered map, is a list of pairs with distinct names; where the code
    iterates over the map, the result does not depend on the order (it is sorted after).
  * `common::process::spawn` gives a fresh pid: the counter `nextPid`.
  * `multiplex.send` returns a null correlation when the destination can not be reached
    (`common/source/communication/ipc/send.cpp:122-150`).  Which destinations can be
    reached is chosen by the environment for each step (`Env`); what is sent to one that
    can not be reached is not in the log.
  * `algorithm::sort` of a handful of instances is modelled as a stable sort.
  * The configurations of a group are its alias, its queues and one opaque value for the
    rest; that of a forward group is its alias and one opaque value.
  * Aliases and descriptions of remotes, the note, metrics and the admin interface are left
    out.
  * `log` is ghost: all inputs and outputs in order; a spawn is recorded with the
    configuration it is for (the process is given the alias, `configuration.cpp:29-32`).
-/
namespace Casual.QManager

open Casual.Task Casual.Config

abbrev Pid := Nat
/-- `strong::ipc::id`; 0 is the null id. -/
abbrev Ipc := Nat
abbrev Corr := Nat
abbrev Name := String

/-- `common::process::Handle`. -/
structure Handle where
  pid : Pid
  ipc : Ipc
deriving DecidableEq, Repr

/-- `configuration::model::queue::Queue::Enable`. -/
structure Enable where
  enqueue : Bool := true
  dequeue : Bool := true
deriving DecidableEq, Repr

/-- `lookup::request::context::Semantic`, `queue/common/ipc/message.h:126-130`. -/
inductive Semantic where
  | direct | wait
deriving DecidableEq, Repr

/-- `lookup::request::context::Requester`, `message.h:142-148`. -/
inductive Requester where
  | internal | external | externalDiscovery
deriving DecidableEq, Repr

/-- `lookup::request::context::Action`, `message.h:161-166`. -/
inductive Action where
  | any | enqueue | dequeue
deriving DecidableEq, Repr

/-- `state::Queue`, `state.h:103-124`: one provider of a queue. -/
structure Inst where
  process : Handle
  queue : Int
  order : Nat
  enable : Enable
deriving DecidableEq, Repr

/-- `queue::remote::queue::id`, the queue id of every remote queue,
`queue/include/queue/common/queue.h:20-23`. -/
def remoteQueueId : Int := -1

/-- `lookup::Request`, `message.h:194-`. -/
structure Lookup where
  corr : Corr
  process : Handle
  name : Name
  semantic : Semantic := .direct
  requester : Requester := .internal
  action : Action := .any
deriving DecidableEq, Repr

/-- `configuration::model::queue::Queue`. -/
structure QueueCfg where
  name : Name
  enable : Enable := {}
deriving DecidableEq, Repr

/-- `configuration::model::queue::Group`. -/
structure GroupCfg where
  alias : Name
  queues : List QueueCfg := []
  rest : Nat := 0
deriving DecidableEq, Repr

/-- `configuration::model::queue::forward::Group`. -/
structure FwdCfg where
  alias : Name
  rest : Nat := 0
deriving DecidableEq, Repr

/-- `configuration::model::queue::Model`. -/
structure Model where
  groups : List GroupCfg := []
  forwards : List FwdCfg := []
deriving DecidableEq, Repr

/-- `state::entity::Lifetime`, `state.h:38-45`. -/
inductive Lifetime where
  | absent | spawned | connected | running | shutdown
deriving DecidableEq, Repr

/-- `group.state >= Lifetime::running`, `state.cpp:251`. -/
def Lifetime.atLeastRunning : Lifetime → Bool
  | .running | .shutdown => true
  | _ => false

/-- `state::Entity< C>`, `state.h:50-69`. -/
structure Entity (C : Type) where
  state : Lifetime := .absent
  process : Handle := ⟨0, 0⟩
  configuration : C
deriving DecidableEq, Repr

/-- `state::Remote`, `state.h:86-100`. -/
structure Remote where
  process : Handle
  order : Nat
deriving DecidableEq, Repr

/-- `state::Runlevel`, `state.h:136-142`. -/
inductive Runlevel where
  | configuring | running | shutdown | error
deriving DecidableEq, Repr

/-- `runlevel > running`. -/
def Runlevel.beyond : Runlevel → Bool
  | .shutdown | .error => true
  | _ => false

/-- `advertise::Directive`, `message.h:66-71`. -/
inductive Directive where
  | update | reset | instance
deriving DecidableEq, Repr

/-- `ipc::message::Advertise`, `message.h:87-116`. -/
structure Advertise where
  process : Handle
  order : Nat
  directive : Directive
  add : List QueueCfg := []
  remove : List Name := []
deriving DecidableEq, Repr

/-- `message::discovery::lookup::Scope`: does the discovery stop at this domain? -/
inductive Scope where
  | internal | extended
deriving DecidableEq, Repr

/-- What a lookup is answered with. -/
structure Found where
  queue : Int
  process : Handle
  order : Nat
deriving DecidableEq, Repr

/-- What the manager receives or does by itself. -/
inductive Input where
  | lookup (l : Lookup)
  | discard (corr : Corr) (process : Handle)
  | groupConnect (process : Handle)
  | groupReply (process : Handle) (queues : List (Name × Int))
  | forwardConnect (process : Handle)
  | forwardReply (process : Handle)
  | advertise (a : Advertise)
  | discoveryLookup (corr : Corr) (process : Handle) (scope : Scope) (names : List Name)
  | discoveryReply (corr : Corr)
  | fetchKnown (corr : Corr) (process : Handle)
  | configUpdate (corr : Corr) (process : Handle) (domainGroups : Nat) (wanted : Model)
  | configRequest (corr : Corr) (process : Handle)
  | shutdown
  /-- the event of the domain manager that a process has exited -/
  | exitEvent (pid : Pid)
  /-- a child of the manager has exited (the child signal) -/
  | childExit (pid : Pid)
  | ipcDestroyed (ipc : Ipc)
  | idle
  /-- the manager leaves its message pump by an exception -/
  | abort
deriving DecidableEq, Repr

/-- What the manager sends or does. -/
inductive Out where
  | lookupReply (dst : Ipc) (corr : Corr) (name : Name) (found : Option Found)
  | discardReply (dst : Ipc) (corr : Corr) (discarded : Bool)
  | discoveryRequest (name : Name) (corr : Corr)
  | discoveryReply (dst : Ipc) (corr : Corr) (content : List QueueCfg) (absent : List Name)
  | knownReply (dst : Ipc) (corr : Corr) (names : List Name)
  | groupUpdate (dst : Ipc) (model : GroupCfg)
  | forwardUpdate (dst : Ipc) (model : FwdCfg) (domainGroups : Option Nat)
  | shutdownRequest (dst : Ipc)
  | terminate (pid : Pid)
  | spawnGroup (pid : Pid) (cfg : GroupCfg)
  | spawnForward (pid : Pid) (cfg : FwdCfg)
  | configReply (dst : Ipc) (corr : Corr) (model : Model)
  | updateReply (dst : Ipc) (corr : Corr)
  | exitEvent (pid : Pid)
  | ready
deriving DecidableEq, Repr

inductive Item where
  | inp (i : Input)
  | out (o : Out)
deriving DecidableEq, Repr

/-- Which destinations can be reached in this step. -/
structure Env where
  reach : Ipc → Bool

/-- `State` but for the task coordinator, `state.h:148-222`. -/
structure Core where
  runlevel : Runlevel := .configuring
  queues : List (Name × List Inst) := []
  pending : List Lookup := []
  groups : List (Entity GroupCfg) := []
  forwards : List (Entity FwdCfg) := []
  remotes : List Remote := []
  domainGroups : Nat := 0
  nextPid : Pid := 1
  log : List Item := []

/-- `state.multiplex.send`. -/
def Core.send (c : Core) (env : Env) (dst : Ipc) (o : Out) : Core :=
  if env.reach dst then { c with log := c.log ++ [.out o] } else c

/-- Something the manager does that is not a message to a process that may be gone. -/
def Core.emit (c : Core) (o : Out) : Core := { c with log := c.log ++ [.out o] }

/-! ### The registry, `state.cpp` -/

/-- Is the instance enabled for the action?  `state.cpp:53-61` and `76-79`. -/
def Inst.enabledFor (i : Inst) : Action → Bool
  | .any => true
  | .enqueue => i.enable.enqueue
  | .dequeue => i.enable.dequeue

/-- `Queue::local`, `state.h:112`. -/
def Inst.isLocal (i : Inst) : Bool := i.order == 0

/-- `Queue::remote`, `state.h:111`. -/
def Inst.isRemote (i : Inst) : Bool := decide (i.order > 0)

/-- `algorithm::find( queues, name)`: the providers, none when the name is not known. -/
def Core.instances (c : Core) (n : Name) : List Inst :=
  match c.queues.find? (·.1 == n) with
  | some p => p.2
  | none => []

/-- `State::queue`, `state.cpp:51-68`. -/
def Core.queue (c : Core) (n : Name) (a : Action) : Option Inst :=
  (c.instances n).find? (·.enabledFor a)

/-- `State::local_queue`, `state.cpp:70-90`. -/
def Core.localQueue (c : Core) (n : Name) (a : Action) : Option Inst :=
  (c.instances n).find? fun i => i.enabledFor a && i.isLocal

/-- Insert by order, after those of the same order. -/
def insertByOrder (i : Inst) : List Inst → List Inst
  | [] => [i]
  | j :: js => if i.order < j.order then i :: j :: js else j :: insertByOrder i js

/-- `algorithm::sort( instances)` / `stable_sort`, by `operator <`, `state.h:114`. -/
def sortByOrder (l : List Inst) : List Inst := l.foldl (fun acc i => insertByOrder i acc) []

/-- `auto& instances = queues[ name]; instances.emplace_back() ...; sort( instances)`,
`state.cpp:106-118` and `203-216`. -/
def addInst (qs : List (Name × List Inst)) (n : Name) (i : Inst) : List (Name × List Inst) :=
  if qs.any (·.1 == n) then
    qs.map fun p => if p.1 == n then (p.1, sortByOrder (p.2 ++ [i])) else p
  else qs ++ [(n, sortByOrder [i])]

/-- `local::remove_queues`, `state.cpp:134-142`, with the predicate "of that process". -/
def removeInsts (qs : List (Name × List Inst)) (p : Inst → Bool) : List (Name × List Inst) :=
  (qs.map fun q => (q.1, q.2.filter fun i => !p i)).filter fun q => !q.2.isEmpty

/-- `remove_queue` of an advertise, `state.cpp:220-225`: one name of one process. -/
def removeName (qs : List (Name × List Inst)) (n : Name) (ipc : Ipc) : List (Name × List Inst) :=
  (qs.map fun q => if q.1 == n then (q.1, q.2.filter fun i => !(i.process.ipc == ipc)) else q).filter
    fun q => !(q.1 == n && q.2.isEmpty)

/-- `State::remove_queues( pid)`, `state.cpp:147-153`. -/
def Core.removeQueuesPid (c : Core) (pid : Pid) : Core :=
  { c with queues := removeInsts c.queues (·.process.pid == pid) }

/-- `State::remove_queues( ipc)`, `state.cpp:155-161`. -/
def Core.removeQueuesIpc (c : Core) (ipc : Ipc) : Core :=
  { c with queues := removeInsts c.queues (·.process.ipc == ipc) }

/-- `State::remove`, `state.cpp:163-173`. -/
def Core.remove (c : Core) (pid : Pid) : Core :=
  let c := c.removeQueuesPid pid
  { c with
    groups := c.groups.filter fun g => !(g.process.pid == pid)
    forwards := c.forwards.filter fun g => !(g.process.pid == pid)
    pending := c.pending.filter fun l => !(l.process.pid == pid)
    remotes := c.remotes.filter fun r => !(r.process.pid == pid) }

/-- The enable flags of a queue of a group, `state.cpp:113-115`. -/
def enableOf (cfg : GroupCfg) (n : Name) : Enable :=
  match cfg.queues.find? (·.name == n) with
  | some q => q.enable
  | none => {}

/-- Apply `f` to the first element that satisfies `p`. -/
def updateFirst {α : Type} (p : α → Bool) (f : α → α) : List α → List α
  | [] => []
  | x :: xs => if p x then f x :: xs else x :: updateFirst p f xs

/-- `State::update( group::configuration::update::Reply)`, `state.cpp:92-128`. -/
def Core.updateGroup (c : Core) (process : Handle) (queues : List (Name × Int)) : Core :=
  let c := c.removeQueuesPid process.pid
  match c.groups.find? (·.process.pid == process.pid) with
  | none => c
  | some g =>
    { c with
      groups := updateFirst (·.process.pid == process.pid) (fun g => { g with state := .running }) c.groups
      queues := queues.foldl (fun qs q =>
        addInst qs q.1 { process := g.process, queue := q.2, order := 0, enable := enableOf g.configuration q.1 })
        c.queues }

/-- `State::update( Advertise)`, `state.cpp:175-231`. -/
def Core.updateAdvertise (c : Core) (m : Advertise) : Core :=
  match m.directive with
  | .reset => c.removeQueuesIpc m.process.ipc
  | .instance =>
    match c.remotes.find? (·.process.ipc == m.process.ipc) with
    | none => c
    | some _ =>
      { c with
        remotes := updateFirst (·.process.ipc == m.process.ipc) (fun r => { r with order := m.order + 1 }) c.remotes
        queues := c.queues.map fun q =>
          (q.1, sortByOrder (updateFirst (·.process.ipc == m.process.ipc) (fun i => { i with order := m.order + 1 }) q.2)) }
  | .update =>
    let remotes := if c.remotes.any (·.process == m.process) then c.remotes
      else c.remotes ++ [{ process := m.process, order := m.order + 1 }]
    let queues := m.add.foldl (fun qs q =>
      addInst qs q.name { process := m.process, queue := remoteQueueId, order := m.order + 1, enable := q.enable }) c.queues
    let queues := m.remove.foldl (fun qs n => removeName qs n m.process.ipc) queues
    { c with remotes := remotes, queues := queues }

/-- `State::done`, `state.cpp:233-239`. -/
def Core.done (c : Core) : Bool :=
  c.runlevel.beyond && c.groups.isEmpty && c.forwards.isEmpty

/-- `State::ready`, `state.cpp:241-247`. -/
def Core.ready (c : Core) : Bool :=
  c.groups.all (·.state.atLeastRunning) && c.forwards.all (·.state.atLeastRunning)

/-- `transform::configuration`, `transform.cpp:200-215`. -/
def Core.configuration (c : Core) : Model :=
  { groups := c.groups.map (·.configuration), forwards := c.forwards.map (·.configuration) }

/-! ### Lookups, `handle.cpp:50-287` -/

/-- The reply that names a queue, `handle.cpp:64-68` and `190-198`. -/
def foundReply (l : Lookup) (i : Inst) : Out :=
  .lookupReply l.process.ipc l.corr l.name (some { queue := i.queue, process := i.process, order := i.order })

/-- `reply_absent_queue`, `handle.cpp:152-159`. -/
def Core.replyAbsent (c : Core) (env : Env) (l : Lookup) : Core :=
  c.send env l.process.ipc (.lookupReply l.process.ipc l.corr l.name none)

/-- `pending::lookups::check`, `handle.cpp:53-76`: goes through the pending lookups, and
keeps those that no queue is known for, or whose requester can not be reached. -/
def Core.check (c : Core) (env : Env) : Core :=
  c.pending.foldl (fun acc l =>
      match c.queue l.name l.action with
      | some i =>
        if env.reach l.process.ipc then acc.emit (foundReply l i)
        else { acc with pending := acc.pending ++ [l] }
      | none => { acc with pending := acc.pending ++ [l] })
    { c with pending := [] }

/-- `pending::lookups::discard`, `handle.cpp:78-93`. -/
def Core.discardAll (c : Core) (env : Env) : Core :=
  c.pending.foldl (fun acc l => acc.replyAbsent env l) { c with pending := [] }

/-- `absent_queue`, `handle.cpp:161-180`. -/
def Core.absentQueue (c : Core) (env : Env) (l : Lookup) : Core :=
  match l.semantic with
  | .direct => c.replyAbsent env l
  | .wait => { c with pending := c.pending ++ [l] }

/-- `discovery`, `handle.cpp:182-188`. -/
def Core.discovery (c : Core) (l : Lookup) : Core :=
  let c := c.emit (.discoveryRequest l.name l.corr)
  { c with pending := c.pending ++ [l] }

/-- `lookup::request`, `handle.cpp:228-261`. -/
def Core.lookupRequest (c : Core) (env : Env) (l : Lookup) : Core :=
  if c.runlevel.beyond then c.replyAbsent env l
  else
    match l.requester with
    | .internal =>
      match c.queue l.name l.action with
      | some i => c.send env l.process.ipc (foundReply l i)
      | none => c.discovery l
    | .external =>
      match c.localQueue l.name l.action with
      | some i => c.send env l.process.ipc (foundReply l i)
      | none => c.absentQueue env l
    | .externalDiscovery =>
      match c.queue l.name l.action with
      | some i => c.send env l.process.ipc (foundReply l i)
      | none => c.absentQueue env l

/-- Erase the first element that satisfies `p`. -/
def eraseFirst {α : Type} (p : α → Bool) : List α → List α
  | [] => []
  | x :: xs => if p x then xs else x :: eraseFirst p xs

/-- `lookup::discard::request`, `handle.cpp:265-284`. -/
def Core.discardRequest (c : Core) (env : Env) (corr : Corr) (process : Handle) : Core :=
  match c.pending.find? (·.corr == corr) with
  | some _ =>
    let c := { c with pending := eraseFirst (·.corr == corr) c.pending }
    c.send env process.ipc (.discardReply process.ipc corr true)
  | none => c.send env process.ipc (.discardReply process.ipc corr false)

/-- `domain::discover::lookup::request`, `handle.cpp:402-439`. -/
def Core.discoveryLookup (c : Core) (env : Env) (corr : Corr) (process : Handle) (scope : Scope) (names : List Name) : Core :=
  let get := fun n => match scope with
    | .internal => c.localQueue n .any
    | .extended => c.queue n .any
  let content := names.filterMap fun n => (get n).map fun i => ({ name := n, enable := i.enable } : QueueCfg)
  let absent := names.filter fun n => (get n).isNone
  c.send env process.ipc (.discoveryReply process.ipc corr content absent)

/-- `domain::discover::api::reply`, `handle.cpp:444-458`. -/
def Core.discoveryReply (c : Core) (env : Env) (corr : Corr) : Core :=
  let c := c.check env
  match c.pending.find? (·.corr == corr) with
  | some l =>
    match l.semantic with
    | .direct =>
      let c := { c with pending := eraseFirst (·.corr == corr) c.pending }
      c.replyAbsent env l
    | .wait => c
  | none => c

/-- Insert into a sorted list without duplicates. -/
def insertUnique (n : Name) : List Name → List Name
  | [] => [n]
  | m :: ms => if n < m then n :: m :: ms else if n = m then m :: ms else m :: insertUnique n ms

/-- `algorithm::container::sort::unique`. -/
def sortUnique (l : List Name) : List Name := l.foldr insertUnique []

/-- `domain::discover::fetch::known::request`, `handle.cpp:464-496`. -/
def Core.fetchKnown (c : Core) (env : Env) (corr : Corr) (process : Handle) : Core :=
  let remote := (c.queues.filter fun q => q.2.any (·.isRemote)).map (·.1)
  let waiting := (c.pending.filter fun l => l.semantic == .wait).map (·.name)
  c.send env process.ipc (.knownReply process.ipc corr (sortUnique (remote ++ waiting)))

/-! ### Configuration, `configuration.cpp` -/

/-- The actions of the tasks. -/
inductive TAct where
  | addGroups (cfgs : List GroupCfg)
  | addForwards (cfgs : List FwdCfg)
  | rmGroups (cfgs : List GroupCfg)
  | rmForwards (cfgs : List FwdCfg)
  | modGroups (cfgs : List GroupCfg)
  | modForwards (cfgs : List FwdCfg)
  | reply (process : Handle) (corr : Corr)
deriving DecidableEq, Repr

/-- Which handlers a task has. -/
inductive TKind where
  | groupConnect | forwardConnect | groupReply | forwardReply | exitOnly | none
deriving DecidableEq, Repr

/-- The data shared between the action and the handlers of a task: the pids that are
waited for (`Shared`), and which handlers there are. -/
structure TBody where
  kind : TKind
  pids : List Pid := []
deriving DecidableEq, Repr

/-- The messages that are given to the tasks. -/
inductive TMsg where
  | groupConnect (pid : Pid)
  | forwardConnect (pid : Pid)
  | groupReply (pid : Pid)
  | forwardReply (pid : Pid)
  | exit (pid : Pid)
deriving DecidableEq, Repr

abbrev QUnit := TUnit TAct TBody

/-- `if( shared->pids.empty()) return abort; return success;`. -/
def outcomeOf (pids : List Pid) : Outcome := if pids.isEmpty then .abort else .success

/-- `spawn_entity`, `configuration.cpp:27-35`, for the groups of a spawn action,
`configuration.cpp:72-83`. -/
def Core.spawnGroups (c : Core) (cfgs : List GroupCfg) : Core :=
  cfgs.foldl (fun c cfg =>
    let c' := c.emit (.spawnGroup c.nextPid cfg)
    { c' with
      groups := c.groups ++ [{ state := .spawned, process := ⟨c.nextPid, 0⟩, configuration := cfg }]
      nextPid := c.nextPid + 1 }) c

/-- The spawn action of forward groups, `configuration.cpp:115-126`. -/
def Core.spawnForwards (c : Core) (cfgs : List FwdCfg) : Core :=
  cfgs.foldl (fun c cfg =>
    let c' := c.emit (.spawnForward c.nextPid cfg)
    { c' with
      forwards := c.forwards ++ [{ state := .spawned, process := ⟨c.nextPid, 0⟩, configuration := cfg }]
      nextPid := c.nextPid + 1 }) c

/-- `send_shutdown`, `configuration.cpp:164-174`. -/
def Core.sendShutdown (c : Core) (env : Env) (p : Handle) : Core :=
  if p.ipc ≠ 0 then c.send env p.ipc (.shutdownRequest p.ipc) else c.emit (.terminate p.pid)

/-- `shutdown_action` for groups, `configuration.cpp:160-181`. -/
def Core.shutdownGroups (c : Core) (env : Env) (cfgs : List GroupCfg) : Core × List Pid :=
  let hit := fun g : Entity GroupCfg => cfgs.any fun x => x.alias == g.configuration.alias
  let c1 := (c.groups.filter hit).foldl (fun c g => c.sendShutdown env g.process) c
  ({ c1 with groups := c.groups.map fun g => if hit g then { g with state := .shutdown } else g },
    (c.groups.filter hit).map (·.process.pid))

/-- `shutdown_action` for forward groups, `configuration.cpp:200-224`. -/
def Core.shutdownForwards (c : Core) (env : Env) (cfgs : List FwdCfg) : Core × List Pid :=
  let hit := fun g : Entity FwdCfg => cfgs.any fun x => x.alias == g.configuration.alias
  let c1 := (c.forwards.filter hit).foldl (fun c g => c.sendShutdown env g.process) c
  ({ c1 with forwards := c.forwards.map fun g => if hit g then { g with state := .shutdown } else g },
    (c.forwards.filter hit).map (·.process.pid))

/-- `update_action` for groups, `configuration.cpp:244-261`. -/
def Core.modifyGroups (c : Core) (env : Env) (cfgs : List GroupCfg) : Core × List Pid :=
  cfgs.foldl (fun r cfg =>
    match c.groups.find? (·.configuration.alias == cfg.alias) with
    | some g => (r.1.send env g.process.ipc (.groupUpdate g.process.ipc cfg), r.2 ++ [g.process.pid])
    | none => r) (c, [])

/-- `update_action` for forward groups, `configuration.cpp:291-309`.  It searches the
queue groups, and does not set the groups of the domain in the request. -/
def Core.modifyForwards (c : Core) (env : Env) (cfgs : List FwdCfg) : Core × List Pid :=
  cfgs.foldl (fun r cfg =>
    match c.groups.find? (·.configuration.alias == cfg.alias) with
    | some g => (r.1.send env g.process.ipc (.forwardUpdate g.process.ipc cfg none), r.2 ++ [g.process.pid])
    | none => r) (c, [])

/-- The actions: `configuration.cpp:72-83`, `115-126`, `160-181`, `200-224`, `244-261`,
`291-309`, `382-386`. -/
def taskAct (env : Env) (a : TAct) (b : TBody) (c : Core) : Core × TBody × Outcome :=
  match a with
  | .addGroups cfgs =>
    let c' := c.spawnGroups cfgs
    let pids := (List.range cfgs.length).map (c.nextPid + ·)
    (c', { b with pids := pids }, outcomeOf pids)
  | .addForwards cfgs =>
    let c' := c.spawnForwards cfgs
    let pids := (List.range cfgs.length).map (c.nextPid + ·)
    (c', { b with pids := pids }, outcomeOf pids)
  | .rmGroups cfgs =>
    let r := c.shutdownGroups env cfgs
    (r.1, { b with pids := r.2 }, outcomeOf r.2)
  | .rmForwards cfgs =>
    let r := c.shutdownForwards env cfgs
    (r.1, { b with pids := r.2 }, outcomeOf r.2)
  | .modGroups cfgs =>
    let r := c.modifyGroups env cfgs
    (r.1, { b with pids := b.pids ++ r.2 }, outcomeOf (b.pids ++ r.2))
  | .modForwards cfgs =>
    let r := c.modifyForwards env cfgs
    (r.1, { b with pids := b.pids ++ r.2 }, outcomeOf (b.pids ++ r.2))
  | .reply process corr => (c.send env process.ipc (.updateReply process.ipc corr), b, .abort)

/-- `algorithm::container::erase( shared->pids, pid)`, and done when none is left:
`configuration.cpp:40-50`, `85-93`, `128-136`, `263-271`, `311-321`. -/
def pidDone (b : TBody) (pid : Pid) (c : Core) : Core × TBody × Dispatch :=
  let pids := b.pids.filter fun p => !(p == pid)
  (c, { b with pids := pids }, if pids.isEmpty then .done else .pending)

/-- Which messages the handlers of a task are for. -/
def taskHandle (b : TBody) (m : TMsg) : Option (Core → Core × TBody × Dispatch) :=
  match b.kind, m with
  | .none, _ => none
  | _, .exit pid => some (pidDone b pid)
  | .groupConnect, .groupConnect pid => some (pidDone b pid)
  | .forwardConnect, .forwardConnect pid => some (pidDone b pid)
  | .groupReply, .groupReply pid => some (pidDone b pid)
  | .forwardReply, .forwardReply pid => some (pidDone b pid)
  | _, _ => none

def taskOps (env : Env) : Ops Core TMsg TAct TBody := { act := taskAct env, handle := taskHandle }

/-- The manager: the state and the coordinator of its tasks. -/
structure State where
  core : Core
  tasks : List (List QUnit) := []
  seq : Nat := 0

/-- `state.task.coordinator( message)`. -/
def State.taskMsg (s : State) (env : Env) (m : TMsg) : State :=
  let r := coordMsg (taskOps env) m s.tasks s.core
  { s with core := r.1, tasks := r.2.1 }

/-- `state.task.coordinator.then( ...)` of one unit. -/
def State.taskThen (s : State) (env : Env) (a : TAct) (k : TKind) : State :=
  let r := coordThen (taskOps env) (mkGroup s.seq [(a, { kind := k })]) s.tasks s.core
  { core := r.1, tasks := r.2.1, seq := s.seq + 1 }

/-- `if( ! std::empty( ...))`. -/
def State.thenIf {α : Type} (s : State) (env : Env) (l : List α) (a : List α → TAct) (k : TKind) : State :=
  if l.isEmpty then s else s.taskThen env (a l) k

/-- `conform( state, current, wanted)`, `configuration.cpp:333-374`. -/
def State.conform (s : State) (env : Env) (current wanted : Model) : State :=
  let gc := calculate GroupCfg.alias current.groups wanted.groups
  let fc := calculate FwdCfg.alias current.forwards wanted.forwards
  let s := s.thenIf env fc.removed .rmForwards .exitOnly
  let s := s.thenIf env gc.removed .rmGroups .exitOnly
  let s := s.thenIf env gc.added .addGroups .groupConnect
  let s := s.thenIf env fc.added .addForwards .forwardConnect
  let s := s.thenIf env fc.modified .modForwards .forwardReply
  s.thenIf env gc.modified .modGroups .groupReply

/-- `conform( state, message)`, `configuration.cpp:376-393`. -/
def State.configUpdate (s : State) (env : Env) (corr : Corr) (process : Handle) (domainGroups : Nat) (wanted : Model) : State :=
  let s := { s with core := { s.core with domainGroups := domainGroups } }
  let s := s.conform env s.core.configuration wanted
  s.taskThen env (.reply process corr) .none

/-! ### The handlers, `handle.cpp` -/

/-- Apply a function to the core. -/
def State.onCore (s : State) (f : Core → Core) : State := { s with core := f s.core }

/-- After the task, `group::connect`, `handle.cpp:300-311`. -/
def Core.groupConnect (c : Core) (env : Env) (p : Handle) : Core :=
  match c.groups.find? (·.process.pid == p.pid) with
  | some g =>
    let c := { c with groups := updateFirst (·.process.pid == p.pid) (fun g => { g with state := .connected, process := p }) c.groups }
    c.send env p.ipc (.groupUpdate p.ipc g.configuration)
  | none => c

/-- After the task, `forward::connect`, `handle.cpp:346-360`. -/
def Core.forwardConnect (c : Core) (env : Env) (p : Handle) : Core :=
  match c.forwards.find? (·.process.pid == p.pid) with
  | some g =>
    let c := { c with forwards := updateFirst (·.process.pid == p.pid) (fun g => { g with state := .connected, process := p }) c.forwards }
    c.send env p.ipc (.forwardUpdate p.ipc g.configuration (some c.domainGroups))
  | none => c

/-- After the task, `forward::configuration::update::reply`, `handle.cpp:375-378`. -/
def Core.forwardReply (c : Core) (p : Handle) : Core :=
  { c with forwards := updateFirst (·.process.pid == p.pid) (fun g => { g with state := .running }) c.forwards }

/-- `idle`, `handle.cpp:569-580`. -/
def Core.idle (c : Core) : Core :=
  if c.runlevel = .configuring && c.ready then
    let c := { c with runlevel := .running }
    c.emit .ready
  else c

/-- `abort`, `handle.cpp:582-599`. -/
def Core.abort (c : Core) (env : Env) : Core :=
  let c := { c with runlevel := .error }
  let c := c.discardAll env
  let c := c.forwards.foldl (fun acc g => acc.emit (.terminate g.process.pid)) c
  c.groups.foldl (fun acc g => acc.emit (.terminate g.process.pid)) c

/-- One input: `handle::create`, `handle.cpp:601-632`, and the handlers it lists. -/
def State.handle (s : State) (env : Env) : Input → State
  | .lookup l => s.onCore (·.lookupRequest env l)
  | .discard corr p => s.onCore (·.discardRequest env corr p)
  | .groupConnect p => (s.taskMsg env (.groupConnect p.pid)).onCore (·.groupConnect env p)
  | .groupReply p qs =>
    (s.taskMsg env (.groupReply p.pid)).onCore fun c => (c.updateGroup p qs).check env
  | .forwardConnect p => (s.taskMsg env (.forwardConnect p.pid)).onCore (·.forwardConnect env p)
  | .forwardReply p => (s.taskMsg env (.forwardReply p.pid)).onCore (·.forwardReply p)
  | .advertise a => s.onCore fun c => (c.updateAdvertise a).check env
  | .discoveryLookup corr p scope names => s.onCore (·.discoveryLookup env corr p scope names)
  | .discoveryReply corr => s.onCore (·.discoveryReply env corr)
  | .fetchKnown corr p => s.onCore (·.fetchKnown env corr p)
  | .configUpdate corr p dg wanted => s.configUpdate env corr p dg wanted
  | .configRequest corr p => s.onCore fun c => c.send env p.ipc (.configReply p.ipc corr c.configuration)
  | .shutdown =>
    -- `shutdown::request`, `handle.cpp:131-144`
    let s := s.onCore fun c => ({ c with runlevel := .shutdown } : Core).discardAll env
    s.conform env s.core.configuration {}
  | .exitEvent pid =>
    -- `event::dead::process`, `handle.cpp:103-113`
    (s.taskMsg env (.exit pid)).onCore (·.remove pid)
  | .childExit pid =>
    -- `process::exit`, `handle.cpp:540-552`
    s.onCore fun c => (c.emit (.exitEvent pid)).remove pid
  | .ipcDestroyed ipc => s.onCore (·.removeQueuesIpc ipc)
  | .idle => s.onCore (·.idle)
  | .abort => s.onCore (·.abort env)

/-- A step of the manager: the input is recorded, then handled. -/
def State.step (s : State) (x : Env × Input) : State :=
  (s.onCore fun c => { c with log := c.log ++ [.inp x.2] }).handle x.1 x.2

/-- `initialize`, `main.cpp:35-50`, with `comply::configuration`, `handle.cpp:557-566`. -/
def State.init (env : Env) (domainGroups : Nat) (model : Model) (nextPid : Pid) : State :=
  ({ core := { domainGroups := domainGroups, nextPid := nextPid } } : State).conform env {} model

/-- A run of the manager. -/
def State.run (env : Env) (domainGroups : Nat) (model : Model) (nextPid : Pid) (xs : List (Env × Input)) : State :=
  xs.foldl State.step (State.init env domainGroups model nextPid)

end Casual.QManager
