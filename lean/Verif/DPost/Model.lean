import Verif.ConfModel.Model
import Verif.Config.ChangeProps
/-
  How the domain manager makes its groups and processes from a configuration, how it tells what
  it has, and what it does when another configuration is posted:
  `middleware/domain/source/manager/transform.cpp:32-102,320-500`,
  `middleware/domain/source/manager/configuration.cpp:30-360`,
  `middleware/domain/source/manager/admin/server.cpp:270-306`,
  `middleware/domain/source/manager/handle.cpp:156-236`, and what happens to an exception:
  `main.cpp:130-152`, `common/include/casual/task.h:318-360`.

  Simplifications. Processes that are told to stop are gone at once, and the number of instances is
  the wanted number (how they are started and stopped: `DManager/Model.lean`). The parts of the
  configuration that belong to other managers are left out; that they are told is the task
  `managers`. The domain is not bare: there is a manager that is told. `std::remove_if` leaves
  the list of configured groups as it was (it only matters if reserved names are used).
-/
namespace Casual.DPost

open Casual.ConfModel (DGroup Entity Environment)
open Casual.Config (Change calculate)

/-- `state::Group`, `state.h:43-73`. -/
structure Grp where
  id : Nat
  name : String
  enabled : Bool := true
  deps : List Nat := []
  note : String := ""
deriving DecidableEq, Repr

/-- `state::Process`, `state.h:77-121`: the settings (`memberships` of it is not used), and the
groups it is a member of. -/
structure Proc where
  settings : Entity
  groups : List Nat
deriving DecidableEq, Repr

/-- The part of `configuration::model::domain::Model` that is about groups and processes. -/
structure Conf where
  groups : List DGroup := []
  servers : List Entity := []
  executables : List Entity := []
deriving DecidableEq, Repr

/-- `local::detail::Change`, `configuration.cpp:36-49`. -/
structure Chg where
  groups : Change DGroup
  servers : Change Entity
  executables : Change Entity
deriving DecidableEq, Repr

/-- The tasks of a post, `configuration.cpp:118-254,278-282,292-295,335-345`. -/
inductive Task
  /-- the other managers are told, `create.cpp:503-541` -/
  | managers
  | add (c : Chg)
  | down (c : Chg)
  | gone (c : Chg)
  | modify (c : Chg)
  | done
deriving DecidableEq, Repr

/-- The domain manager's state. `failed` is the runlevel `error`: the domain shuts down. -/
structure Dom where
  groups : List Grp
  servers : List Proc
  executables : List Proc
  /-- the number of the group `.casual.gateway` -/
  gateway : Nat
  /-- the next number of `strong::group::id::generate` -/
  next : Nat
  tasks : List Task := []
  failed : Bool := false
deriving DecidableEq, Repr

/-! ### Names and numbers of groups -/

/-- The number of the first group with the name. -/
def idOf (gs : List Grp) (name : String) : Option Nat := (gs.find? fun g => decide (g.name = name)).map (·.id)

/-- `local::membership`, `transform.cpp:34-45`, and `group::id`, `configuration.cpp:88-98`, for a
list; `none` if a name is unknown (it raises). -/
def membership (gs : List Grp) : List String → Option (List Nat)
  | [] => some []
  | n :: ns =>
    match idOf gs n, membership gs ns with
    | some i, some is => some (i :: is)
    | _, _ => none

/-- `state.group( id).name`, `transform.cpp:437-443`. -/
def nameOf (gs : List Grp) (i : Nat) : String := ((gs.find? fun g => decide (g.id = i)).map (·.name)).getD ""

/-! ### Boot -/

/-- The groups that are there before those of the configuration, `transform.cpp:333-354`. -/
def firstGroups : List Grp :=
  [{ id := 0, name := ".casual.core", note := "domain-manager internal group" },
   { id := 1, name := ".casual.master", deps := [0], note := "the master and (implicit) parent of all groups" },
   { id := 2, name := ".casual.transaction", deps := [1] },
   { id := 3, name := ".casual.queue", deps := [2] },
   { id := 4, name := ".global", deps := [3, 2], note := "user global group" }]

/-- The names that a configuration can not use, `transform.cpp:361-362`. -/
def reserved : List String :=
  [".casual.domain", ".casual.master", ".casual.transaction", ".casual.queue", ".global", ".casual.gateway"]

/-- The first phase of `local::groups`, `transform.cpp:50-59`. -/
def addPhase (next : Nat) : List DGroup → List Grp
  | [] => []
  | g :: gs => { id := next, name := g.name, enabled := g.enabled, deps := [1], note := g.note } :: addPhase (next + 1) gs

/-- `found->...= `: the first group with the name is changed. -/
def setFirst (name : String) (f : Grp → Grp) : List Grp → List Grp
  | [] => []
  | g :: gs => if g.name = name then f g :: gs else g :: setFirst name f gs

/-- The second phase, `transform.cpp:61-67`. -/
def depPhase : List DGroup → List Grp → Option (List Grp)
  | [], t => some t
  | g :: gs, t =>
    match membership t g.dependencies with
    | none => none
    | some ds => depPhase gs (setFirst g.name (fun x => { x with deps := ds }) t)

/-- The groups of the domain, `transform.cpp:332-383`. -/
def bootGroups (conf : List DGroup) : Option (List Grp) :=
  let user := conf.filter fun g => !reserved.contains g.name
  match depPhase user (firstGroups ++ addPhase 5 user) with
  | none => none
  | some gs => some (gs ++ [{ id := 5 + user.length, name := ".casual.gateway", deps := gs.map (·.id) }])

/-- `local::modify` on a new process or one that is there, `transform.cpp:70-91,115-127`. -/
def makeProc (gs : List Grp) (e : Entity) : Option Proc :=
  match membership gs e.memberships with
  | none => none
  | some ms =>
    if ms = [] then
      match membership gs [".global"] with
      | none => none
      | some ms => some { settings := { e with memberships := [] }, groups := ms }
    else some { settings := { e with memberships := [] }, groups := ms }

/-- `transform::alias`, `transform.cpp:409-426`. -/
def makeProcs (gs : List Grp) : List Entity → Option (List Proc)
  | [] => some []
  | e :: es =>
    match makeProc gs e, makeProcs gs es with
    | some p, some ps => some (p :: ps)
    | _, _ => none

/-- `transform.cpp:391-395` and `handle.cpp:166-233`: the domain's own servers. The paths are left
out. -/
def own (alias : String) (group : Nat) : Proc :=
  { settings := { alias := alias, filename := alias, restart := true }, groups := [group] }

/-- `transform::model( configuration)`, `transform.cpp:319-406`, and `mandatory::boot`,
`handle.cpp:162-234`; `none` if it raises. -/
def boot (conf : Conf) : Option Dom :=
  match bootGroups conf.groups with
  | none => none
  | some gs =>
    match makeProcs gs conf.servers, makeProcs gs conf.executables with
    | some ss, some es =>
      let gw := 5 + (conf.groups.filter fun g => !reserved.contains g.name).length
      some { groups := gs
             servers := own "casual-domain-manager" 1 :: ss ++ [own "casual-domain-discovery" 0,
               own "casual-service-manager" 1, own "casual-transaction-manager" 2, own "casual-queue-manager" 3,
               own "casual-gateway-manager" gw]
             executables := es, gateway := gw, next := gw + 1 }
    | _, _ => none

/-! ### What the domain tells of itself -/

/-- A leading `.`, `transform.cpp:461-465`. -/
def dotted (name : String) : Bool := name.toList.head? == some '.'

/-- `transform.cpp:451-460`. -/
def showGroup (gs : List Grp) (g : Grp) : DGroup :=
  { name := g.name, enabled := g.enabled, dependencies := g.deps.map (nameOf gs), note := g.note }

/-- `transform.cpp:470-484,490-503`. -/
def showProc (gs : List Grp) (p : Proc) : Entity := { p.settings with memberships := p.groups.map (nameOf gs) }

/-- `reserved_groups`, `transform.cpp:468`: the numbers. -/
def Dom.reservedIds (d : Dom) : List Nat := [1, 0, 2, 3, d.gateway]

/-- `transform::model( state)`, `transform.cpp:431-507`: what the user gets to see. -/
def get (d : Dom) : Conf :=
  { groups := (d.groups.filter fun g => !dotted g.name).map (showGroup d.groups)
    servers := (d.servers.filter fun p => !(p.groups.any fun i => d.reservedIds.contains i)).map (showProc d.groups)
    executables := d.executables.map (showProc d.groups) }

/-! ### Post: the groups -/

/-- `detail::change`, `configuration.cpp:51-60`. -/
def change (current wanted : Conf) : Chg :=
  { groups := calculate (·.name) current.groups wanted.groups
    servers := calculate (·.alias) current.servers wanted.servers
    executables := calculate (·.alias) current.executables wanted.executables }

/-- The first group with the name is taken out. -/
def eraseFirst (name : String) : List Grp → List Grp
  | [] => []
  | g :: gs => if g.name = name then gs else g :: eraseFirst name gs

/-- `remove_membership`, `configuration.cpp:73-76`. -/
def Proc.leave (i : Nat) (p : Proc) : Proc := { p with groups := p.groups.filter fun j => decide (j ≠ i) }

/-- `configuration.cpp:80-83`. -/
def Grp.leave (i : Nat) (g : Grp) : Grp := { g with deps := g.deps.filter fun j => decide (j ≠ i) }

/-- `group::remove`, `configuration.cpp:64-86`. -/
def removeGroup (d : Dom) (g : DGroup) : Dom :=
  match idOf d.groups g.name with
  | none => d
  | some i => { d with
      groups := (eraseFirst g.name d.groups).map (Grp.leave i)
      servers := d.servers.map (Proc.leave i)
      executables := d.executables.map (Proc.leave i) }

/-- `group::transform`, `configuration.cpp:100-108,270`, for the groups that are added, one after
the other; the flag tells that nothing was raised. -/
def addGroups : List DGroup → Dom → Dom × Bool
  | [], d => (d, true)
  | g :: gs, d =>
    match membership d.groups g.dependencies with
    | none => (d, false)
    | some ds => addGroups gs { d with
        groups := d.groups ++ [{ id := d.next, name := g.name, enabled := g.enabled, deps := ds, note := g.note }]
        next := d.next + 1 }

/-- `group::modify`, `configuration.cpp:110-122,271`. -/
def modifyGroups : List DGroup → Dom → Dom × Bool
  | [], d => (d, true)
  | g :: gs, d =>
    match membership d.groups g.dependencies with
    | none => (d, false)
    | some ds => modifyGroups gs { d with
        groups := setFirst g.name (fun x => { x with deps := ds, note := g.note, enabled := g.enabled }) d.groups }

/-- The groups of a post, `configuration.cpp:267-272`. -/
def postGroups (c : Change DGroup) (d : Dom) : Dom × Bool :=
  let r := addGroups c.added (c.removed.foldl removeGroup d)
  if r.2 then modifyGroups c.modified r.1 else r

/-- `post`, `configuration.cpp:318-352`, with `server.cpp:279-280`: what is there is what `get`
says. The flag tells whether it is accepted. Tasks that come first start at once, but the first
one of a post is that of the managers, and it waits for them. -/
def post (d : Dom) (wanted : Conf) : Dom × Bool :=
  if d.failed then (d, false)
  else
    let c := change (get d) wanted
    let r := postGroups c.groups d
    if r.2 then
      ({ r.1 with tasks := r.1.tasks ++ [.managers, .add c, .down c, .gone c, .modify c, .done] }, true)
    else r

/-! ### Post: the processes -/

/-- `scale_in`, `configuration.cpp:162-174`: the first with the alias. -/
def scaleIn (alias : String) : List Proc → List Proc
  | [] => []
  | p :: ps => if p.settings.alias = alias then { p with settings := { p.settings with instances := 0 } } :: ps
    else p :: scaleIn alias ps

/-- `configuration.cpp:199-210`. -/
def eraseGone (removed : List Entity) (ps : List Proc) : List Proc :=
  ps.filter fun p => !(decide (p.settings.instances = 0) && removed.any fun e => decide (e.alias = p.settings.alias))

/-- The first with the alias gets the configuration, `configuration.cpp:230-243`. -/
def replaceFirst (alias : String) (q : Proc) : List Proc → List Proc
  | [] => []
  | p :: ps => if p.settings.alias = alias then q :: ps else p :: replaceFirst alias q ps

/-- `modify_and_get_id`, `configuration.cpp:226-243`; `none` if it raises. -/
def modifyProcs (gs : List Grp) : List Entity → List Proc → Option (List Proc)
  | [], ps => some ps
  | e :: es, ps =>
    if ps.any fun p => decide (p.settings.alias = e.alias) then
      match makeProc gs e with
      | none => none
      | some q => modifyProcs gs es (replaceFirst e.alias q ps)
    else modifyProcs gs es ps

/-- What a task does; `none` if it raises. -/
def act (d : Dom) : Task → Option Dom
  | .managers => some d
  | .done => some d
  | .add c =>
    match makeProcs d.groups c.servers.added, makeProcs d.groups c.executables.added with
    | some ss, some es => some { d with servers := d.servers ++ ss, executables := d.executables ++ es }
    | _, _ => none
  | .down c => some { d with
      servers := c.servers.removed.foldl (fun ps e => scaleIn e.alias ps) d.servers
      executables := c.executables.removed.foldl (fun ps e => scaleIn e.alias ps) d.executables }
  | .gone c => some { d with
      servers := eraseGone c.servers.removed d.servers
      executables := eraseGone c.executables.removed d.executables }
  | .modify c =>
    match modifyProcs d.groups c.servers.modified d.servers, modifyProcs d.groups c.executables.modified d.executables with
    | some ss, some es => some { d with servers := ss, executables := es }
    | _, _ => none

/-- The next task. If it raises, outside of any service, the domain manager goes to the runlevel
`error` and shuts down, `main.cpp:147-151`. -/
def turn (d : Dom) : Dom :=
  match d.tasks with
  | [] => d
  | t :: ts =>
    match act { d with tasks := ts } t with
    | some d' => d'
    | none => { d with tasks := [], failed := true }

/-- `n` tasks. -/
def turns : Nat → Dom → Dom
  | 0, d => d
  | n + 1, d => turns n (turn d)

/-- All tasks are done. -/
def settle (d : Dom) : Dom := turns d.tasks.length d

end Casual.DPost
