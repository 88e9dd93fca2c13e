import Verif.ConfModel.Range
/-
  The configuration model and the set operations on it,
  `middleware/configuration/include/configuration/model.h` and
  `middleware/configuration/source/model.cpp:120-556,645-685`.

  All settings are kept. Durations are whole numbers of nanoseconds, the visibility and the
  timeout contract of a service are names.
-/
namespace Casual.ConfModel

/-! ### `model::system`, `model.h:22-80` -/

/-- `system::resource::Paths`, `model.h:26-38`. -/
structure Paths where
  incl : List String := []
  library : List String := []
deriving DecidableEq, Repr

/-- `system::Resource`, `model.h:41-63`. -/
structure SysResource where
  key : String
  server : String := ""
  xa : String := ""
  libraries : List String := []
  paths : Paths := {}
  note : String := ""
deriving DecidableEq, Repr

/-- `system::Model`, `model.h:65-81`. -/
structure System where
  resources : List SysResource := []
deriving DecidableEq, Repr

namespace System
/-- `model.cpp:122-127`. -/
def union (l r : System) : System := { l with resources := replace (equalKey (·.key)) r.resources l.resources }
/-- `model.cpp:129-134`. -/
def difference (l r : System) : System := { l with resources := remove (equalKey (·.key)) r.resources l.resources }
/-- `model.cpp:136-141`. -/
def intersection (l r : System) : System := { l with resources := intersect (equalKey (·.key)) r.resources l.resources }
end System

/-! ### `model::domain`, `model.h:82-198` -/

/-- `common::environment::Variable`, `common/include/common/environment/variable.h:21-45`:
a string `name=value`. -/
structure Variable where
  text : String
deriving DecidableEq, Repr

/-- `Variable::name`, `variable.h:28,39-42`. -/
def Variable.name (v : Variable) : List Char := v.text.toList.takeWhile (· != '=')

/-- `Variable::value`, `variable.h:29-37`. -/
def Variable.value (v : Variable) : List Char := (v.text.toList.dropWhile (· != '=')).drop 1

/-- `domain::Environment`, `model.h:86-99`. -/
structure Environment where
  variables : List Variable := []
deriving DecidableEq, Repr

namespace Environment
/-- `model.cpp:147-152`. -/
def union (l r : Environment) : Environment := { l with variables := replace (equalKey (·.name)) r.variables l.variables }
/-- `model.cpp:154-159`. -/
def difference (l r : Environment) : Environment := { l with variables := remove (equalKey (·.name)) r.variables l.variables }
/-- `model.cpp:161-166`. -/
def intersection (l r : Environment) : Environment :=
  { l with variables := intersect (equalKey (·.name)) r.variables l.variables }
end Environment

/-- `domain::Group`, `model.h:101-118`. -/
structure DGroup where
  name : String
  enabled : Bool := true
  dependencies : List String := []
  note : String := ""
deriving DecidableEq, Repr

/-- `domain::detail::Entity` (server or executable), `model.h:133-161`. The path is the part
that matters here: its last component, `path.filename()`, and the rest. -/
structure Entity where
  alias : String := ""
  dir : String := ""
  filename : String := ""
  arguments : List String := []
  instances : Int := 1
  memberships : List String := []
  environment : Environment := {}
  restart : Bool := false
  enabled : Bool := true
  note : String := ""
deriving DecidableEq, Repr

/-- `domain::Model`, `model.h:174-198`. -/
structure Domain where
  name : String := ""
  environment : Environment := {}
  groups : List DGroup := []
  servers : List Entity := []
  executables : List Entity := []
deriving DecidableEq, Repr

namespace Domain
/-- `model.cpp:168-179`. -/
def union (l r : Domain) : Domain :=
  { name := coalesce r.name l.name
    environment := l.environment.union r.environment
    groups := replace (equalName (·.name)) r.groups l.groups
    servers := replace (equalName (·.alias)) r.servers l.servers
    executables := replace (equalName (·.alias)) r.executables l.executables }
/-- `model.cpp:181-190`. -/
def difference (l r : Domain) : Domain :=
  { l with
    environment := l.environment.difference r.environment
    groups := remove (equalName (·.name)) r.groups l.groups
    servers := remove (equalName (·.alias)) r.servers l.servers
    executables := remove (equalName (·.alias)) r.executables l.executables }
/-- `model.cpp:192-201`. -/
def intersection (l r : Domain) : Domain :=
  { l with
    environment := l.environment.intersection r.environment
    groups := intersect (equalName (·.name)) r.groups l.groups
    servers := intersect (equalName (·.alias)) r.servers l.servers
    executables := intersect (equalName (·.alias)) r.executables l.executables }
end Domain

/-! ### `model::transaction`, `model.h:312-371` -/

/-- `transaction::Resource`, `model.h:315-335`. -/
structure Resource where
  name : String
  key : String := ""
  instances : Int := 1
  note : String := ""
  openinfo : String := ""
  closeinfo : String := ""
deriving DecidableEq, Repr

/-- `transaction::Mapping`: the resources of a server, `model.h:338-351`. -/
structure Mapping where
  alias : String
  resources : List String := []
deriving DecidableEq, Repr

/-- `transaction::Model`, `model.h:353-371`. -/
structure Transaction where
  log : String := ""
  resources : List Resource := []
  mappings : List Mapping := []
deriving DecidableEq, Repr

namespace Transaction
/-- `model.cpp:208-215`. -/
def union (l r : Transaction) : Transaction :=
  { log := coalesce r.log l.log
    resources := replace (equalName (·.name)) r.resources l.resources
    mappings := replace (equalName (·.alias)) r.mappings l.mappings }
/-- `model.cpp:217-223`. -/
def difference (l r : Transaction) : Transaction :=
  { l with
    resources := remove (equalName (·.name)) r.resources l.resources
    mappings := remove (equalName (·.alias)) r.mappings l.mappings }
/-- `model.cpp:225-231`. -/
def intersection (l r : Transaction) : Transaction :=
  { l with
    resources := intersect (equalName (·.name)) r.resources l.resources
    mappings := intersect (equalName (·.alias)) r.mappings l.mappings }
end Transaction

/-! ### `model::service`, `model.h:201-310` -/

/-- `service::restriction::Server`, `model.h:204-218`. -/
structure Restricted where
  alias : String
  services : List String := []
deriving DecidableEq, Repr

/-- `service::Timeout`, `model.h:237-253`. -/
structure Timeout where
  duration : Option Int := none
  contract : Option String := none
deriving DecidableEq, Repr

/-- `service::Service`, `model.h:255-274`. -/
structure Service where
  name : String
  routes : List String := []
  timeout : Timeout := {}
  visibility : Option String := none
  note : String := ""
deriving DecidableEq, Repr

/-- `service::Global`, `model.h:276-289`. -/
structure Global where
  timeout : Timeout := {}
  note : String := ""
deriving DecidableEq, Repr

/-- `service::Model`, `model.h:291-310`; `Restriction` is the list
`restriction`. -/
structure Services where
  global : Global := {}
  services : List Service := []
  restriction : List Restricted := []
deriving DecidableEq, Repr

/-- `set_union( Timeout, Timeout)`, `model.cpp:255-263`. -/
def Timeout.union (l r : Timeout) : Timeout :=
  { duration := coalesceO r.duration l.duration, contract := coalesceO r.contract l.contract }

/-- `set_union( Global, Global)`, `model.cpp:265-269`: the note of the right one is not used. -/
def Global.union (l r : Global) : Global := { l with timeout := l.timeout.union r.timeout }

namespace Services
/-- `model.cpp:237-241,271-280`. -/
def union (l r : Services) : Services :=
  { global := l.global.union r.global
    services := replace (equalName (·.name)) r.services l.services
    restriction := replace (equalName (·.alias)) r.restriction l.restriction }
/-- `model.cpp:282-287`: the restrictions are not touched. -/
def difference (l r : Services) : Services :=
  { l with services := remove (equalName (·.name)) r.services l.services }
/-- `model.cpp:289-294`: the restrictions are not touched. -/
def intersection (l r : Services) : Services :=
  { l with services := intersect (equalName (·.name)) r.services l.services }
end Services

/-! ### `model::queue`, `model.h:594-805` -/

/-- `queue::Queue`, `model.h:598-643`. -/
structure Queue where
  name : String
  retryCount : Int := 0
  retryDelay : Int := 0
  enqueue : Bool := true
  dequeue : Bool := true
  note : String := ""
deriving DecidableEq, Repr

/-- `queue::Group`, `model.h:645-670`. -/
structure QGroup where
  alias : String := ""
  queuebase : String := ""
  note : String := ""
  queues : List Queue := []
  directory : String := ""
  capacity : Option Int := none
deriving DecidableEq, Repr

/-- `queue::forward::Queue::Target`, `model.h:695-706`. -/
structure Target where
  queue : String := ""
  delay : Int := 0
deriving DecidableEq, Repr

/-- `queue::forward::Queue`, `model.h:674-716`. -/
structure FQueue where
  alias : String := ""
  source : String := ""
  instances : Int := 1
  note : String := ""
  memberships : List String := []
  target : Target := {}
deriving DecidableEq, Repr

/-- `queue::forward::Service`, `model.h:674-691,718-742`. -/
structure FService where
  alias : String := ""
  source : String := ""
  instances : Int := 1
  note : String := ""
  memberships : List String := []
  target : String := ""
  reply : Option Target := none
deriving DecidableEq, Repr

/-- `queue::forward::Group`, `model.h:745-768`. -/
structure FGroup where
  alias : String := ""
  services : List FService := []
  queues : List FQueue := []
  note : String := ""
  memberships : List String := []
deriving DecidableEq, Repr

/-- `queue::Model` and `queue::Forward`, `model.h:771-805`. -/
structure Queues where
  groups : List QGroup := []
  forwards : List FGroup := []
  note : String := ""
deriving DecidableEq, Repr

/-- `set_union( queue::Group, queue::Group)`, `model.cpp:299-305`: of the right one only the
note and the queues are used. -/
def QGroup.union (l r : QGroup) : QGroup :=
  { l with note := coalesce r.note l.note, queues := replace (equalName (·.name)) r.queues l.queues }

/-- `set_union( forward::Group, forward::Group)`, `model.cpp:323-330`: the memberships of the
right one are not used. -/
def FGroup.union (l r : FGroup) : FGroup :=
  { l with
    note := coalesce r.note l.note
    services := replace (equalName (·.alias)) r.services l.services
    queues := replace (equalName (·.alias)) r.queues l.queues }

namespace Queues
/-- `model.cpp:349-354,370-378`. -/
def union (l r : Queues) : Queues :=
  { note := coalesce r.note l.note
    groups := update (equalName (·.alias)) QGroup.union r.groups l.groups
    forwards := update (equalName (·.alias)) FGroup.union r.forwards l.forwards }
/-- `model.cpp:356-361,380-386`. -/
def difference (l r : Queues) : Queues :=
  { l with
    groups := remove (equalName (·.alias)) r.groups l.groups
    forwards := remove (equalName (·.alias)) r.forwards l.forwards }
/-- `model.cpp:363-368,388-394`. -/
def intersection (l r : Queues) : Queues :=
  { l with
    groups := intersect (equalName (·.alias)) r.groups l.groups
    forwards := intersect (equalName (·.alias)) r.forwards l.forwards }
end Queues

/-! ### `model::gateway`, `model.h:374-592` -/

/-- `gateway::connect::Semantic`, `model.h:378-383`. -/
inductive Connect | unknown | regular | reversed
deriving DecidableEq, Repr

/-- `inbound::Connection`, `model.h:424-443`; `forward` is the discovery directive. -/
structure InConnection where
  address : String := ""
  forward : Bool := false
  note : String := ""
  memberships : List String := []
  enabled : Bool := true
deriving DecidableEq, Repr

/-- `inbound::Group`, `model.h:445-484`. -/
structure InGroup where
  connect : Connect := .unknown
  alias : String := ""
  limitSize : Int := 0
  limitMessages : Int := 0
  connections : List InConnection := []
  note : String := ""
deriving DecidableEq, Repr

/-- `outbound::Connection`, `model.h:505-530`. -/
structure OutConnection where
  address : String := ""
  services : List String := []
  queues : List String := []
  note : String := ""
  memberships : List String := []
  enabled : Bool := true
deriving DecidableEq, Repr

/-- `outbound::Group`, `model.h:532-557`. -/
structure OutGroup where
  alias : String := ""
  connect : Connect := .unknown
  connections : List OutConnection := []
  order : Int := 0
  note : String := ""
deriving DecidableEq, Repr

/-- `gateway::Model`, `model.h:486-500,559-590`. -/
structure Gateway where
  inbound : List InGroup := []
  outbound : List OutGroup := []
deriving DecidableEq, Repr

/-- `model.cpp:402-408`. -/
def InConnection.union (l r : InConnection) : InConnection :=
  { l with note := coalesce r.note l.note, forward := r.forward }

/-- `model.cpp:410-418`. -/
def InGroup.union (l r : InGroup) : InGroup :=
  { l with
    note := coalesce r.note l.note
    connect := r.connect
    limitSize := r.limitSize, limitMessages := r.limitMessages
    connections := update (equalKey (·.address)) InConnection.union r.connections l.connections }

/-- `model.cpp:460-468`. -/
def OutConnection.union (l r : OutConnection) : OutConnection :=
  { l with
    note := coalesce r.note l.note
    services := appendUnique r.services l.services
    queues := appendUnique r.queues l.queues }

/-- `model.cpp:486-493`: the order of the right one is not used. -/
def OutGroup.union (l r : OutGroup) : OutGroup :=
  { l with
    note := coalesce r.note l.note
    connect := r.connect
    connections := update (equalKey (·.address)) OutConnection.union r.connections l.connections }

namespace Gateway
/-- `model.cpp:436-441,510-515,531-537`. -/
def union (l r : Gateway) : Gateway :=
  { inbound := update (equalBoth (·.alias) (·.connect)) InGroup.union r.inbound l.inbound
    outbound := update (equalBoth (·.alias) (·.connect)) OutGroup.union r.outbound l.outbound }
/-- `model.cpp:443-448,517-522,539-545`. -/
def difference (l r : Gateway) : Gateway :=
  { inbound := remove (equalBoth (·.alias) (·.connect)) r.inbound l.inbound
    outbound := remove (equalBoth (·.alias) (·.connect)) r.outbound l.outbound }
/-- `model.cpp:450-455,524-529,547-553`. -/
def intersection (l r : Gateway) : Gateway :=
  { inbound := intersect (equalBoth (·.alias) (·.connect)) r.inbound l.inbound
    outbound := intersect (equalBoth (·.alias) (·.connect)) r.outbound l.outbound }
end Gateway

/-! ### `configuration::Model`, `model.h:809-838` -/

structure Model where
  system : System := {}
  domain : Domain := {}
  transaction : Transaction := {}
  service : Services := {}
  queue : Queues := {}
  gateway : Gateway := {}
deriving DecidableEq, Repr

namespace Model
/-- `set_union( Model, Model)`, `model.cpp:645-657`. -/
def union (l r : Model) : Model :=
  { system := l.system.union r.system
    domain := l.domain.union r.domain
    transaction := l.transaction.union r.transaction
    service := l.service.union r.service
    queue := l.queue.union r.queue
    gateway := l.gateway.union r.gateway }
/-- `set_difference( Model, Model)`, `model.cpp:659-671`. -/
def difference (l r : Model) : Model :=
  { system := l.system.difference r.system
    domain := l.domain.difference r.domain
    transaction := l.transaction.difference r.transaction
    service := l.service.difference r.service
    queue := l.queue.difference r.queue
    gateway := l.gateway.difference r.gateway }
/-- `set_intersection( Model, Model)`, `model.cpp:673-685`. -/
def intersection (l r : Model) : Model :=
  { system := l.system.intersection r.system
    domain := l.domain.intersection r.domain
    transaction := l.transaction.intersection r.transaction
    service := l.service.intersection r.service
    queue := l.queue.intersection r.queue
    gateway := l.gateway.intersection r.gateway }
end Model

end Casual.ConfModel
