import Verif.ConfModel.Alias
/-
  The configuration as it is written by the user, how defaults are applied, how it becomes a
  configuration model, and how files are read and configuration is posted:
  `middleware/configuration/include/configuration/user.h`, `source/user.cpp:33-88,393-555`,
  `source/model/transform.cpp:26-300`, `source/model/load.cpp:26-60`,
  `source/model/validate.cpp:25-53` and
  `middleware/domain/source/manager/admin/server.cpp:270-306`.

  Modelled are groups, servers, executables, services, transaction resources and their defaults;
  `system`, `queue` and `gateway` are not part of this model of the file. Environment files are
  taken as read. Durations are numbers. A list that is not there and an empty list are not told
  apart where the code does not either (the lists of servers, executables, groups, services and
  resources). The deprecated `domain.service` and `default.environment` are left out.
-/
namespace Casual.ConfModel

/-- `user::domain::Group`, `user.h:106-123`. -/
structure UGroup where
  name : String
  note : Option String := none
  enabled : Option Bool := none
  resources : Option (List String) := none
  dependencies : Option (List String) := none
deriving DecidableEq, Repr

/-- `user::domain::Executable` and `Server`, `user.h:145-183`; an executable has no
restrictions and no resources. -/
structure UEntity where
  alias : Option String := none
  dir : String := ""
  filename : String
  note : Option String := none
  arguments : Option (List String) := none
  instances : Option Int := none
  memberships : Option (List String) := none
  environment : Option Environment := none
  restart : Option Bool := none
  restrictions : Option (List String) := none
  resources : Option (List String) := none
deriving DecidableEq, Repr

/-- `user::domain::executable::Default`, `user.h:128-141`. -/
structure UEntityDefault where
  instances : Int := 1
  memberships : Option (List String) := none
  environment : Option Environment := none
  restart : Bool := false
deriving DecidableEq, Repr

/-- `user::domain::service::Execution` with its `Timeout`, `user.h:187-206`. -/
structure UExecution where
  duration : Option Int := none
  contract : Option String := none
deriving DecidableEq, Repr

/-- `user::domain::service::Default`, `user.h:210-224`; `timeout` is the deprecated one. -/
structure UServiceDefault where
  execution : Option UExecution := none
  visibility : Option String := none
  timeout : Option Int := none
deriving DecidableEq, Repr

/-- `user::domain::Service`, `user.h:228-250`. -/
structure UService where
  name : String
  note : Option String := none
  execution : Option UExecution := none
  routes : Option (List String) := none
  visibility : Option String := none
  timeout : Option Int := none
deriving DecidableEq, Repr

/-- `transaction::resource::Default`, `user.h:271-279`. -/
structure UResourceDefault where
  key : Option String := none
  instances : Option Int := some 1
deriving DecidableEq, Repr

/-- `transaction::Resource`, `user.h:283-301`. -/
structure UResource where
  name : String
  key : Option String := none
  instances : Option Int := none
  note : Option String := none
  openinfo : Option String := none
  closeinfo : Option String := none
deriving DecidableEq, Repr

/-- `transaction::Manager`, `user.h:306-330`. -/
structure UTransaction where
  defaults : Option UResourceDefault := none
  log : String := ""
  resources : List UResource := []
deriving DecidableEq, Repr

/-- `user::domain::Default`. -/
structure UDefault where
  server : Option UEntityDefault := none
  executable : Option UEntityDefault := none
  service : Option UServiceDefault := none
deriving DecidableEq, Repr

/-- `user::domain::Model`, the sections that are modelled. `globalService` is
`global.service.execution`. -/
structure UModel where
  name : Option String := none
  defaults : Option UDefault := none
  environment : Option Environment := none
  transaction : Option UTransaction := none
  groups : List UGroup := []
  servers : List UEntity := []
  executables : List UEntity := []
  services : List UService := []
  globalService : Option UExecution := none
deriving DecidableEq, Repr

/-! ### `user::normalize`, `user.cpp` -/

/-- `alias::placeholder`, `user.cpp:39-43`, for a list of entities: `fresh n` is the string made
of the `n`:th identifier (`common.cpp:28-31`). -/
def placeholders (fresh : Nat → String) : Nat → List UEntity → Nat × List UEntity
  | n, [] => (n, [])
  | n, e :: es =>
    if e.alias.getD "" = "" then
      let r := placeholders fresh (n + 1) es
      (r.1, { e with alias := some (fresh n) } :: r.2)
    else
      let r := placeholders fresh n es
      (r.1, e :: r.2)

/-- `transaction::normalize`, `user.cpp:73-89`. -/
def UTransaction.normalize (t : UTransaction) : UTransaction :=
  match t.defaults with
  | none => t
  | some d => { t with resources := t.resources.map fun r =>
      { r with key := coalesceO r.key d.key, instances := coalesceO r.instances d.instances } }

/-- `normalize_service`, `user.cpp:431-448`: the deprecated `timeout`. -/
def UService.legacy (s : UService) : UService :=
  match s.timeout with
  | none => s
  | some t =>
    match s.execution with
    | some { duration := some _, .. } => s
    | some e => { s with execution := some { e with duration := some t } }
    | none => { s with execution := some { duration := some t } }

/-- The deprecated `default.service.timeout`, `user.cpp:455-463`. -/
def UServiceDefault.legacy (d : UServiceDefault) : UServiceDefault :=
  match d.timeout with
  | none => d
  | some t => { d with execution := some { (d.execution.getD {}) with duration := some t } }

/-- `normalize_entity`, `user.cpp:477-483`. -/
def UEntity.withDefault (d : UEntityDefault) (e : UEntity) : UEntity :=
  { e with
    instances := some (e.instances.getD d.instances)
    memberships := coalesceO e.memberships d.memberships
    environment := coalesceO e.environment d.environment
    restart := some (e.restart.getD d.restart) }

/-- `normalize_service`, `user.cpp:497-524` (`service.timeout` is not used any more). -/
def UService.withDefault (d : UServiceDefault) (s : UService) : UService :=
  let s1 := match d.execution with
    | none => s
    | some de =>
      let e := s.execution.getD {}
      { s with execution := some { duration := coalesceO e.duration de.duration, contract := coalesceO e.contract de.contract } }
  { s1 with visibility := coalesceO s.visibility d.visibility }

/-- `domain::normalize`, `user.cpp:393-533`; `n` is the number of identifiers made so far. -/
def UModel.normalize (fresh : Nat → String) (n : Nat) (m : UModel) : Nat × UModel :=
  let ex := placeholders fresh n m.executables
  let sv := placeholders fresh ex.1 m.servers
  let services := m.services.map UService.legacy
  let transaction := m.transaction.map UTransaction.normalize
  match m.defaults with
  | none => (sv.1, { m with executables := ex.2, servers := sv.2, services := services, transaction := transaction })
  | some d =>
    let ds := d.service.map UServiceDefault.legacy
    (sv.1, { m with
      defaults := some { d with service := ds }
      transaction := transaction
      servers := match d.server with | some x => sv.2.map (UEntity.withDefault x) | none => sv.2
      executables := match d.executable with | some x => ex.2.map (UEntity.withDefault x) | none => ex.2
      services := match ds with | some x => services.map (UService.withDefault x) | none => services })

/-! ### `model::transform`, `transform.cpp` -/

/-- `algorithm::sort` and `unique` of strings, `transform.cpp:138`. -/
def insertSorted (s : String) : List String → List String
  | [] => [s]
  | x :: xs => if s = x then x :: xs else if s < x then s :: x :: xs else x :: insertSorted s xs

/-- `transform.cpp:138`. -/
def sortUnique (l : List String) : List String := l.foldr insertSorted []

/-- `append_resources`, `transform.cpp:126-140`. -/
def addMapping (alias : String) (resources : List String) (mappings : List Mapping) : List Mapping :=
  if resources = [] then mappings
  else if mappings.any (fun m => decide (m.alias = alias)) then
    upsert (fun m v => decide (m.alias = v.alias)) (fun m v => { m with resources := appendUnique v.resources m.resources })
      { alias := alias, resources := resources } mappings
  else mappings ++ [{ alias := alias, resources := sortUnique resources }]

/-- `extract_group_resources`, `transform.cpp:142-154`. -/
def groupResources (groups : List UGroup) (memberships : List String) : List String :=
  memberships.flatMap fun n =>
    match groups.find? fun g => decide (g.name = n) with
    | some g => g.resources.getD []
    | none => []

/-- `server_resources`, `transform.cpp:156-164`; `none` if `server.alias.value()` throws. -/
def serverMappings (groups : List UGroup) : List UEntity → List Mapping → Option (List Mapping)
  | [], ms => some ms
  | s :: ss, ms =>
    match s.alias with
    | none => none
    | some a => serverMappings groups ss
        (addMapping a (groupResources groups (s.memberships.getD [])) (addMapping a (s.resources.getD []) ms))

/-- `transaction`, `transform.cpp:98-172`. -/
def transformTransaction (m : UModel) : Option Transaction :=
  match m.transaction with
  | none => some {}
  | some t =>
    match serverMappings m.groups m.servers [] with
    | none => none
    | some ms => some {
        log := t.log
        resources := t.resources.map fun r =>
          { name := r.name, key := r.key.getD "", instances := r.instances.getD 0, note := r.note.getD ""
            openinfo := r.openinfo.getD "", closeinfo := r.closeinfo.getD "" }
        mappings := ms }

/-- `transform_executable`, `transform.cpp:199-220`. -/
def UEntity.transform (e : UEntity) : Entity :=
  { alias := e.alias.getD "", dir := e.dir, filename := e.filename, arguments := e.arguments.getD []
    instances := e.instances.getD 1, memberships := e.memberships.getD [], environment := e.environment.getD {}
    restart := e.restart.getD false, note := e.note.getD "" }

/-- `domain`, `transform.cpp:174-229`. -/
def transformDomain (m : UModel) : Domain :=
  { name := m.name.getD ""
    environment := m.environment.getD {}
    groups := m.groups.map fun g =>
      { name := g.name, note := g.note.getD "", enabled := g.enabled.getD true, dependencies := g.dependencies.getD [] }
    servers := m.servers.map UEntity.transform
    executables := m.executables.map UEntity.transform }

/-- `detail::execution::timeout`, `transform.cpp:233-247`. -/
def UExecution.transform (e : Option UExecution) : Timeout :=
  match e with
  | none => {}
  | some e => { duration := e.duration, contract := e.contract }

/-- `result.restriction.servers`, `transform.cpp:286-300`; `*server.alias` has no defined value
without an alias, here it is `none`. -/
def serverRestrictions : List UEntity → Option (List Restricted)
  | [] => some []
  | s :: ss =>
    if s.restrictions.getD [] = [] then serverRestrictions ss
    else
      match s.alias, serverRestrictions ss with
      | some a, some r => some ({ alias := a, services := s.restrictions.getD [] } :: r)
      | _, _ => none

/-- `service`, `transform.cpp:251-304`: the notes are not taken over. -/
def transformService (m : UModel) : Option Services :=
  match serverRestrictions m.servers with
  | none => none
  | some r => some {
      global := { timeout := UExecution.transform m.globalService }
      services := m.services.map fun s =>
        { name := s.name, routes := s.routes.getD [], visibility := s.visibility
          timeout := UExecution.transform
            (coalesceO s.execution (match m.defaults with | some { service := some d, .. } => d.execution | _ => none)) }
      restriction := r }

/-- `model::transform( user::Model)`; `none` if it throws. -/
def transform (m : UModel) : Option Model :=
  match transformTransaction m, transformService m with
  | some t, some s => some { domain := transformDomain m, transaction := t, service := s }
  | _, _ => none

/-! ### Files and posts -/

/-- `validate`, `validate.cpp:36-52`: `false` if it raises. -/
def validate (m : Model) : Bool :=
  m.domain.servers.all (fun e => decide (0 ≤ e.instances)) &&
  m.domain.executables.all (fun e => decide (0 ≤ e.instances)) &&
  m.transaction.resources.all (fun r => decide (0 ≤ r.instances)) &&
  m.queue.forwards.all fun g => g.services.all fun s => decide (0 ≤ s.instances)

/-- `algorithm::accumulate( files, Model{}, &local::load)`, `load.cpp:28-42,52`. -/
def accumulate (fresh : Nat → String) : Nat → Model → List UModel → Option Model
  | _, m, [] => some m
  | n, m, f :: fs =>
    let r := f.normalize fresh n
    match transform r.2 with
    | none => none
    | some t => accumulate fresh r.1 (m.union t) fs

/-- `model::load`, `load.cpp:47-60`. -/
def load (fresh : Nat → String) (files : List UModel) : Option Model :=
  match accumulate fresh 0 {} files with
  | none => none
  | some m =>
    match normalize m with
    | none => none
    | some r => if validate r then some r else none

/-- What a posted configuration becomes, `server.cpp:276`: `user::normalize` is not called, and
`validate` is not either. -/
def posted (f : UModel) : Option Model :=
  match transform f with
  | none => none
  | some m => normalize m

/-- The same for `put`, `server.cpp:296-301`, given the configuration that is there. -/
def put (current : Model) (f : UModel) : Option Model :=
  match transform f with
  | none => none
  | some m => normalize (current.union m)

end Casual.ConfModel
