import Verif.Config.Change
/-
  The configuration of the service manager: which names lead to which service (routes), timeouts and visibility; at boot, when servers advertise, and when the
  configuration is updated. `middleware/service/source/manager/configuration.cpp`, `transform.cpp`, `Services` and `State::update` in `state.cpp`.
  Simplified: only sequential instances; servers have no restrictions; the notes, metrics and transaction modes of services are left out. `std::map` and
  `std::unordered_map` are lists of pairs with different keys, in some order.
-/
namespace Casual.SConf

/-- `service::Timeout`: `middleware/configuration/include/configuration/model.h:237-253`. -/
structure Timeout where
  duration : Option Nat := none
  contract : Option Nat := none
  deriving DecidableEq, Repr

/-- `set_union`: `middleware/configuration/source/model.cpp:255-263`. -/
def Timeout.union (l r : Timeout) : Timeout :=
  { duration := if r.duration.isSome then r.duration else l.duration, contract := if r.contract.isSome then r.contract else l.contract }

/-- `configuration::model::service::Service`: `model.h:255-274`. -/
structure Conf where
  name : Nat
  routes : List Nat := []
  timeout : Timeout := {}
  visibility : Option Nat := none
  deriving DecidableEq, Repr

/-- `configuration::model::service::Model`: `model.h:291-310`. -/
structure Model where
  timeout : Timeout := {}
  services : List Conf := []
  deriving DecidableEq, Repr

/-- `state::Service`: `middleware/service/include/service/manager/state.h:362-400`. `name` is `information.name`, the name that it is advertised with; `admin`: the category is `.admin`. -/
structure Service where
  name : Nat
  instances : List Nat := []
  timeout : Timeout := {}
  visibility : Option Nat := none
  admin : Bool := false
  deriving DecidableEq, Repr

/-- `State` and `Services`, `state.h:402-466,499-566`: `table` is `m_services` (a `container::Index`, `middleware/common/include/casual/container.h:31-120`), `lookup` is `m_lookup`. -/
structure State where
  timeout : Timeout := {}
  routes : List (Nat × List Nat) := []
  table : List (Option Service) := []
  lookup : List (Nat × Nat) := []
  deriving DecidableEq, Repr

/-- `algorithm::find` in a map. -/
def get {α} (m : List (Nat × α)) (k : Nat) : Option α := (m.find? (·.1 == k)).map (·.2)

/-- `m[ k] = v`. -/
def put {α} (m : List (Nat × α)) (k : Nat) (v : α) : List (Nat × α) := if m.any (·.1 == k) then m.map fun p => if p.1 == k then (k, v) else p else m ++ [(k, v)]

/-- `Index::operator[]`: nothing if there is an exception. `container.h:79-93`. -/
def State.at (st : State) (id : Nat) : Option Service := (st.table[id]?).join

/-- `Index::insert`: the first that is free, or a new one. `container.h:38-47`. -/
def insertTable (t : List (Option Service)) (s : Service) : List (Option Service) × Nat :=
  match t.findIdx? (·.isNone) with
  | some i => (t.set i (some s), i)
  | none => (t ++ [some s], t.length)

/-- Something is changed for a service. -/
def State.change (st : State) (id : Nat) (f : Service → Service) : State := { st with table := st.table.modify id (Option.map f) }

/-- `Services::insert`, `state.cpp:283-294`. -/
def insert (st : State) (s : Service) : State × Nat :=
  match get st.lookup s.name with
  | some id => (st, id)
  | none =>
    let (t, id) := insertTable st.table s
    ({ st with table := t, lookup := put st.lookup s.name id }, id)

/-- `m_lookup[ name] = id` for all names, `state.cpp:313-314,360-361`. -/
def putAll (m : List (Nat × Nat)) (names : List Nat) (id : Nat) : List (Nat × Nat) := names.foldl (fun m n => put m n id) m

/-- `Services::insert` with routes, `state.cpp:296-317`. -/
def insertRoutes (st : State) (s : Service) (routes : List Nat) : State × Nat :=
  match get st.lookup s.name with
  | some id => ({ st with lookup := putAll st.lookup routes id }, id)
  | none =>
    match routes.findSome? (get st.lookup) with
    | some id => ({ st with lookup := putAll st.lookup routes id }, id)
    | none =>
      let (t, id) := insertTable st.table s
      ({ st with table := t, lookup := putAll st.lookup routes id }, id)

/-- `algorithm::container::erase_if( m_lookup, ...)`: no name leads to the service. -/
def unname (m : List (Nat × Nat)) (id : Nat) : List (Nat × Nat) := m.filter (·.2 ≠ id)

/-- `Services::erase`, `state.cpp:319-331`. -/
def erase (st : State) (id : Nat) : State := { st with table := st.table.set id none, lookup := unname st.lookup id }

/-- `Services::restore_origin_name`, `state.cpp:333-345`. -/
def restore (st : State) (id : Nat) (name : Nat) : State := { st with lookup := put (unname st.lookup id) name id }

/-- `Services::replace_routes`, `state.cpp:347-362`. -/
def replaceRoutes (st : State) (id : Nat) (routes : List Nat) : State := { st with lookup := putAll (unname st.lookup id) routes id }

/-- `Services::lookup_origin`, `state.cpp:372-385`. -/
def origin (st : State) (name : Nat) : Option Nat := st.table.findIdx? fun s => s.any (·.name == name)

/-- `transform::configuration`, `middleware/service/source/manager/transform.cpp:196-234`: one name of a service. -/
def tell1 (st : State) (cs : List Conf) (id : Nat) : List Conf :=
  match st.at id with
  | none => cs
  | some s =>
    if s.admin then cs
    else if s.timeout.duration.isNone then cs
    else match cs.findIdx? (·.name == s.name) with
      | some i => cs.modify i fun c => { c with timeout := s.timeout }
      | none => cs ++ [{ name := s.name, timeout := s.timeout }]

/-- `transform::configuration`, `transform.cpp:196-234`. Simplified: the services are not sorted. -/
def tell (st : State) : Model :=
  { timeout := st.timeout
    services := (st.lookup.map (·.2)).foldl (tell1 st) (st.routes.map fun p => { name := p.1, routes := p.2 }) }

/-- `remove`, `configuration.cpp:74-90`; nothing if there is an exception. -/
def remove (st : State) (c : Conf) : Option State :=
  match origin st c.name with
  | none => none
  | some id =>
    match st.at id with
    | none => none
    | some s => if s.instances = [] then some (erase st id) else some (restore (st.change id fun s => { s with timeout := {}, visibility := none }) id s.name)

/-- `add`, `configuration.cpp:92-98`. -/
def add (st : State) (c : Conf) : State :=
  let s : Service := { name := c.name, timeout := st.timeout.union c.timeout, visibility := c.visibility }
  if c.routes = [] then (insert st s).1 else (insertRoutes st s c.routes).1

/-- `modify`, `configuration.cpp:100-111`; nothing if there is an exception. -/
def modify (st : State) (c : Conf) : Option State :=
  match origin st c.name with
  | none => none
  | some id =>
    let st := st.change id fun s => { s with timeout := c.timeout, visibility := c.visibility }
    some (if c.routes = [] then restore st id c.name else replaceRoutes st id c.routes)

/-- `algorithm::for_each`, with exceptions: the state then, and if it came to the end. -/
def each (f : State → Conf → Option State) : List Conf → State → State × Bool
  | [], st => (st, true)
  | c :: cs, st =>
    match f st c with
    | none => (st, false)
    | some st => each f cs st

/-- The routes of a configuration: `configuration.cpp:54-72`; `emplace` does not replace. -/
def routesOf (cs : List Conf) : List (Nat × List Nat) :=
  cs.foldl (fun m c => if c.routes = [] then m else if m.any (·.1 == c.name) then m else m ++ [(c.name, c.routes)]) []

/-- `configuration::conform`, `configuration.cpp:47-119,123-134`. If there is an exception the rest is not done, and there is no reply
(`handle.cpp:1100-1111`). -/
def conform (st : State) (current wanted : Model) : State × Bool :=
  let change := Casual.Config.calculate Conf.name current.services wanted.services
  let st := { st with timeout := wanted.timeout, routes := routesOf wanted.services }
  match each remove change.removed st with
  | (st, false) => (st, false)
  | (st, true) => each modify change.modified (change.added.foldl add st)

/-- `main.cpp:55-56`. -/
def boot (m : Model) : State := (conform {} {} m).1

/-- `local::find_or_add_service`, `state.cpp:454-482`, when an instance advertises: `state.cpp:690-707`. -/
def advertise (st : State) (inst name : Nat) (visibility : Option Nat) (admin : Bool) : State :=
  let s : Service := { name := name, timeout := st.timeout, visibility := visibility, admin := admin }
  let (st, id) := match get st.routes name with
    | some routes => insertRoutes st s routes
    | none => insert st s
  st.change id fun s =>
    { s with visibility := if s.visibility.isSome then s.visibility else visibility, admin := s.admin || admin
             instances := if inst ∈ s.instances then s.instances else s.instances ++ [inst] }

/-- `local::remove_services`, `state.cpp:485-498`. -/
def unadvertise (st : State) (inst name : Nat) : State :=
  { st with table := st.table.map (Option.map fun s => if s.name == name then { s with instances := s.instances.filter (· ≠ inst) } else s) }

/-- An instance is gone. `State::remove`, `state.cpp:519-660`: only what the services have. -/
def gone (st : State) (inst : Nat) : State :=
  { st with table := st.table.map (Option.map fun s => { s with instances := s.instances.filter (· ≠ inst) }) }

/-- What happens to the service manager. -/
inductive Ev where
  | advertise (inst name : Nat) (visibility : Option Nat) (admin : Bool)
  | unadvertise (inst name : Nat)
  | gone (inst : Nat)
  deriving DecidableEq, Repr

/-- What happens when servers come and go. -/
def step (st : State) : Ev → State
  | .advertise i n v a => advertise st i n v a
  | .unadvertise i n => unadvertise st i n
  | .gone i => gone st i

/-- Any number of such events. -/
def run (st : State) (es : List Ev) : State := es.foldl step st

/-- A configuration update: `handle.cpp:1100-1111`. If there is a reply. -/
def update (st : State) (m : Model) : State × Bool := conform st (tell st) m

/-- Which service a name leads to: `Services::lookup`, by the name that it is advertised with. -/
def resolve (st : State) (n : Nat) : Option Nat := (get st.lookup n).bind fun id => (st.at id).map (·.name)

end Casual.SConf
