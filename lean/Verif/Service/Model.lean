/-!
# Model of the service manager

The process `casual-service-manager`: its state (`/repo/middleware/service/include/service/manager/state.h`,
`source/manager/state.cpp`) and its handlers (`source/manager/handle.cpp`).

Modelled: advertise and unadvertise of sequential (local) and concurrent (remote) instances, service lookup and
its pending variants, discard of a lookup, the acknowledgement of a call, deadlines and timeouts, the death of a
process, the preparation of a shutdown, associations of transactions with concurrent instances, discovery replies.

Not modelled: routes and the update of the configuration (`manager/configuration.cpp`), so that every service is
known by exactly its own name and is never erased, and the id of a service (`state::service::id`) is its name; metrics
and event subscriptions; the administration interface; discovery lookup requests.

Simplified:
* names, aliases, process ids, ipc ids, correlations and global transaction ids are numbers;
* `lookup_index` (`/repo/middleware/common/include/casual/container.h:150-263`) keeps a map from the ipc id to the index
  beside the index itself; here the lookup searches the index. (The key is always the ipc of the process stored.)
* what a handler gets from outside — clock, random choice, if a discovery request could be sent — is part of the input;
* a regular expression of an alias restriction is the list of the names it matches;
* `std::sort` is stable.
-/
namespace Casual.Service

abbrev Time := Int

/-- `process::Handle`. -/
structure Proc where
  pid : Nat
  ipc : Nat
  deriving DecidableEq, Repr

/-- `lookup::request::context::Semantic`, `/repo/middleware/common/include/common/message/service.h:274-281`. -/
inductive Sem | regular | noReply | wait | forwardRequest
  deriving DecidableEq, Repr

/-- `lookup::request::context::Requester`, `message/service.h:295-301`. -/
inductive Who | internal | external | externalDiscovery
  deriving DecidableEq, Repr

/-- `service::lookup::Request`, `message/service.h:336-358`. -/
structure Req where
  proc : Proc
  corr : Nat
  name : Nat
  sem : Sem
  who : Who
  gtrid : Option Nat
  deadline : Option Time
  deriving DecidableEq, Repr

/-- `Request::no_reply`, `message/service.h:345-349`. -/
def Req.noReply (r : Req) : Bool := r.sem == .noReply || r.sem == .forwardRequest

/-- `instance::Sequential`, `state.h:121-170`. `reserved`, `caller` and `corr` are `m_reserved_service` and `m_caller`; a nil correlation
is `none`. -/
structure SeqI where
  proc : Proc
  alias : Nat
  reserved : Option Nat
  caller : Option Proc
  corr : Option Nat
  services : List Nat
  deriving DecidableEq, Repr

/-- `instance::Concurrent`, `state.h:172-188`. -/
structure ConI where
  proc : Proc
  alias : Nat
  order : Int
  deriving DecidableEq, Repr

/-- `service::instances::Concurrent`, `state.h:265-281`. -/
structure ConE where
  id : Nat
  order : Int
  hops : Int
  deriving DecidableEq, Repr

/-- `operator <` of `service::instances::Concurrent`, `state.h:271`. -/
def ConE.lt (a b : ConE) : Bool := decide (a.order < b.order) || (decide (a.order = b.order) && decide (a.hops < b.hops))

/-- `state::Service` with its `service::Instances`, `state.h:283-322` and `350-385`. -/
structure Svc where
  name : Nat
  seqs : List Nat
  cons : List ConE
  timeout : Option Int
  deriving DecidableEq, Repr

/-- `pending::Lookup`, `state.h:196-211`. -/
structure Lookup where
  req : Req
  when_ : Time
  deriving DecidableEq, Repr

/-- `pending::deadline::Entry`, `state.h:215-232`. -/
structure Entry where
  when_ : Time
  corr : Nat
  target : Option Nat
  service : Option Nat
  deriving DecidableEq, Repr

/-- One entry of the fan-out `pending.shutdown` (`state.h:497`, `/repo/middleware/common/include/common/message/coordinate.h`):
the correlations and processes waited for, the processes that have acknowledged, and whom to answer. -/
structure Shutdown where
  waiting : List (Option Nat × Nat)
  acked : List Proc
  to : Proc
  corr : Nat
  deriving DecidableEq, Repr

/-- What a handler takes from outside: the clock; for each correlation the random choice; the correlations for which a
discovery request could be sent; what a read behind the end of a vector gives. -/
structure Env where
  now : Time
  picks : List (Nat × Nat)
  sent : List Nat
  junk : Time
  deriving DecidableEq, Repr

def Env.pick (e : Env) (corr : Nat) : Nat := ((e.picks.find? fun p => p.1 == corr).map (·.2)).getD 0

inductive Code | timeout | serviceError
  deriving DecidableEq, Repr

/-- The kind of instance that is handed out. -/
inductive Kind | sequential | concurrent | forward
  deriving DecidableEq, Repr

/-- The messages handled. -/
inductive In
  /-- `service::Advertise` -/
  | advertise (proc : Proc) (alias : Nat) (add remove : List Nat) (e : Env)
  /-- `service::concurrent::Advertise` with the default directive; name, hops and timeout of the services -/
  | cadvertise (proc : Proc) (alias : Nat) (order : Int) (add : List (Nat × Int × Option Int)) (remove : List Nat) (e : Env)
  /-- the same, with directive `reset` -/
  | creset (proc : Proc)
  /-- the same, with directive `instance` -/
  | cinstance (proc : Proc) (alias : Nat) (order : Int)
  | lookup (req : Req) (e : Env)
  | discard (proc : Proc) (corr : Nat) (reply : Bool)
  /-- `service::call::ACK` -/
  | ack (proc : Proc) (corr : Nat) (trid : Option Nat) (e : Env)
  /-- the event that a process has died -/
  | exit (pid : Nat) (e : Env)
  | prepareShutdown (proc : Proc) (corr : Nat) (procs : List Proc) (e : Env)
  | alarm (e : Env)
  /-- the answer to a discovery -/
  | discovered (corr : Nat) (e : Env)
  | disassociate (gtrid : Nat)
  /-- a lookup reply could not be sent to `ipc` -/
  | undelivered (ipc : Nat)
  deriving DecidableEq, Repr

/-- What can be observed. -/
inductive Ev
  | recv (i : In)
  /-- lookup reply: the request it answers, the instance handed out, the time left -/
  | idle (req : Req) (kind : Kind) (target : Proc) (remaining : Option Int)
  | absent (to corr name : Nat)
  | timedOut (to corr : Nat)
  /-- an error as the reply of a call -/
  | error (to : Nat) (corr : Option Nat) (code : Code)
  | discover (name corr : Nat)
  | discarded (to corr : Nat) (pending : Bool)
  | rollback (trid : Nat)
  | assassinate (pid : Nat)
  | shutdown (to corr : Nat) (procs : List Proc)
  deriving DecidableEq, Repr

/-- `manager::State`, `state.h:470-640`. -/
structure State where
  services : List Svc
  seq : List (Option SeqI)
  con : List (Option ConI)
  lookups : List Lookup
  deadlines : List Entry
  shutdowns : List Shutdown
  assoc : List (Nat × List Nat)
  disabled : List Nat
  timeoutInst : List Nat
  /-- the global timeout (`timeout.duration`), and if its contract is fatal -/
  timeout : Option Int
  fatal : Bool
  /-- alias restrictions -/
  restriction : List (Nat × List Nat)
  forward : Proc
  timer : Option Time
  /-- not in the code: a vector has been read behind its end -/
  ub : Bool
  /-- not in the code: the trace -/
  tr : List Ev
  deriving Repr

/-- What is configured. -/
structure Config where
  timeout : Option Int
  fatal : Bool
  restriction : List (Nat × List Nat)
  forward : Proc
  deriving Repr

def State.init (c : Config) : State :=
  { services := [], seq := [], con := [], lookups := [], deadlines := [], shutdowns := [], assoc := [], disabled := [], timeoutInst := [], timeout := c.timeout, fatal := c.fatal, restriction := c.restriction, forward := c.forward, timer := none, ub := false, tr := [] }

def State.emit (s : State) (e : Ev) : State := { s with tr := s.tr ++ [e] }

/-! ## Index, `/repo/middleware/common/include/casual/container.h:36-148` -/

/-- `Index::insert`/`emplace`, `container.h:41-62`: the first free place, or a new one at the end. -/
def Index.insert {α : Type} : List (Option α) → α → Nat × List (Option α)
  | [], a => (0, [some a])
  | none :: l, a => (0, some a :: l)
  | some b :: l, a => let (i, l') := Index.insert l a; (i + 1, some b :: l')

/-- `Index::contains` and `operator []`, `container.h:71-95`. -/
def Index.get {α : Type} (l : List (Option α)) (i : Nat) : Option α := (l[i]?).join

/-- `Index::erase`, `container.h:64-68`. -/
def Index.erase {α : Type} (l : List (Option α)) (i : Nat) : List (Option α) := l.set i none

/-- The assignment through `operator []`, `container.h:81-87`. -/
def Index.modify {α : Type} (l : List (Option α)) (i : Nat) (f : α → α) : List (Option α) :=
  match Index.get l i with
  | some a => l.set i (some (f a))
  | none => l

/-- `indexes`, `container.h:112-122`. -/
def Index.ids {α : Type} (l : List (Option α)) : List Nat := (List.range l.length).filter fun i => (Index.get l i).isSome

/-- `lookup_index::lookup`, `container.h:185-190`: the index of the instance with the ipc. -/
def Index.find {α : Type} (l : List (Option α)) (p : α → Bool) : Option Nat := (Index.ids l).find? fun i => (Index.get l i).any p

/-! ## Instances of a service -/

/-- Insertion in a sorted list, before the first that is not less. -/
def insertCon (x : ConE) : List ConE → List ConE
  | [] => [x]
  | y :: l => if y.lt x then y :: insertCon x l else x :: y :: l

/-- `algorithm::sort`. -/
def sortCons (l : List ConE) : List ConE := l.foldr insertCon []

/-- `Instances::prioritize`, `state.cpp:153-163`: those that are not greater than the first. -/
def prioritized : List ConE → List ConE
  | [] => []
  | x :: l => x :: l.takeWhile fun y => !x.lt y

/-- `Instances::add( sequential)`, `state.cpp:100-109`. -/
def Svc.addSeq (s : Svc) (i : Nat) : Svc := if i ∈ s.seqs then s else { s with seqs := s.seqs ++ [i] }

/-- `Instances::add( concurrent)`, `state.cpp:111-127`. -/
def Svc.addCon (s : Svc) (i : Nat) (order hops : Int) : Svc :=
  if i ∈ s.cons.map (·.id) then s else { s with cons := sortCons (s.cons ++ [{ id := i, order, hops }]) }

/-- `Instances::remove( concurrent)`, `state.cpp:129-136`. -/
def Svc.removeCon (s : Svc) (i : Nat) : Svc := { s with cons := s.cons.eraseP fun c => c.id == i }

/-- `Instances::remove( sequential)`, `state.cpp:138-142`. -/
def Svc.removeSeq (s : Svc) (i : Nat) : Svc := { s with seqs := s.seqs.filter fun j => j ≠ i }

/-- `Instances::next_concurrent`, `state.cpp:144-153`. -/
def Svc.nextConcurrent (s : Svc) (preferred : List Nat) (pick : Nat) : Option Nat :=
  match prioritized s.cons with
  | [] => none
  | x :: l =>
    match (x :: l).find? fun c => c.id ∈ preferred with
    | some c => some c.id
    | none => ((x :: l)[pick % (l.length + 1)]?).map (·.id)

/-! ## Deadlines, `state.cpp:190-262` -/

/-- `Deadline::add`, `state.cpp:193-203`: inserted after those that are not later; the deadline, if it is the first. -/
def addDeadline (e : Entry) : List Entry → List Entry × Option Time
  | [] => ([e], some e.when_)
  | d :: l => if e.when_ < d.when_ then (e :: d :: l, some e.when_) else (d :: (addDeadline e l).1, none)

/-- The result of `Deadline::remove`. -/
inductive Next
  /-- an empty optional -/
  | none
  | at_ (t : Time)
  /-- the iterator behind the last element is dereferenced -/
  | undefined
  deriving DecidableEq, Repr

/-- `Deadline::remove( correlation)`, `state.cpp:205-213`. -/
def removeDeadline (corr : Nat) : List Entry → List Entry × Next
  | [] => ([], .none)
  | d :: l =>
    if d.corr = corr then
      match l with
      | [] => ([], .undefined)
      | d' :: l' => (d' :: l', .at_ d'.when_)
    else (d :: (l.eraseP fun d => d.corr == corr), .none)

/-- `Deadline::expired`, `state.cpp:242-258`. -/
def expired (now : Time) (l : List Entry) : List Entry × List Entry × Option Time :=
  let rest := l.dropWhile fun d => decide (d.when_ < now)
  (l.takeWhile fun d => decide (d.when_ < now), rest, rest.head?.map (·.when_))

/-! ## Services and instances -/

/-- `Services::lookup`, `state.cpp:352-358`. -/
def State.svc? (s : State) (name : Nat) : Option Svc := s.services.find? fun x => x.name == name

/-- Assignment through `services[ id]`. -/
def State.modifySvc (s : State) (name : Nat) (f : Svc → Svc) : State :=
  { s with services := s.services.map fun x => if x.name = name then f x else x }

/-- `Services::insert( service)`, `state.cpp:281-292`. -/
def State.insertSvc (s : State) (name : Nat) (timeout : Option Int) : State :=
  if (s.svc? name).isSome then s else { s with services := s.services ++ [{ name, seqs := [], cons := [], timeout }] }

/-- `instances.sequential.lookup( ipc)`. -/
def State.seqOf (s : State) (ipc : Nat) : Option Nat := Index.find s.seq fun x => x.proc.ipc == ipc

/-- `instances.concurrent.lookup( ipc)`. -/
def State.conOf (s : State) (ipc : Nat) : Option Nat := Index.find s.con fun x => x.proc.ipc == ipc

def State.modifySeq (s : State) (i : Nat) (f : SeqI → SeqI) : State := { s with seq := Index.modify s.seq i f }

/-- `Sequential::discard`, and the part of `Sequential::unreserve` that changes the state, `state.cpp:61-71`. -/
def SeqI.free (x : SeqI) : SeqI := { x with reserved := none, caller := none, corr := none }

/-- The removal of an instance from every service, `clean_instances_from_services`, `state.cpp:524-529`. -/
def State.cleanSeq (s : State) (i : Nat) : State := { s with services := s.services.map fun x => x.removeSeq i }
def State.cleanCon (s : State) (i : Nat) : State := { s with services := s.services.map fun x => x.removeCon i }

/-- Removal of one sequential instance, `state.cpp:543-554`; the caller to be told, if any. -/
def State.dropSeq (s : State) (i : Nat) : State :=
  let s := s.cleanSeq i
  { s with seq := Index.erase s.seq i, disabled := s.disabled.filter fun j => j ≠ i }

def State.dropCon (s : State) (i : Nat) : State :=
  let s := s.cleanCon i
  { s with con := Index.erase s.con i }

/-- The callers of the instances, `state.cpp:547-548`. -/
def State.callers (s : State) (is : List Nat) : List (Proc × Option Nat) :=
  is.filterMap fun i => (Index.get s.seq i).bind fun x => x.caller.map fun p => (p, x.corr)

/-- The indexes of instances of a process, `find_indexes`, `state.cpp:516-522`. -/
def State.seqIds (s : State) (p : Proc → Bool) : List Nat := (Index.ids s.seq).filter fun i => (Index.get s.seq i).any fun x => p x.proc
def State.conIds (s : State) (p : Proc → Bool) : List Nat := (Index.ids s.con).filter fun i => (Index.get s.con i).any fun x => p x.proc

/-- `local::remove`, `state.cpp:513-558`: of every instance of the processes `p`. -/
def State.remove (s : State) (p : Proc → Bool) : State × List (Proc × Option Nat) :=
  let s := (s.conIds p).foldl State.dropCon s
  ((s.seqIds p).foldl State.dropSeq s, s.callers (s.seqIds p))

/-! ## Lookup -/

def State.setTimer (s : State) (t : Time) : State := { s with timer := some t }

/-- `calculate_deadline`, `handle.cpp:365-374`. -/
def calcDeadline (timeout : Option Int) (now : Time) (caller : Option Time) : Option Time :=
  match timeout with
  | some d =>
    if d > 0 then
      match caller with
      | none => some (now + d)
      | some c => if c > now + d then some (now + d) else some c
    else caller
  | none => caller

/-- `dispatch::lookup::no_entry`, `handle.cpp:411-419`. -/
def State.noEntry (s : State) (r : Req) : State := s.emit (.absent r.proc.ipc r.corr r.name)

/-- `discover`, `handle.cpp:376-407`. -/
def State.discover (s : State) (r : Req) (e : Env) : State :=
  let s := s.emit (.discover r.name r.corr)
  if r.corr ∈ e.sent ∨ r.sem = .wait then { s with lookups := s.lookups ++ [{ req := r, when_ := e.now }] }
  else s.emit (.absent r.proc.ipc r.corr r.name)

/-- The last deadline entry with a correlation gets service and target, `handle.cpp:459-465`. -/
def claimEntry (corr : Nat) (svc target : Nat) : List Entry → List Entry
  | [] => []
  | d :: l => if d.corr = corr then { d with service := some svc, target := some target } :: l else d :: claimEntry corr svc target l

/-- `dispatch::lookup::reply` for a sequential instance, `handle.cpp:421-497`. -/
def State.replySeq (s : State) (svc : Svc) (i : Nat) (p : Proc) (r : Req) (e : Env) : State :=
  match s.deadlines.find? fun d => d.corr == r.corr with
  | some d =>
    { s with deadlines := claimEntry r.corr svc.name i s.deadlines }.emit (.idle r .sequential p (some (d.when_ - e.now)))
  | none =>
    match calcDeadline svc.timeout e.now r.deadline with
    | some t =>
      let (ds, next) := addDeadline { when_ := t, corr := r.corr, target := some i, service := some svc.name } s.deadlines
      let s := { s with deadlines := ds }
      let s := match next with
        | some n => s.setTimer n
        | none => s
      s.emit (.idle r .sequential p (some (t - e.now)))
    | none => s.emit (.idle r .sequential p none)

/-- `dispatch::lookup::reply` for a concurrent instance, `handle.cpp:421-456`. -/
def State.replyCon (s : State) (svc : Svc) (p : Proc) (r : Req) (e : Env) : State :=
  s.emit (.idle r .concurrent p ((calcDeadline svc.timeout e.now r.deadline).map fun t => t - e.now))

/-- `dispatch::lookup::pending`, `handle.cpp:499-541`. -/
def State.pend (s : State) (svc : Svc) (r : Req) (e : Env) : State :=
  match r.sem with
  | .noReply => s.emit (.idle r .forward s.forward none)
  | .wait => { s with lookups := s.lookups ++ [{ req := r, when_ := e.now }] }
  | _ =>
    let ds := match calcDeadline svc.timeout e.now r.deadline with
      | some t => (addDeadline { when_ := t, corr := r.corr, target := none, service := none } s.deadlines).1
      | none => s.deadlines
    { s with deadlines := ds, lookups := s.lookups ++ [{ req := r, when_ := e.now }] }

/-- `State::reserve_sequential`, `state.cpp:584-607`: the first idle instance. -/
def State.reserveSeq (s : State) (svc : Svc) : Option Nat :=
  svc.seqs.find? fun i => (Index.get s.seq i).any fun x => x.reserved.isNone

/-- `dispatch::lookup::internal_only`, `handle.cpp:543-563`. -/
def State.internalOnly (s : State) (svc : Svc) (r : Req) (e : Env) : State × Bool :=
  if svc.seqs.isEmpty then (s, false)
  else
    match s.reserveSeq svc with
    | some i =>
      match Index.get s.seq i with
      | some x =>
        let s := s.modifySeq i fun x => { x with reserved := some svc.name, caller := if r.noReply then none else some r.proc, corr := some r.corr }
        (s.replySeq svc i x.proc r e, true)
      | none => (s, true)
    | none => (s.pend svc r e, true)

/-- `dispatch::lookup::external_internal`, `handle.cpp:565-614`. An instance that does not exist raises an exception: then
nothing more happens. -/
def State.externalInternal (s : State) (svc : Svc) (r : Req) (e : Env) : State × Bool :=
  match s.internalOnly svc r e with
  | (s', true) => (s', true)
  | (_, false) =>
    match r.gtrid with
    | none =>
      match svc.nextConcurrent [] (e.pick r.corr) with
      | some i =>
        match Index.get s.con i with
        | some x => (s.replyCon svc x.proc r e, true)
        | none => (s, true)
      | none => (s, false)
    | some t =>
      match s.assoc.find? fun a => a.1 == t with
      | some a =>
        match svc.nextConcurrent a.2 (e.pick r.corr) with
        | some i =>
          let s := { s with assoc := s.assoc.map fun b => if b.1 = t ∧ i ∉ b.2 then (b.1, b.2 ++ [i]) else b }
          match Index.get s.con i with
          | some x => (s.replyCon svc x.proc r e, true)
          | none => (s, true)
        | none => (s, false)
      | none =>
        match svc.nextConcurrent [] (e.pick r.corr) with
        | some i =>
          let s := { s with assoc := s.assoc ++ [(t, [i])] }
          match Index.get s.con i with
          | some x => (s.replyCon svc x.proc r e, true)
          | none => (s, true)
        | none => (s, false)

/-- `service::detail::lookup`, `handle.cpp:618-650`. -/
def State.lookup (s : State) (r : Req) (e : Env) : State :=
  match s.svc? r.name with
  | some svc =>
    match r.who with
    | .external =>
      match s.internalOnly svc r e with
      | (s', true) => s'
      | (_, false) => s.noEntry r
    | _ =>
      match s.externalInternal svc r e with
      | (s', true) => s'
      | (_, false) => s.discover r e
  | none => if r.who = .internal then s.discover r e else s.noEntry r

/-- `detail::handle::pending`, `handle.cpp:709-727`. -/
def State.again (s : State) (ls : List Lookup) (e : Env) : State := ls.foldl (fun s l => s.lookup l.req e) s

/-! ## The handlers -/

/-- `restrict_add_services`, `state.cpp:489-510`. -/
def State.allowed (s : State) (alias : Nat) (name : Nat) : Bool :=
  match s.restriction.find? fun a => a.1 == alias with
  | some a => decide (name ∈ a.2)
  | none => true

/-- The part of an advertise that adds a service to a sequential instance, `state.cpp:668-677` and `444-472`. -/
def State.addSeqService (i : Nat) (s : State) (name : Nat) : State :=
  let s := s.insertSvc name s.timeout
  let s := s.modifySeq i fun x => { x with services := x.services ++ [name] }
  s.modifySvc name fun v => v.addSeq i

/-- `remove_services`, `state.cpp:474-487`. -/
def State.removeSeqServices (s : State) (i : Nat) (names : List Nat) : State :=
  let known := (s.services.map (·.name)).filter fun n => n ∈ names
  let s : State := { s with services := s.services.map fun v => if v.name ∈ names then v.removeSeq i else v }
  s.modifySeq i fun x => { x with services := x.services.filter fun n => n ∉ known }

/-- The pending lookup an instance can take is looked up again, `handle.cpp:1053-1070` and `state.cpp:690-701`. -/
def State.takePending (s : State) (i : Nat) (e : Env) : State :=
  let has := fun l : Lookup => (s.svc? l.req.name).isSome && (Index.get s.seq i).any fun x => decide (l.req.name ∈ x.services)
  match s.lookups.find? has with
  | some l => { s with lookups := s.lookups.eraseP has }.again [l] e
  | none => s

/-- `find_or_add_instance` and the assignment of the alias, `state.cpp:446-452` and `:665-666`. -/
def State.seqFor (s : State) (p : Proc) (alias : Nat) : Nat × State :=
  match s.seqOf p.ipc with
  | some i => (i, s.modifySeq i fun x => { x with alias })
  | none =>
    let r := Index.insert s.seq { proc := p, alias, reserved := none, caller := none, corr := none, services := [] }
    (r.1, { s with seq := r.2 })

/-- `State::update( Advertise)`, `state.cpp:644-705`, and the handler, `handle.cpp:316-327`. -/
def State.advertise (s : State) (p : Proc) (alias : Nat) (add remove : List Nat) (e : Env) : State :=
  if add.isEmpty ∧ remove.isEmpty then (s.remove fun q => q.pid == p.pid).1
  else
    let add := add.filter fun n => s.allowed alias n
    let (i, s) := s.seqFor p alias
    if i ∈ s.disabled then { s with disabled := s.disabled.erase i }
    else
      ((add.foldl (State.addSeqService i) s).removeSeqServices i remove).takePending i e

/-- The part of a concurrent advertise that adds a service, `state.cpp:750-765`. -/
def State.addConService (i : Nat) (order : Int) (s : State) (a : Nat × Int × Option Int) : State :=
  let s := s.insertSvc a.1 (match a.2.2 with | some d => if d > 0 then some d else none | none => none)
  s.modifySvc a.1 fun v => v.addCon i order a.2.1

/-- `remove_services`, `state.cpp:474-487`. -/
def State.removeConServices (s : State) (i : Nat) (names : List Nat) : State :=
  { s with services := s.services.map fun v => if v.name ∈ names then v.removeCon i else v }

/-- The pending lookups for services with concurrent instances only are looked up again, `state.cpp:776-790`. -/
def State.takeReady (s : State) (e : Env) : State :=
  let ready := fun l : Lookup => (s.svc? l.req.name).any fun v => !v.cons.isEmpty && v.seqs.isEmpty
  { s with lookups := s.lookups.filter fun l => !ready l }.again (s.lookups.filter ready) e

/-- `find_or_add_instance` and the assignments that follow, `state.cpp:446-452` and `:743-746`. -/
def State.conFor (s : State) (p : Proc) (alias : Nat) (order : Int) : Nat × State :=
  match s.conOf p.ipc with
  | some i => (i, { s with con := Index.modify s.con i fun x => { x with alias, order } })
  | none =>
    let r := Index.insert s.con { proc := p, alias, order }
    (r.1, { s with con := r.2 })

/-- `State::update( concurrent::Advertise)` with the default directive, `state.cpp:739-791`, and the handler,
`handle.cpp:329-341`. -/
def State.cadvertise (s : State) (p : Proc) (alias : Nat) (order : Int) (add : List (Nat × Int × Option Int)) (remove : List Nat) (e : Env) : State :=
  let add := add.filter fun n => s.allowed alias n.1
  let (i, s) := s.conFor p alias order
  ((add.foldl (State.addConService i order) s).removeConServices i remove).takeReady e

/-- The same with directive `instance`, `state.cpp:719-736`. -/
def State.cinstance (s : State) (p : Proc) (alias : Nat) (order : Int) : State :=
  match s.conOf p.ipc with
  | none => s
  | some i =>
    { s with con := Index.modify s.con i fun x => { x with alias, order }, services := s.services.map fun v => { v with cons := sortCons v.cons } }

/-- `discard::lookup`, `handle.cpp:662-704`. -/
def State.discard (s : State) (p : Proc) (corr : Nat) (reply : Bool) : State :=
  if s.lookups.any fun l => l.req.corr == corr then
    let s := { s with lookups := s.lookups.eraseP fun l => l.req.corr == corr }
    if reply then s.emit (.discarded p.ipc corr true) else s
  else
    let s := { s with seq := s.seq.map fun o => o.map fun x => if x.reserved.isSome ∧ x.corr = some corr then x.free else x }
    if reply then s.emit (.discarded p.ipc corr false) else s

/-- The fan-out gets an acknowledgement, `coordinate.h`: complete entries are answered. -/
def ackShutdown (p : Proc) (corr : Nat) : List Shutdown → List Shutdown × List Ev
  | [] => ([], [])
  | d :: l =>
    if d.waiting.any fun w => w.1 == some corr then
      let d := { d with waiting := d.waiting.eraseP fun w => w.1 == some corr, acked := d.acked ++ [p] }
      if d.waiting.isEmpty then (l, [.shutdown d.to.ipc d.corr d.acked]) else (d :: l, [])
    else let (l', es) := ackShutdown p corr l; (d :: l', es)

/-- `fan::Out::failed`. -/
def failShutdown (pid : Nat) (l : List Shutdown) : List Shutdown × List Ev :=
  let l := l.map fun d => { d with waiting := d.waiting.filter fun w => w.2 ≠ pid }
  (l.filter fun d => !d.waiting.isEmpty, (l.filter fun d => d.waiting.isEmpty).map fun d => .shutdown d.to.ipc d.corr d.acked)

/-- `check_timeout_and_notify_TM`, `handle.cpp:983-1006`. -/
def State.notifyTM (s : State) (p : Proc) (trid : Option Nat) : State :=
  match trid with
  | none => s
  | some t => if p.pid ∈ s.timeoutInst then { s with timeoutInst := s.timeoutInst.erase p.pid }.emit (.rollback t) else s

/-- `ack`, `handle.cpp:1014-1073`. -/
def State.ack (s : State) (p : Proc) (corr : Nat) (trid : Option Nat) (e : Env) : State :=
  let (ds, next) := removeDeadline corr s.deadlines
  let s := { s with deadlines := ds }
  let s := match next with
    | .none => s
    | .at_ t => s.setTimer t
    | .undefined => { s.setTimer e.junk with ub := true }
  let s := s.notifyTM p trid
  match s.seqOf p.ipc with
  | none => s
  | some i =>
    let s := s.modifySeq i SeqI.free
    if i ∈ s.disabled then
      let (sh, es) := ackShutdown p corr s.shutdowns
      { s with shutdowns := sh, tr := s.tr ++ es }
    else s.takePending i e

/-- `event::process::exit`, `handle.cpp:229-262`. -/
def State.exit (s : State) (pid : Nat) (e : Env) : State :=
  let (sh, es) := failShutdown pid s.shutdowns
  let s := { s with shutdowns := sh, tr := s.tr ++ es }
  let r := s.remove fun q => q.pid == pid
  let s : State := { r.1 with tr := r.1.tr ++ r.2.map fun c => Ev.error c.1.ipc c.2 .serviceError }
  let s := { s with timeoutInst := s.timeoutInst.filter fun q => q ≠ pid }
  { s with lookups := [] }.again s.lookups e

/-- One process of `State::prepare_shutdown`, `state.cpp:617-641`: (services without instances, instances, unknown processes). -/
def State.prepareOne (s : State) (r : List Nat × List Nat × List Proc) (p : Proc) : State × List Nat × List Nat × List Proc :=
  match s.seqOf p.ipc with
  | some i =>
    match Index.get s.seq i with
    | some x =>
      let s' := { s with services := s.services.map fun v => if v.name ∈ x.services then v.removeSeq i else v }
      let gone := x.services.filter fun n => (s'.svc? n).any fun v => v.seqs.isEmpty && v.cons.isEmpty
      (s', r.1 ++ gone, r.2.1 ++ [i], r.2.2)
    | none => (s, r)
  | none => (s, r.1, r.2.1, r.2.2 ++ [p])

def State.prepareAll : State → List Nat × List Nat × List Proc → List Proc → State × List Nat × List Nat × List Proc
  | s, r, [] => (s, r)
  | s, r, p :: ps => let (s, r) := s.prepareOne r p; s.prepareAll r ps

/-- `process::prepare::shutdown`, `handle.cpp:771-848`. -/
def State.prepareShutdown (s : State) (p : Proc) (corr : Nat) (ps : List Proc) (e : Env) : State :=
  let (s, gone, is, unknown) := s.prepareAll ([], [], []) ps
  let s :=
    if gone.isEmpty then s
    else { s with lookups := s.lookups.filter fun l => l.req.name ∉ gone }.again (s.lookups.filter fun l => l.req.name ∈ gone) e
  let busy := is.filter fun i => (Index.get s.seq i).any fun x => x.reserved.isSome
  let idle := is.filter fun i => !(Index.get s.seq i).any fun x => x.reserved.isSome
  let s := if idle.isEmpty ∧ unknown.isEmpty then s
    else s.emit (.shutdown p.ipc corr (unknown ++ idle.filterMap fun i => (Index.get s.seq i).map (·.proc)))
  if busy.isEmpty then s
  else
    { s with shutdowns := s.shutdowns ++ [{ waiting := busy.filterMap fun i => (Index.get s.seq i).map fun x => (x.corr, x.proc.pid), acked := [], to := p, corr }], disabled := s.disabled ++ busy }

/-- One expired deadline, `handle_timeout`, `handle.cpp:120-184`. -/
def State.expire (s : State) (d : Entry) : State :=
  match s.lookups.find? fun l => l.req.corr == d.corr with
  | some l => { s with lookups := s.lookups.eraseP fun l => l.req.corr == d.corr }.emit (.timedOut l.req.proc.ipc l.req.corr)
  | none =>
    match d.service, d.target with
    | some _, some i =>
      match Index.get s.seq i with
      | some x =>
        if x.corr = some d.corr then
          let s := s.modifySeq i fun x => { x with caller := none, corr := none }
          match x.caller with
          | some c =>
            let s := { s with timeoutInst := s.timeoutInst ++ [x.proc.pid] }
            let s := s.emit (.error c.ipc (some d.corr) .timeout)
            let s := if s.fatal then { s with disabled := s.disabled ++ [i] } else s
            s.emit (.assassinate x.proc.pid)
          | none => s
        else s
      | none => s
    | _, _ => s

/-- The timer that has gone off is not set any more. -/
def State.stopTimer (s : State) (now : Time) : State :=
  match s.timer with
  | some t => if t ≤ now then { s with timer := none } else s
  | none => s

/-- `handle::timeout`, `handle.cpp:111-187`, as reaction to the alarm signal. -/
def State.alarm (s : State) (e : Env) : State :=
  let s := s.stopTimer e.now
  let x := expired e.now s.deadlines
  let s := x.1.foldl State.expire { s with deadlines := x.2.1 }
  match x.2.2 with
  | some t => s.setTimer t
  | none => s

/-- `domain::discovery::api::reply`, `handle.cpp:908-942`. -/
def State.discovered (s : State) (corr : Nat) (e : Env) : State :=
  match s.lookups.find? fun l => l.req.corr == corr with
  | none => s
  | some l =>
    if (s.svc? l.req.name).any fun v => !(v.seqs.isEmpty && v.cons.isEmpty) then
      { s with lookups := s.lookups.eraseP fun l => l.req.corr == corr }.lookup l.req e
    else if l.req.sem = .wait then s
    else { s with lookups := s.lookups.eraseP fun l => l.req.corr == corr }.noEntry l.req

def State.handle (s : State) : In → State
  | .advertise p alias add remove e => s.advertise p alias add remove e
  | .cadvertise p alias order add remove e => s.cadvertise p alias order add remove e
  | .creset p => (s.remove fun q => q.ipc == p.ipc).1
  | .cinstance p alias order => s.cinstance p alias order
  | .lookup r e => s.lookup r e
  | .discard p corr reply => s.discard p corr reply
  | .ack p corr trid e => s.ack p corr trid e
  | .exit pid e => s.exit pid e
  | .prepareShutdown p corr ps e => s.prepareShutdown p corr ps e
  | .alarm e => s.alarm e
  | .discovered corr e => s.discovered corr e
  | .disassociate t => { s with assoc := s.assoc.filter fun a => a.1 ≠ t }
  | .undelivered ipc =>
    -- the callback of the lookup reply, `handle.cpp:491-495`
    match s.seqOf ipc with
    | some i => s.modifySeq i SeqI.free
    | none => s

def State.step (s : State) (i : In) : State := (s.emit (.recv i)).handle i

def State.run (s : State) (is : List In) : State := is.foldl State.step s

end Casual.Service
