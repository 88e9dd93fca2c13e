/-!
Model of a forward group of the queue domain: the process that dequeues messages, and sends them to
a service or to another queue. middleware/queue/source/forward/{handle,state,main}.cpp,
middleware/queue/include/queue/forward/state.h.

Simplifications, for the whole file. Processes (pid and ipc together), queues, services, aliases
and payloads are numbers. Correlations and transaction ids that this process makes are numbers that
it has not used before (`State.fresh`). Only the payload of a message is looked at; of a payload,
neither its type nor its bytes. A delay is there or not. A message that is sent is `log`ged when
`multiplex.send` is called; if it can not be delivered, and there is a callback, it is the event
`undelivered`. Selectors, execution ids, time stamps, notes and the two admin messages are left out.
-/
namespace Casual.Forward

/-- `transaction::ID` -/
structure Trid where
  n : Nat
  deriving DecidableEq, Repr

/-- Where messages are forwarded to: a service (and possibly a queue for its replies), or a queue. -/
inductive Target
  | service (svc : Nat) (reply : Option Nat)
  | queue (name : Nat)
  deriving DecidableEq, Repr

/-- The configuration of a forward, in the update request. `delayed`: there is a delay for the queue
that is enqueued to. `enabled`: what `group_coordinator.enabled` says of the memberships,
handle.cpp:39-42. -/
structure Conf where
  alias : Nat
  source : Nat
  target : Target
  delayed : Bool := false
  instances : Nat
  enabled : Bool := true
  deriving DecidableEq, Repr

/-- `transaction::commit::Reply::Stage` -/
inductive Ended
  | prepare | commit | rollback
  deriving DecidableEq, Repr

/-- What the process receives and sends. `f` is the id of a forward, `c` a correlation. -/
inductive Obs
  | created (f : Nat) (x : Conf)                      -- a forward is new
  | instances (f n : Nat)                             -- the configured number of instances
  | shutdown
  | exited (p : Nat)
  -- queue manager
  | askQueue (f c name : Nat)
  | dropQueue (c : Nat)
  | queueAt (c name : Nat) (q p : Option Nat) (remote : Bool)
  | queueDropped (c : Nat) (replied : Bool)
  -- queue group
  | dequeue (f c : Nat) (t : Trid) (p q : Option Nat)
  | forget (c : Nat) (p : Option Nat)
  | got (c : Nat) (m : Option Nat)
  | forgetRequest (c : Nat)
  | forgotten (c : Nat) (discarded : Bool)
  | enqueue (c : Nat) (t : Trid) (name m : Nat) (delayed : Bool) (p q : Option Nat)
  | acked (c : Nat) (ok : Bool)                       -- enqueue::Reply, with an id or without
  -- service manager, and the service
  | askService (c svc : Nat)
  | dropService (c : Nat)
  | found (c : Nat) (p : Option Nat)                  -- lookup::Reply; `none` if it is not idle
  | dropped (c : Nat)
  | call (c : Nat) (t : Trid) (m p : Nat)
  | replied (c : Nat) (ok : Bool) (m : Nat)
  -- transaction manager
  | commit (c : Nat) (t : Trid)
  | rollback (c : Nat) (t : Trid)
  | committed (c : Nat) (e : Ended)
  | rolledBack (c : Nat) (ok : Bool)
  -- the callback of `multiplex.send`
  | undelivered (c : Nat)
  deriving DecidableEq, Repr

/-- `forward::Source` and `forward::queue::Target`, state.h:59-92. -/
structure Source where
  name : Nat
  id : Option Nat := none
  process : Option Nat := none
  deriving DecidableEq, Repr

/-- state.h:65 -/
def Source.ok (s : Source) : Bool := s.id.isSome && s.process.isSome

/-- state.h:66-70 -/
def Source.invalidate (s : Source) : Source := { s with id := none, process := none }

/-- The service. -/
def Target.svc : Target → Option Nat
  | .service v _ => some v
  | .queue _ => none

/-- The queue that is enqueued to. -/
def Target.dest : Target → Option Nat
  | .service _ r => r
  | .queue n => some n

/-- `forward::Service` (`service` is there) and `forward::Queue`, state.h:152-244; `dest` is `reply`
or `target`. -/
structure Fwd where
  id : Nat
  alias : Nat
  service : Option Nat
  source : Source
  dest : Option Source
  delayed : Bool
  enabled : Bool
  configured : Nat
  running : Nat := 0
  commits : Nat := 0
  rollbacks : Nat := 0
  deriving DecidableEq, Repr

/-- `valid_queues`, state.h:182 and 234. -/
def Fwd.valid (f : Fwd) : Bool :=
  f.source.ok && (match f.dest with | none => true | some d => d.ok)

/-- `invalidate_queues`, state.h:183-188 and 228-232. -/
def Fwd.invalidate (f : Fwd) : Fwd :=
  { f with source := f.source.invalidate, dest := f.dest.map Source.invalidate }

/-- `operator--`, state.cpp:38-51 and 70-82. (The assert is in `finish`.) -/
def Fwd.dec (f : Fwd) : Fwd :=
  let f := { f with running := f.running - 1 }
  if f.configured = 0 ∧ f.running = 0 then
    { f with source := { f.source with process := none }
             dest := f.dest.map fun d => { d with process := none } }
  else f

/-- In which of the vectors of `state::Pending` (state.h:357-405) it is: `dequeues`, `service.lookups`,
`service.lookup_discards`, `service.calls`, `enqueues`, `transaction.commits`,
`transaction.rollbacks`. -/
inductive Stage
  | dequeue
  | lookup (m : Nat)
  | discard
  | call (p : Nat)
  | enqueue
  | commit
  | rollback
  deriving DecidableEq, Repr

/-- An element of one of these vectors, state.h:248-343. -/
structure Flow where
  id : Nat
  corr : Nat
  trid : Trid
  stage : Stage
  deriving DecidableEq, Repr

/-- `pending::queue::Lookup`, state.h:275-277. -/
structure Look where
  id : Nat
  corr : Nat
  deriving DecidableEq, Repr

/-- `State`, state.h:431-475. `down`: the runlevel is above running. The vectors of pending things are
one list, `flows`: an element that moves to another vector moves to the end of it. `own`: the
correlations of the replies that we have pushed to our own device, handle.cpp:950-965. `log` is newest
first. -/
structure State where
  down : Bool := false
  fwds : List Fwd := []
  lookups : List Look := []
  flows : List Flow := []
  own : List Nat := []
  fresh : Nat := 0
  dead : Bool := false
  log : List Obs := []
  deriving DecidableEq, Repr

def emit (o : Obs) (s : State) : State := { s with log := o :: s.log }

/-- `forward_service` and `forward_queue`, state.cpp:115-127; `forward::id::generate` gives
different ids, state.h:43-52. -/
def State.get (s : State) (i : Nat) : Option Fwd := s.fwds.find? (·.id == i)

def State.set (s : State) (i : Nat) (g : Fwd → Fwd) : State :=
  { s with fwds := s.fwds.map fun f => if f.id = i then g f else f }

/-- `queue::lookup::detail::send::request`, handle.cpp:141-160. -/
def ask (i name : Nat) (s : State) : State :=
  { s with lookups := s.lookups ++ [⟨i, s.fresh⟩], fresh := s.fresh + 1,
           log := .askQueue i s.fresh name :: s.log }

/-- `queue::lookup::detail::request`, handle.cpp:161-175. -/
def askQueues (f : Fwd) (s : State) : State :=
  let s := ask f.id f.source.name s
  match f.dest with
  | none => s
  | some d => ask f.id d.name s

/-- `send_request`, handle.cpp:211-237. -/
def startOne (f : Fwd) (s : State) : State :=
  let s := s.set f.id fun f => { f with running := f.running + 1 }
  { s with flows := s.flows ++ [⟨f.id, s.fresh, ⟨s.fresh⟩, .dequeue⟩], fresh := s.fresh + 1,
           log := .dequeue f.id s.fresh ⟨s.fresh⟩ f.source.process f.source.id :: s.log }

def startN (f : Fwd) : Nat → State → State
  | 0, s => s
  | n + 1, s => startN f n (startOne f s)

/-- `send::dequeue::request`, handle.cpp:203-243; `missing`, state.h:103-108. -/
def start (f : Fwd) (s : State) : State :=
  if f.enabled then startN f (f.configured - f.running) s else s

/-- `machine::next`, handle.cpp:318-331. -/
def next (i : Nat) (s : State) : State :=
  match s.get i with
  | none => { s with dead := true }
  | some f =>
    if f.valid then start f s
    else if s.lookups.any (·.id == i) then s
    else askQueues f s

/-- `pending::consume`, handle.cpp:187-199: the flow, and the state without it. -/
def take (c : Nat) (p : Stage → Bool) (s : State) : Option (Flow × State) :=
  match s.flows.find? (fun x => x.corr == c && p x.stage) with
  | none => none
  | some x => some (x, { s with flows := s.flows.eraseP fun x => x.corr == c && p x.stage })

/-- A flow goes to another vector. -/
def move (x : Flow) (g : Stage) (o : Obs) (s : State) : State :=
  emit o { s with flows := s.flows ++ [{ x with stage := g }] }

/-- `send::transaction::rollback::request`, handle.cpp:247-263. -/
def rollback (x : Flow) (s : State) : State := move x .rollback (.rollback x.corr x.trid) s

/-- `send::transaction::commit::request`, handle.cpp:265-280. -/
def commit (x : Flow) (s : State) : State := move x .commit (.commit x.corr x.trid) s

/-- `forward_apply` with `--forward`, and what else is to be done; state.h:461-468, state.cpp:40
and 72 (asserts). -/
def finish (i : Nat) (g : Fwd → Fwd) (s : State) : State :=
  match s.get i with
  | none => { s with dead := true }
  | some f => if f.running = 0 then { s with dead := true } else s.set i fun f => g f.dec

/-- The order in which `algorithm::filter` (that is `std::partition`, algorithm.h:802-807) leaves the
elements is not specified: those in `pref` come first. -/
def prefer (pref : List Nat) (xs : List Flow) : List Flow :=
  xs.filter (fun x => pref.contains x.corr) ++ xs.filter fun x => !pref.contains x.corr

/-- handle.cpp:357, `surplus` state.h:110-115 -/
def surplus (f : Fwd) : Nat := if f.enabled then f.running - f.configured else f.running

def isLookup : Stage → Bool
  | .lookup _ => true
  | _ => false

/-- `cancel_surplus_instances`, handle.cpp:355-394, and `discard::request`, 286-305. -/
def cancel (pref : List Nat) (f : Fwd) (s : State) : State :=
  let ds := (prefer pref (s.flows.filter fun x => x.id == f.id && x.stage == .dequeue)).take (surplus f)
  let s := ds.foldl (fun s x => emit (.forget x.corr f.source.process) s) s
  if f.service.isSome then
    let ls := (prefer pref (s.flows.filter fun x => x.id == f.id && isLookup x.stage)).take (surplus f - ds.length)
    let s := ls.foldl (fun s x => emit (.dropService x.corr) s) s
    { s with flows := s.flows.filter (fun x => !ls.contains x) ++ ls.map fun x => { x with stage := .discard } }
  else s

def dropLookups (s : State) : State :=
  s.lookups.foldl (fun s l => emit (.dropQueue l.corr) s) s

/-- handle.cpp:399-412 -/
def lookAgain (f : Fwd) (s : State) : State :=
  if f.enabled && decide (0 < f.configured) then askQueues f s else s

def services (s : State) : List Fwd := s.fwds.filter (·.service.isSome)
def queues (s : State) : List Fwd := s.fwds.filter (·.service.isNone)

/-- `comply::to::state`, handle.cpp:333-418. -/
def comply (pref : List Nat) (s : State) : State :=
  let s := dropLookups s
  let s := (queues s ++ services s).foldl (fun s f => cancel pref f s) s
  (services s ++ queues s).foldl (fun s f => lookAgain f s) s

/-- `add_or_update`, handle.cpp:437-452, and `transform::forward`, 44-80. -/
def addOrUpdate (x : Conf) (s : State) : State :=
  match s.fwds.find? fun f => f.alias == x.alias && f.service.isSome == x.target.svc.isSome with
  | some f =>
    emit (.instances f.id x.instances) (s.set f.id fun f => { f with configured := x.instances })
  | none =>
    let i := s.fwds.length
    emit (.instances i x.instances) (emit (.created i x) { s with fwds := s.fwds ++
      [{ id := i, alias := x.alias, service := x.target.svc, source := { name := x.source }
         dest := x.target.dest.map fun n => { name := n }
         delayed := x.delayed, enabled := x.enabled, configured := x.instances }] })

/-- `configuration::update::request`, handle.cpp:422-460. Services are added before queues. -/
def update (xs : List Conf) (pref : List Nat) (s : State) : State :=
  comply pref
    ((xs.filter (·.target.svc.isSome) ++ xs.filter (·.target.svc.isNone)).foldl (fun s x => addOrUpdate x s) s)

/-- `shutdown`, handle.cpp:1062-1080. -/
def shutdown (pref : List Nat) (s : State) : State :=
  comply pref { s with down := true, fwds := s.fwds.map fun f => { f with configured := 0 } }

/-- `queue::lookup::assign`, handle.cpp:87-137. (The error event is left out.) -/
def assign (name : Nat) (q p : Option Nat) (remote : Bool) (f : Fwd) : Fwd :=
  let source := if f.source.name = name ∧ remote = false then { f.source with id := q, process := p } else f.source
  { f with source := source
           dest := f.dest.map fun d => if d.name = name then { d with id := q, process := p } else d }

/-- `queue::lookup::reply`, handle.cpp:464-489. -/
def queueAt (c name : Nat) (q p : Option Nat) (remote : Bool) (s : State) : State :=
  match s.lookups.find? (·.corr == c) with
  | none => s
  | some l =>
    let s := { s with lookups := s.lookups.eraseP (·.corr == c) }
    if s.down then s
    else
      match s.get l.id with
      | none => { s with dead := true }
      | some f =>
        let f' := assign name q p remote f
        let s := s.set l.id fun _ => f'
        if f'.valid then start f' s else s

/-- `queue::lookup::discard::reply`, handle.cpp:490-511. -/
def queueDropped (c : Nat) (replied : Bool) (s : State) : State :=
  if replied then s else { s with lookups := s.lookups.eraseP (·.corr == c) }

/-- `dequeue::reply`, handle.cpp:517-585. -/
def got (c : Nat) (m : Option Nat) (s : State) : State :=
  match take c (· == .dequeue) s with
  | none => s
  | some (x, s) =>
    match m with
    | none => rollback x s
    | some m =>
      if s.down then rollback x s
      else
        match s.get x.id with
        | none => s
        | some f =>
          match f.service, f.dest with
          | some svc, _ => move x (.lookup m) (.askService x.corr svc) s
          | none, some d => move x .enqueue (.enqueue x.corr x.trid d.name m f.delayed d.process d.id) s
          | none, none => { s with dead := true }   -- there is no such forward

/-- `dequeue::forget::request`, handle.cpp:589-625. -/
def forgetRequest (c : Nat) (s : State) : State :=
  match take c (· == .dequeue) s with
  | none => s
  | some (x, s) => finish x.id id s

/-- `dequeue::forget::reply`, handle.cpp:627-660. -/
def forgotten (c : Nat) (discarded : Bool) (s : State) : State :=
  if discarded then
    match take c (· == .dequeue) s with
    | none => s
    | some (x, s) => next x.id (finish x.id id s)
  else s

/-- `service::lookup::reply`, handle.cpp:667-703. -/
def found (c : Nat) (p : Option Nat) (s : State) : State :=
  match take c isLookup s with
  | none => s
  | some (x, s) =>
    match p, x.stage with
    | some p, .lookup m => move x (.call p) (.call x.corr x.trid m p) s
    | _, _ => rollback x s

/-- `service::lookup::discard::reply`, handle.cpp:705-725. -/
def dropped (c : Nat) (s : State) : State :=
  match take c (· == .discard) s with
  | none => s
  | some (x, s) => rollback x s

def isCall : Stage → Bool
  | .call _ => true
  | _ => false

/-- `service::call::reply`, handle.cpp:728-781. -/
def replied (c : Nat) (ok : Bool) (m : Nat) (s : State) : State :=
  match take c isCall s with
  | none => s
  | some (x, s) =>
    match s.get x.id with
    | none => { s with dead := true }
    | some f =>
      if ok then
        match f.dest with
        | some d => move x .enqueue (.enqueue x.corr x.trid d.name m f.delayed d.process d.id) s
        | none => commit x s
      else rollback x s

/-- `enqueue::reply`, handle.cpp:784-814. -/
def acked (c : Nat) (ok : Bool) (s : State) : State :=
  match take c (· == .enqueue) s with
  | none => s
  | some (x, s) =>
    if ok then commit x s
    else
      match s.get x.id with
      | none => { s with dead := true }
      | some _ => rollback x (s.set x.id Fwd.invalidate)

/-- `transaction::rollback::reply`, handle.cpp:818-846. -/
def rolledBack (c : Nat) (s : State) : State :=
  match take c (· == .rollback) s with
  | none => s
  | some (x, s) => next x.id (finish x.id (fun f => { f with rollbacks := f.rollbacks + 1 }) s)

/-- `transaction::commit::reply`, handle.cpp:849-882. -/
def committed (c : Nat) (e : Ended) (s : State) : State :=
  if e = .prepare then s
  else
    match take c (· == .commit) s with
    | none => s
    | some (x, s) => next x.id (finish x.id (fun f => { f with commits := f.commits + 1 }) s)

/-- The callbacks of `multiplex.send`: of a dequeue request, handle.cpp:230-235, and of the enqueue
request of a forward to a service, 768-773. The enqueue request of a forward to a queue has no
callback (handle.cpp:580). -/
def undelivered (c : Nat) (s : State) : State :=
  match take c (· == .dequeue) s with
  | some (_, s) => emit (.undelivered c) s
  | none =>
    match take c (· == .enqueue) s with
    | none => s
    | some (x, s') =>
      match s.get x.id with
      | none => s
      | some f => if f.service.isSome then rollback x (emit (.undelivered c) s') else s

/-- `invalidate_queue_forward` and `invalidate_service_forward`, handle.cpp:982-1038. -/
def bury (p : Nat) (f : Fwd) (s : State) : State :=
  let there := f.dest.any fun d => d.process == some p
  if f.source.process == some p || there then
    let s := (s.lookups.filter (·.id == f.id)).foldl (fun s l => emit (.dropQueue l.corr) s) s
    let s := (s.flows.filter fun x => x.id == f.id && x.stage == .dequeue).foldl
      (fun s x => emit (.forget x.corr f.source.process) s) s
    if there then
      let s := s.set f.id fun f => { f with dest := f.dest.map Source.invalidate }
      { s with own := s.own ++ (s.flows.filter fun x => x.id == f.id && x.stage == .enqueue).map (·.corr) }
    else s
  else s

/-- `dead_event`, handle.cpp:967-1040. -/
def exited (p : Nat) (s : State) : State := (queues s ++ services s).foldl (fun s f => bury p f s) s

/-- `State::done`, state.cpp:97-104. -/
def done (s : State) : Bool := s.down && s.fwds.all fun f => f.configured == 0 && f.running == 0

/-- What happens to the process. -/
inductive Event
  | update (xs : List Conf) (pref : List Nat)
  | shutdown (pref : List Nat)
  | exited (p : Nat)
  | queueAt (c name : Nat) (q p : Option Nat) (remote : Bool)
  | queueDropped (c : Nat) (replied : Bool)
  | got (c : Nat) (m : Option Nat)
  | forgetRequest (c : Nat)
  | forgotten (c : Nat) (discarded : Bool)
  | found (c : Nat) (p : Option Nat)
  | dropped (c : Nat)
  | replied (c : Nat) (ok : Bool) (m : Nat)
  | acked (c : Nat) (ok : Bool)
  | own (i : Nat)                          -- a reply that we have pushed to our own device
  | rolledBack (c : Nat) (ok : Bool)
  | committed (c : Nat) (e : Ended)
  | undelivered (c : Nat)
  deriving DecidableEq, Repr

def apply (e : Event) (s : State) : State :=
  match e with
  | .update xs pref => update xs pref s
  | .shutdown pref => shutdown pref (emit .shutdown s)
  | .exited p => exited p (emit (.exited p) s)
  | .queueAt c n q p r => queueAt c n q p r (emit (.queueAt c n q p r) s)
  | .queueDropped c r => queueDropped c r (emit (.queueDropped c r) s)
  | .got c m => got c m (emit (.got c m) s)
  | .forgetRequest c => forgetRequest c (emit (.forgetRequest c) s)
  | .forgotten c d => forgotten c d (emit (.forgotten c d) s)
  | .found c p => found c p (emit (.found c p) s)
  | .dropped c => dropped c (emit (.dropped c) s)
  | .replied c ok m => replied c ok m (emit (.replied c ok m) s)
  | .acked c ok => acked c ok (emit (.acked c ok) s)
  | .own i =>
    match s.own[i]? with
    | none => s
    | some c => acked c false (emit (.acked c false) { s with own := s.own.eraseIdx i })
  | .rolledBack c ok => rolledBack c (emit (.rolledBack c ok) s)
  | .committed c e => committed c e (emit (.committed c e) s)
  | .undelivered c => undelivered c s

/-- A process that has died does nothing. -/
def step (s : State) (e : Event) : State := if s.dead then s else apply e s

def run (es : List Event) : State := es.foldl step {}

end Casual.Forward
