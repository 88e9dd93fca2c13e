/-!
Model of an outbound group of the gateway: the process between the local domain and the
connections to other domains. middleware/gateway/source/group/outbound/{handle,state}.cpp,
middleware/gateway/include/gateway/group/{connection,tcp}.h,
middleware/common/include/casual/task/concurrent.h.

Simplifications, for the whole file. Sockets, correlations, ipc ids, service names and global
transaction ids are numbers; the branch of a transaction id is not looked at by this process. The
ipc device that belongs to a socket (`Holder::m_mapping`) is not told apart from the socket.
`multiplex.send` to a process is `log`ged when it is called; what becomes of it is in `Verif/Ipc`.
A tcp send that does not fail is logged when it is called (it may be put in `m_unsent`; if that
fails later, it is the event `broken`). What happens before a connection is established, and
reconnecting, is not modelled. Execution ids, parents, and payloads are not looked at; a reply is
a code and a number for all the rest of it.
-/
namespace Casual.Gateway.Out

/-- What is asked for. -/
inductive Kind
  | call | enqueue | dequeue | conv
  | prepare | commit | rollback
  | discovery
  deriving DecidableEq, Repr

/-- The content of a reply. -/
structure Rep where
  code : Nat
  data : Nat := 0
  deriving DecidableEq, Repr

/-- `code::xatmi`, middleware/common/include/common/code/xatmi.h: TPENOENT, TPESVCERR. -/
def noEntry : Nat := 6
def svcErr : Nat := 10

/-- What the process receives and sends. -/
inductive Obs
  | connected (d : Nat)
  | closed (d : Nat)                                   -- the connection is gone; event::ipc::Destroyed has been sent
  | lostMsg (d : Nat)                                  -- connection::Lost to our self, which makes it reconnect
  | req (d c ipc : Nat) (k : Kind) (g : Option Nat)    -- a request of the local process `ipc`, for connection `d`
  | tcp (d c : Nat) (k : Kind) (g : Option Nat)        -- the request is sent to the other domain
  | got (d c : Nat) (k : Kind) (r : Rep)               -- a reply from the other domain
  | reply (ipc c : Nat) (k : Kind) (r : Rep)           -- a reply to a local process
  | refused (ipc c : Nat)                              -- a reply to a call, TPESYSTEM, since it is in flight already
  | involved (g d : Nat)                               -- TM is told that `d` takes part in `g`
  | disassociate (g : Nat)                             -- TM is done with `g`
  | toRemote (d c : Nat) (data : Nat)                  -- conversation, to the other domain
  | toLocal (ipc c data : Nat) (terminated : Bool)     -- conversation, to the local process
  | hangup (d c : Nat)                                 -- conversation disconnect, to the other domain
  | explored (d : Nat)
  | found (d : Nat) (services : List (Nat × Nat)) (queues : List Nat)  -- a discovery reply, name and hops
  | advertised (d : Nat) (services : List (Nat × Nat)) -- name and hops
  | advertisedQ (d : Nat) (queues : List Nat)
  | unadvertised (d : Nat)                             -- all of the connection, from SM and QM
  | unadvertisedOne (d : Nat) (service : Nat)
  | ack (d : Nat)                                      -- disconnect::Reply
  | metrics (cs : List (Nat × Kind))                   -- event::service::Calls to SM
  deriving DecidableEq, Repr

/-- `concurrent::Unit`, concurrent.h:71-163, and what its handlers have captured
(handle.cpp:203-242, 293-349, 468-489). `kind` says which handlers it has. -/
structure Task where
  key : Nat
  corr : Nat
  ipc : Nat
  kind : Kind
  service : Nat := 0
  deriving DecidableEq, Repr

/-- `reply::destination::Entry`, gateway/include/gateway/group/outbound/state.h. -/
structure Entry where
  corr : Nat
  ipc : Nat
  conn : Nat
  deriving DecidableEq, Repr

/-- `Holder` (one entry of each of its members), connection.h:36-310. `modern`: the protocol
version of the connection has `service::call::callee::Request` as it is now (v1.3 or later). -/
structure Conn where
  d : Nat
  modern : Bool
  deriving DecidableEq, Repr

/-- `State`, outbound/state.h. `log` is newest first. `dead`: the process has called
`std::terminate`, or what it does is undefined. -/
structure State where
  running : Bool := true
  conns : List Conn := []
  tasks : List Task := []
  dest : List Entry := []
  trans : List (Nat × List Nat) := []
  disconnecting : List (Nat × Bool) := []
  pending : List (Nat × Kind) := []     -- `service_metric`
  dead : Bool := false
  log : List Obs := []
  deriving DecidableEq, Repr

def emit (o : Obs) (s : State) : State := { s with log := o :: s.log }

def connected (d : Nat) (s : State) : Bool := s.conns.any (·.d == d)

/-- `Metric::add`, `maybe_metric` (platform::batch::gateway::metrics is 20), state.h:64-88;
`service::metric`, handle.cpp:153-174. -/
def metric (c : Nat) (k : Kind) (s : State) : State :=
  let p := s.pending ++ [(c, k)]
  if 20 ≤ p.length then { s with pending := [], log := .metrics p :: s.log }
  else { s with pending := p }

/-- `Metric::force_metric`, state.h:71-80. -/
def forceMetric (s : State) : State :=
  if s.pending.isEmpty then s else { s with pending := [], log := .metrics s.pending :: s.log }

/-- `Transactions::associate`, state.cpp:47-62. -/
def associate (g d : Nat) : List (Nat × List Nat) → List (Nat × List Nat) × Bool
  | [] => ([(g, [d])], true)
  | (g', ds) :: xs =>
    if g' = g then
      if d ∈ ds then ((g', ds) :: xs, false) else ((g', ds ++ [d]) :: xs, true)
    else ((g', ds) :: (associate g d xs).1, (associate g d xs).2)

/-- `Transactions::remove( gtrid)`, state.cpp:73-76. -/
def removeTrans (g : Nat) (xs : List (Nat × List Nat)) : List (Nat × List Nat) :=
  xs.filter (·.1 ≠ g)

/-- `Transactions::extract`, state.cpp:89-106; `container::erase( vector, iterator)` erases the
first one that is found. -/
def extractTrans (d : Nat) : List (Nat × List Nat) → List (Nat × List Nat)
  | [] => []
  | (g, ds) :: xs =>
    if d ∈ ds then
      if (ds.erase d).isEmpty then extractTrans d xs else (g, ds.erase d) :: extractTrans d xs
    else (g, ds) :: extractTrans d xs

/-- `Transactions::contains`, state.cpp:108-115. -/
def transHas (d : Nat) (xs : List (Nat × List Nat)) : Bool := xs.any (·.2.contains d)

/-- `handle::unadvertise`, handle.cpp:912-938. -/
def unadvertise (d : Nat) (s : State) : State :=
  if connected d s then emit (.unadvertised d) s else s

/-- The handler for `task::Failed`, handle.cpp:230-241 and 480-488; a conversation has none. -/
def failTask (t : Task) (s : State) : State :=
  match t.kind with
  | .call => metric t.corr .call (emit (.reply t.ipc t.corr .call ⟨svcErr, 0⟩) s)
  | .enqueue => emit (.reply t.ipc t.corr .enqueue ⟨0, 0⟩) s
  | .dequeue => emit (.reply t.ipc t.corr .dequeue ⟨0, 0⟩) s
  | _ => s

/-- `Coordinator::failed`, concurrent.h:208-223. `erase_if` (algorithm/container.h:125-136) goes
through the units in order. -/
def failedTasks (d : Nat) (s : State) : State :=
  let s' := (s.tasks.filter (·.key = d)).foldl (fun s t => failTask t s) s
  { s' with tasks := s.tasks.filter (·.key ≠ d) }

/-- `connection::lost`, handle.cpp:942-961, `State::failed`, state.cpp:136-149, and
`Holder::extract`, connection.h:205-229, which terminates when there is no such connection. -/
def lost (d : Nat) (s : State) : State :=
  let s := unadvertise d s
  let s := if connected d s then emit (.closed d) s else s
  let s := failedTasks d s
  let s := { s with disconnecting := s.disconnecting.filter (·.1 ≠ d) }
  if connected d s then
    { s with
      conns := s.conns.filter (·.d ≠ d)
      dest := s.dest.filter (·.conn ≠ d)
      trans := extractTrans d s.trans }
  else { s with dead := true }

/-- `tcp::send`, tcp.h:31-59 and handle.cpp:37-41: a send that fails loses the connection. -/
def send (ok : Bool) (d : Nat) (o : Obs) (s : State) : State :=
  if connected d s then
    if ok then emit o s else emit (.lostMsg d) (lost d s)
  else s

/-- `associate_and_involve`, handle.cpp:70-93. -/
def involve (g : Option Nat) (d : Nat) (s : State) : State :=
  match g with
  | none => s
  | some g =>
    let r := associate g d s.trans
    let s := { s with trans := r.1 }
    if r.2 then (if connected d s then emit (.involved g d) s else s) else s

/-- `Coordinator::add`, concurrent.h:177-180. -/
def addTask (t : Task) (s : State) : State := { s with tasks := s.tasks ++ [t] }

/-- `Coordinator::operator()`, concurrent.h:183-189: the first unit with the correlation; if it is
done, the element at the *place* where it was found is erased, after the handler has run. The
handler of a conversation disconnect may itself erase units (through `lost`); then the iterator is
not valid any more. We take it to mean the same place, and `dead` if there is nothing. -/
def dispatch (c : Nat) (h : Task → State → State × Bool) (s : State) : State :=
  match s.tasks.findIdx? (·.corr = c) with
  | none => s
  | some i =>
    match s.tasks[i]? with
    | none => s
    | some t =>
      let r := h t s
      if r.2 then
        if i < r.1.tasks.length then { r.1 with tasks := r.1.tasks.eraseIdx i }
        else { r.1 with dead := true }
      else r.1

/-- The handlers for replies to calls and queue requests, handle.cpp:217-229 and 473-479. -/
def onReply (k : Kind) (r : Rep) (t : Task) (s : State) : State × Bool :=
  if t.kind = k then
    match k with
    | .call =>
      let s := emit (.reply t.ipc t.corr .call r) s
      let s := if r.code = noEntry then
          (if connected t.key s then emit (.unadvertisedOne t.key t.service) s else s) else s
      (metric t.corr .call s, true)
    | .enqueue => (emit (.reply t.ipc t.corr .enqueue r) s, true)
    | .dequeue => (emit (.reply t.ipc t.corr .dequeue r) s, true)
    | _ => (s, false)
  else (s, false)

/-- `conversation::connect::Reply`, handle.cpp:309-321. -/
def onConnect (r : Rep) (t : Task) (s : State) : State × Bool :=
  if t.kind = .conv then
    let s := if r.code = noEntry then
        (if connected t.key s then emit (.unadvertisedOne t.key t.service) s else s) else s
    (emit (.reply t.ipc t.corr .conv r) s, false)
  else (s, false)

/-- `conversation::callee::Send`, handle.cpp:322-333. -/
def onSend (data : Nat) (terminated : Bool) (t : Task) (s : State) : State × Bool :=
  if t.kind = .conv then (emit (.toLocal t.ipc t.corr data terminated) s, terminated) else (s, false)

/-- `conversation::Disconnect`, handle.cpp:334-346. -/
def onHangup (ok : Bool) (t : Task) (s : State) : State × Bool :=
  if t.kind = .conv then (metric t.corr .conv (send ok t.key (.hangup t.key t.corr) s), true)
  else (s, false)

/-- `Destination::add`, outbound/state.h. -/
def addDest (e : Entry) (s : State) : State :=
  if s.dest.any (·.corr == e.corr) then s else { s with dest := s.dest ++ [e] }

/-- `Destination::extract( correlation)`. -/
def takeDest (c : Nat) (s : State) : State × Option Entry :=
  match s.dest.find? (·.corr == c) with
  | some e => ({ s with dest := s.dest.erase e }, some e)
  | none => (s, none)

/-- `service::call::request`, handle.cpp:246-282. In the first branch the connection is gone when
the send has failed, and `connection->descriptor()` reads freed memory; we take it to be what it was. -/
def call (d c ipc service : Nat) (g : Option Nat) (ok : Bool) (s : State) : State :=
  if s.tasks.any (·.corr == c) then
    -- handle.cpp:178-199
    metric c .call (emit (.refused ipc c) s)
  else
    match s.conns.find? (·.d == d) with
    | none => { s with dead := true }
    | some x =>
      if x.modern then
        involve g d (addTask ⟨d, c, ipc, .call, service⟩ (send ok d (.tcp d c .call g) s))
      else
        send ok d (.tcp d c .call g) (involve g d (addTask ⟨d, c, ipc, .call, service⟩ s))

/-- `conversation::connect::request`, handle.cpp:353-372. -/
def converse (d c ipc service : Nat) (g : Option Nat) (ok : Bool) (s : State) : State :=
  send ok d (.tcp d c .conv g) (involve g d (addTask ⟨d, c, ipc, .conv, service⟩ s))

/-- `queue::basic::request`, handle.cpp:493-511. -/
def queue (k : Kind) (d c ipc : Nat) (g : Option Nat) (ok : Bool) (s : State) : State :=
  involve g d (addTask ⟨d, c, ipc, k, 0⟩ (send ok d (.tcp d c k g) s))

/-- `transaction::resource::basic::request`, handle.cpp:97-119 (the check of `is_associated` only
logs). -/
def resource (k : Kind) (d c ipc : Nat) (ok : Bool) (s : State) : State :=
  send ok d (.tcp d c k none) (addDest ⟨c, ipc, d⟩ s)

/-- `discovery::request`, handle.cpp:407-425, with `precondition::reply`, 46-66. -/
def discovery (d c ipc : Nat) (ok : Bool) (s : State) : State :=
  if !s.running || s.disconnecting.any (·.1 == d) then emit (.reply ipc c .discovery ⟨0, 0⟩) s
  else send ok d (.tcp d c .discovery none) (addDest ⟨c, ipc, d⟩ s)

/-- `topology::direct::explore`, handle.cpp:430-457. -/
def explore (d : Nat) (ok : Bool) (s : State) : State :=
  if !s.running || s.disconnecting.any (·.1 == d) then s else send ok d (.explored d) s

/-- `external::transaction::resource` replies, handle.cpp:640-652; without a destination the
message is sent to no one. -/
def resourceReply (c : Nat) (k : Kind) (r : Rep) (s : State) : State :=
  match takeDest c s with
  | (s, some e) => emit (.reply e.ipc c k r) s
  | (s, none) => s

/-- `external::domain::discovery::reply`, handle.cpp:677-731. `services` are names and hops. -/
def discoveryReply (d c : Nat) (services : List (Nat × Nat)) (queues : List Nat) (r : Rep)
    (s : State) : State :=
  let s := if services.isEmpty then s
    else emit (.advertised d (services.map fun x => (x.1, x.2 + 1))) s
  let s := if queues.isEmpty then s else emit (.advertisedQ d queues) s
  resourceReply c .discovery r s

/-- `connection::disconnect` and `remove`, handle.cpp:963-983; `directive` is true for `disconnect`. -/
def disconnect (d : Nat) (directive : Bool) (s : State) : State :=
  let s := unadvertise d s
  { s with disconnecting := s.disconnecting ++ [(d, directive)] }

/-- `State::idle`, state.cpp:151-156. -/
def isIdle (d : Nat) (s : State) : Bool :=
  !transHas d s.trans && !s.dest.any (·.conn == d) && !s.tasks.any (·.key == d)

/-- The loop of `handle::idle`, handle.cpp:1030-1035. -/
def idleLoop : List (Nat × Bool) → State → State
  | [], s => s
  | (d, b) :: xs, s =>
    let s := lost d s
    idleLoop xs (if b then emit (.lostMsg d) s else s)

/-- `handle::idle`, handle.cpp:1021-1040. -/
def idle (s : State) : State :=
  forceMetric (idleLoop (s.disconnecting.filter fun x => isIdle x.1 s) s)

/-- `handle::shutdown`, handle.cpp:1042-1055. -/
def shutdown (s : State) : State :=
  forceMetric ((s.conns.map (·.d)).foldl (fun s d => disconnect d true s) { s with running := false })

/-- `State::done`, state.cpp:158-164. -/
def done (s : State) : Bool :=
  !s.running && s.tasks.isEmpty && s.trans.isEmpty && s.dest.isEmpty

/-- What happens to the process. `ok`: the tcp send, if there is one, does not fail. -/
inductive Event
  | connect (d : Nat) (modern : Bool)
  -- from local processes, on the ipc device of the connection
  | call (d c ipc service : Nat) (g : Option Nat) (ok : Bool)
  | converse (d c ipc service : Nat) (g : Option Nat) (ok : Bool)
  | say (d c data : Nat) (ok : Bool)
  | hangup (d c : Nat) (ok : Bool)
  | enqueue (d c ipc : Nat) (g : Option Nat) (ok : Bool)
  | dequeue (d c ipc : Nat) (g : Option Nat) (ok : Bool)
  | prepare (d c ipc : Nat) (ok : Bool)
  | commit (d c ipc : Nat) (ok : Bool)
  | rollback (d c ipc : Nat) (ok : Bool)
  | discover (d c ipc : Nat) (ok : Bool)
  | explore (d : Nat) (ok : Bool)
  -- from the other domain
  | rDisconnect (d : Nat) (ok : Bool)
  | rCall (d c : Nat) (r : Rep)
  | rEnqueue (d c : Nat) (r : Rep)
  | rDequeue (d c : Nat) (r : Rep)
  | rConnect (d c : Nat) (r : Rep)
  | rSay (d c data : Nat) (terminated : Bool)
  | rPrepare (d c : Nat) (r : Rep)
  | rCommit (d c : Nat) (r : Rep)
  | rRollback (d c : Nat) (r : Rep)
  | rDiscover (d c : Nat) (services : List (Nat × Nat)) (queues : List Nat) (r : Rep)
  -- the socket fails when it is read, or when pending messages are written (tcp.h:119-152, 183-212)
  | broken (d : Nat)
  -- management
  | disassociate (g : Nat)
  | remove (d : Nat)
  | idle
  | shutdown
  deriving DecidableEq, Repr

/-- With a connection, else the message can not have arrived (tcp.h:163-181, ipc.h:45-68). -/
def on (d : Nat) (f : State → State) (s : State) : State := if connected d s then f s else s

def apply (e : Event) (s : State) : State :=
  match e with
  | .connect d m =>
    -- handle.cpp:791-832, connection.h:40-75; the operating system does not hand out a
    -- descriptor that is in use
    if connected d s then s else emit (.connected d) { s with conns := s.conns ++ [⟨d, m⟩] }
  | .call d c ipc sv g ok => on d (fun s => call d c ipc sv g ok (emit (.req d c ipc .call g) s)) s
  | .converse d c ipc sv g ok =>
    on d (fun s => converse d c ipc sv g ok (emit (.req d c ipc .conv g) s)) s
  | .say d c data ok => on d (send ok d (.toRemote d c data)) s           -- handle.cpp:389-399
  | .hangup d c ok => on d (dispatch c (onHangup ok)) s                   -- handle.cpp:377-387
  | .enqueue d c ipc g ok =>
    on d (fun s => queue .enqueue d c ipc g ok (emit (.req d c ipc .enqueue g) s)) s
  | .dequeue d c ipc g ok =>
    on d (fun s => queue .dequeue d c ipc g ok (emit (.req d c ipc .dequeue g) s)) s
  | .prepare d c ipc ok =>
    on d (fun s => resource .prepare d c ipc ok (emit (.req d c ipc .prepare none) s)) s
  | .commit d c ipc ok =>
    on d (fun s => resource .commit d c ipc ok (emit (.req d c ipc .commit none) s)) s
  | .rollback d c ipc ok =>
    on d (fun s => resource .rollback d c ipc ok (emit (.req d c ipc .rollback none) s)) s
  | .discover d c ipc ok =>
    on d (fun s => discovery d c ipc ok (emit (.req d c ipc .discovery none) s)) s
  | .explore d ok => on d (explore d ok) s
  | .rDisconnect d ok => on d (fun s => send ok d (.ack d) (disconnect d true s)) s  -- handle.cpp:544-554
  | .rCall d c r => on d (fun s => dispatch c (onReply .call r) (emit (.got d c .call r) s)) s
  | .rEnqueue d c r => on d (fun s => dispatch c (onReply .enqueue r) (emit (.got d c .enqueue r) s)) s
  | .rDequeue d c r => on d (fun s => dispatch c (onReply .dequeue r) (emit (.got d c .dequeue r) s)) s
  | .rConnect d c r => on d (fun s => dispatch c (onConnect r) (emit (.got d c .conv r) s)) s
  | .rSay d c data t => on d (dispatch c (onSend data t)) s
  | .rPrepare d c r => on d (fun s => resourceReply c .prepare r (emit (.got d c .prepare r) s)) s
  | .rCommit d c r => on d (fun s => resourceReply c .commit r (emit (.got d c .commit r) s)) s
  | .rRollback d c r => on d (fun s => resourceReply c .rollback r (emit (.got d c .rollback r) s)) s
  | .rDiscover d c sv q r =>
    on d (fun s => discoveryReply d c sv q r
      (emit (.found d sv q) (emit (.got d c .discovery r) s))) s
  | .broken d => on d (fun s => emit (.lostMsg d) (lost d s)) s           -- tcp.h:127-152
  | .disassociate g => emit (.disassociate g) { s with trans := removeTrans g s.trans }  -- handle.cpp:777-786
  | .remove d => on d (disconnect d false) s                              -- main.cpp:147-152
  | .idle => idle s
  | .shutdown => shutdown s

/-- A process that has died does nothing. -/
def step (s : State) (e : Event) : State := if s.dead then s else apply e s

def run (es : List Event) : State := es.foldl step {}

end Casual.Gateway.Out
