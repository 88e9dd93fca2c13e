/-!
Model of an inbound group of the gateway: the process that takes requests from other domains, and
passes them on to the local domain. middleware/gateway/source/group/inbound/{handle,state}.cpp,
middleware/gateway/source/group/inbound/task/create.cpp,
middleware/gateway/include/gateway/group/{connection,tcp}.h,
middleware/common/include/casual/task/concurrent.h.

Simplifications, for the whole file. Sockets, correlations, ipc ids, global transaction ids and
branches are numbers. The ipc device that belongs to a socket (`Holder::m_mapping`) is not told
apart from the socket; it is gone when the connection is. `multiplex.send` to another process is
`log`ged when it is called; if it can not be delivered, it is the event `undeliverable`. What this
process sends to its own device is in `inbox` until it is delivered. A tcp send that does not fail is
logged when it is called (if it fails later, it is the event `broken`). Names of services and
queues, execution ids, payloads, protocol transformations of messages, and the discovery of
topology are not looked at; a reply is a code and a number for all the rest of it. `abort` (after an
exception) is not modelled.
-/
namespace Casual.Gateway.In

/-- What is asked for; `post` is a service call that wants no reply. -/
inductive Kind
  | call | post | conv
  | enqueue | dequeue
  | prepare | commit | rollback
  | discovery
  deriving DecidableEq, Repr

/-- `transaction::ID`: the global part, and the branch. -/
structure Trid where
  g : Nat
  b : Nat
  deriving DecidableEq, Repr

/-- The content of a reply. -/
structure Rep where
  code : Int
  data : Nat := 0
  deriving DecidableEq, Repr

/-- `code::xatmi` TPENOENT, TPESVCERR, TPETIME; `code::xa` XAER_PROTO. -/
def noEntry : Int := 6
def svcErr : Int := 10
def timedOut : Int := 13
def protocolError : Int := -6

/-- `service::lookup::Reply`, its state, and the process. -/
inductive Lookup
  | idle (ipc : Nat)
  | absent
  | timeout
  deriving DecidableEq, Repr

/-- What the process receives and sends. -/
inductive Obs
  | connected (d : Nat)
  | closed (d : Nat)                                    -- the connection is gone; event::ipc::Destroyed has been sent
  | req (d c : Nat) (k : Kind) (x : Option Trid)        -- a request of the other domain at `d`
  | askService (d c : Nat)                              -- lookup, to SM
  | askQueue (d c : Nat)                                -- lookup, to QM
  | askBranch (d c g : Nat)                             -- to TM
  | gotService (c : Nat) (l : Lookup)
  | gotQueue (c : Nat) (p : Option Nat)
  | gotBranch (c : Nat) (t : Trid)
  | discard (c : Nat)                                   -- SM is told not to look up any more
  | fwd (ipc c : Nat) (k : Kind) (t : Option Trid) (d : Nat) -- the request, to a local process; the reply is to come to `d`
  | toTM (c : Nat) (k : Kind) (t : Trid) (d : Nat)      -- prepare, commit, rollback, to TM
  | explore (d c : Nat)                                 -- discovery, in this domain
  | got (d c : Nat) (k : Kind) (r : Rep)                -- a reply of a local process
  | fake (d c : Nat) (k : Kind) (r : Rep)               -- a reply that this process makes up
  | undelivered (d c : Nat) (k : Kind)                  -- a request could not be delivered to the local process
  | sent (d c : Nat) (k : Kind) (r : Rep) (x : Option Trid)  -- a reply, to the other domain
  | toProcess (ipc c data : Nat)                        -- conversation, to the local process
  | toRemote (d c data : Nat) (terminated : Bool)       -- conversation, to the other domain
  | hangup (ipc c : Nat)                                -- conversation disconnect, to the local process
  | disassociate (g : Nat)                              -- TM is done with `g`
  | askDisconnect (d : Nat)                             -- disconnect::Request
  | closing (d : Nat)                                   -- disconnect::Reply
  deriving DecidableEq, Repr

/-- `concurrent::Unit`, concurrent.h:71-163, and `Shared` of its handlers, create.cpp:211-216,
321-326, 441-446; for prepare, commit and rollback, `trid` is the captured `origin_trid`,
create.cpp:519. `lookup` of a queue may be without a process. -/
structure Task where
  key : Nat
  corr : Nat
  kind : Kind
  origin : Option Trid := none
  trid : Option Trid := none
  lookup : Option (Option Nat) := none
  wait : Bool := false
  deriving DecidableEq, Repr

/-- `Cache::Association`, inbound/state.h:131-146, with its key. -/
structure Assoc where
  g : Nat
  trid : Trid
  ds : List Nat
  deriving DecidableEq, Repr

/-- `Holder` (one entry of each of its members), connection.h:36-310. `modern`: the protocol of the
connection has `disconnect::Request` (v1.1 or later). -/
structure Conn where
  d : Nat
  modern : Bool
  deriving DecidableEq, Repr

/-- A reply on its way to our own device. -/
structure Own where
  d : Nat
  c : Nat
  k : Kind
  r : Rep
  deriving DecidableEq, Repr

/-- `State`, inbound/state.h:157-226. `log` is newest first. `dead`: the process has called
`std::terminate`, or what it does is undefined. -/
structure State where
  running : Bool := true
  conns : List Conn := []
  tasks : List Task := []
  cache : List Assoc := []
  pending : List Nat := []       -- `pending.disconnects`
  inbox : List Own := []
  dead : Bool := false
  log : List Obs := []
  deriving DecidableEq, Repr

def emit (o : Obs) (s : State) : State := { s with log := o :: s.log }

def connected (d : Nat) (s : State) : Bool := s.conns.any (·.d == d)

/-- `Cache::find`, state.cpp:73-79. -/
def find (g : Nat) (cs : List Assoc) : Option Trid := (cs.find? (·.g == g)).map (·.trid)

/-- Add the descriptor if it is not there, state.cpp:39-40, 53-54. -/
def join (g d : Nat) (cs : List Assoc) : List Assoc :=
  cs.map fun a => if a.g = g then (if d ∈ a.ds then a else { a with ds := a.ds ++ [d] }) else a

/-- `Cache::add`, state.cpp:48-62. (`Cache::associate`, state.cpp:35-46, is `find` and `join`.) -/
def addTrid (t : Trid) (d : Nat) (cs : List Assoc) : List Assoc :=
  if cs.any (·.g == t.g) then join t.g d cs else cs ++ [⟨t.g, t, [d]⟩]

/-- `Cache::associated`, state.cpp:64-71. -/
def associated (d : Nat) (cs : List Assoc) : Bool := cs.any (·.ds.contains d)

/-- `Cache::failed`, state.cpp:81-97; `container::erase( vector, value)` is algorithm/container.h:112-117. -/
def failedTrids (d : Nat) (cs : List Assoc) : List Assoc :=
  (cs.map fun a => { a with ds := a.ds.filter (· ≠ d) }).filter fun a => !a.ds.isEmpty

/-- `Cache::remove`, state.cpp:99-102. -/
def removeTrid (g : Nat) (cs : List Assoc) : List Assoc := cs.filter (·.g ≠ g)

/-- A call or a conversation, that has the handlers for a service lookup. -/
def isService : Kind → Bool
  | .call | .post | .conv => true
  | _ => false

def isQueue : Kind → Bool
  | .enqueue | .dequeue => true
  | _ => false

def isResource : Kind → Bool
  | .prepare | .commit | .rollback => true
  | _ => false

/-- The type of the reply to a request. -/
def replyKind : Kind → Kind
  | .post => .call
  | k => k

/-- `send_to_partner_ipc`, create.cpp:102-109, and the fake replies, 112-145. -/
def fake (d c : Nat) (k : Kind) (r : Rep) (s : State) : State :=
  if connected d s then emit (.fake d c k r) { s with inbox := s.inbox ++ [⟨d, c, k, r⟩] } else s

/-- The handlers for `task::Failed`, create.cpp:294-310 and 413-429; other units have none. -/
def failTask (t : Task) (s : State) : State :=
  if isService t.kind && t.lookup.isNone then emit (.discard t.corr) s else s

/-- `Coordinator::failed`, concurrent.h:208-223. -/
def failedTasks (d : Nat) (s : State) : State :=
  let s' := (s.tasks.filter (·.key = d)).foldl (fun s t => failTask t s) s
  { s' with tasks := s.tasks.filter (·.key ≠ d) }

/-- `connection::lost`, handle.cpp:582-631, `State::extract`, state.cpp:121-137, `Holder::extract`,
connection.h:205-229, which terminates when there is no such connection. That TM is asked which
transactions are active is only for the log (handle.cpp:587-602, 610-624). -/
def lost (d : Nat) (s : State) : State :=
  if connected d s then
    failedTasks d { s with
      pending := s.pending.filter (· ≠ d)
      conns := s.conns.filter (·.d ≠ d)
      inbox := s.inbox.filter (·.d ≠ d)
      cache := failedTrids d s.cache
      log := .closed d :: s.log }
  else { s with dead := true }

/-- `tcp::send`, tcp.h:31-59: a send that fails loses the connection. -/
def send (ok : Bool) (d : Nat) (o : Obs) (s : State) : State :=
  if connected d s then (if ok then emit o s else lost d s) else s

/-- `Coordinator::add`, concurrent.h:177-180. -/
def addTask (t : Task) (s : State) : State := { s with tasks := s.tasks ++ [t] }

/-- The first unit with the correlation, what is before it, and what is after it. -/
def split (c : Nat) : List Task → Option (List Task × Task × List Task)
  | [] => none
  | t :: ts =>
    if t.corr = c then some ([], t, ts)
    else (split c ts).map fun r => (t :: r.1, r.2.1, r.2.2)

/-- `Coordinator::operator()`, concurrent.h:183-189: the first unit with the correlation; if it is
done, the element at the *place* where it was found is erased, after the handler has run. The
handler for a reply may itself erase units (through `lost`); then the iterator is not valid any
more. We take it to mean the same place, and `dead` if there is nothing. A handler gives the unit as
it is afterwards, if it is not done; such handlers do not lose connections. -/
def dispatch (c : Nat) (h : Task → State → State × Option Task) (s : State) : State :=
  match split c s.tasks with
  | none => s
  | some (pre, t, post) =>
    match h t s with
    | (s', some t') => { s' with tasks := pre ++ t' :: post }
    | (s', none) =>
      if pre.length < s'.tasks.length then { s' with tasks := s'.tasks.eraseIdx pre.length }
      else { s' with dead := true }

/-- `handle_service` and `handle_conversation` when the request arrives, create.cpp:207-236 and
314-346, and `lookup`, 41-77. -/
def serviceRequest (k : Kind) (d c : Nat) (x : Option Trid) (s : State) : State :=
  let s := emit (.askService d c) s
  match x with
  | none => addTask { key := d, corr := c, kind := k } s
  | some x =>
    match find x.g s.cache with
    | some t => addTask { key := d, corr := c, kind := k, origin := some x, trid := some t }
        { s with cache := join x.g d s.cache }
    | none => addTask { key := d, corr := c, kind := k, origin := some x, trid := some x }
        (emit (.askBranch d c x.g) s)

/-- `handle_queue` when the request arrives, create.cpp:432-466, and `lookup::queue`, 79-100. `qm`:
QM is there; if it is not, the reply is pushed to the main device of this process, where there is
no handler for it (main.cpp:196-208, handle.cpp:507-515). -/
def queueRequest (k : Kind) (d c : Nat) (x : Option Trid) (qm : Bool) (s : State) : State :=
  let s := if qm then emit (.askQueue d c) s else s
  match x with
  | none => addTask { key := d, corr := c, kind := k } s
  | some x =>
    match find x.g s.cache with
    | some t => addTask { key := d, corr := c, kind := k, origin := some x, trid := some t }
        { s with cache := join x.g d s.cache }
    | none => addTask { key := d, corr := c, kind := k, origin := some x, trid := some x, wait := true }
        (emit (.askBranch d c x.g) s)

/-- `handle_transaction`, create.cpp:498-519. The captured trid is that of the message after it has
been replaced. -/
def resourceRequest (k : Kind) (d c : Nat) (x : Option Trid) (s : State) : State :=
  match x.bind fun x => find x.g s.cache with
  | some t => addTask { key := d, corr := c, kind := k, origin := x, trid := some t } (emit (.toTM c k t d) s)
  | none => addTask { key := d, corr := c, kind := k, origin := x, trid := x } (fake d c k ⟨protocolError, 0⟩ s)

/-- `external::` requests, handle.cpp:269-445. -/
def request (k : Kind) (d c : Nat) (x : Option Trid) (qm : Bool) (s : State) : State :=
  match k with
  | .call | .post | .conv => serviceRequest k d c x s
  | .enqueue | .dequeue => queueRequest k d c x qm s
  | .prepare | .commit | .rollback => resourceRequest k d c x s
  | .discovery => emit (.explore d c) s

/-- `service::lookup::Reply`, create.cpp:237-265 and 347-374; `send::service_request`, 148-186. -/
def onService (l : Lookup) (t : Task) (s : State) : State × Option Task :=
  if isService t.kind then
    match l with
    | .idle ipc =>
      let t' := { t with lookup := some (some ipc) }
      if t.origin = none ∨ t.origin ≠ t.trid then (emit (.fwd ipc t.corr t.kind t.trid t.key) s, some t')
      else (s, some t')
    | .absent => (fake t.key t.corr (replyKind t.kind) ⟨noEntry, 0⟩ s, some t)
    | .timeout => (fake t.key t.corr (replyKind t.kind) ⟨timedOut, 0⟩ s, some t)
  else (s, some t)

/-- `send::queue_request`, create.cpp:188-202. -/
def queueSend (p : Option Nat) (t : Task) (s : State) : State :=
  match p with
  | none => fake t.key t.corr t.kind ⟨0, 0⟩ s
  | some ipc => emit (.fwd ipc t.corr t.kind t.trid t.key) s

/-- `queue::lookup::Reply`, create.cpp:467-479. -/
def onQueue (p : Option Nat) (t : Task) (s : State) : State × Option Task :=
  if isQueue t.kind then
    if t.wait then (s, some { t with lookup := some p }) else (queueSend p t s, none)
  else (s, some t)

/-- `inbound::branch::Reply`, create.cpp:266-278, 375-388 and 480-495. -/
def onBranch (b : Trid) (t : Task) (s : State) : State × Option Task :=
  if isService t.kind then
    let s := { s with cache := addTrid b t.key s.cache }
    let t' := { t with trid := some b }
    match t.lookup with
    | some (some ipc) => (emit (.fwd ipc t.corr t.kind (some b) t.key) s, some t')
    | _ => (s, some t')
  else if isQueue t.kind then
    let s := { s with cache := addTrid b t.key s.cache }
    let t' := { t with trid := some b, wait := false }
    match t.lookup with
    | none => (s, some t')
    | some p => (queueSend p t' s, none)
  else (s, some t)

/-- `service::call::Reply`, create.cpp:279-293. -/
def onCall (r : Rep) (ok : Bool) (t : Task) (s : State) : State × Option Task :=
  if t.kind = .call ∨ t.kind = .post then
    if connected t.key s then (send ok t.key (.sent t.key t.corr .call r none) s, none)
    else ({ s with dead := true }, none)
  else (s, some t)

/-- Replies to prepare, commit and rollback, create.cpp:519-532. -/
def onResource (k : Kind) (r : Rep) (ok : Bool) (t : Task) (s : State) : State × Option Task :=
  if t.kind = k then (send ok t.key (.sent t.key t.corr k r t.trid) s, none) else (s, some t)

/-- `conversation::callee::Send` from the other domain, create.cpp:389-400. -/
def onSay (data : Nat) (t : Task) (s : State) : State × Option Task :=
  if t.kind = .conv then
    match t.lookup with
    | some (some ipc) => (emit (.toProcess ipc t.corr data) s, some t)
    | _ => ({ s with dead := true }, some t)
  else (s, some t)

/-- `conversation::Disconnect` from the other domain, create.cpp:401-412. -/
def onHangup (t : Task) (s : State) : State × Option Task :=
  if t.kind = .conv then
    match t.lookup with
    | some (some ipc) => (emit (.hangup ipc t.corr) s, none)
    | _ => ({ s with dead := true }, none)
  else (s, some t)

/-- The handlers for replies of local processes, handle.cpp:41-225. Replies to conversation connect,
to queue requests and to discovery are forwarded to the connection that belongs to the device. -/
def answer (d c : Nat) (k : Kind) (r : Rep) (ok : Bool) (s : State) : State :=
  match k with
  | .call => dispatch c (onCall r ok) s
  | .post => s   -- there is no such reply
  | .prepare | .commit | .rollback => dispatch c (onResource k r ok) s
  | .conv | .enqueue | .dequeue | .discovery => send ok d (.sent d c k r none) s

/-- `conversation::callee::Send` from the local process, handle.cpp:91-105. -/
def localSay (d c data : Nat) (terminated ok : Bool) (s : State) : State :=
  let s := send ok d (.toRemote d c data terminated) s
  if terminated then { s with tasks := s.tasks.filter (·.corr ≠ c) } else s

/-- `State::disconnectable`, state.cpp:111-114. -/
def disconnectable (d : Nat) (s : State) : Bool :=
  !associated d s.cache && !s.tasks.any (·.key == d)

/-- `external::disconnect::reply`, handle.cpp:234-262. -/
def closing (d : Nat) (s : State) : State :=
  if disconnectable d s then lost d s else { s with pending := s.pending ++ [d] }

/-- `connection::disconnect`, handle.cpp:633-648. -/
def disconnect (ok : Bool) (d : Nat) (s : State) : State :=
  match s.conns.find? (·.d == d) with
  | none => s
  | some x => if x.modern then send ok d (.askDisconnect d) s else lost d s

/-- `handle::idle`, handle.cpp:652-669. -/
def idle (s : State) : State :=
  let done := s.pending.filter fun d => disconnectable d s
  let s' := { s with pending := s.pending.filter fun d => !disconnectable d s }
  done.foldl (fun s d => lost d s) s'

/-- `handle::shutdown`, handle.cpp:671-680. `bad`: the connections where the send fails. -/
def shutdown (bad : List Nat) (s : State) : State :=
  (s.conns.map (·.d)).foldl (fun s d => disconnect (!bad.contains d) d s) { s with running := false }

/-- `State::done`, state.cpp:116-119. -/
def done (s : State) : Bool := !s.running && s.conns.isEmpty

/-- The code of the reply when a request can not be delivered, create.cpp:163-170 and 194-200. -/
def unreachable (k : Kind) : Rep := if isService k then ⟨svcErr, 0⟩ else ⟨0, 0⟩

/-- What happens to the process. `ok`: the tcp send, if there is one, does not fail. -/
inductive Event
  | connect (d : Nat) (modern : Bool)
  -- from the other domain
  | request (k : Kind) (d c : Nat) (x : Option Trid) (qm : Bool)
  | say (d c data : Nat)
  | hangup (d c : Nat)
  | closing (d : Nat)
  | broken (d : Nat)
  -- from local processes, on the ipc device of the connection
  | service (d c : Nat) (l : Lookup)
  | queueAt (d c : Nat) (p : Option Nat)
  | branch (d c : Nat) (t : Trid)
  | answer (d c : Nat) (k : Kind) (r : Rep) (ok : Bool)
  | localSay (d c data : Nat) (terminated ok : Bool)
  -- a reply that we have sent to our self
  | own (i : Nat) (ok : Bool)
  -- `multiplex` could not deliver a request, create.cpp:163-170 and 194-200
  | undeliverable (d c : Nat) (k : Kind)
  -- management
  | disassociate (g : Nat)
  | disconnect (d : Nat) (ok : Bool)
  | idle
  | shutdown (bad : List Nat)
  deriving DecidableEq, Repr

/-- With a connection, else the message can not have arrived (tcp.h:163-181, ipc.h:45-68). -/
def on (d : Nat) (f : State → State) (s : State) : State := if connected d s then f s else s

def apply (e : Event) (s : State) : State :=
  match e with
  | .connect d m =>
    -- handle.cpp:451-483, connection.h:40-75; the operating system does not hand out a
    -- descriptor that is in use
    if connected d s then s else emit (.connected d) { s with conns := s.conns ++ [⟨d, m⟩] }
  | .request k d c x qm => on d (fun s => request k d c x qm (emit (.req d c k x) s)) s
  | .say d c data => on d (dispatch c (onSay data)) s                     -- handle.cpp:342-352
  | .hangup d c => on d (dispatch c onHangup) s                           -- handle.cpp:330-340
  | .closing d => on d (fun s => closing d (emit (.closing d) s)) s
  | .broken d => on d (lost d) s                                          -- tcp.h:119-152
  | .service d c l => on d (fun s => dispatch c (onService l) (emit (.gotService c l) s)) s
  | .queueAt d c p => on d (fun s => dispatch c (onQueue p) (emit (.gotQueue c p) s)) s
  | .branch d c t => on d (fun s => dispatch c (onBranch t) (emit (.gotBranch c t) s)) s
  | .answer d c k r ok => on d (fun s => answer d c k r ok (emit (.got d c k r) s)) s
  | .localSay d c data t ok => on d (localSay d c data t ok) s
  | .own i ok =>
    match s.inbox[i]? with
    | none => s
    | some m => answer m.d m.c m.k m.r ok { s with inbox := s.inbox.eraseIdx i }
  | .undeliverable d c k =>
    fake d c (replyKind k) (unreachable k) (emit (.undelivered d c k) s)
  | .disassociate g => emit (.disassociate g) { s with cache := removeTrid g s.cache }  -- handle.cpp:489-500
  | .disconnect d ok => disconnect ok d s                                 -- main.cpp:118-130
  | .idle => idle s
  | .shutdown bad => shutdown bad s

/-- A process that has died does nothing. -/
def step (s : State) (e : Event) : State := if s.dead then s else apply e s

def run (es : List Event) : State := es.foldl step {}

end Casual.Gateway.In
