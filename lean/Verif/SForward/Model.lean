/-
  The service forward: `middleware/service/source/forward/*.cpp`. It takes the calls to services that have no idle instance and that the caller does not
  wait for, and passes them on when there is one.
  Simplified: the callbacks of lost messages send after what is lost is taken care of (`Verif/Callback` has what can go wrong then); a message is
  sent as a whole or not at all. Of a call there is what the forward looks at or changes, and `payload` for the rest.
-/
namespace Casual.SForward

/-- Where messages are sent: the service manager, or the process with this inbound queue. -/
inductive Dest where
  | manager
  | proc (id : Nat)
  deriving DecidableEq, Repr

/-- `service::call::Service`: the name, and the rest of what the service manager knows about the service. -/
structure Info where
  name : Nat
  rest : Nat := 0
  deriving DecidableEq, Repr

/-- `service::call::callee::Request`, `middleware/common/include/common/message/service.h:548-611`. -/
structure Req where
  corr : Nat
  caller : Nat
  service : Info
  noReply : Bool
  deadline : Option Nat := none
  payload : Nat := 0
  deriving DecidableEq, Repr

/-- `service::lookup::reply::State`, `message/service.h:358-377`. -/
inductive Found where
  | absent
  | idle
  | timeout
  deriving DecidableEq, Repr

/-- `service::lookup::Reply`, `message/service.h:383-402`. -/
structure Lookup where
  corr : Nat
  process : Nat
  service : Info
  deadline : Option Nat := none
  state : Found
  deriving DecidableEq, Repr

/-- The error codes of the forward. -/
inductive Code where
  | noEntry
  | system
  deriving DecidableEq, Repr

/-- What the forward sends: a lookup (`handle.cpp:107-114`; with what deadline), a discard (`handle.cpp:134-140`), an error reply (`handle.cpp:42-48`), a call (`handle.cpp:88`). -/
inductive Out where
  | lookup (corr : Nat) (name : Nat) (deadline : Option Nat)
  | discard (corr : Nat)
  | error (corr : Nat) (code : Code)
  | call (r : Req)
  deriving DecidableEq, Repr

/-- What happens when something is sent to a destination. -/
inductive Net where
  | ready
  | blocked
  | gone
  deriving DecidableEq, Repr

/-- `service::forward::State`, `middleware/service/include/service/forward/state.h:39-63`, and what has been sent and lost. `wait`: what the coordinator of
sends has left. -/
structure State where
  running : Bool := true
  pending : List Req := []
  wait : List (Dest × Out) := []
  sent : List (Dest × Out) := []
  lost : List (Dest × Out) := []
  deriving DecidableEq, Repr

/-- `send::error::reply`, `handle.cpp:36-51`: nothing if the caller wants no reply. -/
def answers (r : Req) (c : Code) : List (Dest × Out) := if r.noReply then [] else [(.proc r.caller, .error r.corr c)]

/-- What the callback of a lost message sends: `handle.cpp:88-92`; only calls have one. -/
def callback (x : Dest × Out) : List (Dest × Out) :=
  match x.2 with
  | .call r => answers r .noEntry
  | _ => []

/-- What waits for a destination is tried again: `middleware/common/source/communication/ipc/send.cpp:37-62`. -/
def flush (net : Dest → Net) (st : State) (d : Dest) : State :=
  match net d with
  | .ready => { st with sent := st.sent ++ st.wait.filter (·.1 = d), wait := st.wait.filter (·.1 ≠ d) }
  | .blocked => st
  | .gone => { st with lost := st.lost ++ st.wait.filter (·.1 = d), wait := st.wait.filter (·.1 ≠ d) }

/-- What a callback sends: `send.cpp:122-149`. Simplified: if something waits for the same destination already, that is not tried again until the
destination is looked at the next time. -/
def post1 (net : Dest → Net) (st : State) (x : Dest × Out) : State :=
  if st.wait.any (·.1 = x.1) then { st with wait := st.wait ++ [x] }
  else match net x.1 with
    | .ready => { st with sent := st.sent ++ [x] }
    | .blocked => { st with wait := st.wait ++ [x] }
    | .gone => { st with lost := st.lost ++ [x] }

/-- What is lost for a destination. -/
def losses (net : Dest → Net) (st : State) (d : Dest) : List (Dest × Out) := if net d = .gone then st.wait.filter (·.1 = d) else []

/-- With the callbacks of what is lost: `send.cpp:64-70`. -/
def touch (net : Dest → Net) (st : State) (d : Dest) : State :=
  ((losses net st d).flatMap callback).foldl (post1 net) (flush net st d)

/-- `Coordinator::send`: something is sent, after what waits for the same destination: `send.cpp:122-149`. -/
def post (net : Dest → Net) (st : State) (x : Dest × Out) : State := touch net { st with wait := st.wait ++ [x] } x.1

/-- `local::service::lookup::call::request`, `handle.cpp:97-120`: the lookup has no deadline. -/
def onCall (net : Dest → Net) (st : State) (r : Req) : State :=
  let st := post net st (.manager, .lookup r.corr r.service.name none)
  { st with pending := st.pending ++ [r] }

/-- `local::service::lookup::reply`, `handle.cpp:57-95`: what the reply says about the deadline, and that it timed out, is not looked at. -/
def onReply (net : Dest → Net) (st : State) (l : Lookup) : State :=
  match st.pending.find? (·.corr == l.corr) with
  | none => st
  | some r =>
    let st := { st with pending := st.pending.eraseP (·.corr == l.corr) }
    if l.state = .absent then (answers { r with service := l.service } .noEntry).foldl (post net) st
    else post net st (.proc l.process, .call { r with service := l.service })

/-- `local::shutdown::request`, `handle.cpp:123-149`. -/
def onShutdown (net : Dest → Net) (st : State) : State :=
  let st := { st with running := false }
  let st' := (st.pending.map fun r => (Dest.manager, Out.discard r.corr)).foldl (post net) st
  (st.pending.flatMap fun r => answers r .system).foldl (post net) st'

/-- What happens to a forward: messages, and that a destination can be written to (or turns out to be gone). With what happens to what is sent to each
destination then. -/
inductive Ev where
  | call (r : Req) (net : Dest → Net)
  | reply (l : Lookup) (net : Dest → Net)
  | shutdown (net : Dest → Net)
  | writable (d : Dest) (net : Dest → Net)

/-- One turn of the loop: nothing more happens when it is done, `state.h:52-55`, `start` in `main.cpp`, `middleware/common/include/common/communication/select.h:235-237`. -/
def step (st : State) (e : Ev) : State :=
  if st.running = false then st
  else match e with
    | .call r net => onCall net st r
    | .reply l net => onReply net st l
    | .shutdown net => onShutdown net st
    | .writable d net => touch net st d

/-- Any number of events. -/
def run (es : List Ev) : State := es.foldl step {}

end Casual.SForward
