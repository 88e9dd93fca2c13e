/-!
Model of the call descriptors of a process: `state::Pending`
(middleware/common/source/service/call/state.cpp) and `call::Context`
(middleware/common/source/service/call/context.cpp:88-270, 348-360), together with the part of the
inbound device that is used (`receive` by type and correlation, `discard`;
common/include/common/communication/device.h:102-330).

Simplifications: a `strong::correlation::id` is a number, a new one for each call (it comes from
the lookup reply, which is a new uuid); the nil correlation of a descriptor that has not been used
is `none`; a payload is a number; what the transaction context does with the reply and with
`associated` is in `Verif/Tx` and an input here.
-/
namespace Casual.Call

/-- `pending::Descriptor`, common/include/common/service/call/state.h:29-42. -/
structure Desc where
  d : Int
  active : Bool
  corr : Option Nat := none
  deriving DecidableEq, Repr

/-- What the program and the outside world see. -/
inductive Event
  | called (d : Int) (c : Nat)          -- `tpacall` returns `d`, the request has correlation `c`
  | failed (c : Nat)                    -- `tpacall` fails when the request is to be sent
  | got (d : Int) (c : Nat) (p : Nat)   -- `tpgetrply` returns the reply `p` with correlation `c` as the reply for `d`
  | stray (c : Nat)                     -- `tpgetrply( TPGETANY)` fails with TPEBADDESC, a reply is lost
  | cancelled (d : Int) (c : Nat)       -- `tpcancel( d)` is ok
  | arrived (c : Nat) (p : Nat)         -- a reply reaches the process
  | ended                               -- the service invocation is over
  deriving DecidableEq, Repr

/-- `State` (state.h:84-88), the complete replies in the cache of the inbound device and the
correlations it shall drop. `log` is newest first. -/
structure State where
  descs : List Desc
  next : Nat := 0
  inbox : List (Nat × Nat) := []
  dropped : List Nat := []
  log : List Event := []
  deriving DecidableEq, Repr

/-- `Pending::Pending`, state.cpp:22-32. -/
def initial : State :=
  { descs := [⟨1, false, none⟩, ⟨2, false, none⟩, ⟨3, false, none⟩, ⟨4, false, none⟩,
              ⟨5, false, none⟩, ⟨6, false, none⟩, ⟨7, false, none⟩, ⟨8, false, none⟩] }

/-- `Pending::reserve`, state.cpp:34-57: the first one that is not active, otherwise a new one
after `m_descriptors.back()`; `last` is the value of `back().descriptor` (`m_descriptors` is never
empty). -/
def reserve (c : Nat) (last : Int) : List Desc → List Desc × Int
  | [] => ([⟨last + 1, true, some c⟩], last + 1)
  | x :: xs =>
    if x.active then (x :: (reserve c x.d xs).1, (reserve c x.d xs).2)
    else (⟨x.d, true, some c⟩ :: xs, x.d)

/-- `Pending::unreserve`, state.cpp:59-65: `algorithm::find`, the first with the descriptor; an
unknown one is an error (which `execute::scope` swallows, execute.h:36-39). -/
def unreserve (d : Int) : List Desc → List Desc
  | [] => []
  | x :: xs => if x.d = d then { x with active := false } :: xs else x :: unreserve d xs

/-- `Pending::get( descriptor)`, state.cpp:75-91. -/
def get (d : Int) (ds : List Desc) : Option Desc :=
  match ds.find? (·.d == d) with
  | some x => if x.active then some x else none
  | none => none

/-- `Pending::get( correlation)`, state.cpp:93-100: the first with the correlation has to be
active. -/
def getCorr (c : Nat) (ds : List Desc) : Option Desc :=
  match ds.find? (·.corr == some c) with
  | some x => if x.active then some x else none
  | none => none

def emit (ev : Event) (s : State) : State := { s with log := ev :: s.log }

/-- `Context::async`, context.cpp:88-135 (prepare) and 137-168. `sent` is false when the target
is gone or no instance could be reserved; then the descriptor is unreserved. -/
def async (sent : Bool) (s : State) : State × Option Int :=
  let c := s.next
  let r := reserve c 0 s.descs
  if sent then (emit (.called r.2 c) { s with descs := r.1, next := c + 1 }, some r.2)
  else (emit (.failed c) { s with descs := unreserve r.2 r.1, next := c + 1 }, none)

/-- `Context::async` with `TPNOREPLY`, context.cpp:109-118: the descriptor is 0, nothing is
reserved; a failure unreserves 0. -/
def asyncNoReply (sent : Bool) (s : State) : State × Option Int :=
  if sent then ({ s with next := s.next + 1 }, some 0)
  else (emit (.failed s.next) { s with descs := unreserve 0 s.descs, next := s.next + 1 }, none)

/-- The first reply with the correlation is taken from the cache; `inbound::Device::select`,
device.h:213-240. -/
def take (c : Nat) : List (Nat × Nat) → Option (Nat × List (Nat × Nat))
  | [] => none
  | m :: ms =>
    if m.1 = c then some (m.2, ms)
    else match take c ms with
      | none => none
      | some (p, ms') => some (p, m :: ms')

/-- `Context::reply` for a descriptor, context.cpp:216-270: the answer `none` is TPEBADDESC or
"no message" (and for a blocking call that nothing has been received yet). The descriptor is
unreserved at the end of the scope, whatever the outcome of the called service. -/
def reply (d : Int) (s : State) : State × Option (Int × Nat) :=
  match get d s.descs with
  | none => (s, none)
  | some x =>
    match x.corr with
    | none => (s, none)
    | some c =>
      match take c s.inbox with
      | none => (s, none)
      | some (p, rest) =>
        (emit (.got x.d c p) { s with inbox := rest, descs := unreserve x.d s.descs }, some (x.d, p))

/-- `Context::reply` with `TPGETANY`, context.cpp:224-233. -/
def replyAny (s : State) : State × Option (Int × Nat) :=
  match s.inbox with
  | [] => (s, none)
  | (c, p) :: rest =>
    match getCorr c s.descs with
    | none => (emit (.stray c) { s with inbox := rest }, none)
    | some x => (emit (.got x.d c p) { s with inbox := rest, descs := unreserve x.d s.descs }, some (x.d, p))

/-- `inbound::Device::discard`, device.h:257-272: a message in the cache is removed, otherwise the
correlation is remembered. -/
def drop (c : Nat) (s : State) : State :=
  match take c s.inbox with
  | some (_, rest) => { s with inbox := rest }
  | none => if c ∈ s.dropped then s else { s with dropped := c :: s.dropped }

/-- `Context::cancel` and `Pending::discard`, context.cpp:348-351, state.cpp:101-115.
`associated`: the answer of the transaction context (see `Verif.Tx.associated`). -/
def cancel (associated : Bool) (d : Int) (s : State) : State × Bool :=
  match get d s.descs with
  | none => (s, false)
  | some x =>
    if associated then (s, false)
    else
      match x.corr with
      | none => (s, false)
      | some c =>
        let s' := drop c s
        (emit (.cancelled x.d c) { s' with descs := unreserve x.d s'.descs }, true)

/-- A reply reaches the inbound device: dropped if its correlation has been discarded
(device.h:286-330), otherwise kept. -/
def arrive (c p : Nat) (s : State) : State :=
  if c ∈ s.dropped then { s with dropped := s.dropped.erase c }
  else emit (.arrived c p) { s with inbox := s.inbox ++ [(c, p)] }

/-- The end of a service invocation, server/handle/policy.cpp:188-191 and
transaction/context.cpp:547-565: the correlations pending in a transaction are discarded in the
inbound device; `Context::clean` (call/context.cpp:356-359) is empty, so the descriptors are left as
they are. -/
def finish (pending : List Nat) (s : State) : State :=
  emit .ended (pending.foldl (fun s c => drop c s) s)

/-- Everything that can happen. -/
inductive Act
  | async (sent : Bool) | asyncNoReply (sent : Bool)
  | reply (d : Int) | replyAny
  | cancel (associated : Bool) (d : Int)
  | arrive (c p : Nat)
  | finish (pending : List Nat)
  deriving DecidableEq, Repr

def step (s : State) : Act → State
  | .async b => (async b s).1
  | .asyncNoReply b => (asyncNoReply b s).1
  | .reply d => (reply d s).1
  | .replyAny => (replyAny s).1
  | .cancel a d => (cancel a d s).1
  | .arrive c p => arrive c p s
  | .finish ps => finish ps s

/-- A history of the process. -/
def run (as : List Act) : State := as.foldl step initial

end Casual.Call
