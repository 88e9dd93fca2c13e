/-
  The coordinator of sends, with callbacks that send: `middleware/common/include/common/communication/ipc/send.h` and
  `middleware/common/source/communication/ipc/send.cpp`, one level below `Verif/Ipc`: the destinations are elements of a `std::vector`,
  with a capacity, and a callback runs while one of the elements is used.
  Simplified: a message is sent as a whole or not at all (`Verif/Ipc` has the parts); the messages that a callback sends have no
  callbacks of their own (as in /repo); `Coordinator::send()`, that sends to all destinations, is left out.
-/
namespace Casual.Callback

/-- A message, and what its callback sends: destinations and messages. `coordinator::Message`, `send.h:37-57`. The callbacks that send are those of
`middleware/service/source/forward/handle.cpp:88-92` and `middleware/queue/source/forward/handle.cpp:769-774`. -/
structure Msg where
  id : Nat
  cb : List (Nat × Nat) := []
  deriving DecidableEq, Repr

/-- `coordinator::Remote`: a destination with messages that are not sent yet. `send.h:59-103`. -/
structure Remote where
  dest : Nat
  queue : List Msg
  deriving DecidableEq, Repr

/-- What happens when something is sent to a destination. -/
inductive Net where
  | ready
  | blocked
  | gone
  deriving DecidableEq, Repr

/-- `Coordinator`, `send.h:108-247`: the vector, and its capacity. What has been accepted, sent and lost; and if something
undefined has happened. -/
structure State where
  remotes : List Remote := []
  cap : Nat := 0
  acc : List (Nat × Msg) := []
  sent : List (Nat × Msg) := []
  lost : List (Nat × Msg) := []
  ub : Bool := false
  deriving DecidableEq, Repr

/-- `algorithm::find( m_destinations, ipc)`. -/
def State.idx (st : State) (d : Nat) : Option Nat := st.remotes.findIdx? (·.dest == d)

/-- What a destination has pending. -/
def Remote.entries (r : Remote) : List (Nat × Msg) := r.queue.map fun m => (r.dest, m)

/-- `Remote::push`, `send.h:78-82`. -/
def State.pushAt (st : State) (j : Nat) (m : Msg) : State :=
  { st with remotes := st.remotes.modify j fun r => { r with queue := r.queue ++ [m] } }

/-- What is pending for the element. -/
def State.at (st : State) (j : Nat) : List (Nat × Msg) := (st.remotes[j]?.map Remote.entries).getD []

/-- All is sent, and the element is erased: `send.cpp:44-54,83-84`. -/
def State.flushAt (st : State) (j : Nat) : State := { st with sent := st.sent ++ st.at j, remotes := st.remotes.eraseIdx j }

/-- All is lost, and the element is erased: `send.cpp:56-70,83-84,113-120`. -/
def State.loseAt (st : State) (j : Nat) : State := { st with lost := st.lost ++ st.at j, remotes := st.remotes.eraseIdx j }

/-- `emplace_back`: `send.cpp:137-138`; how the vector grows is as in libstdc++. -/
def State.emplace (st : State) (r : Remote) : State :=
  { st with remotes := st.remotes ++ [r], cap := if st.remotes.length = st.cap then max 1 (2 * st.cap) else st.cap }

/-- Something undefined. -/
def State.broken (st : State) : State := { st with ub := true }

/-- The messages that the callback of a message sends. -/
def calls (x : Nat × Msg) : List (Nat × Msg) := x.2.cb.map fun y => (y.1, { id := y.2 })

/-- `Remote::send` for the element `j` (`send.cpp:37-62`), `Remote::failed` (`send.cpp:64-70`), and then the element is erased (`send.cpp:83-84,130-131`).
`active`: the elements that are used by callers further out; to erase one before these moves them while they are used.
`rec`: how a callback sends. -/
def finish (net : Nat → Net) (rec : List Nat → State → Nat × Msg → State) (active : List Nat) (st : State) (j d : Nat) : State :=
  match net d with
  | .ready => if active.any (j < ·) then st.broken else st.flushAt j
  | .blocked => st
  | .gone =>
    let st := ((st.at j).flatMap calls).foldl (rec (j :: active)) st
    if st.ub then st else if active.any (j < ·) then st.broken else st.loseAt j

/-- `Coordinator::send( ipc, message)`: `send.cpp:122-149`. The first argument is how much stack there is.
`m_queue.push_back` while the queue is iterated over, and `emplace_back` that moves the elements while one is used, are undefined. -/
def sendIn (net : Nat → Net) : Nat → List Nat → State → Nat × Msg → State
  | 0, _, st, _ => st.broken
  | f + 1, active, st, x =>
    if st.ub then st
    else
      let st := { st with acc := st.acc ++ [x] }
      match st.idx x.1 with
      | some j => if j ∈ active then st.broken else finish net (sendIn net f) active (st.pushAt j x.2) j x.1
      | none =>
        match net x.1 with
        | .ready => { st with sent := st.sent ++ [x] }
        | .blocked => if active ≠ [] ∧ st.remotes.length = st.cap then st.broken else st.emplace { dest := x.1, queue := [x.2] }
        | .gone => (calls x).foldl (sendIn net f active) { st with lost := st.lost ++ [x] }

/-- What happens to a coordinator: something is sent; a destination can be written to (`send.cpp:74-88`); a destination is known to be gone
(`send.cpp:113-120`). With what happens to what is sent to each destination then. -/
inductive Ev where
  | send (d : Nat) (m : Msg) (net : Nat → Net)
  | writable (d : Nat) (net : Nat → Net)
  | failed (d : Nat) (net : Nat → Net)

/-- One event; `n` is the stack. -/
def step (n : Nat) (st : State) (e : Ev) : State :=
  if st.ub then st
  else match e with
    | .send d m net => sendIn net n [] st (d, m)
    | .writable d net =>
      match st.idx d with
      | none => st
      | some j => finish net (sendIn net n) [] st j d
    | .failed d net =>
      match st.idx d with
      | none => st
      | some j => finish (fun x => if x = d then .gone else net x) (sendIn net n) [] st j d

/-- Any number of events. -/
def run (n : Nat) (st : State) (es : List Ev) : State := es.foldl (step n) st

end Casual.Callback
