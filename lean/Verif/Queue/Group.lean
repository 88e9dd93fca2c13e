import Verif.Queue.Config

/-!
# Model of a queue group

The process `casual-queue-group`: its handlers (`/repo/middleware/queue/source/group/handle.cpp`), its state
(`/repo/middleware/queue/include/queue/group/state.h`, `source/group/state.cpp`) and its message pump
(`source/group/main.cpp`), on top of the queuebase (`Queue/Model.lean`).

Modelled: one message is handled at a time; `idle` is what the pump does when there is no more inbound
(`main.cpp:134-146`); `crash` is the death of the process at any point between two messages, after which it is started
again with what is on disk (the SQLite file as of the last `COMMIT`).

Simplified:
* all clock readings within one handler give the same value;
* `std::partition` keeps the order (in reality the order is not specified);
* a send always succeeds (`multiplex.send` queues what cannot be delivered at once);
* if the update of the queues fails, the process ends in an orderly way (`main.cpp:148-165`): modelled as persist
  followed by `crash`;
* before the first configuration a group is known to nobody, so that it gets no request.
-/
namespace Casual.Queue

/-- A transaction id: global part and branch. -/
structure Trid where
  g : Gtrid
  b : Nat
  deriving DecidableEq, Repr

/-- `ipc::message::group::dequeue::Request`. `queue = 0`: not known by the caller, then `name` is used. -/
structure DeqReq where
  proc : Nat
  corr : Nat
  queue : Qid
  name : Name
  sel : Selector
  trid : Option Trid
  block : Bool
  deriving DecidableEq, Repr

/-- What a group answers. Answers to administration requests are left out, except for the configuration. -/
inductive Reply
  /-- enqueue succeeded: the transaction and the id of the message -/
  | enqueued (t : Option Trid) (id : MsgId)
  | enqueueFailed
  /-- a message is handed out -/
  | dequeued (t : Option Trid) (m : Msg)
  | noMessage
  | dequeueFailed
  | prepared (t : Trid)
  | committed (t : Trid)
  | rolledBack (t : Trid)
  | forgotten (discarded : Bool)
  /-- a request to forget a blocking dequeue, sent at shutdown -/
  | forget
  /-- the queues hosted: id and name -/
  | configured (queues : List (Qid × Name))
  deriving DecidableEq, Repr

/-- The messages handled, and what the pump does by itself. -/
inductive In
  | configure (proc corr : Nat) (conf : List Conf) (capacity : Option Int) (now : Time)
  | enqueue (proc corr : Nat) (id : MsgId) (queue : Qid) (name : Name) (trid : Option Trid) (available : Time) (body : Body) (now : Time)
  | dequeue (req : DeqReq) (now : Time)
  | forget (proc corr : Nat)
  | timeout (now : Time)
  | prepare (proc corr : Nat) (t : Trid)
  | commit (proc corr : Nat) (t : Trid) (now : Time)
  | rollback (proc corr : Nat) (t : Trid) (now : Time)
  | restore (qs : List Qid) (now : Time)
  | clear (qs : List Qid)
  | remove (q : Qid) (ids : List MsgId) (force : Bool)
  | recovery (commit : Bool) (ts : List Gtrid) (now : Time)
  | metricReset (qs : List Qid)
  | exit (proc : Nat)
  | shutdown (now : Time)
  | idle (now : Time)
  | crash
  deriving DecidableEq

/-- What can be observed of a group: the messages it has handled and sent, in order. -/
inductive Ev
  | recv (i : In)
  | send (proc corr : Nat) (r : Reply)
  /-- the transaction manager is told that the group is involved in the transaction -/
  | involve (t : Trid)
  deriving DecidableEq

/-- `group::State`, `state.h:83-117`. -/
structure Group where
  db : DB
  /-- what is on disk: the database as of the last `COMMIT` -/
  disk : DB
  /-- not in the code: the operations that led to `db` -/
  ops : List Op
  /-- not in the code: the operations that led to `disk` -/
  diskOps : List Op
  /-- `pending.replies`: receiver, correlation, reply -/
  replies : List (Nat × Nat × Reply)
  /-- `pending.dequeues` -/
  dequeues : List DeqReq
  involved : List Trid
  zombies : List Qid
  /-- `size.current` -/
  current : Int
  /-- `size.capacity` -/
  capacity : Option Int
  /-- the point in time for which the timer is set -/
  timer : Option Time
  /-- an alarm signal is on its way (a `signal::Timeout` will be handled) -/
  alarmed : Bool
  /-- the group has got its configuration -/
  up : Bool
  /-- not in the code: the trace -/
  tr : List Ev

def Group.init : Group :=
  { db := .empty, disk := .empty, ops := [], diskOps := [], replies := [], dequeues := [], involved := [], zombies := []
    current := 0, capacity := none, timer := none, alarmed := false, up := false, tr := [] }

/-- An operation on the queuebase. -/
def Group.apply (g : Group) (op : Op) : Group := { g with db := g.db.step op, ops := g.ops ++ [op] }

def Group.emit (g : Group) (e : Ev) : Group := { g with tr := g.tr ++ [e] }

/-- `state.multiplex.send`. -/
def Group.send (g : Group) (proc corr : Nat) (r : Reply) : Group := g.emit (.send proc corr r)

/-- `Queuebase::persist`, `queuebase.cpp:772-779`. -/
def Group.sync (g : Group) : Group := { g with disk := g.db, diskOps := g.ops }

/-- `detail::transaction::involved`, `handle.cpp:46-62`. -/
def Group.involve (g : Group) (t : Trid) : Group :=
  if t ∈ g.involved then g else { g.emit (.involve t) with involved := g.involved ++ [t] }

/-- `detail::transaction::done`, `handle.cpp:64-70`. -/
def Group.done (g : Group) (t : Trid) : Group := { g with involved := g.involved.filter fun x => x ≠ t }

/-- `Queuebase::id( message)`, `queuebase.h:214-221`. -/
def Group.target (g : Group) (queue : Qid) (name : Name) : Option Qid :=
  if queue ≠ 0 then some queue else g.db.qid? name

/-- `signal::timer::set`, `middleware/common/source/signal/timer.cpp:66-91`: a point that has passed raises the signal at
once. -/
def Group.setTimer (g : Group) (at_ now : Time) : Group :=
  if at_ ≤ now then { g with alarmed := true } else { g with timer := some at_ }

/-- `handle.cpp:330-338`: set the timer, if there is none or it is later. -/
def Group.arm (g : Group) (at_ now : Time) : Group :=
  match g.timer with
  | none => g.setTimer at_ now
  | some t => if at_ < t then g.setTimer at_ now else g

/-- `dequeue::handle` and the exception handler around it, `handle.cpp:302-376`. The flag tells if it "was handled". -/
def Group.dequeueOne (g : Group) (req : DeqReq) (now : Time) : Group × Bool :=
  match g.target req.queue req.name with
  | none => (g.send req.proc req.corr .dequeueFailed, false)
  | some q =>
    match g.db.select q req.sel now with
    | some m =>
      let g := g.apply (.dequeue q req.sel (req.trid.map (·.g)) now)
      match req.trid with
      | some t => ((g.involve t).send req.proc req.corr (.dequeued (some t) m), true)
      | none => ({ g with current := g.current - m.length }.send req.proc req.corr (.dequeued none m), true)
    | none =>
      if req.block then
        let g := match g.db.available q with
          | some a => g.arm a now
          | none => g
        ({ g with dequeues := g.dequeues ++ [{ req with queue := q }] }, false)
      else (g.send req.proc req.corr .noMessage, true)

/-- The loop over the blocked requests of one queue, `handle.cpp:866-890`: at most `count` are served, the rest is kept
blocked. -/
def Group.serve (now : Time) : Group → Int → List DeqReq → Group
  | g, _, [] => g
  | g, count, r :: rs =>
    if count < 1 then { g with dequeues := g.dequeues ++ (r :: rs) }
    else
      let (g, ok) := g.dequeueOne r now
      g.serve now (if ok then count - 1 else count) rs

/-- `pending::dequeues`, `handle.cpp:831-917`. -/
def Group.pendingDequeues (g : Group) (now : Time) : Group :=
  if g.dequeues.isEmpty then g
  else
    let available := g.db.availables (g.dequeues.map (·.queue))
    let passed := available.filter fun a => decide (a.when_ ≤ now)
    let future := available.filter fun a => !decide (a.when_ ≤ now)
    let requests := g.dequeues.filter fun r => passed.any fun a => a.queue == r.queue
    let g := { g with dequeues := g.dequeues.filter fun r => !passed.any fun a => a.queue == r.queue }
    let g := passed.foldl (fun g a => g.serve now a.count (requests.filter fun r => a.queue == r.queue)) g
    match (future.map (·.when_)).min? with
    | some w => g.setTimer w now
    | none => { g with timer := none }

/-- `handle::persist`, `handle.cpp:929-944`. -/
def Group.persist (g : Group) (now : Time) : Group :=
  let g := if g.replies.isEmpty then g else
    { g.sync with replies := [], tr := g.tr ++ g.replies.map fun r => .send r.1 r.2.1 r.2.2 }
  g.pendingDequeues now

/-- `detail::persistent::reply`, `handle.cpp:76-83`; the limit is `platform::batch::queue::persistent`. -/
def Group.persistentReply (g : Group) (proc corr : Nat) (r : Reply) (now : Time) : Group :=
  let g := { g with replies := g.replies ++ [(proc, corr, r)] }
  if g.replies.length ≥ 100 then g.persist now else g

/-- `has::sufficient::capacity`, `handle.cpp:224-232`. -/
def Group.hasCapacity (g : Group) (body : Body) : Bool :=
  match g.capacity with
  | none => true
  | some c => decide (c - g.current ≥ body.payload.length)

/-- `enqueue::request`, `handle.cpp:236-297`. -/
def Group.enqueue (g : Group) (proc corr : Nat) (id : MsgId) (queue : Qid) (name : Name) (trid : Option Trid)
    (available : Time) (body : Body) (now : Time) : Group :=
  if g.hasCapacity body then
    match g.target queue name with
    | none => g.send proc corr .enqueueFailed
    | some q =>
      match (g.db.enqueue id q (trid.map (·.g)) available body now).2 with
      | .error _ => g.send proc corr .enqueueFailed
      | .ok () =>
        let g := g.apply (.enqueue id q (trid.map (·.g)) available body now)
        let g := { g with current := g.current + body.payload.length }
        match trid with
        | some t => (g.involve t).send proc corr (.enqueued (some t) id)
        | none => g.persistentReply proc corr (.enqueued none id) now
  else g.send proc corr .enqueueFailed

/-- `dequeue::forget::request` and `Pending::forget`, `handle.cpp:378-388` and `state.cpp:38-55`. -/
def Group.forget (g : Group) (proc corr : Nat) : Group :=
  if g.dequeues.any (fun r => r.corr == corr) then
    { g with dequeues := g.dequeues.eraseP fun r => r.corr == corr }.send proc corr (.forgotten true)
  else g.send proc corr (.forgotten false)

/-- `transaction::commit::request`, `handle.cpp:441-473`. -/
def Group.commit (g : Group) (proc corr : Nat) (t : Trid) (now : Time) : Group :=
  let g := g.done t
  let size := (g.db.commit t.g).2
  let g := g.apply (.commit t.g)
  { g with current := g.current - size }.persistentReply proc corr (.committed t) now

/-- `transaction::rollback::request`, `handle.cpp:499-533`. (`Queuebase::rollback` does not fail.) -/
def Group.rollback (g : Group) (proc corr : Nat) (t : Trid) (now : Time) : Group :=
  let g := g.done t
  let size := match (g.db.rollback t.g now).2 with
    | .ok n => n
    | .error _ => 0
  let g := g.apply (.rollback t.g now)
  { g with current := g.current - size }.persistentReply proc corr (.rolledBack t) now

/-- `recovery::request`, `handle.cpp:192-209`. -/
def Group.recovery (g : Group) (commit : Bool) (ts : List Gtrid) (now : Time) : Group :=
  if commit then
    let size := (g.db.recoveryCommit ts).2.1
    let g := g.apply (.recoveryCommit ts)
    { g with current := g.current - size }
  else
    let size := match (g.db.recoveryRollback now ts).2 with
      | .ok (n, _) => n
      | .error _ => 0
    let g := g.apply (.recoveryRollback ts now)
    { g with current := g.current - size }

/-- `state.size.current = state.queuebase.size()`. -/
def Group.recount (g : Group) : Group := { g with current := g.db.size }

/-- The end of the process, and a new start from what is on disk. -/
def Group.crash (g : Group) : Group :=
  { Group.init with db := g.disk, disk := g.disk, ops := g.diskOps, diskOps := g.diskOps, tr := g.tr }

/-- `configuration::update::request`, `handle.cpp:690-797`. -/
def Group.configure (g : Group) (proc corr : Nat) (conf : List Conf) (capacity : Option Int) (now : Time) : Group :=
  let g := { g.sync with capacity, up := true }
  let zombies := g.zombies ++ (g.db.plan conf).2.2
  if (g.db.configure conf).2 then
    let g := { g.apply (.configure conf) with zombies }
    let queues := (g.db.queues.filter fun r => !zombies.contains r.id).map fun r => (r.id, r.name)
    ((g.send proc corr (.configured queues)).recount).sync
  else (g.persist now).sync.crash

/-- `shutdown::detail::perform`, `handle.cpp:806-816`. -/
def Group.shutdown (g : Group) (now : Time) : Group :=
  let g := g.persist now
  { g with dequeues := [], tr := g.tr ++ g.dequeues.map fun r => .send r.proc r.corr .forget }

/-- The alarm signal of the timer. -/
def Group.tick (g : Group) (now : Time) : Group :=
  match g.timer with
  | some t => if t ≤ now then { g with timer := none, alarmed := true } else g
  | none => g

/-- The handlers. -/
def Group.handle (g : Group) : In → Group
  | .configure proc corr conf capacity now => g.configure proc corr conf capacity now
  | .enqueue proc corr id queue name trid available body now => g.enqueue proc corr id queue name trid available body now
  | .dequeue req now => ((g.tick now).dequeueOne req now).1
  | .forget proc corr => g.forget proc corr
  | .timeout now =>
    -- `signal::timeout`, `handle.cpp:571-588`
    let g := { g.tick now with alarmed := false }
    if g.replies.isEmpty then g.pendingDequeues now else g
  | .prepare proc corr t =>
    -- `transaction::prepare::request`, `handle.cpp:476-494`
    g.send proc corr (.prepared t)
  | .commit proc corr t now => (g.tick now).commit proc corr t now
  | .rollback proc corr t now => (g.tick now).rollback proc corr t now
  | .restore qs now =>
    -- `restore::request`, `handle.cpp:537-567`
    (qs.foldl (fun g q => g.apply (.restore q)) (g.tick now)).sync.pendingDequeues now
  | .clear qs =>
    -- `clear::request`, `handle.cpp:591-619`
    (qs.foldl (fun g q => g.apply (.clear q)) g).recount
  | .remove q ids force =>
    -- `remove::request`, `handle.cpp:168-186`
    (g.apply (if force then .forceRemove q ids else .remove q ids)).recount
  | .recovery commit ts now => g.recovery commit ts now
  | .metricReset qs => g.apply (.metricReset qs)
  | .exit proc =>
    -- `dead::process` and `Pending::remove`, `handle.cpp:97-111` and `state.cpp:84-91`
    { g with dequeues := g.dequeues.filter fun r => r.proc ≠ proc, replies := g.replies.filter fun r => r.1 ≠ proc }
  | .shutdown now => (g.tick now).shutdown now
  | .idle now => (g.tick now).persist now
  | .crash => g.crash

/-- One message. A group that is not configured handles nothing but its configuration. -/
def Group.step (g : Group) (i : In) : Group :=
  let g := g.emit (.recv i)
  match i with
  | .configure .. => g.handle i
  | .crash => g.handle i
  | _ => if g.up then g.handle i else g

def Group.run (g : Group) (is : List In) : Group := is.foldl Group.step g

end Casual.Queue
