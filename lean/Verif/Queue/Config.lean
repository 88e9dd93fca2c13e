import Verif.Queue.Model

/-!
# Reconfiguration of a queue group, as far as the queuebase is concerned

`handle::local::configuration::update::request`,
`/repo/middleware/queue/source/group/handle.cpp:690-797`, and the queuebase operations collected in one type, so that
a history is a list.
-/
namespace Casual.Queue

/-- A queue in the wanted configuration: name, retry count, retry delay. -/
structure Conf where
  name : Name
  retryCount : Nat
  retryDelay : Nat
  deriving DecidableEq, Repr

/-- `correlate_id`, `handle.cpp:719-728`: the wanted queue gets id and error queue of the existing queue with that
name. -/
def correlate (existing : List QRow) (c : Conf) : Wanted :=
  match existing.find? fun r => r.name == c.name with
  | some r => { id := r.id, error := r.error, name := c.name, retryCount := c.retryCount, retryDelay := c.retryDelay }
  | none => { id := 0, error := 0, name := c.name, retryCount := c.retryCount, retryDelay := c.retryDelay }

/-- Existing queues that are not wanted: `zombies`, `handle.cpp:731-734`. -/
def unwanted (existing : List QRow) (wanted : List Wanted) : List QRow :=
  existing.filter fun r => !wanted.any fun w => r.id == w.id || r.id == w.error

/-- `joined`, `handle.cpp:737-750`: the unwanted queues with their error queue, if that is unwanted too. -/
def joined (zombies : List QRow) : List (QRow × QRow) :=
  (zombies.filter fun r => r.error != 0).filterMap fun r =>
    (zombies.find? fun e => e.id == r.error).map fun e => (r, e)

/-- `has_messages`, `handle.cpp:752`. -/
def hasMessages (p : QRow × QRow) : Bool := decide (p.1.count > 0) || decide (p.2.count > 0)

/-- `populate`, `handle.cpp:761-768`. -/
def pairIds (ps : List (QRow × QRow)) : List Qid := ps.map (·.1.id) ++ ps.map (·.2.id)

/-- What the configuration update does with the queuebase: `(the queues to remove, the new zombies)`. -/
def DB.plan (db : DB) (conf : List Conf) : List Wanted × List Qid × List Qid :=
  let wanted := conf.map (correlate db.queues)
  let pairs := joined (unwanted db.queues wanted)
  (wanted, pairIds (pairs.filter fun p => !hasMessages p), pairIds (pairs.filter hasMessages))

/-- The queuebase part of the handler: everything happens in one SQLite transaction, which is rolled back if an
exception is thrown (`handle.cpp:703-704`, `:794`). Returns also if it succeeded. -/
def DB.configure (db : DB) (conf : List Conf) : DB × Bool :=
  let (wanted, remove, _) := db.plan conf
  match db.updateQueues wanted remove with
  | (db', .ok ()) => (db', true)
  | (_, .error _) => (db, false)

/-- The operations a queue group performs on its queuebase. -/
inductive Op
  | configure (conf : List Conf)
  | enqueue (id : MsgId) (q : Qid) (trid : Option Gtrid) (available : Time) (body : Body) (now : Time)
  | dequeue (q : Qid) (sel : Selector) (trid : Option Gtrid) (now : Time)
  | commit (t : Gtrid)
  | rollback (t : Gtrid) (now : Time)
  | recoveryCommit (ts : List Gtrid)
  | recoveryRollback (ts : List Gtrid) (now : Time)
  | restore (q : Qid)
  | clear (q : Qid)
  | remove (q : Qid) (ids : List MsgId)
  | forceRemove (q : Qid) (ids : List MsgId)
  | metricReset (qs : List Qid)
  deriving DecidableEq

/-- The effect of an operation on the database. -/
def DB.step (db : DB) : Op → DB
  | .configure conf => (db.configure conf).1
  | .enqueue id q trid available body now => (db.enqueue id q trid available body now).1
  | .dequeue q sel trid now => (db.dequeue q sel trid now).1
  | .commit t => (db.commit t).1
  | .rollback t now => (db.rollback t now).1
  | .recoveryCommit ts => (db.recoveryCommit ts).1
  | .recoveryRollback ts now => (db.recoveryRollback now ts).1
  | .restore q => (db.restore q).1
  | .clear q => (db.clear q).1
  | .remove q ids => (db.remove q ids).1
  | .forceRemove q ids => (db.forceRemove q ids).1
  | .metricReset qs => db.metricReset qs

/-- A history of operations. -/
def DB.run (db : DB) (ops : List Op) : DB := ops.foldl DB.step db

/-- A queuebase some history, starting with an empty one, leads to. -/
def Reachable (db : DB) : Prop := ∃ ops, DB.empty.run ops = db

end Casual.Queue
