import Verif.Util

/-!
# Model of the queuebase

The class `queue::group::Queuebase`
(`/repo/middleware/queue/source/group/queuebase.cpp`), the SQL statements it executes
(`/repo/middleware/queue/source/group/queuebase/statement.cpp`), and the schema with its triggers
(`/repo/middleware/queue/include/queue/group/queuebase/schema.h`).

A table is a list of rows in rowid order (a new row gets rowid `max + 1`, so it comes last).
Times are microseconds since the epoch (`sql/database.h:118`), as integers.
SQLite is modelled at the level of the statements used here; failures of SQLite other than violated
constraints (disk full, i/o errors, lock) are not modelled.
-/

namespace Casual.Queue

/-- A message id (a uuid; only equality matters). -/
scoped macro "MsgId" : term => `(Nat)
/-- `common::strong::queue::id`; 0 is never a queue (`INTEGER PRIMARY KEY` starts with 1). -/
scoped macro "Qid" : term => `(Nat)
/-- The global part of a transaction id (only equality matters for the statements). -/
scoped macro "Gtrid" : term => `(Nat)
scoped macro "Time" : term => `(Int)
/-- Queue names; characters are kept so that the suffix `.error` can be modelled. -/
abbrev Name := List Char

/-- `queuebase::message::State`, `queuebase.h:77-83`, and the comment in `schema.h:38`.
`added` = 1, `enqueued` = 2, `dequeued` = 3 (the header names 3 `removed` and 4 `dequeued`, but 3 is what
`statement.cpp:72` writes, and 4 is never written). -/
inductive MState | added | enqueued | dequeued
  deriving DecidableEq, Repr

/-- The columns of a message nothing but `INSERT` ever writes: `properties`, `reply`, `type`, `payload`
(`schema.h:37-44`). -/
structure Body where
  properties : List Char
  reply : List Char
  type : List Char
  payload : List UInt8
  deriving DecidableEq, Repr

/-- A row of table `message`, `schema.h:32-46`. `gtrid = none` is what is stored for a null transaction id
(an empty blob, which equals the global part of no transaction). -/
structure Msg where
  id : MsgId
  queue : Qid
  origin : Qid
  gtrid : Option Gtrid
  state : MState
  redelivered : Nat
  available : Time
  timestamp : Time
  body : Body
  deriving DecidableEq, Repr

/-- `length( payload)`. -/
def Msg.length (m : Msg) : Nat := m.body.payload.length

/-- A row of table `queue`, `schema.h:15-29`. Columns `last` and `created` are left out: nothing but the
administration listing reads them. -/
structure QRow where
  id : Qid
  name : Name
  retryCount : Nat
  retryDelay : Nat
  error : Qid
  count : Int
  size : Int
  uncommitted : Int
  metricDequeued : Int
  metricEnqueued : Int
  deriving DecidableEq, Repr

/-- The database: tables `message` and `queue`. -/
structure DB where
  msgs : List Msg
  queues : List QRow
  deriving DecidableEq, Repr

/-- A new, empty queuebase: `Queuebase::Queuebase`, `queuebase.cpp:202-242`. -/
def DB.empty : DB := { msgs := [], queues := [] }

/-- Violated constraints: `PRIMARY KEY` of `message`, `UNIQUE` name of `queue`, and the
`FOREIGN KEY (queue) REFERENCES queue( id)` (enforced: `sql/database.h:523`); and `no_queue`
(`queuebase.cpp:369-370`). -/
inductive Err | primaryKey | unique | foreignKey | noQueue
  deriving DecidableEq, Repr

/-! ## Triggers -/

/-- `UPDATE queue SET .. WHERE id = q` inside a trigger. -/
def onQueue (qs : List QRow) (q : Qid) (f : QRow → QRow) : List QRow :=
  qs.map fun r => if r.id = q then f r else r

/-- Trigger `insert_message`, `schema.h:70-84`. -/
def trigInsert (qs : List QRow) (m : Msg) : List QRow :=
  match m.state with
  | .added => onQueue qs m.queue fun r => { r with uncommitted := r.uncommitted + 1 }
  | .enqueued => onQueue qs m.queue fun r =>
      { r with count := r.count + 1, size := r.size + m.length, metricEnqueued := r.metricEnqueued + 1 }
  | .dequeued => qs

/-- Trigger `update_message_state` (`UPDATE OF state`), `schema.h:86-95`. -/
def trigState (qs : List QRow) (old new : Msg) : List QRow :=
  if old.state = .added ∧ new.state = .enqueued then
    onQueue qs new.queue fun r =>
      { r with count := r.count + 1, metricEnqueued := r.metricEnqueued + 1, size := r.size + new.length,
               uncommitted := r.uncommitted - 1 }
  else qs

/-- Trigger `update_message_queue` (`UPDATE OF queue`), `schema.h:97-114`. -/
def trigQueue (qs : List QRow) (old new : Msg) : List QRow :=
  if new.queue ≠ old.queue then
    let qs := onQueue qs new.queue fun r =>
      { r with count := r.count + 1, metricEnqueued := r.metricEnqueued + 1, size := r.size + new.length }
    onQueue qs old.queue fun r =>
      { r with count := r.count - 1, metricDequeued := r.metricDequeued + 1, size := r.size - old.length }
  else qs

/-- Trigger `delete_message`, `schema.h:116-129`. -/
def trigDelete (qs : List QRow) (m : Msg) : List QRow :=
  match m.state with
  | .added => onQueue qs m.queue fun r => { r with uncommitted := r.uncommitted - 1 }
  | .enqueued | .dequeued => onQueue qs m.queue fun r =>
      { r with count := r.count - 1, metricDequeued := r.metricDequeued + 1, size := r.size - m.length }

/-! ## The three forms of statement that modify `message` -/

/-- `UPDATE message SET .. WHERE p`, firing trigger `trig` for each affected row in rowid order. -/
def DB.updateWhere (db : DB) (p : Msg → Bool) (f : Msg → Msg) (trig : List QRow → Msg → Msg → List QRow) : DB :=
  { msgs := db.msgs.map fun m => if p m then f m else m
    queues := (db.msgs.filter p).foldl (fun qs m => trig qs m (f m)) db.queues }

/-- `DELETE FROM message WHERE p`, firing trigger `delete_message` for each deleted row. -/
def DB.deleteWhere (db : DB) (p : Msg → Bool) : DB :=
  { msgs := db.msgs.filter fun m => !p m
    queues := (db.msgs.filter p).foldl trigDelete db.queues }

/-- The rows a statement affects: `sqlite3_changes` (`sql/database.h:589`), or what `RETURNING` returns. -/
def DB.affected (db : DB) (p : Msg → Bool) : List Msg := db.msgs.filter p

/-- `INSERT INTO message VALUES (..)`, `statement.cpp:40`. -/
def DB.insert (db : DB) (m : Msg) : DB × Except Err Unit :=
  if db.msgs.any (fun x => x.id == m.id) then (db, .error .primaryKey)
  else if db.queues.any (fun r => r.id == m.queue) then
    ({ msgs := db.msgs ++ [m], queues := trigInsert db.queues m }, .ok ())
  else (db, .error .foreignKey)

/-- All rows of `message` refer to an existing queue (checked by SQLite at the end of a statement). -/
def DB.fkOk (db : DB) : Bool := db.msgs.all fun m => db.queues.any fun r => r.id == m.queue

/-! ## Queues -/

/-- `Queuebase::queue( id)`, `queuebase.cpp:263-273`. -/
def DB.queue? (db : DB) (q : Qid) : Option QRow := db.queues.find? fun r => r.id == q

/-- `Queuebase::id( name)`, `queuebase.cpp:358-373`; `none` is the exception `no_queue`. -/
def DB.qid? (db : DB) (name : Name) : Option Qid := (db.queues.find? fun r => r.name == name).map (·.id)

/-- The rowid SQLite gives a new row of `queue`: one more than the largest one (`INTEGER PRIMARY KEY` without
`AUTOINCREMENT`). -/
def DB.nextQid (db : DB) : Qid := (db.queues.map (·.id)).foldl max 0 + 1

/-- `INSERT INTO queue VALUES ( NULL,?,?,?,?, 0, 0, 0, 0, 0, 0, ?)`, `queuebase.cpp:296`. -/
def DB.insertQueue (db : DB) (name : Name) (retryCount retryDelay : Nat) (error : Qid) : DB × Except Err Qid :=
  if db.queues.any (fun r => r.name == name) then (db, .error .unique)
  else
    ({ db with queues := db.queues ++ [{
        id := db.nextQid, name, retryCount, retryDelay, error,
        count := 0, size := 0, uncommitted := 0, metricDequeued := 0, metricEnqueued := 0 }] },
     .ok db.nextQid)

/-- `queue.name + ".error"`, `queuebase.cpp:300`. -/
def errorName (n : Name) : Name := n ++ ['.', 'e', 'r', 'r', 'o', 'r']

/-- `Queuebase::create`, `queuebase.cpp:275-309`: first the error queue, then the queue. -/
def DB.create (db : DB) (name : Name) (retryCount retryDelay : Nat) : DB × Except Err Qid :=
  match db.insertQueue (errorName name) 0 0 0 with
  | (db, .error e) => (db, .error e)
  | (db, .ok err) => db.insertQueue name retryCount retryDelay err

/-- `UPDATE queue SET name = .., retry_count = .., retry_delay = .. WHERE id = ..`, `queuebase.cpp:319`. -/
def DB.updateQueueRow (db : DB) (q : Qid) (name : Name) (retryCount retryDelay : Nat) : DB × Except Err Unit :=
  if db.queues.any (fun r => r.id == q) && db.queues.any (fun r => r.name == name && r.id != q) then
    (db, .error .unique)
  else
    ({ db with queues := onQueue db.queues q fun r => { r with name, retryCount, retryDelay } }, .ok ())

/-- `Queuebase::update( queue)`, `queuebase.cpp:311-323`. -/
def DB.updateQueue (db : DB) (q : Qid) (name : Name) (retryCount retryDelay : Nat) : DB × Except Err Unit :=
  match db.queue? q with
  | none => (db, .ok ())
  | some existing =>
    match db.updateQueueRow q name retryCount retryDelay with
    | (db, .error e) => (db, .error e)
    | (db, .ok ()) => db.updateQueueRow existing.error (errorName name) 0 0

/-- `DELETE FROM queue WHERE id = ..` with the foreign key check, `queuebase.cpp:332-333`. -/
def DB.deleteQueueRow (db : DB) (q : Qid) : DB × Except Err Unit :=
  let after : DB := { db with queues := db.queues.filter fun r => r.id != q }
  if db.msgs.any (fun m => m.queue == q) then (db, .error .foreignKey) else (after, .ok ())

/-- `Queuebase::remove( queue id)`, `queuebase.cpp:324-335`. -/
def DB.removeQueue (db : DB) (q : Qid) : DB × Except Err Unit :=
  match db.queue? q with
  | none => (db, .ok ())
  | some existing =>
    match db.deleteQueueRow existing.error with
    | (db, .error e) => (db, .error e)
    | (db, .ok ()) => db.deleteQueueRow existing.id

/-- A queue as the configuration wants it; `id = 0` is an id that is not valid: `queuebase::Queue`,
`queuebase.h:50-60`. -/
structure Wanted where
  id : Qid
  error : Qid
  name : Name
  retryCount : Nat
  retryDelay : Nat
  deriving DecidableEq, Repr

/-- Run `f` over a list until the first exception. -/
def forEach {α : Type} (f : DB → α → DB × Except Err Unit) (db : DB) : List α → DB × Except Err Unit
  | [] => (db, .ok ())
  | a :: as =>
    match f db a with
    | (db, .error e) => (db, .error e)
    | (db, .ok ()) => forEach f db as

/-- `this->create( queue)` in `Queuebase::update`, `queuebase.cpp:353` (the returned queue is not used). -/
def DB.createWanted (db : DB) (w : Wanted) : DB × Except Err Unit :=
  match db.create w.name w.retryCount w.retryDelay with
  | (db, .error e) => (db, .error e)
  | (db, .ok _) => (db, .ok ())

/-- `Queuebase::update( update, remove)`, `queuebase.cpp:338-356`: remove, then update the wanted queues that have
an id, then create the others. (`algorithm::partition` may reorder; the order is kept here.) -/
def DB.updateQueues (db : DB) (wanted : List Wanted) (remove : List Qid) : DB × Except Err Unit :=
  match forEach DB.removeQueue db remove with
  | (db, .error e) => (db, .error e)
  | (db, .ok ()) =>
    match forEach (fun db w => db.updateQueue w.id w.name w.retryCount w.retryDelay) db
        (wanted.filter fun w => w.id != 0) with
    | (db, .error e) => (db, .error e)
    | (db, .ok ()) =>
      forEach DB.createWanted db (wanted.filter fun w => w.id == 0)

/-! ## Messages -/

/-- `Queuebase::enqueue`, `queuebase.cpp:375-407`. `id` is the id given by the caller, or a new uuid (then the
environment chooses it). `now` is the value of the clock. -/
def DB.enqueue (db : DB) (id : MsgId) (q : Qid) (trid : Option Gtrid) (available : Time) (body : Body) (now : Time) :
    DB × Except Err Unit :=
  db.insert {
    id, queue := q, origin := q, gtrid := trid,
    state := if trid.isSome then .added else .enqueued,
    redelivered := 0, available, timestamp := now, body }

/-- What a dequeue asks for: `message.selector`, `queuebase.cpp:418-426`. -/
inductive Selector | any | byId (id : MsgId) | byProperties (p : List Char)
  deriving DecidableEq, Repr

/-- `ORDER BY timestamp ASC, available ASC`: strictly before. -/
def Msg.before (a b : Msg) : Bool :=
  a.timestamp < b.timestamp || (a.timestamp == b.timestamp && a.available < b.available)

/-- The first row (in rowid order) no other row is before. -/
def firstBy (lt : Msg → Msg → Bool) : List Msg → Option Msg
  | [] => none
  | m :: ms =>
    match firstBy lt ms with
    | none => some m
    | some x => if lt x m then some x else some m

/-- The three queries `statement.cpp:47-67`: `first`, `first_id` (ignores `available`), and `first_match` (with
`MIN( timestamp)`). -/
def DB.select (db : DB) (q : Qid) (sel : Selector) (now : Time) : Option Msg :=
  match sel with
  | .byId id => db.msgs.find? fun m => m.id == id && m.queue == q && m.state == .enqueued
  | .byProperties p =>
    firstBy (fun a b => a.timestamp < b.timestamp)
      (db.msgs.filter fun m => m.queue == q && m.state == .enqueued && m.body.properties == p && m.available < now)
  | .any =>
    firstBy Msg.before (db.msgs.filter fun m => m.queue == q && m.state == .enqueued && m.available < now)

/-- `UPDATE message SET gtrid = :gtrid, state = 3 WHERE ROWID = :id`, `statement.cpp:72`. The row is identified by
its primary key. -/
def DB.take (db : DB) (id : MsgId) (t : Gtrid) : DB :=
  db.updateWhere (fun m => m.id == id) (fun m => { m with gtrid := some t, state := .dequeued }) trigState

/-- `Queuebase::dequeue`, `queuebase.cpp:409-460`. `none` is code `no_message`. -/
def DB.dequeue (db : DB) (q : Qid) (sel : Selector) (trid : Option Gtrid) (now : Time) : DB × Option Msg :=
  match db.select q sel now with
  | none => (db, none)
  | some m =>
    match trid with
    | some t => (db.take m.id t, some m)
    | none => (db.deleteWhere (fun x => x.id == m.id), some m)

/-- `Queuebase::browse`, `queuebase.cpp:508-528` and `statement.cpp:256-261`. -/
def DB.browse (db : DB) (q : Qid) (last now : Time) : Option Msg :=
  firstBy Msg.before
    (db.msgs.filter fun m => m.queue == q && m.state == .enqueued && last < m.timestamp && m.available < now)

/-- `Queuebase::peek( ids)`, `queuebase.cpp:485-505` and `statement.cpp:234-247`. -/
def DB.peek (db : DB) (ids : List MsgId) : List Msg :=
  ids.filterMap fun id => db.msgs.find? fun m => m.id == id

/-- `Queuebase::meta` and `Queuebase::peek( meta)`, `queuebase.cpp:462-483` and `731-741`: every row of the queue,
in any state. -/
def DB.meta (db : DB) (q : Qid) : List Msg := db.msgs.filter fun m => m.queue == q

/-- `commit1`, `statement.cpp:78`. -/
def DB.commit1 (db : DB) (t : Gtrid) : DB :=
  db.updateWhere (fun m => m.gtrid == some t && m.state == .added) (fun m => { m with state := .enqueued }) trigState

/-- The rows deleted by `commit2`, `statement.cpp:79`. -/
def isTaken (t : Gtrid) (m : Msg) : Bool := m.gtrid == some t && m.state == .dequeued

/-- The rows deleted by `rollback1`, `statement.cpp:99`. -/
def isAdded (t : Gtrid) (m : Msg) : Bool := m.gtrid == some t && m.state == .added

/-- Sum of `length( payload)`. -/
def totalSize (ms : List Msg) : Int := (ms.map fun m => (m.length : Int)).sum

/-- `Queuebase::commit`, `queuebase.cpp:662-673`: the sum of the sizes of the deleted messages is returned. -/
def DB.commit (db : DB) (t : Gtrid) : DB × Int :=
  let db := db.commit1 t
  (db.deleteWhere (isTaken t), totalSize (db.affected (isTaken t)))

/-- When a message that is rolled back is available again: the `CASE` in `rollback2`, `statement.cpp:104-108`. `now` is
SQLite's clock. (A message in a queue without a row cannot be: the foreign key.) -/
def DB.retryAt (db : DB) (now : Time) (m : Msg) : Time :=
  match db.queue? m.queue with
  | some r => if r.retryDelay = 0 then 0 else now + r.retryDelay
  | none => m.available

/-- `rollback2`, `statement.cpp:102-109`. -/
def DB.rollback2 (db : DB) (t : Gtrid) (now : Time) : DB :=
  db.updateWhere (isTaken t)
    (fun m => { m with
      state := .enqueued, redelivered := m.redelivered + 1,
      available := db.retryAt now m })
    trigState

/-- The rows `rollback3` moves: `WHERE gtrid = :gtrid AND ( queue % 2) = 0 AND redelivered > ( SELECT q.retry_count
..)`, `statement.cpp:115-118`. Note: in any state. -/
def DB.exhausted (db : DB) (t : Gtrid) (m : Msg) : Bool :=
  m.gtrid == some t && m.queue % 2 == 0 &&
    match db.queue? m.queue with
    | some r => decide (m.redelivered > r.retryCount)
    | none => false

/-- `rollback3`, `statement.cpp:115-118`. -/
def DB.rollback3 (db : DB) (t : Gtrid) : DB × Except Err Unit :=
  let after := db.updateWhere (db.exhausted t)
    (fun m => { m with redelivered := 0, queue := m.queue - 1, available := 0 }) trigQueue
  if after.fkOk then (after, .ok ()) else (db, .error .foreignKey)

/-- `Queuebase::rollback`, `queuebase.cpp:675-689`: the sum of the sizes of the deleted messages is returned. -/
def DB.rollback (db : DB) (t : Gtrid) (now : Time) : DB × Except Err Int :=
  let deleted := totalSize (db.affected (isAdded t))
  let db := db.deleteWhere (isAdded t)
  let db := db.rollback2 t now
  match db.rollback3 t with
  | (db, .error e) => (db, .error e)
  | (db, .ok ()) => (db, .ok deleted)

/-- `Queuebase::recovery_commit`, `queuebase.cpp:625-641`: returns the sum of the deleted sizes and the transactions
for which some row was affected. (The queue argument is not used.) -/
def DB.recoveryCommit (db : DB) : List Gtrid → DB × Int × List Gtrid
  | [] => (db, 0, [])
  | t :: ts =>
    let n1 := (db.affected (isAdded t)).length
    let db := db.commit1 t
    let deleted := db.affected (isTaken t)
    let db := db.deleteWhere (isTaken t)
    let (db, size, found) := db.recoveryCommit ts
    (db, totalSize deleted + size, if n1 = 0 ∧ deleted.length = 0 then found else t :: found)

/-- `Queuebase::recovery_rollback`, `queuebase.cpp:643-660`. -/
def DB.recoveryRollback (db : DB) (now : Time) : List Gtrid → DB × Except Err (Int × List Gtrid)
  | [] => (db, .ok (0, []))
  | t :: ts =>
    let deleted := db.affected (isAdded t)
    let db := db.deleteWhere (isAdded t)
    let n2 := (db.affected (isTaken t)).length
    let db := db.rollback2 t now
    match db.rollback3 t with
    | (db, .error e) => (db, .error e)
    | (db, .ok ()) =>
      match db.recoveryRollback now ts with
      | (db, .error e) => (db, .error e)
      | (db, .ok (size, found)) =>
        (db, .ok (totalSize deleted + size, if deleted.length = 0 ∧ n2 = 0 then found else t :: found))

/-- The rows `restore` moves, `statement.cpp:267-270`. -/
def isRestorable (q : Qid) (m : Msg) : Bool := m.queue != m.origin && m.state == .enqueued && m.origin == q

/-- `Queuebase::restore`, `queuebase.cpp:583-590`: returns the number of moved messages. -/
def DB.restore (db : DB) (q : Qid) : DB × Except Err Nat :=
  let after := db.updateWhere (isRestorable q) (fun m => { m with queue := q }) trigQueue
  if after.fkOk then (after, .ok (db.affected (isRestorable q)).length) else (db, .error .foreignKey)

/-- `Queuebase::clear`, `queuebase.cpp:592-599` and `statement.cpp:272-274`. -/
def DB.clear (db : DB) (q : Qid) : DB × Nat :=
  let p : Msg → Bool := fun m => m.state == .enqueued && m.queue == q
  (db.deleteWhere p, (db.affected p).length)

/-- `Queuebase::remove( queue, ids)`, `queuebase.cpp:601-611` and `statement.cpp:276-278`: returns the ids that were
removed. -/
def DB.remove (db : DB) (q : Qid) : List MsgId → DB × List MsgId
  | [] => (db, [])
  | id :: ids =>
    let p : Msg → Bool := fun m => m.state == .enqueued && m.queue == q && m.id == id
    let n := (db.affected p).length
    let (db, found) := (db.deleteWhere p).remove q ids
    (db, if n = 0 then found else id :: found)

/-- `Queuebase::force_remove`, `queuebase.cpp:613-623` and `statement.cpp:280-282`: in any state. -/
def DB.forceRemove (db : DB) (q : Qid) : List MsgId → DB × List MsgId
  | [] => (db, [])
  | id :: ids =>
    let p : Msg → Bool := fun m => m.queue == q && m.id == id
    let n := (db.affected p).length
    let (db, found) := (db.deleteWhere p).forceRemove q ids
    (db, if n = 0 then found else id :: found)

/-- `Queuebase::metric_reset`, `queuebase.cpp:753-763`. -/
def DB.metricReset (db : DB) (ids : List Qid) : DB :=
  { db with queues := ids.foldl (fun qs q => onQueue qs q fun r => { r with metricDequeued := 0, metricEnqueued := 0 }) db.queues }

/-- `Queuebase::size`, `queuebase.cpp:743-751` and `statement.cpp:289-291`. -/
def DB.size (db : DB) : Int := totalSize db.msgs

/-- `Queuebase::available( queue)`, `queuebase.cpp:562-581`: the earliest `available` of the committed messages. -/
def DB.available (db : DB) (q : Qid) : Option Time :=
  ((db.msgs.filter fun m => m.queue == q && m.state == .enqueued).map (·.available)).min?

/-- An element of the result of `Queuebase::available( queues)`: `queuebase.h:87-100`. -/
structure Available where
  queue : Qid
  count : Int
  when_ : Time
  deriving DecidableEq, Repr

/-- `Queuebase::available( queues)`, `queuebase.cpp:530-560`: the queues with a positive `count` among the asked
ones; `when` is the epoch if there is no committed message. -/
def DB.availables (db : DB) (queues : List Qid) : List Available :=
  ((db.queues.filter fun r => decide (r.count > 0)).filter fun r => queues.contains r.id).map fun r =>
    { queue := r.id, count := r.count, when_ := (db.available r.id).getD 0 }

end Casual.Queue
