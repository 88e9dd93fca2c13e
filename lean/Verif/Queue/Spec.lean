import Verif.Queue.Point

/-!
# Vocabulary for the queue properties

Classification of the operations of a queue group, in the words of the properties. Nothing here refers to how the
operations work.
-/
namespace Casual.Queue

/-- The operation commits transaction `t` (asked by the transaction manager, or by an administrator's recovery). -/
def Op.commits (t : Gtrid) : Op → Prop
  | .commit t' => t' = t
  | .recoveryCommit ts => t ∈ ts
  | _ => False

/-- The operation rolls back transaction `t`. -/
def Op.rollsBack (t : Gtrid) : Op → Prop
  | .rollback t' _ => t' = t
  | .recoveryRollback ts _ => t ∈ ts
  | _ => False

/-- The operation completes transaction `t`. -/
def Op.completes (t : Gtrid) (op : Op) : Prop := op.commits t ∨ op.rollsBack t

/-- The operation enqueues a message with the given id. -/
def Op.enqueues (x : MsgId) : Op → Prop
  | .enqueue id .. => id = x
  | _ => False

/-- The operation is a forced removal naming message `x`. -/
def Op.forces (x : MsgId) : Op → Prop
  | .forceRemove _ ids => x ∈ ids
  | _ => False

/-- The operation is an enqueue or dequeue in transaction `t`. -/
def Op.worksIn (t : Gtrid) : Op → Prop
  | .enqueue _ _ trid .. => trid = some t
  | .dequeue _ _ trid _ => trid = some t
  | _ => False

/-- The operation changes the configuration of queues, or restores messages to their original queue. -/
def Op.reorganizes : Op → Prop
  | .configure _ => True
  | .restore _ => True
  | _ => False

/-- Nobody can get message `x` from any queue now: neither by dequeue with any selector, in or outside a transaction,
at any time, nor by browsing. -/
def Invisible (db : DB) (x : MsgId) : Prop :=
  (∀ q sel trid now m, (db.dequeue q sel trid now).2 = some m → m.id ≠ x) ∧
  (∀ q last now m, db.browse q last now = some m → m.id ≠ x)

/-- The operation, done on `db`, hands out message `x` to somebody. -/
def Op.handsOut (db : DB) (x : MsgId) : Op → Prop
  | .dequeue q sel trid now => ∃ m, (db.dequeue q sel trid now).2 = some m ∧ m.id = x
  | _ => False

/-- The operation, done on `db`, hands out message `x` to somebody outside a transaction. -/
def Op.handsOutForGood (db : DB) (x : MsgId) : Op → Prop
  | .dequeue q sel none now => ∃ m, (db.dequeue q sel none now).2 = some m ∧ m.id = x
  | _ => False

/-- An administrator asks for removal of message `x`, which is in queue `q`: clear, remove or forced remove. -/
def Op.discards (q : Qid) (x : MsgId) : Op → Prop
  | .clear q' => q' = q
  | .remove q' ids => q' = q ∧ x ∈ ids
  | .forceRemove q' ids => q' = q ∧ x ∈ ids
  | _ => False

/-- `m` is stored in queue `q`, it is committed and not taken by anybody, and it fits what the caller asks for. A message
asked for by id need not be available yet (`statement.cpp:54`). -/
structure Deliverable (db : DB) (q : Qid) (sel : Selector) (now : Time) (m : Msg) : Prop where
  stored : m ∈ db.msgs
  queue : m.queue = q
  committed : m.state = .enqueued
  fits : match sel with
    | .any => m.available < now
    | .byProperties p => m.body.properties = p ∧ m.available < now
    | .byId id => m.id = id

end Casual.Queue
