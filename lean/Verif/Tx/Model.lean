import Verif.Code.Model
/-!
Model of the transaction context of a process: `common::transaction::Context`
(middleware/common/source/transaction/context.cpp, 1180 lines),
`common::transaction::Transaction` (source/transaction/transaction.cpp) and the parts of the
service call context and of the queue API that touch the transaction
(source/service/call/context.cpp, queue/source/api/queue.cpp).

The world outside the process - the resource managers, the transaction manager, the callee's
replies - is an arbitrary environment: every answer is a function of everything that has been
observed so far. All theorems quantify over the environment.

Simplifications that hold for the whole file:
* a transaction id is `mine n` (created by this process, `trid.owner() == process::handle()`)
  or `other n k` (received from another process; `k ≠ 0` for a branch made here, which keeps
  the owner); ids created by this process are numbered, because `uuid::make` is unique;
* `Resource::start` .. `Resource::rollback` (resource.cpp:88-212) are one event with one final
  code: the reopen guard and the retry with `join` are inside the environment's answer;
* a `strong::correlation::id` is a number, unique per call;
* talking to the transaction manager does not throw.
-/
namespace Casual.Tx
open Casual.Code

/-- `strong::resource::id` (common/include/common/strong/id.h:161-190): an integer. -/
abbrev Rm := Int
abbrev Time := Int

/-- `transaction::ID`, common/source/transaction/id.cpp:106-215 (see the header). -/
inductive Xid
  | mine (n : Nat)
  | other (n k : Nat)
  deriving DecidableEq, Repr

/-- The flags used with `xa_start`/`xa_end` (context.cpp:330-450). -/
inductive Flag
  | none | join | resume | suspend | success
  deriving DecidableEq, Repr

/-- The calls made on a resource manager from this process: `xa_start`, `xa_end`,
`xa_commit( TMONEPHASE)`, `xa_rollback`; resource.cpp:88-212. -/
inductive Op
  | start (r : Rm) (x : Xid) (f : Flag)
  | stop (r : Rm) (x : Xid) (f : Flag)
  | commit (r : Rm) (x : Xid)
  | rollback (r : Rm) (x : Xid)
  deriving DecidableEq, Repr

/-- `message::transaction::commit::Reply::Stage`, common/include/common/message/transaction.h. -/
inductive Stage
  | prepare | commit | rollback
  deriving DecidableEq, Repr

/-- What can be observed from outside the process. -/
inductive Event
  | began (x : Xid) (deadline : Option Time)  -- a transaction id is created
  | xa (op : Op) (code : Xa)                  -- a call on a resource manager and its answer
  | reg (r : Rm) (x : Xid)                    -- `ax_reg` answered with `x`
  | involve (x : Xid) (rs : List Rm)          -- involved request to the transaction manager
  | tmCommit (x : Xid) (rs : List Rm)         -- commit request to the transaction manager
  | tmRollback (x : Xid) (rs : List Rm)       -- rollback request to the transaction manager
  | committed (x : Xid)                       -- commit of a transaction without any resource
  | rolledBack (x : Xid)                      -- the "rollback" of a local transaction in the event log
  | call (corr : Nat) (x : Xid)              -- service request sent within transaction `x`
  | replied (corr : Nat) (st : Nat)          -- the reply to it has been received
  | discard (corr : Nat)                     -- the inbound device is told to drop the reply
  | external (x : Xid)                        -- work done by a queue group within `x`
  deriving DecidableEq, Repr

/-- `Context::resources_type` (`m_resources`, context.h:142-153; the views are made in
context.cpp:75-80 and 173-174) and the answers of the outside world. -/
structure Env where
  fixed : List Rm
  dyn : List Rm
  xa : List Event → Op → Xa
  involved : List Event → Xid → List Rm
  commit : List Event → Xid → (Stage × Tx) × Tx
  rollback : List Event → Xid → Tx

/-- `m_resources.all`: `algorithm::partition` puts the dynamic ones first. -/
def Env.all (e : Env) : List Rm := e.dyn ++ e.fixed

/-- `Transaction`, common/include/common/transaction/transaction.h:23-120. `state` is the
underlying value: `TX_ACTIVE` 0, `TX_TIMEOUT_ROLLBACK_ONLY` 1, `TX_ROLLBACK_ONLY` 2
(transaction.h:26-31), and any other value a cast can produce. -/
structure Tran where
  trid : Option Xid := none
  deadline : Option Time := none
  state : Nat := 0
  involved : List Rm := []
  pending : List Nat := []
  dynamic : List Rm := []
  external : Bool := false
  suspended : Bool := false
  deriving DecidableEq, Repr

/-- `Control`, context.h:28-33. -/
inductive Control
  | unchained | chained | stacked
  deriving DecidableEq, Repr

/-- `Context`, context.h:46-165. `stack` is `m_transactions` reversed: the head is `back()`.
`outstanding` are the correlations of the reserved call descriptors
(service/call/state.cpp); `log` is the observation so far, newest first. -/
structure Ctx where
  stack : List Tran := []
  empty : Tran := {}
  control : Control := .unchained
  logged : Bool := false        -- m_commit_return == logged
  timeout : Time := 0
  next : Nat := 0
  nextCorr : Nat := 0
  outstanding : List Nat := []
  log : List Event := []
  deriving DecidableEq, Repr

def emit (ev : Event) (c : Ctx) : Ctx := { c with log := ev :: c.log }

/-- `trid.owner() == process::handle()` for a transaction with an id. -/
def Tran.own (t : Tran) : Bool :=
  match t.trid with
  | some (.mine _) => true
  | _ => false

/-- `Transaction::local`, transaction.cpp:74-77. -/
def Tran.isLocal (t : Tran) : Bool := t.own && !t.external

/-- `algorithm::append_unique_value`, used by `involve` and `associate_dynamic`
(transaction.cpp:38-47). -/
def addUnique (l : List Rm) (r : Rm) : List Rm := if r ∈ l then l else l ++ [r]

/-- `Transaction::involve( range)`, transaction.h:49-54. -/
def Tran.involve (t : Tran) (rs : List Rm) : Tran :=
  { t with involved := rs.foldl addUnique t.involved }

/-- `Context::current`, context.cpp:99-105. -/
def current (c : Ctx) : Tran :=
  match c.stack with
  | [] => c.empty
  | t :: _ => if t.suspended then c.empty else t

/-- Writing to the transaction `current()` returns a reference to, context.cpp:99-105. -/
def setCurrent (f : Tran → Tran) (c : Ctx) : Ctx :=
  match c.stack with
  | [] => { c with empty := f c.empty }
  | t :: ts => if t.suspended then { c with empty := f c.empty } else { c with stack := f t :: ts }

/-- A call on a resource manager. -/
def doXa (e : Env) (op : Op) (c : Ctx) : Ctx × Xa :=
  (emit (.xa op (e.xa c.log op)) c, e.xa c.log op)

/-- `algorithm::accumulate( range, code::tx::ok, local::accumulate::code( f))`,
context.cpp:249-259. -/
def accum {α : Type} (f : α → Ctx → Ctx × Tx) : List α → Ctx × Tx → Ctx × Tx
  | [], s => s
  | a :: l, (c, k) => accum f l ((f a c).1, k.add (f a c).2)

/-- `policy::start` over the involved resources, context.cpp:355-369: only those found in
`among` are started. -/
def startAll (e : Env) (x : Xid) (f : Flag) (among rs : List Rm) (c : Ctx) : Ctx × Tx :=
  accum (fun r c => if r ∈ among then ((doXa e (.start r x f) c).1, toTx (doXa e (.start r x f) c).2)
    else (c, .ok)) rs (c, .ok)

/-- `resources::end::policy::end`, context.cpp:422-432; always called with `m_resources.all`. -/
def stopAll (e : Env) (x : Xid) (f : Flag) (rs : List Rm) (c : Ctx) : Ctx × Tx :=
  accum (fun r c => if r ∈ e.all then ((doXa e (.stop r x f) c).1, toTx (doXa e (.stop r x f) c).2)
    else (c, .ok)) rs (c, .ok)

/-- `Context::resource_commit( .., one_phase)`, context.cpp:1127-1136. -/
def resourceCommit (e : Env) (x : Xid) (r : Rm) (c : Ctx) : Ctx × Tx :=
  if r ∈ e.all then ((doXa e (.commit r x) c).1, toTx (doXa e (.commit r x) c).2) else (c, .error)

/-- `Context::resource_rollback`, context.cpp:1138-1147. -/
def resourceRollback (e : Env) (x : Xid) (r : Rm) (c : Ctx) : Ctx × Tx :=
  if r ∈ e.all then ((doXa e (.rollback r x) c).1, toTx (doXa e (.rollback r x) c).2) else (c, .error)

/-- The answer to a commit request to the transaction manager, context.cpp:857-893. -/
def commitAnswer (logged : Bool) (a : (Stage × Tx) × Tx) : Tx :=
  match a.1.1 with
  | .prepare => if logged then a.1.2 else a.2
  | .commit => a.1.2
  | .rollback => .rollback

/-- `Context::commit( const Transaction&)`, context.cpp:824-897. (A null transaction is an
assertion failure there, it is never passed.) -/
def commitT (e : Env) (t : Tran) (c : Ctx) : Ctx × Tx :=
  match t.trid with
  | none => (c, .ok)
  | some x =>
    let s := stopAll e x .success t.involved c
    if s.2 ≠ .ok then s
    else if t.isLocal && decide (t.involved.length ≤ 1) then
      match t.involved with
      | [] => (emit (.committed x) s.1, .ok)
      | r :: _ => resourceCommit e x r s.1
    else
      let c' := emit (.tmCommit x t.involved) s.1
      (c', commitAnswer c'.logged (e.commit c'.log x))

/-- `algorithm::sort` on the resource ids (an insertion sort, the result is the same). -/
def insertSorted (r : Rm) : List Rm → List Rm
  | [] => [r]
  | s :: l => if r ≤ s then r :: s :: l else s :: insertSorted r l

def sortRms : List Rm → List Rm
  | [] => []
  | r :: l => insertSorted r (sortRms l)

/-- `algorithm::unique`: drops adjacent equal elements. -/
def uniqueAdj : List Rm → List Rm
  | [] => []
  | [r] => [r]
  | r :: s :: l => if r = s then uniqueAdj (s :: l) else r :: uniqueAdj (s :: l)

/-- `Context::rollback( const Transaction&)`, context.cpp:913-958. -/
def rollbackT (e : Env) (t : Tran) (c : Ctx) : Ctx × Tx :=
  match t.trid with
  | none => (c, .ok)
  | some x =>
    let s := stopAll e x .success t.involved c
    if s.2 ≠ .ok then s
    else if t.isLocal then
      let s' := accum (resourceRollback e x) (uniqueAdj (sortRms (t.involved ++ e.fixed))) (s.1, .ok)
      (emit (.rolledBack x) s'.1, s'.2)
    else
      let c' := emit (.tmRollback x t.involved) s.1
      (c', e.rollback c'.log x)

/-- `local::start::transaction( timeout)`, context.cpp:263-279: a new id, and a deadline if
there is a timeout. -/
def newTran (n : Nat) (deadline : Option Time) : Tran :=
  { trid := some (.mine n), deadline := deadline }

/-- The deadline of a new transaction, context.cpp:271-279. -/
def deadlineOf (now timeout : Time) : Option Time :=
  if timeout > 0 then some (now + timeout) else none

/-- The first loop of `begin`: start the fixed resources, remember which succeeded;
context.cpp:721-730. (`std::partition` also reorders the resources when one fails, and then
does not visit them from left to right; neither is modelled.) -/
def beginStart (e : Env) (x : Xid) : List Rm → Ctx → Ctx × List (Rm × Bool)
  | [], c => (c, [])
  | r :: rs, c =>
    let k := (doXa e (.start r x .none) c).2
    let s := beginStart e x rs (doXa e (.start r x .none) c).1
    (s.1, (r, k == .ok || k == .read_only) :: s.2)

/-- The clean up in `begin`: the codes are ignored, context.cpp:735-741. -/
def beginStop (e : Env) (x : Xid) : List Rm → Ctx → Ctx
  | [], c => c
  | r :: rs, c => beginStop e x rs (doXa e (.stop r x .success) c).1

/-- The second part of `begin` (after the precondition), context.cpp:718-752. -/
def beginNew (e : Env) (now : Time) (c : Ctx) : Ctx × Tx :=
  let x := Xid.mine c.next
  let t := (newTran c.next (deadlineOf now c.timeout)).involve e.fixed
  let c1 := emit (.began x t.deadline) { c with timeout := 0, next := c.next + 1 }
  let s := beginStart e x e.fixed c1
  if s.2.all (·.2) then ({ s.1 with stack := t :: s.1.stack }, .ok)
  else (beginStop e x ((s.2.filter (·.2)).map (·.1)) s.1, .error)

/-- `Context::begin`, context.cpp:695-753. -/
def begin (e : Env) (now : Time) (c : Ctx) : Ctx × Tx :=
  match (current c).trid with
  | some x =>
    if c.control ≠ .stacked then (c, .protocol)
    else
      let s := stopAll e x .suspend (current c).involved c
      if s.2 ≠ .ok then s else beginNew e now s.1
  | none => if (current c).dynamic ≠ [] then (c, .outside) else beginNew e now c

/-- `resources::start::policy::resume`, context.cpp:393-399 and 355-369: involves all of
`among` in the current transaction, then starts the involved ones. -/
def resumeCurrent (e : Env) (among : List Rm) (c : Ctx) : Ctx × Tx :=
  match (current c).trid with
  | none => (c, .ok)
  | some x =>
    if among = [] then (c, .ok)
    else
      let c' := setCurrent (·.involve among) c
      startAll e x .resume among (current c').involved c'

/-- `Context::control_continuation`, context.cpp:1149-1173. -/
def continuation (e : Env) (now : Time) (s : Ctx × Tx) : Ctx × Tx :=
  match s.1.control with
  | .unchained => s
  | .chained => ((begin e now s.1).1, s.2.add (begin e now s.1).2)
  | .stacked => ((resumeCurrent e e.all s.1).1, s.2.add (resumeCurrent e e.all s.1).2)

/-- `precondition::commit`, context.cpp:783-800. -/
def commitPre (t : Tran) : Tx :=
  if t.trid.isNone then .protocol
  else if !t.own then .protocol
  else if t.state ≠ 0 then .protocol
  else if t.pending ≠ [] then .protocol
  else .ok

/-- `precondition::rollback`, context.cpp:802-817. -/
def rollbackPre (t : Tran) : Tx :=
  if t.trid.isNone then .protocol
  else if !t.own then .protocol
  else .ok

/-- `extract( m_transactions, std::prev( std::end( m_transactions)))`, context.cpp:908, 968. -/
def pop (c : Ctx) : Ctx := { c with stack := c.stack.tail }

/-- `Context::commit`, context.cpp:899-911: `tx_commit`. -/
def commit (e : Env) (now : Time) (c : Ctx) : Ctx × Tx :=
  if commitPre (current c) ≠ .ok then (c, commitPre (current c))
  else continuation e now (commitT e (current c) (pop c))

/-- `Context::rollback`, context.cpp:960-971: `tx_rollback`. -/
def rollback (e : Env) (now : Time) (c : Ctx) : Ctx × Tx :=
  if rollbackPre (current c) ≠ .ok then (c, rollbackPre (current c))
  else continuation e now (rollbackT e (current c) (pop c))

/-- `Context::set_transaction_timeout`, context.cpp:993-1000. -/
def setTimeout (t : Time) (c : Ctx) : Ctx × Tx :=
  if t < 0 then (c, .argument) else ({ c with timeout := t }, .ok)

/-- `Context::suspend` and its precondition, context.cpp:1024-1032 and 1055-1080. -/
def suspend (e : Env) (c : Ctx) : Ctx × Tx × Option Xid :=
  match (current c).trid with
  | none => (c, .protocol, none)
  | some x =>
    let t := current c
    let c' := setCurrent (fun t => { t with suspended := true }) c
    let s := stopAll e x .suspend t.involved c'
    if s.2 ≠ .ok then (s.1, .protocol, none) else (s.1, .ok, some x)

/-- Split a list at the first transaction with the id; `algorithm::find`. -/
def splitAt (x : Xid) : List Tran → Option (List Tran × Tran × List Tran)
  | [] => none
  | t :: ts =>
    if t.trid = some x then some ([], t, ts)
    else match splitAt x ts with
      | none => none
      | some (a, u, b) => some (t :: a, u, b)

/-- `Context::resume` and its precondition, context.cpp:1034-1050 and 1082-1103. `none` is
the null pointer or the null xid. `algorithm::find` looks from the front of `m_transactions`,
that is the end of `stack`. `algorithm::rotate( m_transactions, ++found)` moves what is after
`found` to the front. -/
def resume (e : Env) (x : Option Xid) (c : Ctx) : Ctx × Tx :=
  match x with
  | none => (c, .argument)
  | some x =>
    if (current c).trid.isSome then (c, .protocol)
    else if (current c).dynamic ≠ [] then (c, .outside)
    else match splitAt x c.stack.reverse with
      | none => (c, .argument)
      | some (pre, t, post) =>
        if !t.suspended then (c, .protocol)
        else
          let t1 := { t with suspended := false }
          if e.fixed = [] then ({ c with stack := (post ++ pre ++ [t1]).reverse }, .ok)
          else
            let t2 := t1.involve e.fixed
            let c1 := { c with stack := (pre ++ t2 :: post).reverse }
            let s := startAll e x .resume e.fixed t2.involved c1
            if s.2 ≠ .ok then (s.1, .argument)
            else ({ s.1 with stack := (post ++ pre ++ [t2]).reverse }, .ok)

/-- `Context::join`, context.cpp:461-474; a failure is an exception, the transaction stays. -/
def join (e : Env) (x : Option Xid) (c : Ctx) : Ctx × Tx :=
  match x with
  | none => ({ c with stack := {} :: c.stack }, .ok)
  | some x =>
    if e.fixed = [] then ({ c with stack := { trid := some x } :: c.stack }, .ok)
    else
      let c1 := emit (.involve x e.fixed) c
      let inv := e.involved c1.log x
      let t := ({ trid := some x } : Tran).involve e.fixed
      accum (fun r c =>
        let f := if r ∈ inv then Flag.join else Flag.none
        ((doXa e (.start r x f) c).1, toTx (doXa e (.start r x f) c).2)) e.fixed
        ({ c1 with stack := t :: c1.stack }, .ok)

/-- `Context::start`, context.cpp:476-489; a failure is an exception and the transaction is
not kept. -/
def start (e : Env) (c : Ctx) : Ctx × Tx :=
  let x := Xid.mine c.next
  let t := (newTran c.next none).involve e.fixed
  let c1 := emit (.began x none) { c with next := c.next + 1 }
  let s := startAll e x .none e.fixed t.involved c1
  if s.2 ≠ .ok then s else ({ s.1 with stack := t :: s.1.stack }, .ok)

/-- `Context::branch`, context.cpp:491-504, and `id::branch` (id.cpp:203-220): a new branch of
the caller's transaction, the owner is kept. Only called with an id (policy.cpp:153-160). -/
def branch (e : Env) (n : Nat) (c : Ctx) : Ctx × Tx :=
  let x := Xid.other n (c.next + 1)
  let c0 := { c with next := c.next + 1 }
  if e.fixed = [] then ({ c0 with stack := { trid := some x } :: c0.stack }, .ok)
  else
    let t := ({ trid := some x } : Tran).involve e.fixed
    let c1 := emit (.involve x e.fixed) { c0 with stack := t :: c0.stack }
    startAll e x .none e.fixed t.involved c1

/-- `Transaction::associate`, transaction.cpp:26-30. -/
def Tran.associate (t : Tran) (corr : Nat) : Tran :=
  { t with external := true, pending := t.pending ++ [corr] }

/-- `Transaction::replied`, transaction.cpp:32-35. -/
def Tran.replied (t : Tran) (corr : Nat) : Tran :=
  { t with pending := t.pending.filter (· ≠ corr) }

/-- `tpacall` without `TPNOREPLY` (service/call/context.cpp:88-135): reserve a descriptor for
a new correlation, and associate it with the transaction unless `TPNOTRAN`. -/
def call (notran : Bool) (c : Ctx) : Ctx :=
  let corr := c.nextCorr
  let c1 := { c with nextCorr := corr + 1, outstanding := c.outstanding ++ [corr] }
  match (current c).trid with
  | some x => if notran then c1 else emit (.call corr x) (setCurrent (·.associate corr) c1)
  | none => c1

/-- `found->state`, raised to the casted `reply.transaction_state`, and the correlation
removed: the body of `Context::update`, context.cpp:511-520. -/
def Tran.update (t : Tran) (corr : Nat) (st : Nat) : Tran :=
  { (t.replied corr) with state := if t.state < st then st else t.state }

/-- `algorithm::find( m_transactions, reply.correlation)`: the first that has it pending;
`m_transactions` is walked from the front. -/
def updateFirst (corr : Nat) (st : Nat) : List Tran → List Tran
  | [] => []
  | t :: ts => if corr ∈ t.pending then t.update corr st :: ts else t :: updateFirst corr st ts

/-- `tpgetrply` for a reserved descriptor whose reply has arrived
(service/call/context.cpp:210-270): `Context::update` (context.cpp:506-532), and the descriptor
is given back. A reply for anything else is not delivered. -/
def reply (corr : Nat) (st : Nat) (c : Ctx) : Ctx :=
  if corr ∈ c.outstanding then
    { c with
      outstanding := c.outstanding.filter (· ≠ corr)
      stack := (updateFirst corr st c.stack.reverse).reverse
      log := .replied corr st :: c.log }
  else c

/-- `Context::associated`, context.cpp:107-113. -/
def associated (corr : Nat) (c : Ctx) : Bool :=
  c.stack.any (fun t => t.state == 0 && decide (corr ∈ t.pending))

/-- `tpcancel`: `Pending::discard`, service/call/state.cpp:101-115. -/
def cancel (corr : Nat) (c : Ctx) : Ctx × Bool :=
  if corr ∉ c.outstanding then (c, false)
  else if associated corr c then (c, false)
  else ({ c with outstanding := c.outstanding.filter (· ≠ corr), log := .discard corr :: c.log }, true)

/-- `tpacall` that fails when the request is sent (the target is gone): the descriptor is
unreserved, but the correlation stays associated with the transaction
(service/call/context.cpp:128-129 and 148-163). -/
def callFails (notran : Bool) (c : Ctx) : Ctx :=
  let corr := c.nextCorr
  let c1 := { c with nextCorr := corr + 1 }
  match (current c).trid with
  | some _ => if notran then c1 else setCurrent (·.associate corr) c1
  | none => c1

/-- `async` followed by `reply` for the same descriptor, service/call/context.cpp:338-339. -/
def callAndReply (notran : Bool) (st : Option Nat) (c : Ctx) : Ctx :=
  match st with
  | some st => reply c.nextCorr st (call notran c)
  | none => callFails notran c

/-- `tpcall`: `Context::sync` (service/call/context.cpp:330-345) with the suspend wrapper
(288-328). `st` is the transaction state in the reply, `none` when sending fails. The answer is
`false` when the resources could not be suspended (an exception, nothing is sent). -/
def sync (e : Env) (notran : Bool) (st : Option Nat) (c : Ctx) : Ctx × Bool :=
  match (current c).trid, notran with
  | some x, false =>
    let c0 := if (current c).involved ≠ [] then emit (.involve x (current c).involved) c else c
    let s := stopAll e x .suspend (current c).involved c0
    if s.2 ≠ .ok then (s.1, false)
    else
      let c2 := callAndReply false st s.1
      ((resumeCurrent e e.fixed c2).1, true)
  | _, _ => (callAndReply true st c, true)

/-- `transaction.external()` from the queue API (queue/source/api/queue.cpp:48-55, 143-150,
188-196). -/
def external (c : Ctx) : Ctx :=
  match (current c).trid with
  | some x => emit (.external x) (setCurrent (fun t => { t with external := true }) c)
  | none => c

/-- The values of `ax_reg` that matter here. -/
inductive Ax
  | ok | join | argument | resume | protocol
  deriving DecidableEq, Repr

/-- `Context::resource_registration`, context.cpp:637-677. -/
def register (e : Env) (r : Rm) (c : Ctx) : Ctx × Ax :=
  if r ∉ e.dyn then (c, .argument)
  else if r ∈ (current c).dynamic then (c, .resume)
  else
    let t := current c
    let c1 := setCurrent (fun t => { t with dynamic := addUnique t.dynamic r }) c
    match t.trid with
    | none => (c1, .ok)
    | some x =>
      let c2 := emit (.reg r x) c1
      if r ∈ t.involved then (c2, .join)
      else
        let c3 := setCurrent (·.involve [r]) c2
        if t.isLocal then (c3, .ok)
        else
          let c4 := emit (.involve x [r]) c3
          (c4, if r ∈ e.involved c4.log x then .join else .ok)

/-- `Context::resource_unregistration`, context.cpp:679-692. -/
def unregister (r : Rm) (c : Ctx) : Ctx × Ax :=
  if (current c).trid.isSome then (c, .protocol)
  else if r ∉ (current c).dynamic then (c, .protocol)
  else (setCurrent (fun t => { t with dynamic := t.dynamic.erase r }) c, .ok)

/-- `message::service::transaction::State` as its value: ok 0, rollback 1, timeout 2, error 3
(common/include/common/message/service.h:73-84; `+` is the maximum). -/
abbrev ReplyState := Nat

/-- `transform_state( Transaction::State)`, context.cpp:579-589. -/
def ofTranState : Nat → ReplyState
  | 0 => 0
  | 1 => 2
  | 2 => 1
  | _ => 3

/-- `transform_state( code::tx)`, context.cpp:590-599. -/
def ofTx : Tx → ReplyState
  | .ok => 0
  | .rollback => 1
  | _ => 3

/-- `pending_check`, context.cpp:547-565: the discards, from the front of `m_transactions`. -/
def discardAll (ts : List Tran) (c : Ctx) : Ctx :=
  { c with log := ((ts.map (·.pending)).flatten.map Event.discard).reverse ++ c.log }

/-- `invoke_commit_rollback`, context.cpp:572-578. -/
def commitOrRollback (e : Env) (ok : Bool) (t : Tran) (c : Ctx) : Ctx × Tx :=
  if ok && t.state == 0 then commitT e t c else rollbackT e t c

/-- `Context::finalize`, context.cpp:534-635: the end of a service invocation. -/
def finalize (e : Env) (ok : Bool) (c : Ctx) : Ctx × ReplyState :=
  let ts := c.stack.reverse
  let r0 : ReplyState := if ts.any (fun t => decide (t.pending ≠ []) && t.trid.isSome) then 3 else 0
  let c1 := discardAll ts { c with stack := [] }
  let active := ts.filter (fun t => t.trid.isSome)
  let s := accum (commitOrRollback e ok) (active.filter (·.own)) (c1, .ok)
  match active.filter (fun t => !t.own) with
  | [] => (s.1, max r0 (ofTx s.2))
  | t :: _ =>
    let r1 := max r0 (ofTranState t.state)
    let r2 := if !ok && r1 == 0 then 1 else r1
    match t.trid with
    | none => (s.1, max r2 (ofTx s.2))
    | some x =>
      let s' := stopAll e x .success t.involved s.1
      (s'.1, max r2 (ofTx (s.2.add s'.2)))

/-- Everything that can happen to the context between two messages. -/
inductive Act
  | begin (now : Time) | commit (now : Time) | rollback (now : Time)
  | suspend | resume (x : Option Xid)
  | setControl (k : Control) | setReturn (logged : Bool) | setTimeout (t : Time)
  | reg (r : Rm) | unreg (r : Rm)
  | join (n : Option Nat) | start | branch (n : Nat)
  | call (notran : Bool) | reply (corr : Nat) (st : Nat) | cancel (corr : Nat)
  | callFails (notran : Bool) | sync (notran : Bool) (st : Option Nat) | external
  | finalize (ok : Bool)
  deriving DecidableEq, Repr

/-- One call on the context. -/
def step (e : Env) (c : Ctx) : Act → Ctx
  | .begin now => (begin e now c).1
  | .commit now => (commit e now c).1
  | .rollback now => (rollback e now c).1
  | .suspend => (suspend e c).1
  | .resume x => (resume e x c).1
  | .setControl k => { c with control := k }
  | .setReturn l => { c with logged := l }
  | .setTimeout t => (setTimeout t c).1
  | .reg r => (register e r c).1
  | .unreg r => (unregister r c).1
  | .join n => (join e (n.map (Xid.other · 0)) c).1
  | .start => (start e c).1
  | .branch n => (branch e n c).1
  | .call b => call b c
  | .reply corr st => reply corr st c
  | .cancel corr => (cancel corr c).1
  | .callFails b => callFails b c
  | .sync b st => (sync e b st c).1
  | .external => external c
  | .finalize ok => (finalize e ok c).1

/-- A history of calls on the context of a process that has just been configured. -/
def run (e : Env) (as : List Act) : Ctx := as.foldl (step e) {}

end Casual.Tx
