import Verif.Code.Model
import Verif.FanOut.Model
/-!
# The transaction manager

Models middleware/transaction/source/manager/handle.cpp (all handlers that touch transactions,
fan-outs, the log or resource instances), middleware/transaction/source/manager/state.cpp,
middleware/transaction/include/transaction/manager/state.h and
middleware/transaction/source/manager/log.cpp.

Simplifications, everywhere:
* ids are numbers: global transaction id `g`, branch qualifier `b`, process ids, ipc ids,
  correlations (0 is the null correlation); resource ids are `Int` (local > 0, external < 0,
  state.h:62-63);
* `Trid.owner` is the pid of `trid.owner()`; two trids are equal iff the xids are equal
  (common/include/common/transaction/id.h), so `owner` plays no part in comparisons;
* `algorithm::partition` (order unspecified) is modelled as a stable partition;
* metrics, deadlines, logging, configuration, admin services are left out; the per resource
  `code` (state.h:209) is only used for the admin state and left out;
* closures are data (`KPrepare`, `KCommit`, `KRollback`): exactly the captured values;
* an exception that escapes a handler ends the message pump (common/include/common/
  communication/select.h:244-248, the default error handler rethrows): `halted`;
* `tr` is a ghost trace of everything observable, `Obs`; it is never read.
-/
namespace Casual.TM
open Casual.Code Casual.FanOut

structure Proc where
  pid : Nat
  ipc : Nat
  deriving DecidableEq, Repr

structure Xid where
  g : Nat
  b : Nat
  deriving DecidableEq, Repr

structure Trid where
  xid : Xid
  owner : Nat
  deriving DecidableEq, Repr

/-- `Stage`, state.h:251-258. -/
inductive Stage | involved | prepare | post_prepare | commit | rollback
  deriving DecidableEq, Repr

def Stage.rank : Stage → Nat
  | .involved => 0 | .prepare => 1 | .post_prepare => 2 | .commit => 3 | .rollback => 4

/-- `Machine::operator =`, common/include/common/state/machine.h:23-28: only upwards. -/
def Stage.set (current wanted : Stage) : Stage := if wanted.rank > current.rank then wanted else current

/-- `Branch`, state.h:220-249. -/
structure Branch where
  trid : Trid
  resources : List Int
  deriving DecidableEq, Repr

/-- `Transaction`, state.h:263-320. -/
structure Tx where
  stage : Stage
  g : Nat
  branches : List Branch
  owner : Proc
  deriving DecidableEq, Repr

/-- `proxy::instance::State`, state.h:71-77. -/
inductive IState | spawned | idle | busy | shutdown
  deriving DecidableEq, Repr

/-- `proxy::Instance`, state.h:82-121. -/
structure Inst where
  pid : Nat
  ipc : Nat
  state : IState
  deriving DecidableEq, Repr

/-- `Proxy`, state.h:125-161. -/
structure Proxy where
  id : Int
  insts : List Inst
  deriving DecidableEq, Repr

/-- `external::Instance`, state.h:165-186. -/
structure Ext where
  proc : Proc
  id : Int
  deriving DecidableEq, Repr

inductive Kind | prepare | commit | rollback
  deriving DecidableEq, Repr

/-- `resource::{prepare,commit,rollback}::Request` as sent to a resource. -/
structure Req where
  kind : Kind
  corr : Nat
  trid : Trid
  rm : Int
  onePhase : Bool
  deriving DecidableEq, Repr

/-- `resource::{prepare,commit,rollback}::Reply`. `pid` is `process.pid` of the sender. -/
structure Rep where
  kind : Kind
  corr : Nat
  trid : Trid
  rm : Int
  code : Xa
  pid : Nat
  deriving DecidableEq, Repr

/-- The five reply types (template parameter `Reply` of `coordinate::*`). -/
inductive RType | commit | rollback | resPrepare | resCommit | resRollback
  deriving DecidableEq, Repr

/-- `coordinate::Destination`, handle.cpp:370-376 (execution left out). -/
structure Dest where
  proc : Proc
  corr : Nat
  rm : Int
  deriving DecidableEq, Repr

/-- `reply.stage` of a `commit::Reply`. -/
inductive AStage | prepare | commit | rollback
  deriving DecidableEq, Repr

inductive Status | tx (t : Code.Tx) | xa (c : Xa)
  deriving DecidableEq, Repr

/-- A reply to whoever requested commit, rollback or (as upstream) prepare. -/
structure Answer where
  rtype : RType
  corr : Nat
  g : Nat
  rm : Int
  status : Status
  stage : Option AStage
  deriving DecidableEq, Repr

/-- captured by the callback of `coordinate::prepare`, handle.cpp:475-479 -/
structure KPrepare where
  rtype : RType
  origin : Trid
  dest : Dest
  deriving DecidableEq, Repr

/-- captured by the callbacks of `coordinate::commit` / `rollback`, handle.cpp:421-425, 442-446 -/
structure KFinal where
  rtype : RType
  origin : Trid
  dest : Dest
  code : Xa
  deriving DecidableEq, Repr

/-- The persistent log, log.cpp: the rows as of the last sql commit and the rows as seen by the
open sql transaction.  A row is its primary key (log.cpp:33-42). -/
structure Log where
  durable : List Xid
  current : List Xid
  deriving DecidableEq, Repr

/-- Messages and events handled by the manager. -/
inductive Event
  /-- `transaction::commit::Request`, `transaction::rollback::Request` -/
  | commit (proc : Proc) (corr : Nat) (trid : Trid) (involved : List Int)
  | rollback (proc : Proc) (corr : Nat) (trid : Trid) (involved : List Int)
  /-- `resource::involved::Request` -/
  | involved (proc : Proc) (trid : Trid) (involved : List Int) (reply : Bool)
  /-- `resource::external::Instance`, `resource::external::Involved` -/
  | extInstance (proc : Proc)
  | extInvolved (proc : Proc) (trid : Trid)
  /-- `resource::{prepare,commit,rollback}::Request` from an upstream manager -/
  | extPrepare (proc : Proc) (corr : Nat) (trid : Trid) (rm : Int)
  | extCommit (proc : Proc) (corr : Nat) (trid : Trid) (rm : Int) (onePhase : Bool)
  | extRollback (proc : Proc) (corr : Nat) (trid : Trid) (rm : Int)
  /-- `resource::{prepare,commit,rollback}::Reply` from a resource -/
  | reply (r : Rep)
  /-- the next message of our own pushed inbound messages is handled -/
  | consume
  /-- `resource::Ready` -/
  | ready (rm : Int) (proc : Proc)
  /-- `transaction::inbound::branch::Request`; `b` is the generated branch -/
  | inboundBranch (proc : Proc) (g b owner : Nat)
  /-- `event::process::Exit` -/
  | exit (pid : Nat)
  /-- `event::ipc::Destroyed` -/
  | destroyed (proc : Proc)
  /-- instance management by configuration: a proxy process is spawned / told to shut down; a
  spawn with the pid of an existing instance does not happen (the handler ignores it) -/
  | spawn (rm : Int) (pid : Nat)
  | scaleIn (rm : Int) (pid : Nat)
  /-- environment: an ipc device ceases to exist; from now on sends to it fail -/
  | ipcGone (ipc : Nat)
  /-- the message pump is idle: `handle::persist::send` -/
  | idle
  /-- the manager process is killed and started again -/
  | crash
  deriving DecidableEq, Repr

inductive Obs
  /-- an event is taken up by the manager -/
  | ev (e : Event)
  /-- a fan-out with these requests is started for `origin` on behalf of `dest` -/
  | fanout (kind : Kind) (rtype : RType) (origin : Trid) (dest : Dest) (reqs : List Req)
  /-- the manager decides to send this request: it is sent now, queued, or the send fails -/
  | issued (r : Req)
  /-- the request is handed to the ipc of a process -/
  | wire (r : Req) (p : Proc)
  /-- the request could not be sent, an error reply has been pushed to our own inbound -/
  | sendFailed (r : Req)
  /-- a queued request could not be sent and is gone, handle.cpp:700-712 -/
  | dropped (r : Req)
  /-- all outstanding requests to this (external) resource are considered failed -/
  | failed (rm : Int)
  /-- a reply from a resource (or an emulated one) is handled -/
  | got (r : Rep)
  | answer (to : Proc) (a : Answer)
  /-- a prepare callback found no transaction, handle.cpp:484-492: nobody is answered -/
  | ignored (rtype : RType) (dest : Dest)
  /-- rollback instigated by the manager itself is done, handle.cpp:453-462 -/
  | selfRollback (origin : Trid) (status : Status)
  | logged (g : Nat) (rows : List Xid)
  | persisted
  /-- transaction state and log rows are removed -/
  | removed (g : Nat)
  /-- `event::transaction::Disassociate`; `none`: read of a dangling reference -/
  | disassociate (g : Option Nat)
  | halted
  deriving DecidableEq, Repr

structure State where
  self : Proc
  txs : List Tx
  proxies : List Proxy
  externals : List Ext
  nextExt : Nat
  prep : Out Rep Int KPrepare
  com : Out Rep Int KFinal
  rol : Out Rep Int KFinal
  pending : List Req
  log : Log
  replies : List (Proc × Answer)
  inbox : List Rep
  gone : List Nat
  nextCorr : Nat
  halted : Bool
  tr : List Obs

def State.emit (s : State) (o : Obs) : State := { s with tr := s.tr ++ [o] }

/-- an exception leaves the handler; the state is destroyed and with it `Log`, whose destructor
commits (log.cpp:55-59). -/
def State.halt (s : State) : State :=
  { s with halted := true, log := { s.log with durable := s.log.current }, tr := s.tr ++ [.halted],
           txs := [], proxies := [], externals := [], prep := Out.empty, com := Out.empty,
           rol := Out.empty, pending := [], replies := [], inbox := [] }

/-- `find( state.transactions, trid)`: transactions are compared by gtrid, state.h:308-311. -/
def State.find (s : State) (g : Nat) : Option Tx := s.txs.find? (fun t => t.g = g)

/-- in-place modification of the transaction with gtrid `g` (unique, see `Inv.uniq`) -/
def State.modify (s : State) (g : Nat) (f : Tx → Tx) : State :=
  { s with txs := s.txs.map (fun t => if t.g = g then f t else t) }

def Tx.setStage (st : Stage) (t : Tx) : Tx := { t with stage := t.stage.set st }

/-- `resource_count`, state.cpp:212-218. -/
def Tx.resourceCount (t : Tx) : Nat := (t.branches.map (fun b => b.resources.length)).sum

/-- `append_unique`, common/include/common/algorithm.h:762-770. -/
def appendUnique (range output : List Int) : List Int :=
  range.foldl (fun out v => if v ∈ out then out else out ++ [v]) output

/-- `purge()`, state.cpp:220-226. -/
def Tx.purge (t : Tx) : Tx := { t with branches := t.branches.filter (fun b => b.resources ≠ []) }

/-- modify the first branch equal to `xid` -/
def modBranch (x : Xid) (f : Branch → Branch) : List Branch → List Branch
  | [] => []
  | b :: bs => if b.trid.xid = x then f b :: bs else b :: modBranch x f bs

/-- `purge( replies)`, state.h:280-289: each read-only resource is removed from its branch. -/
def Tx.purgeReplies (t : Tx) (rs : List Rep) : Tx :=
  Tx.purge { t with branches := rs.foldl (fun bs r =>
    modBranch r.trid.xid (fun b => { b with resources := b.resources.filter (fun x => x ≠ r.rm) }) bs) t.branches }

/-- find the branch and involve, or add a branch that involves; handle.cpp:63-66, 208-211. -/
def involveBranch (trid : Trid) (rms : List Int) (bs : List Branch) : List Branch :=
  if bs.any (fun b => b.trid.xid = trid.xid) then
    modBranch trid.xid (fun b => { b with resources := appendUnique rms b.resources }) bs
  else bs ++ [⟨trid, appendUnique rms []⟩]

/-- `Transaction( trid)`, state.h:268-272. -/
def Tx.new (trid : Trid) : Tx := ⟨.involved, trid.xid.g, [⟨trid, []⟩], ⟨0, 0⟩⟩

/-- find the transaction, or `emplace_back( trid)`; handle.cpp:53-61, 199-206. -/
def State.ensure (s : State) (trid : Trid) : State :=
  if s.txs.any (fun t => t.g = trid.xid.g) then s else { s with txs := s.txs ++ [Tx.new trid] }

/-- `transaction::find_or_add_and_involve`, handle.cpp:50-75. -/
def State.involve (s : State) (trid : Trid) (rms : List Int) : State :=
  (s.ensure trid).modify trid.xid.g (fun t => { t with branches := involveBranch trid rms t.branches })

/-- `branch::involved`, handle.cpp:195-224: as above, and purge. -/
def State.involvePurge (s : State) (trid : Trid) (rms : List Int) : State :=
  (s.ensure trid).modify trid.xid.g
    (fun t => Tx.purge { t with branches := involveBranch trid rms t.branches })

/-- `remove::transaction( state, global)` where `global` refers to memory that outlives the erase
(a captured `origin`), handle.cpp:262-280. -/
def State.remove (s : State) (g : Nat) : State :=
  let s' := { s with log := { s.log with current := s.log.current.filter (fun x => x.g ≠ g) } }
  if s.txs.any (fun t => t.g = g) then
    { s' with txs := s.txs.filter (fun t => t.g ≠ g), tr := s.tr ++ [.removed g, .disassociate (some g)] }
  else { s' with tr := s.tr ++ [.removed g] }

/-- the element after the first with gtrid `g`: what occupies its memory after `erase` -/
def nextAfter (g : Nat) : List Tx → Option Nat
  | [] => none
  | t :: ts => if t.g = g then ts.head?.map (·.g) else nextAfter g ts

/-- `remove::transaction( state, transaction->global.range())`: the argument is a span into the
transaction that is erased; `event.gtrid = global` (handle.cpp:276) is read after the erase
(handle.cpp:271), i.e. from the transaction that was moved into its place, or from a destroyed
object if it was the last one (`none`).  Callers: handle.cpp:525, 625, 920. -/
def State.removeByRange (s : State) (g : Nat) : State :=
  let s' := { s with log := { s.log with current := s.log.current.filter (fun x => x.g ≠ g) } }
  if s.txs.any (fun t => t.g = g) then
    { s' with txs := s.txs.filter (fun t => t.g ≠ g),
              tr := s.tr ++ [.removed g, .disassociate (nextAfter g s.txs)] }
  else { s' with tr := s.tr ++ [.removed g] }

/-! ## Sending to resources -/

/-- reserve the first idle instance of the resource, `try_reserve`, state.cpp:325-337. -/
def reserveInst : List Inst → Option (Inst × List Inst)
  | [] => none
  | i :: is =>
    if i.state = .idle then some ({ i with state := .busy }, { i with state := .busy } :: is)
    else (reserveInst is).map (fun (r, is') => (r, i :: is'))

def reserveProxy (rm : Int) : List Proxy → Option (Inst × List Proxy)
  | [] => none
  | p :: ps =>
    if p.id = rm then (reserveInst p.insts).map (fun (r, is) => (r, { p with insts := is } :: ps))
    else (reserveProxy rm ps).map (fun (r, ps') => (r, p :: ps'))

/-- The emulated error reply pushed to our own inbound, `push::resource::error::reply`,
handle.cpp:227-242; the process is default constructed (pid 0). -/
def errorReply (r : Req) : Rep := ⟨r.kind, r.corr, r.trid, r.rm, .resource_fail, 0⟩

/-- `multiplex.send( ipc, request, callback)`: if the ipc is gone the callback pushes the error
reply and the null correlation is returned (common/source/communication/ipc/send.cpp:121-149);
otherwise the correlation of the message. -/
def State.sendReq (s : State) (r : Req) (p : Proc) : State × Nat :=
  if p.ipc ∈ s.gone then ({ s with inbox := s.inbox ++ [errorReply r] }.emit (.sendFailed r), 0)
  else (s.emit (.wire r p), r.corr)

/-- `send::resource::request`, handle.cpp:297-322. Returns the correlation. -/
def State.issue (s : State) (r : Req) : State × Nat :=
  let s := s.emit (.issued r)
  if r.rm > 0 then
    match reserveProxy r.rm s.proxies with
    | some (i, ps) => { s with proxies := ps }.sendReq r ⟨i.pid, i.ipc⟩
    | none => ({ s with pending := s.pending ++ [r] }, r.corr)
  else
    match s.externals.find? (fun e => e.id = r.rm) with
    | some e => s.sendReq r e.proc
    | none => ({ s with inbox := s.inbox ++ [errorReply r] }.emit (.sendFailed r), r.corr)

/-- send requests to (trid, resource) pairs; the loops of `pending::branches` and
`pending::replies`, handle.cpp:332-366.  Returns the requests (with the correlation that was
returned by the send). -/
def State.issueAll (s : State) (kind : Kind) (onePhase : Bool) : List (Trid × Int) → State × List Req
  | [] => (s, [])
  | (t, rm) :: rest =>
    let r : Req := ⟨kind, s.nextCorr, t, rm, onePhase⟩
    let (s1, c) := { s with nextCorr := s.nextCorr + 1 }.issue r
    let (s2, rs) := s1.issueAll kind onePhase rest
    (s2, { r with corr := c } :: rs)

/-- all (branch, resource) pairs of a transaction, in order -/
def Tx.targets (t : Tx) : List (Trid × Int) := t.branches.flatMap (fun b => b.resources.map (fun r => (b.trid, r)))

def toPending (rs : List Req) : List (Nat × Int) := rs.map (fun r => (r.corr, r.rm))

/-! ## Replies and outcome -/

/-- `accumulate::code`, handle.cpp:141-191. -/
def accumulate (kind : Kind) (f : List Rep) (outcome : List (Pending Int)) (code : Xa) : Xa :=
  let failed := outcome.any (fun p => p.state = .failed)
  let normalize := fun (c : Xa) => (f.map (·.code)).foldl severest c
  if outcome.length = 1 ∧ failed then severest .resource_fail code
  else
    match kind with
    | .commit => if failed then normalize (severest .heuristic_commit code) else normalize code
    | .rollback => if failed then normalize (severest .heuristic_rollback code) else normalize code
    | .prepare => if failed then normalize (severest code .resource_fail) else normalize code

/-- `create::reply`, handle.cpp:392-417. -/
def mkAnswer (rtype : RType) (origin : Trid) (dest : Dest) (code : Xa) (stage : Option AStage) : Answer :=
  let code := if code = .invalid_xid then .read_only else code
  match rtype with
  | .commit => ⟨.commit, dest.corr, origin.xid.g, 0, .tx (toTx code), stage⟩
  | .rollback => ⟨.rollback, dest.corr, origin.xid.g, 0, .tx (toTx code), none⟩
  | r => ⟨r, dest.corr, origin.xid.g, dest.rm, .xa code, none⟩

/-- the callback of `coordinate::commit`, handle.cpp:421-439. -/
def runCommit (s : State) (f : Fired Rep Int KFinal) : State :=
  let k := f.callback
  let a := mkAnswer k.rtype k.origin k.dest (accumulate .commit f.received f.outcome k.code) (some .commit)
  (s.emit (.answer k.dest.proc a)).remove k.origin.xid.g

/-- `reply.state == ok` -/
def Status.isOk : Status → Bool
  | .tx t => t = .ok
  | .xa c => c = .ok

/-- the callback of `coordinate::rollback`, handle.cpp:442-472. -/
def runRollback (s : State) (f : Fired Rep Int KFinal) : State :=
  let k := f.callback
  let a := mkAnswer k.rtype k.origin k.dest (accumulate .rollback f.received f.outcome k.code) (some .rollback)
  if k.dest.proc = s.self then
    let s := s.emit (.selfRollback k.origin a.status)
    if a.status.isOk then s.remove k.origin.xid.g else s
  else
    (s.emit (.answer k.dest.proc a)).remove k.origin.xid.g

/-- run the invoked callbacks one after the other (an exception ends it) -/
def fireAll {F : Type} (run : State → F → State) (s : State) (fs : List F) : State :=
  fs.foldl (fun s f => if s.halted then s else run s f) s

/-- `coordinate::commit`: register the fan-out; if nothing is pending the callback runs now. -/
def State.regCommit (s : State) (reqs : List Req) (k : KFinal) : State :=
  let (o, fs) := s.com.register (toPending reqs) k
  fireAll runCommit ({ s with com := o }.emit (.fanout .commit k.rtype k.origin k.dest reqs)) fs

def State.regRollback (s : State) (reqs : List Req) (k : KFinal) : State :=
  let (o, fs) := s.rol.register (toPending reqs) k
  fireAll runRollback ({ s with rol := o }.emit (.fanout .rollback k.rtype k.origin k.dest reqs)) fs

/-- `persist::send`, handle.cpp:103-109: commit the log, send the collected replies. -/
def State.persist (s : State) : State :=
  { s with log := { s.log with durable := s.log.current }, replies := [],
           tr := s.tr ++ (.persisted :: s.replies.map (fun p => .answer p.1 p.2)) }

/-- `platform::batch::transaction::persistence`, common/include/casual/platform.h:97. -/
def batchLimit : Nat := 100

/-- `send::persist::reply`, handle.cpp:127-138. -/
def State.persistReply (s : State) (to : Proc) (a : Answer) : State :=
  let s := { s with replies := s.replies ++ [(to, a)] }
  if s.replies.length ≥ batchLimit then s.persist else s

/-- `Log::prepare`, log.cpp:62-84; the insert violates the primary key if the row exists, then
`execute` throws (thirdparty/database/include/sql/database.h:414-420). -/
def State.logPrepare (s : State) (t : Tx) : State :=
  let rows := t.branches.map (fun b => b.trid.xid)
  if ¬ (s.log.current ++ rows).Nodup then s.halt
  else { s with log := { s.log with current := s.log.current ++ rows } }.emit (.logged t.g rows)

/-- `state.persistent.log.prepare( *transaction)`, handle.cpp:530; the transaction is there. -/
def State.logTx (s : State) (g : Nat) : State :=
  match s.find g with
  | some t => s.logPrepare t
  | none => s

/-- the callback of `coordinate::prepare`, handle.cpp:475-575. -/
def runPrepare (s : State) (f : Fired Rep Int KPrepare) : State :=
  let k := f.callback
  let g := k.origin.xid.g
  match s.find g with
  | none => s.emit (.ignored k.rtype k.dest)
  | some _ =>
    let code := accumulate .prepare f.received f.outcome .read_only
    let active := f.received.filter (fun r => r.code ≠ .read_only)
    let readOnly := f.received.filter (fun r => r.code = .read_only)
    let s := s.modify g (fun t => (t.setStage .post_prepare).purgeReplies readOnly)
    if code = .read_only then
      (s.emit (.answer k.dest.proc (mkAnswer k.rtype k.origin k.dest code (some .commit)))).removeByRange g
    else if code = .ok then
      let s := s.logTx g
      if s.halted then s
      else if k.rtype = .resPrepare then
        s.persistReply k.dest.proc (mkAnswer k.rtype k.origin k.dest code none)
      else
        let s := if k.rtype = .commit then
            s.persistReply k.dest.proc (mkAnswer k.rtype k.origin k.dest code (some .prepare)) else s
        let s := s.modify g (Tx.setStage .commit)
        let (s, reqs) := s.issueAll .commit false (active.map (fun r => (r.trid, r.rm)))
        s.regCommit reqs ⟨k.rtype, k.origin, k.dest, code⟩
    else
      if k.rtype = .resPrepare then
        s.emit (.answer k.dest.proc (mkAnswer k.rtype k.origin k.dest code none))
      else
        let s := s.modify g (Tx.setStage .rollback)
        let (s, reqs) := s.issueAll .rollback false (active.map (fun r => (r.trid, r.rm)))
        s.regRollback reqs ⟨k.rtype, k.origin, k.dest, code⟩

def State.regPrepare (s : State) (reqs : List Req) (k : KPrepare) : State :=
  let (o, fs) := s.prep.register (toPending reqs) k
  fireAll runPrepare ({ s with prep := o }.emit (.fanout .prepare k.rtype k.origin k.dest reqs)) fs

/-! ## Requests -/

/-- start a phase over all branches of the transaction -/
def State.startPrepare (s : State) (t : Tx) (k : KPrepare) : State :=
  let (s, reqs) := s.issueAll .prepare false t.targets
  s.regPrepare reqs k

def State.startCommit (s : State) (t : Tx) (onePhase : Bool) (k : KFinal) : State :=
  let (s, reqs) := s.issueAll .commit onePhase t.targets
  s.regCommit reqs k

def State.startRollback (s : State) (t : Tx) (k : KFinal) : State :=
  let (s, reqs) := s.issueAll .rollback false t.targets
  s.regRollback reqs k

/-- `commit::request`, handle.cpp:587-661. -/
def commitRequest (s : State) (p : Proc) (corr : Nat) (trid : Trid) (inv : List Int) : State :=
  let g := trid.xid.g
  let s := s.involvePurge trid inv
  match s.find g with
  | none => s
  | some t =>
    if t.stage.rank > Stage.involved.rank then
      s.emit (.answer p ⟨.commit, corr, g, 0, .tx .protocol, some .commit⟩)
    else
      let s := s.modify g (fun t => { t with owner := p })
      let dest : Dest := ⟨p, corr, 0⟩
      match t.resourceCount with
      | 0 => (s.emit (.answer p ⟨.commit, corr, g, 0, .tx .ok, some .commit⟩)).removeByRange g
      | 1 => (s.modify g (Tx.setStage .commit)).startCommit t true ⟨.commit, trid, dest, .read_only⟩
      | _ => (s.modify g (Tx.setStage .prepare)).startPrepare t ⟨.commit, trid, dest⟩

/-- `rollback::request`, handle.cpp:670-691. -/
def rollbackRequest (s : State) (p : Proc) (corr : Nat) (trid : Trid) (inv : List Int) : State :=
  let g := trid.xid.g
  let s := s.involvePurge trid inv
  match s.find g with
  | none => s
  | some t =>
    let s := s.modify g (fun t => { t.setStage .rollback with owner := p })
    s.startRollback t ⟨.rollback, trid, ⟨p, corr, 0⟩, .read_only⟩

/-- `resource::involved::request`, handle.cpp:735-773 (the reply to the sender is left out: it
only lists what the branch already had). -/
def involvedRequest (s : State) (trid : Trid) (inv : List Int) : State :=
  let s := s.ensure trid
  let known := inv.filter (fun r => s.proxies.any (fun p => p.id = r))
  s.modify trid.xid.g (fun t => { t with branches := involveBranch trid known t.branches })

/-- `external::instance::id`, state.cpp:173-184. -/
def State.extId (s : State) (p : Proc) : State × Int :=
  match s.externals.find? (fun e => e.proc.ipc = p.ipc) with
  | some e => (s, e.id)
  | none => ({ s with externals := s.externals ++ [⟨p, -(s.nextExt + 1 : Int)⟩], nextExt := s.nextExt + 1 },
             -(s.nextExt + 1 : Int))

/-- `external::instance::add`, state.cpp:159-171: a known ipc gets a new id. -/
def State.extAdd (s : State) (p : Proc) : State :=
  let e : Ext := ⟨p, -(s.nextExt + 1 : Int)⟩
  if s.externals.any (fun e => e.proc.ipc = p.ipc) then
    { s with externals := s.externals.map (fun x => if x.proc.ipc = p.ipc then e else x), nextExt := s.nextExt + 1 }
  else { s with externals := s.externals ++ [e], nextExt := s.nextExt + 1 }

/-- `read::only::reply`, handle.cpp:843-855. -/
def State.readOnlyReply (s : State) (rtype : RType) (p : Proc) (corr g : Nat) (rm : Int) : State :=
  s.emit (.answer p ⟨rtype, corr, g, rm, .xa .read_only, none⟩)

/-- `external::prepare::request`, handle.cpp:888-935. -/
def extPrepareRequest (s : State) (p : Proc) (corr : Nat) (trid : Trid) (rm : Int) : State :=
  let g := trid.xid.g
  match s.find g with
  | none => s.readOnlyReply .resPrepare p corr g rm
  | some t =>
    if t.stage.rank > Stage.involved.rank then s.readOnlyReply .resPrepare p corr g rm
    else if t.resourceCount = 0 then (s.readOnlyReply .resPrepare p corr g rm).removeByRange g
    else (s.modify g (Tx.setStage .prepare)).startPrepare t ⟨.resPrepare, trid, ⟨p, corr, rm⟩⟩

/-- `external::commit::request`, handle.cpp:942-999. -/
def extCommitRequest (s : State) (p : Proc) (corr : Nat) (trid : Trid) (rm : Int) : State :=
  let g := trid.xid.g
  match s.find g with
  | none => s.readOnlyReply .resCommit p corr g rm
  | some t =>
    if t.stage = .post_prepare then
      (s.modify g (Tx.setStage .commit)).startCommit t false ⟨.resCommit, trid, ⟨p, corr, rm⟩, .read_only⟩
    else if t.stage = .involved then
      (s.modify g (Tx.setStage .prepare)).startPrepare t ⟨.resCommit, trid, ⟨p, corr, rm⟩⟩
    else s.readOnlyReply .resCommit p corr g rm

/-- `external::rollback::request`, handle.cpp:1005-1043. -/
def extRollbackRequest (s : State) (p : Proc) (corr : Nat) (trid : Trid) (rm : Int) : State :=
  let g := trid.xid.g
  match s.find g with
  | none => s.readOnlyReply .resRollback p corr g rm
  | some t =>
    if t.stage ≠ .involved ∧ t.stage ≠ .post_prepare then s.readOnlyReply .resRollback p corr g rm
    else
      let s := s.modify g (fun t => { t.setStage .rollback with owner := p })
      s.startRollback t ⟨.resRollback, trid, ⟨p, corr, rm⟩, .read_only⟩

/-! ## Replies from resources -/

def setInst (rm : Int) (pid : Nat) (f : Inst → Inst) (ps : List Proxy) : List Proxy :=
  ps.map (fun p => if p.id = rm then
    { p with insts := p.insts.map (fun i => if i.pid = pid then f i else i) } else p)

/-- `get_instance`, state.cpp:309-316: `none` is the exception. -/
def State.getInst (s : State) (rm : Int) (pid : Nat) : Option Inst :=
  (s.proxies.find? (fun p => p.id = rm)).bind (fun p => p.insts.find? (fun i => i.pid = pid))

/-- `pending.requests.next( id)`, common/include/common/communication/ipc/pending.h:87-94. -/
def takePending (rm : Int) : List Req → Option (Req × List Req)
  | [] => none
  | r :: rs => if r.rm = rm then some (r, rs) else (takePending rm rs).map (fun (x, xs) => (x, r :: xs))

/-- `instance::ready`, handle.cpp:700-712, followed by `reserve` which throws unless the
instance is idle (state.cpp:59-66).  A request that cannot be sent is gone (it has been taken
from the pending ones, and this send has no error callback). -/
def State.instReady (s : State) (rm : Int) (pid : Nat) : State :=
  match takePending rm s.pending with
  | none => s
  | some (r, rest) =>
    match s.getInst rm pid with
    | none => s
    | some i =>
      let s := { s with pending := rest }
      if i.ipc ∈ s.gone then s.emit (.dropped r)
      else
        let s := s.emit (.wire r ⟨i.pid, i.ipc⟩)
        if i.state = .idle then
          { s with proxies := setInst rm pid (fun i => { i with state := .busy }) s.proxies }
        else s.halt

/-- `instance::replied`, handle.cpp:714-726; `unreserve`, state.cpp:80-88. -/
def State.replied (s : State) (rm : Int) (pid : Nat) : State :=
  if rm > 0 then
    match s.getInst rm pid with
    | none => s.halt
    | some _ =>
      let ps := setInst rm pid (fun i => if i.state = .busy then { i with state := .idle } else i) s.proxies
      { s with proxies := ps }.instReady rm pid
  else s

/-- `resource::{prepare,commit,rollback}::reply`, handle.cpp:778-825. -/
def replyHandler (s : State) (r : Rep) : State :=
  let s := (s.emit (.got r)).replied r.rm r.pid
  if s.halted then s
  else
    match r.kind with
    | .prepare => let (o, fs) := s.prep.reply (·.corr) r; fireAll runPrepare { s with prep := o } fs
    | .commit => let (o, fs) := s.com.reply (·.corr) r; fireAll runCommit { s with com := o } fs
    | .rollback => let (o, fs) := s.rol.reply (·.corr) r; fireAll runRollback { s with rol := o } fs

/-- `Coordinate::failed`, state.h:355. -/
def State.failedRm (s : State) (rm : Int) : State :=
  let s := s.emit (.failed rm)
  let (o, fs) := s.prep.fail rm
  let s := fireAll runPrepare { s with prep := o } fs
  if s.halted then s
  else
    let (o, fs) := s.com.fail rm
    let s := fireAll runCommit { s with com := o } fs
    let (o, fs) := s.rol.fail rm
    fireAll runRollback { s with rol := o } fs

/-- `resource::ready`, handle.cpp:1072-1086. -/
def readyHandler (s : State) (rm : Int) (p : Proc) : State :=
  match s.getInst rm p.pid with
  | none => s.halt
  | some _ =>
    let up := fun (i : Inst) =>
      { i with ipc := p.ipc, state := if i.state = .shutdown then .shutdown else .idle }
    { s with proxies := setInst rm p.pid up s.proxies }.instReady rm p.pid

/-- `Proxy::remove_instance`, state.cpp:136-146 and `State::remove_instance`, state.cpp:318-323:
the first resource with an instance with that pid. -/
def removeInst (pid : Nat) : List Proxy → Option (List Proxy)
  | [] => none
  | p :: ps =>
    if p.insts.any (fun i => i.pid = pid) then
      some ({ p with insts := p.insts.filter (fun i => i.pid ≠ pid) } :: ps)
    else (removeInst pid ps).map (p :: ·)

/-- last branch of the transaction is owned by `pid`, handle.cpp:1154-1160. -/
def Tx.ownedBy (t : Tx) (pid : Nat) : Option Trid :=
  match t.branches.getLast? with
  | none => none
  | some b => if b.trid.owner = pid then some b.trid else none

/-- `event::process::exit`, handle.cpp:1124-1177.  (Externals are erased after all of them are
failed: the C++ interleaves `std::remove_if` with the callbacks.) -/
def exitHandler (s : State) (pid : Nat) : State :=
  match removeInst pid s.proxies with
  | some ps => { s with proxies := ps }
  | none =>
    let mine := s.externals.filter (fun e => e.proc.pid = pid)
    let s := mine.foldl (fun s e => if s.halted then s else s.failedRm e.id) s
    let s := { s with externals := s.externals.filter (fun e => e.proc.pid ≠ pid) }
    let trids := s.txs.filterMap (fun t => t.ownedBy pid)
    trids.foldl (fun s t => if s.halted then s else rollbackRequest s s.self 0 t []) s

/-- `event::ipc::destroyed`, handle.cpp:1182-1208. -/
def destroyedHandler (s : State) (p : Proc) : State :=
  match s.externals.find? (fun e => e.proc.ipc = p.ipc) with
  | none => s
  | some e =>
    let s := s.failedRm e.id
    { s with externals := s.externals.filter (fun x => x.proc.ipc ≠ p.ipc) }

/-- `inbound::branch::request`, handle.cpp:1092-1117 (the reply is left out). -/
def inboundBranch (s : State) (g b owner : Nat) : State := s.ensure ⟨⟨g, b⟩, owner⟩

/-- restart: nothing but the durable log survives; `Log::logged` is not used by the manager
(middleware/transaction/source/manager/main.cpp:40-115), so no transaction is recovered. -/
def State.restart (s : State) : State :=
  { self := s.self, txs := [], proxies := [], externals := [], nextExt := 0,
    prep := Out.empty, com := Out.empty, rol := Out.empty, pending := [],
    log := { durable := s.log.durable, current := s.log.durable },
    replies := [], inbox := [], gone := s.gone, nextCorr := s.nextCorr, halted := false, tr := s.tr }

def handle (s : State) : Event → State
  | .commit p c t i => commitRequest s p c t i
  | .rollback p c t i => rollbackRequest s p c t i
  | .involved _ t i _ => involvedRequest s t i
  | .extInstance p => s.extAdd p
  | .extInvolved p t => let (s, id) := s.extId p; s.involve t [id]
  | .extPrepare p c t r => extPrepareRequest s p c t r
  | .extCommit p c t r _ => extCommitRequest s p c t r
  | .extRollback p c t r => extRollbackRequest s p c t r
  | .reply r => replyHandler s r
  | .consume => match s.inbox with
    | [] => s
    | r :: rest => replyHandler { s with inbox := rest } r
  | .ready rm p => readyHandler s rm p
  | .inboundBranch _ g b o => inboundBranch s g b o
  | .exit pid => exitHandler s pid
  | .destroyed p => destroyedHandler s p
  | .spawn rm pid =>
    if s.proxies.any (fun p => p.insts.any (fun i => i.pid = pid)) then s
    else if s.proxies.any (fun p => p.id = rm) then
      { s with proxies := s.proxies.map (fun p => if p.id = rm then
          { p with insts := p.insts ++ [⟨pid, 0, .spawned⟩] } else p) }
    else { s with proxies := s.proxies ++ [⟨rm, [⟨pid, 0, .spawned⟩]⟩] }
  | .scaleIn rm pid =>
    { s with proxies := setInst rm pid (fun i => { i with state := .shutdown }) s.proxies }
  | .ipcGone ipc => { s with gone := ipc :: s.gone }
  | .idle => if s.replies = [] then s else s.persist
  | .crash => s.restart

def step (s : State) (e : Event) : State :=
  match e with
  | .crash => handle (s.emit (.ev .crash)) .crash
  | e => if s.halted then s else handle (s.emit (.ev e)) e

def run (s : State) (es : List Event) : State := es.foldl step s

def init (self : Proc) : State :=
  { self := self, txs := [], proxies := [], externals := [], nextExt := 0,
    prep := Out.empty, com := Out.empty, rol := Out.empty, pending := [],
    log := ⟨[], []⟩, replies := [], inbox := [], gone := [], nextCorr := 1, halted := false, tr := [] }

end Casual.TM
