/-!
Conversations: `tpconnect`, `tpsend`, `tprecv`, `tpdiscon`, and the server side of them.

Models
* `common/include/common/service/conversation/state.h`            (the table of descriptors)
* `common/source/service/conversation/context.cpp`                (the calls)
* `common/include/common/server/handle/service.h`,
  `common/source/server/handle/{service,conversation,policy}.cpp` (a service that is connected to)
* `common/source/server/start.cpp`, `common/include/common/message/dispatch.h` (the message pump)
* `xatmi/source/xatmi/conversation.cpp`                           (what the calls return)

Simplifications, valid for the whole file: a message is put into the cache of the receiver when it
is sent (a local domain, one unix domain socket per process: C30, C31 and C60 are about how); a
correlation is a number, a conversation is identified by the correlation of its lookup, which is
new (a uuid); payloads are opaque; deadlines, signals, metrics and the acknowledgement to the service
manager are left out; transactions are in `Verif.Conv.Trans`. A call that blocks is an action that
changes nothing, and can be repeated.
-/
namespace Casual.Conv

/-- `duplex::Type`, common/include/common/message/conversation.h:37-42. -/
inductive Duplex
  | send | receive | terminated
  deriving DecidableEq, Repr

/-- `duplex::invert`, context.cpp:62-72. It is only used with `send` and `receive`. -/
def Duplex.invert : Duplex → Duplex
  | .receive => .send
  | .send => .receive
  | .terminated => .terminated

/-- `state::descriptor::Value`, state.h:94-112. The process is the one at the other end. -/
structure Val where
  corr : Nat
  peer : Nat
  duplex : Duplex
  initiator : Bool
  deriving DecidableEq, Repr

/-- `detail::index::container`, state.h:26-88: `none` is a value without correlation. -/
abbrev Table := List (Option Val)

/-- `container::reserve`, state.h:33-45. -/
def reserve (t : Table) (v : Val) : Nat × Table :=
  match t.findIdx? (·.isNone) with
  | some i => (i, t.set i (some v))
  | none => (t.length, t ++ [some v])

/-- `lookup`, state.h:73-83; `none` is the error `TPEBADDESC`. -/
def lookup (t : Table) (d : Int) : Option Val :=
  if 0 ≤ d then (t[d.toNat]?).join else none

/-- `container::unreserve`, state.h:47, of an index that is there. -/
def close (t : Table) (i : Nat) : Table := t.set i none

/-- The `code.result` of a message, as far as it is told apart: context.cpp:176-199, 573-590. -/
inductive Code
  | absent | ok | fail | error
  deriving DecidableEq, Repr

/-- The messages of a conversation, common/include/common/message/conversation.h. -/
inductive Msg
  /-- `connect::Request` -/
  | request (corr : Nat) (source : Nat) (duplex : Duplex) (data : Nat)
  /-- `connect::Reply` -/
  | reply (corr : Nat)
  /-- `caller::Send` and `callee::Send`; a `code` other than absent is the end of the service -/
  | data (corr : Nat) (duplex : Duplex) (code : Code) (user : Int) (data : Nat)
  /-- `Disconnect` -/
  | disconnect (corr : Nat)
  /-- `service::call::Reply` from the service manager: the server has died, or it takes too long -/
  | service (corr : Nat)
  deriving DecidableEq, Repr

def Msg.corr : Msg → Nat
  | .request c _ _ _ => c
  | .reply c => c
  | .data c _ _ _ _ => c
  | .disconnect c => c
  | .service c => c

/-- The service that is executed as the other side of a conversation: the correlation, the
process that connected, and `execute_unreserve_descriptor`'s descriptor, server/handle/service.h:145-149. -/
structure Frame where
  corr : Nat
  peer : Nat
  desc : Nat
  deriving DecidableEq, Repr

/-- A process. -/
structure Proc where
  /-- `Context::m_state.descriptors` -/
  table : Table := []
  /-- the messages of the inbound device, oldest first -/
  inbox : List Msg := []
  /-- `Inbound::m_discarded` -/
  discarded : List Nat := []
  /-- in `tpconnect`, waiting for the connect reply: descriptor and correlation -/
  calling : Option (Nat × Nat) := none
  /-- a service is executed -/
  busy : Bool := false
  /-- it is one that has been connected to -/
  frame : Option Frame := none
  alive : Bool := true
  deriving DecidableEq, Repr

/-- The errors (`tperrno`) of the calls, as far as they are told apart. -/
inductive Err
  | descriptor | argument | protocol | noMessage | noEntry | system
  deriving DecidableEq, Repr

/-- `Event`, common/include/common/flag/service/conversation.h:16-24. -/
inductive Event
  | disconnect | sendOnly | serviceError | serviceFail | serviceSuccess
  deriving DecidableEq, Repr

/-- What a call returns to the user (xatmi/source/xatmi/conversation.cpp). -/
inductive Res
  /-- `tpsend`, `tpdiscon`: 0 -/
  | ok
  /-- `tprecv`: 0, and the data -/
  | data (x : Nat)
  /-- -1 and `TPEEVENT`, the event, `tpurcode`, and the data if any -/
  | event (e : Event) (user : Int) (x : Option Nat)
  /-- -1 and `tperrno` -/
  | error (e : Err)
  /-- `tpconnect`: the descriptor -/
  | descriptor (d : Nat)
  /-- the call has not returned -/
  | wait
  deriving DecidableEq, Repr

/-- `find_if` and `extract`, common/communication/device.h:200-215: the first message, and the rest. -/
def takeFirst (f : Msg → Bool) : List Msg → Option (Msg × List Msg)
  | [] => none
  | m :: ms => if f m then some (m, ms) else (takeFirst f ms).map (fun r => (r.1, m :: r.2))

/-- The `Disconnect` of a conversation: `check::disconnect`, context.cpp:103-116. -/
def isDisconnect (c : Nat) : Msg → Bool
  | .disconnect c' => c' == c
  | _ => false

/-- `types` in `pending_event` and `receive`, context.cpp:157-162, 482-487: a message of one of the
types, with the correlation. -/
def isConversation (c : Nat) : Msg → Bool
  | .data c' _ _ _ _ => c' == c
  | .disconnect c' => c' == c
  | .service c' => c' == c
  | _ => false

/-- The reply to a connect: `communication::ipc::call`, context.cpp:347 and device.h:738-750. -/
def isReply (c : Nat) : Msg → Bool
  | .reply c' => c' == c
  | _ => false

/-- The `Event` of a `code.result` in `tpsend`, context.cpp:176-199: anything but fail is an error. -/
def Code.sendEvent : Code → Event
  | .fail => .serviceFail
  | _ => .serviceError

/-- The `Event` of a `code.result` in `tprecv`, context.cpp:576-590. -/
def Code.recvEvent : Code → Event
  | .ok => .serviceSuccess
  | .fail => .serviceFail
  | _ => .serviceError

/-- The descriptor has been unreserved and a message consumed. -/
def Proc.ended (p : Proc) (i : Nat) (rest : List Msg) : Proc :=
  { p with table := close p.table i, inbox := rest }

/-- `Context::send`, context.cpp:361-428 with `pending_event` (125-242) and the wrapper of `tpsend`
(xatmi/conversation.cpp:60-145). `up` tells if the other process can be reached; if it can not
the error of the send is passed on, and the descriptor is unreserved (376). -/
def send (up : Nat → Bool) (p : Proc) (d : Int) (x : Nat) (receiveOnly : Bool) :
    Proc × Option (Nat × Msg) × Res :=
  match lookup p.table d with
  | none => (p, none, .error .descriptor)
  | some v =>
    if v.duplex ≠ .send then (p, none, .error .protocol)
    else
      let dx : Duplex := if receiveOnly then .receive else .send
      match takeFirst (isDisconnect v.corr) p.inbox with
      | some (_, rest) => (p.ended d.toNat rest, none, .event .disconnect 0 none)
      | none =>
        match takeFirst (isConversation v.corr) p.inbox with
        | some (.data _ _ code user _, rest) =>
          (p.ended d.toNat rest, none,
            .event code.sendEvent (if code = .fail then user else 0) none)
        | some (.disconnect _, rest) => (p.ended d.toNat rest, none, .event .disconnect 0 none)
        | some (_, rest) => (p.ended d.toNat rest, none, .event .serviceError 0 none)
        | none =>
          if up v.peer then
            ({ p with table := p.table.set d.toNat (some { v with duplex := dx }) },
              some (v.peer, .data v.corr dx.invert .absent 0 x), .ok)
          else ({ p with table := close p.table d.toNat }, none, .error .system)

/-- `Context::receive`, context.cpp:430-618 and the wrapper of `tprecv` (xatmi/conversation.cpp:148-191).
Without `TPNOCHANGE`. -/
def recv (p : Proc) (d : Int) (noBlock : Bool) : Proc × Res :=
  match lookup p.table d with
  | none => (p, .error .descriptor)
  | some v =>
    if v.duplex ≠ .receive then (p, .error .protocol)
    else
      match takeFirst (isDisconnect v.corr) p.inbox with
      | some (_, rest) => (p.ended d.toNat rest, .event .disconnect 0 none)
      | none =>
        match takeFirst (isConversation v.corr) p.inbox with
        | none => (p, if noBlock then .error .noMessage else .wait)
        | some (.data _ dx code user x, rest) =>
          if code ≠ .absent then
            (p.ended d.toNat rest,
              .event code.recvEvent (if code = .ok ∨ code = .fail then user else 0) (some x))
          else if dx = .send then
            ({ p with table := p.table.set d.toNat (some { v with duplex := .send }), inbox := rest },
              .event .sendOnly 0 (some x))
          else ({ p with inbox := rest }, .data x)
        | some (.disconnect _, rest) => (p.ended d.toNat rest, .event .disconnect 0 none)
        | some (_, rest) => (p.ended d.toNat rest, .event .serviceError 0 none)

/-- `Inbound::discard`, common/communication/device.h:247-263: the first message with the correlation, or the
next one that comes. -/
def discard (p : Proc) (c : Nat) : Proc :=
  match takeFirst (fun m => m.corr == c) p.inbox with
  | some (_, rest) => { p with inbox := rest }
  | none => if c ∈ p.discarded then p else { p with discarded := p.discarded ++ [c] }

/-- `Context::disconnect`, context.cpp:620-645. -/
def disconnect (up : Nat → Bool) (p : Proc) (d : Int) : Proc × Option (Nat × Msg) × Res :=
  match lookup p.table d with
  | none => (p, none, .error .descriptor)
  | some v =>
    if v.initiator = false then (p, none, .error .descriptor)
    else
      let p1 := { p with table := close p.table d.toNat }
      if up v.peer then
        (if v.duplex = .receive then discard p1 v.corr else p1,
          some (v.peer, .disconnect v.corr), .ok)
      else (p1, none, .error .system)

/-- The first part of `Context::connect`, context.cpp:264-347, and `tpconnect`: until the request has been sent. `c` is
the correlation of the lookup, `target` what the service manager answered, `none` when there is no
such service. The slot of a descriptor that is unreserved stays in the table. -/
def connect (up : Nat → Bool) (self : Nat) (p : Proc) (c : Nat) (target : Option Nat)
    (sendOnly receiveOnly : Bool) (x : Nat) : Proc × Option (Nat × Msg) × Res :=
  if sendOnly == receiveOnly then (p, none, .error .argument)
  else
    let dx : Duplex := if receiveOnly then .receive else .send
    match target with
    | none =>
      let r := reserve p.table ⟨c, 0, dx, true⟩
      ({ p with table := close r.2 r.1 }, none, .error .noEntry)
    | some q =>
      let r := reserve p.table ⟨c, q, dx, true⟩
      if up q then
        ({ p with table := r.2, calling := some (r.1, c) }, some (q, .request c self dx.invert x), .wait)
      else ({ p with table := close r.2 r.1 }, none, .error .system)

/-- The rest of `Context::connect`, context.cpp:347-358: the reply is there. Only a reply to the
connect is waited for, and its code is not looked at. -/
def connected (p : Proc) : Proc × Res :=
  match p.calling with
  | none => (p, .wait)
  | some (i, c) =>
    match takeFirst (isReply c) p.inbox with
    | none => (p, .wait)
    | some (_, rest) => ({ p with inbox := rest, calling := none }, .descriptor i)

/-- A conversation: who has connected to whom. -/
structure Parties where
  initiator : Nat
  subordinate : Nat
  deriving DecidableEq, Repr

/-- What has been seen by the users of the processes. -/
inductive Entry
  /-- `tpconnect` has sent its request -/
  | asked (c : Nat) (receiveOnly : Bool) (x : Nat)
  /-- the service has been called, in control or not, with the data -/
  | started (c : Nat) (control : Bool) (x : Nat)
  /-- `tpconnect` has returned the descriptor -/
  | connected (c : Nat) (d : Nat)
  /-- `tpsend` in process `p` has returned 0 -/
  | sent (p c x : Nat)
  /-- `tprecv` in process `p` has given data, and the conversation goes on; with `TPEV_SENDONLY` or not -/
  | got (p c x : Nat) (control : Bool)
  /-- `tpsend` or `tprecv` in process `p` has given an event that ends the conversation -/
  | ended (p c : Nat) (e : Event) (user : Int) (x : Option Nat)
  /-- `tpsend` or `tpdiscon` in process `p` could not send -/
  | lost (p c : Nat)
  /-- `tpdiscon` by the initiator -/
  | disconnected (c : Nat)
  /-- `tpreturn` of the service, and if its transactions were fine -/
  | returned (c : Nat) (success : Bool) (user : Int) (x : Nat) (transOk : Bool)
  /-- the service could not be called, though the request had arrived -/
  | failed (c : Nat)
  /-- the service manager tells the initiator that the server has died, or takes too long -/
  | reported (c : Nat)
  /-- a server has ended because of an exception -/
  | exited (p : Nat)
  deriving DecidableEq, Repr

structure World where
  procs : Nat → Proc := fun _ => {}
  /-- all conversations, by correlation -/
  convs : List Parties := []
  /-- newest first -/
  log : List Entry := []

def World.up (w : World) (q : Nat) : Bool := (w.procs q).alive

def World.set (w : World) (p : Nat) (x : Proc) : World :=
  { w with procs := fun q => if q = p then x else w.procs q }

def World.note (w : World) (e : Entry) : World := { w with log := e :: w.log }

/-- A message arrives: `Inbound::find`, device.h:377-411, with the messages to discard. Nothing arrives at a process that is
gone. -/
def World.deliver (w : World) (q : Nat) (m : Msg) : World :=
  let p := w.procs q
  if p.alive then
    if m.corr ∈ p.discarded then w.set q { p with discarded := p.discarded.erase m.corr }
    else w.set q { p with inbox := p.inbox ++ [m] }
  else w

def World.post (w : World) : Option (Nat × Msg) → World
  | none => w
  | some (q, m) => w.deliver q m

/-- The correlation of an open descriptor, for the log only. -/
def corrOf (p : Proc) (d : Int) : Nat := match lookup p.table d with | some v => v.corr | none => 0

/-- What happens. -/
inductive Act
  /-- a process that is a server takes the first message (the pump). `good`: the service is there, and its transaction can be
  begun -/
  | pump (p : Nat) (good : Bool)
  /-- a server that is idle begins to execute a service for a `tpcall`, and ends it -/
  | begin (p : Nat) | finish (p : Nat)
  | connect (p : Nat) (target : Option Nat) (sendOnly receiveOnly : Bool) (x : Nat)
  | connected (p : Nat)
  | send (p : Nat) (d : Int) (x : Nat) (receiveOnly : Bool)
  | recv (p : Nat) (d : Int) (noBlock : Bool)
  | disconnect (p : Nat) (d : Int)
  /-- `tpreturn` -/
  | ret (p : Nat) (success : Bool) (user : Int) (x : Nat) (transOk : Bool)
  /-- a process dies -/
  | die (p : Nat)
  /-- the service manager reports to the initiator -/
  | report (c : Nat)
  deriving DecidableEq, Repr

/-- The process can make calls: it is alive, not within `tpconnect`, and not a server that waits
for requests. `srv` tells which processes are servers. -/
def Proc.free (srv : Bool) (p : Proc) : Bool := p.alive && p.calling.isNone && (!srv || p.busy)

/-- The result of a call in the log. -/
def noteSend (p c x : Nat) (r : Res) (w : World) : World :=
  match r with
  | .ok => w.note (.sent p c x)
  | .event e u y => w.note (.ended p c e u y)
  | .error .system => w.note (.lost p c)
  | _ => w

def noteRecv (p c : Nat) (r : Res) (w : World) : World :=
  match r with
  | .data x => w.note (.got p c x false)
  | .event .sendOnly _ (some x) => w.note (.got p c x true)
  | .event e u y => w.note (.ended p c e u y)
  | _ => w

def noteDisconnect (p c : Nat) (r : Res) (w : World) : World :=
  match r with
  | .ok => w.note (.disconnected c)
  | .error .system => w.note (.lost p c)
  | _ => w

/-- The request is handled: `Conversation::operator()` (server/handle/conversation.cpp:26-36) and `service::call`
(server/handle/service.h:55-152) until the service is called. `transform::parameter`
(server/handle/service.cpp:80-110) reserves the descriptor and sends the connect reply. When the service
is not there or its transaction can not be begun, an error reply is sent (`execute_reply`), and the
exception ends the server: there is nothing that catches it in `Conversation`, and the pump has no error handler
(start.cpp:88-112, dispatch.h:345-352). The same when the reply can not be sent. -/
def serve (w : World) (q : Nat) (good : Bool) (c src : Nat) (dx : Duplex) (x : Nat) : World :=
  let p := w.procs q
  if good then
    if w.up src then
      let r := reserve p.table ⟨c, src, dx, false⟩
      ((w.set q { p with table := r.2, busy := true, frame := some ⟨c, src, r.1⟩ }).deliver src (.reply c)).note
        (.started c (dx == .send) x)
    else ((w.set q { p with alive := false }).note (.failed c)).note (.exited q)
  else
    (((w.deliver src (.data c .send .error 0 0)).set q { p with alive := false }).note (.failed c)).note (.exited q)

/-- `policy.reply`'s code: `complement::reply` (server/handle/service.cpp:139-157) and `normalize_code`
(server/handle/service.h:92-116). -/
def replyCode (success transOk : Bool) : Code :=
  if success then (if transOk then .ok else .error) else .fail

/-- The rest of `service::call`, server/handle/service.h:176-190: reply, and unreserve the descriptor. If the reply
can not be sent, or the descriptor is not there any more, the exception ends the server. -/
def serviceReturn (w : World) (q : Nat) (f : Frame) (success : Bool) (user : Int) (x : Nat) (transOk : Bool) : World :=
  let p := w.procs q
  if w.up f.peer then
    let w1 := (w.deliver f.peer (.data f.corr .terminated (replyCode success transOk) user x)).note
      (.returned f.corr success user x transOk)
    if (lookup p.table f.desc).isSome then
      w1.set q { p with table := close p.table f.desc, busy := false, frame := none }
    else (w1.set q { p with alive := false }).note (.exited q)
  else (w.set q { p with alive := false }).note (.exited q)

/-- One step. An action that is not possible changes nothing. -/
def step (srv : Nat → Bool) (w : World) : Act → World
  | .pump q good =>
    let p := w.procs q
    if srv q && p.alive && p.calling.isNone && !p.busy then
      match p.inbox with
      | [] => w
      | .request c src dx x :: rest => serve (w.set q { p with inbox := rest }) q good c src dx x
      -- a message without handler is consumed, dispatch.h:95-110 and 428-433
      | _ :: rest => w.set q { p with inbox := rest }
    else w
  | .begin q =>
    let p := w.procs q
    if srv q && p.alive && p.calling.isNone && !p.busy then w.set q { p with busy := true } else w
  | .finish q =>
    let p := w.procs q
    if srv q && p.free true && p.frame.isNone then w.set q { p with busy := false } else w
  | .connect p target so ro x =>
    -- a process never gets itself from a lookup: it is not a server, or it is busy (C25)
    if (w.procs p).free (srv p) && target != some p then
      let r := connect w.up p (w.procs p) w.convs.length target so ro x
      match r.2.1 with
      | some (q, m) =>
        (({ (w.set p r.1) with convs := w.convs ++ [(⟨p, q⟩ : Parties)] }).deliver q m).note (.asked w.convs.length ro x)
      | none => w.set p r.1
    else w
  | .connected p =>
    if (w.procs p).alive then
      let r := connected (w.procs p)
      match r.2, (w.procs p).calling with
      | .descriptor d, some (_, c) => (w.set p r.1).note (.connected c d)
      | _, _ => w
    else w
  | .send p d x ro =>
    if (w.procs p).free (srv p) then
      let r := send w.up (w.procs p) d x ro
      noteSend p (corrOf (w.procs p) d) x r.2.2 ((w.set p r.1).post r.2.1)
    else w
  | .recv p d nb =>
    if (w.procs p).free (srv p) then
      let r := recv (w.procs p) d nb
      noteRecv p (corrOf (w.procs p) d) r.2 (w.set p r.1)
    else w
  | .disconnect p d =>
    if (w.procs p).free (srv p) then
      let r := disconnect w.up (w.procs p) d
      noteDisconnect p (corrOf (w.procs p) d) r.2.2 ((w.set p r.1).post r.2.1)
    else w
  | .ret q success user x transOk =>
    if (w.procs q).free (srv q) then
      match (w.procs q).frame with
      | some f => serviceReturn w q f success user x transOk
      | none => w
    else w
  | .die p => w.set p { (w.procs p) with alive := false }
  | .report c =>
    match w.convs[c]? with
    | some k => (w.deliver k.initiator (.service c)).note (.reported c)
    | none => w

/-- A history: from a domain in which nobody has connected to anybody. -/
def run (srv : Nat → Bool) (as : List Act) : World := as.foldl (step srv) {}

end Casual.Conv
