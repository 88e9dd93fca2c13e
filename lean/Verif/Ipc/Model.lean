/-!
# Model of the interprocess communication

Messages between processes are sent as datagrams ("transports") of limited size over unix domain sockets:
`/repo/middleware/common/include/common/communication/ipc/message.h`, `source/communication/ipc/message.cpp`,
`source/communication/ipc.cpp`, `include/common/communication/device.h`, and the send coordinator
`include/common/communication/ipc/send.h`, `source/communication/ipc/send.cpp`.

Modelled: the fragmentation of a message by the blocking, the non-blocking and the partial send, the reassembly, the inbound
device with its cache, `select`/`next`, `discard`, `push`, `flush`, and the coordinator of pending sends.

Not modelled: signals (a system call that is interrupted is done again), the serialization of the payload (see
`Verif.Serialize`), `Inbound::clear` (no use outside tests), devices that can reconnect.

Simplified:
* message types, correlations and ipc ids are numbers; offsets and sizes are natural numbers;
* the size of the payload of a transport, `max_payload_size` (`message.h:55`), is a parameter `n`;
* the kernel's answer to a `sendto` is part of the input, as a list, one answer for each attempt; when the list is used
  up, the answer is "would block";
* a blocking receive that finds nothing blocks until a datagram arrives, and goes on: here it returns, and is done again when there is something;
* the socket of a pending destination is identified with the destination;
* a callback of the coordinator does not use the coordinator.
-/
namespace Casual.Ipc

/-- A logical message: what is to be sent. `message.h:154-160`, constructor with the payload, `message.cpp:48-49`. -/
structure Msg where
  type : Nat
  corr : Nat
  payload : List UInt8
  deriving DecidableEq, Repr

/-- `Transport`, `message.h:60-150`: `payload` are the `count` bytes used. -/
structure Frag where
  type : Nat
  corr : Nat
  offset : Nat
  size : Nat
  payload : List UInt8
  deriving DecidableEq, Repr

/-- `Complete`, `message.h:154-222`. -/
structure Complete where
  type : Nat
  corr : Nat
  payload : List UInt8
  offset : Nat
  deriving DecidableEq, Repr

/-- `Complete::complete`, `message.cpp:76`. -/
def Complete.complete (c : Complete) : Bool := c.payload.length == c.offset

/-- The message that has been received. -/
def Complete.msg (c : Complete) : Msg := { type := c.type, corr := c.corr, payload := c.payload }

/-- `Complete( type, correlation, payload)`, `message.cpp:48-49`. -/
def Msg.complete (m : Msg) : Complete := { type := m.type, corr := m.corr, payload := m.payload, offset := m.payload.length }

/-- `Complete::add`, `message.cpp:51-69`; `none` is an exception. -/
def Complete.add (c : Complete) (f : Frag) : Option Complete :=
  if f.offset < c.offset then some c
  else if f.offset > c.offset then none
  else if f.offset + f.payload.length > c.payload.length then none
  else some { c with payload := c.payload.take c.offset ++ f.payload ++ c.payload.drop (c.offset + f.payload.length), offset := c.offset + f.payload.length }

/-- `Complete( type, correlation, size, chunk)`, `message.h:162-167`. -/
def Frag.start (f : Frag) : Option Complete :=
  Complete.add { type := f.type, corr := f.corr, payload := List.replicate f.size 0, offset := 0 } f

/-! ## Sending -/

/-- The transport for the part of the message from an offset: `Transport( type, size, correlation)` and `assign`,
`message.h:80-85`, `:130-147`. -/
def Msg.part (n : Nat) (m : Msg) (off : Nat) : Frag :=
  { type := m.type, corr := m.corr, offset := off, size := m.payload.length, payload := (m.payload.drop off).take n }

/-- The answer of the kernel to a `sendto`. -/
inductive Res | ok | full | error
  deriving DecidableEq, Repr

/-- How a send ends. -/
inductive Out | done | blocked | failed
  deriving DecidableEq, Repr

/-- `policy::non::blocking::send`, `ipc.cpp:384-411` (and `policy::blocking::send`, `:320-344`, where the kernel never answers
"would block"): from an offset. The transports that are sent, how it ends, and the answers that are left. -/
def sendFrom (n : Nat) (m : Msg) (off : Nat) : List Res → List Frag × Out × List Res
  | [] => ([], .blocked, [])
  | .full :: rs => ([], .blocked, rs)
  | .error :: rs => ([], .failed, rs)
  | .ok :: rs =>
    if off + (m.part n off).payload.length = m.payload.length then ([m.part n off], .done, rs)
    else
      let r := sendFrom n m (off + (m.part n off).payload.length) rs
      (m.part n off :: r.1, r.2)

/-- The device sends a complete message. -/
def sendWhole (n : Nat) (m : Msg) (rs : List Res) : List Frag × Out × List Res := sendFrom n m 0 rs

/-- `complete::Send`, `message.h:249-295`: the message, and what has been sent. -/
structure Send where
  msg : Msg
  offset : Nat
  deriving DecidableEq, Repr

/-- `Send::left`, `message.h:285-289`. -/
def Send.left (n : Nat) (s : Send) : Nat := if s.msg.payload.length - s.offset < n then s.msg.payload.length - s.offset else n

/-- `partial::send`, `ipc.cpp:482-503`. -/
def partialSend (n : Nat) (s : Send) : List Res → List Frag × Send × Out × List Res
  | [] => if s.left n = 0 then ([], s, .done, []) else ([], s, .blocked, [])
  | r :: rs =>
    if s.left n = 0 then ([], s, .done, r :: rs)
    else
      match r with
      | .full => ([], s, .blocked, rs)
      | .error => ([], s, .failed, rs)
      | .ok =>
        let x := partialSend n { s with offset := s.offset + s.left n } rs
        (s.msg.part n s.offset :: x.1, x.2)

/-! ## Receiving -/

/-- The search in `policy::non::blocking::receive`, `ipc.cpp:357-363`. -/
def Complete.takes (f : Frag) (c : Complete) : Bool := !c.complete && f.type == c.type && f.corr == c.corr

/-- `policy::blocking::receive` and `policy::non::blocking::receive`, `ipc.cpp:287-317` and `:351-381`, of one transport: the
cache, and the index of the message the transport is a part of. -/
def recv (cache : List Complete) (f : Frag) : Option (List Complete × Nat) :=
  match cache.findIdx? (Complete.takes f) with
  | some i => (cache[i]?.bind fun c => c.add f).map fun c => (cache.set i c, i)
  | none => f.start.map fun c => (cache ++ [c], cache.length)

/-- What an operation on the device gives. -/
inductive Got
  | nothing
  | message (m : Msg)
  | exception
  deriving DecidableEq, Repr

/-- `Inbound`, `device.h:66-436`. -/
structure Dev where
  /-- what is in the socket -/
  wire : List Frag
  cache : List Complete
  discarded : List Nat
  deriving DecidableEq, Repr

/-- `Inbound::discard( complete)`, `device.h:419-429`, and its use, `:401-402`: of the message at an index. -/
def dropAt (cache : List Complete) (disc : List Nat) (i : Nat) : List Complete × List Nat :=
  match cache[i]? with
  | some c => if c.corr ∈ disc ∧ c.complete = true then (cache.eraseIdx i, disc.erase c.corr) else (cache, disc)
  | none => (cache, disc)

/-- `Inbound::find`, `device.h:388-417`: transports are read until a message fulfils the predicate. `false`: an exception. -/
def look (p : Complete → Bool) (cache : List Complete) (disc : List Nat) : List Frag → Dev × Bool
  | [] => ({ wire := [], cache, discarded := disc }, true)
  | f :: w =>
    if cache.any p then ({ wire := f :: w, cache, discarded := disc }, true)
    else
      match recv cache f with
      | none => ({ wire := w, cache, discarded := disc }, false)
      | some (c, i) => look p (dropAt c disc i).1 (dropAt c disc i).2 w

/-- `Inbound::select`, `device.h:212-226`. The predicate is one on type and correlation (`next`, `device.h:96-205`). -/
def Dev.select (d : Dev) (p : Nat → Nat → Bool) : Dev × Got :=
  let q : Complete → Bool := fun c => c.complete && p c.type c.corr
  match look q d.cache d.discarded d.wire with
  | (d, false) => (d, .exception)
  | (d, true) =>
    match d.cache.find? q with
    | some c => ({ d with cache := d.cache.eraseP q }, .message c.msg)
    | none => (d, .nothing)

/-- `message::Type::flush_ipc`, `/repo/middleware/common/include/common/message/type.h:32-33`. -/
def flushType : Nat := 500

/-- `Inbound::flush`, `device.h:361-368`. An exception ends it. -/
def Dev.flush (d : Dev) : Nat → Dev × Bool
  | 0 => (d, true)
  | k + 1 =>
    match d.select fun t _ => t == flushType with
    | (d, .exception) => (d, false)
    | (d, .nothing) => (d, true)
    | (d, .message _) => d.flush k

/-- `Inbound::discard( correlation)`, `device.h:257-272`; `platform::batch::flush`, `platform.h:111`, is 20. -/
def Dev.discard (d : Dev) (corr : Nat) : Dev × Got :=
  match d.flush 20 with
  | (d, false) => (d, .exception)
  | (d, true) =>
    match d.cache.find? fun c => c.corr == corr with
    | some c =>
      if c.complete then ({ d with cache := d.cache.eraseP fun c => c.corr == corr }, .nothing)
      else ({ d with discarded := if corr ∈ d.discarded then d.discarded else d.discarded ++ [corr] }, .nothing)
    | none => ({ d with discarded := if corr ∈ d.discarded then d.discarded else d.discarded ++ [corr] }, .nothing)

/-- `Inbound::push`, `device.h:275-291`. -/
def Dev.push (d : Dev) (m : Msg) : Dev × Got :=
  match d.flush 1 with
  | (d, false) => (d, .exception)
  | (d, true) => ({ d with cache := d.cache ++ [m.complete] }, .nothing)

/-- What happens to an inbound device. -/
inductive Op
  /-- a datagram arrives -/
  | arrive (f : Frag)
  /-- `select`, `next`, `receive` -/
  | select (p : Nat → Nat → Bool)
  | discard (corr : Nat)
  | push (m : Msg)

def Dev.op (d : Dev) : Op → Dev × Got
  | .arrive f => ({ d with wire := d.wire ++ [f] }, .nothing)
  | .select p => d.select p
  | .discard c => d.discard c
  | .push m => d.push m

/-- A device, and what the operations have given. -/
def Dev.run (d : Dev) : List Op → Dev × List Got
  | [] => (d, [])
  | o :: os => let r := (d.op o).1.run os; (r.1, (d.op o).2 :: r.2)

def Dev.init : Dev := { wire := [], cache := [], discarded := [] }

/-! ## The coordinator of sends -/

/-- `coordinator::Message`, `send.h:33-56`; if there is a callback. -/
structure Pend where
  send : Send
  callback : Bool
  deriving DecidableEq, Repr

/-- `coordinator::Remote`, `send.h:58-103`. -/
structure Remote where
  dest : Nat
  queue : List Pend
  deriving DecidableEq, Repr

/-- What can be observed of a coordinator. -/
inductive Ev
  /-- a message is to be sent, with a callback or not -/
  | accept (dest : Nat) (m : Msg) (callback : Bool)
  /-- a datagram is sent -/
  | wire (dest : Nat) (f : Frag)
  /-- a message is gone: its callback is called, if it has one -/
  | lost (dest : Nat) (m : Msg) (callback : Bool)
  deriving DecidableEq, Repr

/-- `Coordinator`, `send.h:108-247`, and the write descriptors of the `select::Directive` it refers to. -/
structure Coord where
  remotes : List Remote
  write : List Nat
  /-- not in the code: the trace -/
  tr : List Ev
  deriving DecidableEq, Repr

/-- The loop of `Remote::send`, `send.cpp:44-50`. -/
def sendQueue (n : Nat) : List Pend → List Res → List Frag × List Pend × Out × List Res
  | [], rs => ([], [], .done, rs)
  | p :: q, rs =>
    let x := partialSend n p.send rs
    match x.2.2.1 with
    | .done => let y := sendQueue n q x.2.2.2; (x.1 ++ y.1, y.2)
    | o => (x.1, { p with send := x.2.1 } :: q, o, x.2.2.2)

/-- `Set::add`, `/repo/middleware/common/source/communication/select.cpp:27-36`. -/
def writeAdd (w : List Nat) (d : Nat) : List Nat := if d ∈ w then w else w ++ [d]

/-- What `Remote::failed` tells, `send.cpp:64-70`, and `Message::error`, `:16-34`. -/
def lostAll (d : Nat) (q : List Pend) : List Ev := q.map fun p => .lost d p.send.msg p.callback

/-- `Remote::send`, `send.cpp:38-62`: the remote, if it is still needed, what has been done, the write descriptors. -/
def Remote.send (n : Nat) (r : Remote) (write : List Nat) (rs : List Res) : Option Remote × List Ev × List Nat × List Res :=
  let x := sendQueue n r.queue rs
  match x.2.2.1 with
  | .done => (none, x.1.map (.wire r.dest), write.erase r.dest, x.2.2.2)
  | .blocked => (some { r with queue := x.2.1 }, x.1.map (.wire r.dest), write, x.2.2.2)
  | .failed => (none, x.1.map (.wire r.dest) ++ lostAll r.dest x.2.1, write.erase r.dest, x.2.2.2)

/-- `find` and `erase` of the destination. -/
def Coord.flushOne (n : Nat) (c : Coord) (d : Nat) (f : Remote → Remote) (rs : List Res) : Coord :=
  match c.remotes.find? fun r => r.dest == d with
  | none => c
  | some r =>
    match (f r).send n c.write rs with
    | (none, es, w, _) => { remotes := c.remotes.eraseP fun r => r.dest == d, write := w, tr := c.tr ++ es }
    | (some r', es, w, _) => { remotes := c.remotes.map fun x => if x.dest = d then r' else x, write := w, tr := c.tr ++ es }

/-- `Coordinator::send( ipc, message)`, `send.cpp:122-149`. -/
def Coord.send (n : Nat) (c : Coord) (d : Nat) (m : Msg) (callback : Bool) (rs : List Res) : Coord :=
  let c : Coord := { c with tr := c.tr ++ [.accept d m callback] }
  if c.remotes.any fun r => r.dest == d then
    c.flushOne n d (fun r => { r with queue := r.queue ++ [{ send := { msg := m, offset := 0 }, callback }] }) rs
  else
    let x := partialSend n { msg := m, offset := 0 } rs
    match x.2.2.1 with
    | .done => { c with tr := c.tr ++ x.1.map (.wire d) }
    | .blocked =>
      { remotes := c.remotes ++ [{ dest := d, queue := [{ send := x.2.1, callback }] }], write := writeAdd c.write d, tr := c.tr ++ x.1.map (.wire d) }
    | .failed => { c with tr := c.tr ++ x.1.map (.wire d) ++ [.lost d m callback] }

/-- `Coordinator::operator ()`, `send.cpp:74-88`: the descriptor is ready for write. -/
def Coord.writable (n : Nat) (c : Coord) (d : Nat) (rs : List Res) : Coord := c.flushOne n d id rs

/-- `Coordinator::send()`, `send.cpp:90-103`: all destinations. -/
def sendAll (n : Nat) : List Remote → List Nat → List Res → List Remote × List Ev × List Nat
  | [], w, _ => ([], [], w)
  | r :: l, w, rs =>
    let x := r.send n w rs
    let y := sendAll n l x.2.2.1 x.2.2.2
    (x.1.toList ++ y.1, x.2.1 ++ y.2.1, y.2.2)

def Coord.batch (n : Nat) (c : Coord) (rs : List Res) : Coord :=
  let x := sendAll n c.remotes c.write rs
  { remotes := x.1, write := x.2.2, tr := c.tr ++ x.2.1 }

/-- `Coordinator::failed`, `send.cpp:113-120`. -/
def Coord.failed (c : Coord) (d : Nat) : Coord :=
  match c.remotes.find? fun r => r.dest == d with
  | none => c
  | some r => { remotes := c.remotes.eraseP fun r => r.dest == d, write := c.write.erase d, tr := c.tr ++ lostAll d r.queue }

/-- What happens to a coordinator. -/
inductive In
  | send (d : Nat) (m : Msg) (callback : Bool) (rs : List Res)
  | writable (d : Nat) (rs : List Res)
  | batch (rs : List Res)
  | failed (d : Nat)
  deriving DecidableEq, Repr

def Coord.step (n : Nat) (c : Coord) : In → Coord
  | .send d m cb rs => c.send n d m cb rs
  | .writable d rs => c.writable n d rs
  | .batch rs => c.batch n rs
  | .failed d => c.failed d

def Coord.init : Coord := { remotes := [], write := [], tr := [] }

def Coord.run (n : Nat) (c : Coord) (is : List In) : Coord := is.foldl (Coord.step n) c

/-- `Coordinator::pending`, `send.cpp:105-111`. -/
def Coord.pending (c : Coord) : Nat := (c.remotes.map fun r => r.queue.length).sum

end Casual.Ipc
