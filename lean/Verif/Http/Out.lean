import Verif.Http.TextProps
/-
  http outbound: services that are reached by http (`casual-http-outbound`).
  `middleware/http/source/outbound/handle.cpp`, `request.cpp`, `state.cpp`, `transform.cpp`, `configuration.cpp`.
  The library curl is not part of /repo: what it does are the events `read`, `header`, `body` and `done`.
-/
namespace Casual.Http

/-- A header of the configuration: `middleware/http/include/http/outbound/configuration.h:22-34`. -/
structure Header where
  name : Text
  value : Text
  deriving DecidableEq, Repr

/-- A service of the configuration: `middleware/http/include/http/outbound/configuration.h:36-53`. -/
structure Service where
  name : Text
  url : Text
  discard : Option Bool := none
  headers : List Header := []
  deriving DecidableEq, Repr

/-- One configuration file, or all of them together: `middleware/http/include/http/outbound/configuration.h:55-90`.
`discard` is false if the file does not mention it. -/
structure Model where
  headers : List Header := []
  discard : Bool := false
  services : List Service := []
  deriving DecidableEq, Repr

/-- `operator +` of `Model` (and `Default`): `middleware/http/source/outbound/configuration.cpp:54-66`. -/
def Model.add (a b : Model) : Model :=
  { headers := a.headers ++ b.headers, discard := b.discard, services := a.services ++ b.services }

/-- `configuration::load( paths)`: `middleware/http/source/outbound/configuration.cpp:70-73`
(what is in each file is given). -/
def load (files : List Model) : Model := files.foldl Model.add {}

/-- What is known about a service: `state::Node`, `middleware/http/include/http/outbound/state.h:36-48`. -/
structure Node where
  url : Text
  headers : List Text
  discard : Bool
  deriving DecidableEq, Repr

/-- `transform::local::header`: `middleware/http/source/outbound/transform.cpp:19-30`. -/
def headerFields (hs : List Header) : List Text := hs.map fun h => mkField h.name h.value

/-- What one service becomes: `middleware/http/source/outbound/transform.cpp:42-52`. -/
def nodeOf (m : Model) (s : Service) : Node :=
  { url := s.url
    headers := if s.headers = [] then headerFields m.headers else headerFields s.headers
    discard := s.discard.getD m.discard }

/-- The lookup, in the order of the configuration (the order is of no importance in the code: it is an
`unordered_map`); `emplace` does nothing if the name is there. `middleware/http/source/outbound/transform.cpp:53`. -/
def emplace (l : List (Text × Node)) (n : Text) (x : Node) : List (Text × Node) :=
  if l.any (·.1 == n) then l else l ++ [(n, x)]

/-- `transform::configuration`: `middleware/http/source/outbound/transform.cpp:34-57`. -/
def transform (m : Model) : List (Text × Node) :=
  m.services.foldl (fun l s => emplace l s.name (nodeOf m s)) []

/-- The environment: `CASUAL_HTTP_FORCE_BINARY_BASE64` and `CASUAL_HTTP_CURL_FORCE_FRESH_CONNECT`.
`middleware/http/source/outbound/request.cpp:39-56`. -/
structure Cfg where
  base64 : Bool := false
  fresh : Bool := false
  deriving DecidableEq, Repr

/-- A call to a service, `message::service::call::callee::Request`. Left out: the parent and the deadline. -/
structure Call where
  dest : Nat
  corr : Nat
  exec : Text
  name : Text
  trid : Bool := false
  noReply : Bool := false
  buffer : Payload := {}
  deriving DecidableEq, Repr

/-- A pending request: `state::pending::Request`, `middleware/http/include/http/outbound/state.h:53-125`. -/
structure Req where
  handle : Nat
  dest : Nat
  corr : Nat
  trid : Bool
  url : Text
  payload : Payload
  offset : Nat := 0
  sent : List Text
  reply : List Text := []
  deriving DecidableEq, Repr

/-- `transaction::State`: `middleware/common/include/common/message/service.h:71-79` (the ones that are used). -/
inductive Txn where
  | ok
  | rollback
  deriving DecidableEq, Repr

/-- `message::service::call::Reply`. -/
structure Reply where
  dest : Nat
  corr : Nat
  code : Int
  user : Int := 0
  txn : Txn := .ok
  buffer : Payload := {}
  deriving DecidableEq, Repr

/-- What is told about one call, `message::event::service::Metric`: the correlation and the result. -/
structure Metric where
  corr : Nat
  code : Int
  user : Int := 0
  deriving DecidableEq, Repr

/-- What is sent. -/
inductive Msg where
  /-- The answer of a call. -/
  | reply (r : Reply)
  /-- Metrics, to the service manager. -/
  | metrics (ms : List Metric)
  /-- The answer of a discovery. -/
  | found (dest : Nat) (names : List Text)
  deriving DecidableEq, Repr

/-- `http::outbound::State`, `middleware/http/include/http/outbound/state.h:163-220`, with what has been sent (`out`), what
curl has been given to send (`wire`) and if the process has terminated (`down`). -/
structure State where
  cfg : Cfg := {}
  lookup : List (Text × Node) := []
  pending : List Req := []
  next : Nat := 0
  held : List Metric := []
  out : List Msg := []
  wire : List (Nat × List Byte) := []
  down : Bool := false
  deriving DecidableEq, Repr

/-- What happens. -/
inductive Ev where
  /-- A service call comes. -/
  | call (c : Call)
  /-- A discovery comes. -/
  | discover (dest : Nat) (names : List Text)
  /-- curl asks for at most `n` bytes of the request. -/
  | read (h n : Nat)
  /-- curl has got a header line. -/
  | header (h : Nat) (line : Text)
  /-- curl has got a part of the body. -/
  | body (h : Nat) (bs : List Byte)
  /-- curl is done with the request: did it go well, and what is the http status. -/
  | done (h : Nat) (curlOk : Bool) (status : Nat)
  deriving DecidableEq, Repr

/-- `platform::batch::http::outbound::concurrent::metrics`: `middleware/common/include/casual/platform.h:157`. -/
def batch : Nat := 100

/-- `metric::maybe::send`: `middleware/http/source/outbound/handle.cpp:27-34`. -/
def metricMaybe (st : State) : State :=
  if st.pending = [] ∨ batch ≤ st.held.length then { st with out := st.out ++ [.metrics st.held], held := [] } else st

/-- `send::error::reply`: `middleware/http/source/outbound/handle.cpp:48-83`. -/
def errorReply (st : State) (c : Call) (code : Int) : State :=
  let r : Reply := { dest := c.dest, corr := c.corr, code := code, txn := if c.trid then .rollback else .ok }
  let st := if c.noReply then st else { st with out := st.out ++ [.reply r] }
  metricMaybe { st with held := st.held ++ [{ corr := c.corr, code := code }] }

/-- The header lines of a request: `middleware/http/source/outbound/request.cpp:104-125,247-248,270-281`. -/
def requestLines (cfg : Cfg) (node : Node) (c : Call) : List Text :=
  ["content-type: ".toList ++ fromBuffer c.buffer.type] ++ node.headers ++ [mkField "casual-execution-id".toList c.exec]
    ++ (if cfg.fresh then ["connection: close".toList] else [])

/-- `request::prepare`: `middleware/http/source/outbound/request.cpp:104-125,235-316`. -/
def prepare (cfg : Cfg) (h : Nat) (node : Node) (c : Call) : Req :=
  { handle := h, dest := c.dest, corr := c.corr, trid := c.trid, url := node.url
    payload := if cfg.base64 then toWire c.buffer else c.buffer
    sent := requestLines cfg node c }

/-- Service call: `middleware/http/source/outbound/handle.cpp:87-120`. -/
def onCall (st : State) (c : Call) : State :=
  match st.lookup.find? (·.1 == c.name) with
  | none => errorReply st c noEntry
  | some p =>
    if c.trid && !p.2.discard then errorReply st c protocol
    else { st with pending := st.pending ++ [prepare st.cfg st.next p.2 c], next := st.next + 1 }

/-- Discovery: the intersection of what is asked for and what there is. `middleware/http/source/outbound/handle.cpp:127-151`. -/
def onDiscover (st : State) (dest : Nat) (names : List Text) : State :=
  { st with out := st.out ++ [.found dest (names.filter fun n => st.lookup.any (·.1 == n))] }

/-- What curl is given: `read_payload`, `middleware/http/source/outbound/request.cpp:68-92`. -/
def readBytes (r : Req) (n : Nat) : List Byte := (r.payload.data.drop r.offset).take n

/-- What becomes of the request: `read_payload`, `middleware/http/source/outbound/request.cpp:68-92`. -/
def readReq (r : Req) (n : Nat) : Req :=
  if (r.payload.data.drop r.offset).length ≤ n then { r with payload := { r.payload with data := [] }, offset := 0 }
  else { r with offset := r.offset + n }

/-- `write_header`: `middleware/http/source/outbound/request.cpp:157-176`. -/
def headerReq (r : Req) (line : Text) : Req :=
  let t := line.takeWhile fun c => c != '\n' && c != '\r'
  if t = [] then r else { r with reply := fadd r.reply (field t) }

/-- `write_payload`: `middleware/http/source/outbound/request.cpp:134-145`. -/
def bodyReq (r : Req) (bs : List Byte) : Req :=
  { r with payload := { r.payload with data := r.payload.data ++ bs } }

/-- `transform::xatmi::code`: `middleware/http/source/outbound/request.cpp:328-354`. -/
def statusCode (status : Nat) : Int :=
  if status = 404 ∨ status = 503 ∨ status = 501 then noEntry
  else if status = 408 ∨ status = 504 then timeout
  else if status = 429 then limit
  else if status = 500 then system
  else if 200 ≤ status ∧ status < 300 then protocol
  else system

/-- The name of the header with the result: `middleware/http/include/http/common.h:43`. -/
def resultName : Text := "casual-result-code".toList
/-- The name of the header with the user code: `middleware/http/include/http/common.h:47`. -/
def userName : Text := "casual-result-user-code".toList

/-- `transform::code`: `middleware/http/source/outbound/request.cpp:359-391`. `none`: an exception, in a function that
is `noexcept`. -/
def codeOf (r : Req) (curlOk : Bool) (status : Nat) : Option (Int × Int) :=
  match ffind r.reply resultName with
  | some f =>
    match ffind r.reply userName with
    | some u => (parseUser (fvalue u)).map fun n => (parseCode (fvalue f), n)
    | none => some (parseCode (fvalue f), 0)
  | none => if curlOk then some (statusCode status, 0) else some (serviceError, 0)

/-- `transform::transaction`: `middleware/http/source/outbound/request.cpp:393-413`. -/
def txnOf (r : Req) (code : Int) : Txn :=
  if r.trid then (if code = ok then .ok else .rollback) else .ok

/-- `receive::payload`: `middleware/http/source/outbound/request.cpp:196-231`. `none`: an exception. -/
def payloadOf (cfg : Cfg) (r : Req) : Option Payload :=
  match ffind r.reply "content-type".toList with
  | some f =>
    if toBuffer (fvalue f) = [] then some {}
    else
      let p : Payload := { r.payload with type := toBuffer (fvalue f) }
      if cfg.base64 then fromWire p else some p
  | none => if cfg.base64 then fromWire r.payload else some r.payload

/-- The answer of a request that is done: `middleware/http/source/outbound/handle.cpp:186-219`. -/
def answer (cfg : Cfg) (r : Req) (code user : Int) : Reply :=
  let base : Reply := { dest := r.dest, corr := r.corr, code := code, user := user, txn := txnOf r code }
  if code = ok ∨ code = serviceFail then
    match payloadOf cfg r with
    | some p => { base with buffer := p }
    | none => { base with code := protocol }
  else base

/-- `external::reply`: `middleware/http/source/outbound/handle.cpp:178-228`, and `Pending::extract`,
`middleware/http/source/outbound/state.cpp:73-86`. -/
def onDone (st : State) (h : Nat) (curlOk : Bool) (status : Nat) : State :=
  match st.pending.find? (·.handle == h) with
  | none => st
  | some r =>
    let st := { st with pending := st.pending.eraseP (·.handle == h) }
    match codeOf r curlOk status with
    | none => { st with down := true }
    | some c =>
      metricMaybe { st with
        held := st.held ++ [{ corr := r.corr, code := c.1, user := c.2 }]
        out := st.out ++ [.reply (answer st.cfg r c.1 c.2)] }

/-- What curl does with one request. -/
def onReq (st : State) (h : Nat) (f : Req → Req) : State :=
  { st with pending := st.pending.map fun r => if r.handle = h then f r else r }

/-- One event. curl has only the requests that are pending: events for others do nothing. -/
def step (st : State) (e : Ev) : State :=
  if st.down then st
  else match e with
    | .call c => onCall st c
    | .discover d ns => onDiscover st d ns
    | .read h n =>
      match st.pending.find? (·.handle == h) with
      | none => st
      | some r => { onReq st h (readReq · n) with wire := st.wire ++ [(h, readBytes r n)] }
    | .header h l => onReq st h (headerReq · l)
    | .body h bs => onReq st h (bodyReq · bs)
    | .done h k s => onDone st h k s

/-- Any number of events. -/
def run (st : State) (es : List Ev) : State := es.foldl step st

/-- The process when it has started: `middleware/http/source/outbound/main.cpp:42-75`. -/
def start (cfg : Cfg) (files : List Model) : State := { cfg := cfg, lookup := transform (load files) }

end Casual.Http
