import Verif.Http.Out
/-
  http inbound: services that are called by http.
  `middleware/http/source/inbound/call.cpp`, `middleware/http/source/inbound/c/api.cpp`.
  The http server (nginx) is external; what it does with the C-api is in
  `middleware/http/source/inbound/nginx/plugin/ngx_http_casual_module.c:265-400`.
-/
namespace Casual.Http

/-- A http request, as the http server gives it to casual: `middleware/http/include/http/inbound/call.h:72-90`. -/
structure HttpRequest where
  service : Text
  headers : List (Text × Text)
  body : List Byte
  deriving DecidableEq, Repr

/-- A http reply: `middleware/http/include/http/inbound/call.h:92-101`, the headers are fields. -/
structure HttpReply where
  status : Nat
  headers : List Text
  body : List Byte
  deriving DecidableEq, Repr

/-- The call that is made, `message::service::call::callee::Request`: the buffer and the header. -/
structure Callee where
  buffer : Payload
  header : List Text
  deriving DecidableEq, Repr

/-- A call that is under way: `basic_caller` and `Context`, `middleware/http/source/inbound/call.cpp:114-154,254-262`. -/
structure Ctx where
  /-- `m_protocol` -/
  protocol : Text
  /-- The request, until it has been sent. -/
  request : Option Callee
  /-- Names of services that have been looked up. -/
  lookups : List Text
  deriving DecidableEq, Repr

/-- What kind of code an error has. -/
inductive Cat where
  | http
  | xatmi
  | casual
  deriving DecidableEq, Repr

/-- An error that is raised: the code and `what()`. -/
structure Err where
  cat : Cat
  value : Int
  what : List Byte := []
  deriving DecidableEq, Repr

/-- The answer of the service manager. -/
inductive Lookup where
  | absent
  | timeout
  /-- There is an instance; does the request reach it? If not: the error. -/
  | idle (sent : Option Err)
  deriving DecidableEq, Repr

/-- The answer of the service. -/
structure SvcReply where
  code : Int
  user : Int
  buffer : Payload
  deriving DecidableEq, Repr

/-- What can come to a call that is under way. -/
inductive InMsg where
  | lookup (l : Lookup)
  | reply (r : SvcReply)
  deriving DecidableEq, Repr

/-- The headers as fields: `middleware/http/source/inbound/c/api.cpp:155-159`. -/
def inFields (hs : List (Text × Text)) : List Text := hs.map fun h => mkField h.1 h.2

/-- `buffer::type`: `middleware/http/source/inbound/call.cpp:45-51`. `none`: an exception. -/
def bufferType (fs : List Text) : Option Text := (ffind fs "content-type".toList).map fun f => toBuffer (fvalue f)

/-- `Service::transform( Request)`: `middleware/http/source/inbound/call.cpp:160-172`. `none`: an exception. -/
def calleeOf (base64 : Bool) (fs : List Text) (body : List Byte) : Option Callee :=
  match bufferType fs with
  | none => none
  | some t =>
    let p : Payload := { type := t, data := body }
    (if base64 then fromWire p else some p).map fun p => { buffer := p, header := fs }

/-- A http request comes: `payload::push`, `request::set` and `call`. `none`: the process terminates: the
state of a request is only there if there is a body (`middleware/http/source/inbound/c/api.cpp:217-227,60-66`), and nothing takes care of
exceptions from `Context::Context` (`middleware/http/source/inbound/call.cpp:254-262`, `middleware/http/source/inbound/c/api.cpp:110-125`). -/
def begin (base64 : Bool) (q : HttpRequest) : Option Ctx :=
  if q.body = [] then none
  else
    match bufferType (inFields q.headers) with
    | none => none
    | some t => (calleeOf base64 (inFields q.headers) q.body).map fun c => { protocol := t, request := some c, lookups := [q.service] }

/-- `transform::reply::code`: `middleware/http/source/inbound/call.cpp:53-66`. -/
def httpStatus (code : Int) : Nat := if code = ok then 200 else if code = timeout then 408 else 500

/-- The headers with the result: `middleware/http/source/inbound/call.cpp:183-184,298-299`. -/
def resultFields (code user : Int) : List Text :=
  [mkField resultName (describe code), mkField userName (showLong user)]

/-- `Service::transform( Reply)`: `middleware/http/source/inbound/call.cpp:174-189`. -/
def replyOf (base64 : Bool) (r : SvcReply) : HttpReply :=
  let b := if base64 then toWire r.buffer else r.buffer
  { status := httpStatus r.code
    headers := [mkField "content-length".toList (showLong b.data.length), mkField "content-type".toList (fromBuffer b.type)]
      ++ resultFields r.code r.user
    body := b.data }

/-- An exception becomes a reply: `middleware/http/source/inbound/call.cpp:284-309`. -/
def errorOf (base64 : Bool) (proto : Text) (e : Err) : HttpReply :=
  let p : Payload := { type := proto, data := e.what }
  let p := if base64 then toWire p else p
  { status := match e.cat with
      | .http => e.value.toNat
      | .xatmi => if e.value = noEntry then 404 else 500
      | .casual => 500
    headers := mkField "content-length".toList (showLong p.data.length) :: resultFields e.value 0
    body := p.data }

/-- `Context::receive`, with a message that has come: `middleware/http/source/inbound/call.cpp:124-148,268-310`, the lookup
`middleware/http/source/inbound/call.cpp:85-106`. A message of the other kind is not taken. -/
def receive (base64 : Bool) (ctx : Ctx) (m : InMsg) : Ctx × Option HttpReply :=
  match ctx.request, m with
  | some _, .lookup .absent => ({ ctx with request := none }, some (errorOf base64 ctx.protocol { cat := .xatmi, value := noEntry, what := [110] }))
  | some _, .lookup .timeout => ({ ctx with request := none }, some (errorOf base64 ctx.protocol { cat := .xatmi, value := timeout, what := [116] }))
  | some _, .lookup (.idle none) => ({ ctx with request := none }, none)
  | some _, .lookup (.idle (some e)) => ({ ctx with request := none }, some (errorOf base64 ctx.protocol e))
  | none, .reply r => (ctx, some (replyOf base64 r))
  | _, _ => (ctx, none)

/-- What the http server gets: `receive` and `reply::get`, `middleware/http/source/inbound/c/api.cpp:127-147,165-212`: a reply without a body
gets the body "NULL", the content type is by itself, the rest of the headers but the length follow. -/
structure Served where
  status : Nat
  contentType : Option Text
  headers : List (Text × Text)
  body : List Byte
  deriving DecidableEq, Repr

/-- See `Served`. -/
def serve (r : HttpReply) : Served :=
  { status := r.status
    contentType := (ffind r.headers "content-type".toList).map fvalue
    headers := (r.headers.filter fun f => fname f != "content-type".toList && fname f != "content-length".toList).map fun f => (fname f, fvalue f)
    body := if r.body = [] then [78, 85, 76, 76] else r.body }

end Casual.Http
