/-
  Model of the discovery process of a domain, `middleware/domain/source/discovery/
  {handle,state}.cpp` and `domain/include/domain/{discovery/state,message/discovery}.h`:
  requests from other domains, from this domain, rediscovery, topology updates, and what is
  accumulated under load; with the short-circuit fan-out `minimal::fan::Out`,
  `common/include/common/message/coordinate.h:220-379`.

  Simplifications.
  * Names of services and queues are natural numbers: the code only compares them (for
    equality and by their order).  What else is known of a service or a queue is one
    opaque number.
  * `multiplex.send` returns a null correlation when the destination can not be reached
    (`common/source/communication/ipc/send.cpp:122-150`): `Env.reach`, per step.  What could
    not be delivered is in the log as `lost`.
  * The heuristic of `Accumulate` (`state.cpp:99-110`) reads the counters of messages that
    are received and sent by the communication layer: `Env.busy`, any function of what has
    been done so far.
  * The timer is a flag: armed or not.  A timeout can come at any time (a late alarm signal).
  * `fan::Out` is its list of entries.  `Verif/FanOut/Refine.lean` proves that its lookup map
    holds exactly the correlations that are waited for, so an entry is found by those.
    A failed process is given by a predicate on handles (pid or ipc), as in the code.
  * `m_lookup`/`unordered_map` of routes are association lists.
  * `sorted::append_unique` is modelled for sorted arguments, as it requires.
  * The admin interface, metrics, aliases of domains are left out.
  * `log` is ghost: all inputs and outputs in order.  The handle of a provider, and its
    abilities in the registration reply, are in the outputs for the sake of the log.
-/
namespace Casual.Discovery

abbrev Name := Nat
abbrev Pid := Nat
abbrev Ipc := Nat
abbrev Corr := Nat
abbrev Domain := Nat

/-- `common::process::Handle`. -/
structure Handle where
  pid : Pid
  ipc : Ipc
deriving DecidableEq, Repr

/-- `provider::registration::Ability`, a set of flags, `message/discovery.h:399-405`. -/
structure Ability where
  discover : Bool := false
  lookup : Bool := false
  fetchKnown : Bool := false
  topology : Bool := false
deriving DecidableEq, Repr

/-- `state::Provider`, `state.h:46-61`. -/
structure Provider where
  process : Handle
  abilities : Ability
deriving DecidableEq, Repr

/-- `reply::content::Service`; equality and order are those of the names,
`common/message/service.h:189-200`. -/
structure Svc where
  name : Name
  info : Nat := 0
deriving DecidableEq, Repr

/-- `reply::content::Queue`; equality and order are those of all members,
`message/discovery.h:98-111`. -/
structure Que where
  name : Name
  info : Nat := 0
deriving DecidableEq, Repr

/-- `request::Content`, `message/discovery.h:36-63`. -/
structure Want where
  services : List Name := []
  queues : List Name := []
deriving DecidableEq, Repr

/-- `reply::Content`, `message/discovery.h:149-174`. -/
structure Offer where
  services : List Svc := []
  queues : List Que := []
deriving DecidableEq, Repr

/-! ### Sorted sets, `common/algorithm/sorted.h` and `algorithm.h` -/

section Sorted
variable {α : Type} (le : α → α → Bool)

/-- Neither is before the other. -/
def same (a b : α) : Bool := le a b && le b a

def insertBy (x : α) : List α → List α
  | [] => [x]
  | y :: ys => if le x y then x :: y :: ys else y :: insertBy x ys

/-- `algorithm::sort`. -/
def sortBy (l : List α) : List α := l.foldr (insertBy le) []

/-- `algorithm::unique`: the first of each run of equal elements. -/
def uniqueBy : List α → List α
  | [] => []
  | x :: xs =>
    match uniqueBy xs with
    | [] => [x]
    | y :: ys => if same le x y then x :: ys else x :: y :: ys

/-- `algorithm::container::sort::unique`. -/
def sortUnique (l : List α) : List α := uniqueBy le (sortBy le l)

/-- `sorted::append_unique( source, target)`, `sorted.h:148-157`: those of the source that are
not in the target (`sorted::intersection`, `sorted.h:111-146`), each once, are added. -/
def appendUnique (source target : List α) : List α :=
  sortBy le (target ++ uniqueBy le (sortBy le (source.filter fun x => !target.any (same le x))))

end Sorted

def nameLe (a b : Name) : Bool := decide (a ≤ b)
def svcLe (a b : Svc) : Bool := decide (a.name ≤ b.name)
def queLe (a b : Que) : Bool := decide (a.name < b.name) || (decide (a.name = b.name) && decide (a.info ≤ b.info))

/-- `request::Content::operator +=`, `message/discovery.h:38-43`. -/
def Want.add (a b : Want) : Want :=
  { services := appendUnique nameLe b.services a.services
    queues := appendUnique nameLe b.queues a.queues }

/-- `request::Content::operator bool`, `message/discovery.h:55`. -/
def Want.any (w : Want) : Bool := !w.services.isEmpty || !w.queues.isEmpty

/-- `reply::Content::operator +=`, `message/discovery.h:153-158`. -/
def Offer.add (a b : Offer) : Offer :=
  { services := appendUnique svcLe b.services a.services
    queues := appendUnique queLe b.queues a.queues }

/-! ### Messages -/

/-- `message::discovery::Request` but for the directive; `message::discovery::api::Request`
is the same. -/
structure Req where
  corr : Corr
  process : Handle
  content : Want
deriving DecidableEq, Repr

/-- `lookup::request::Scope`. -/
inductive Scope where
  | internal | extended
deriving DecidableEq, Repr

/-- `topology::direct::Update`; the correlation tells messages apart. -/
structure Direct where
  process : Handle
  configured : Want
  corr : Corr := 0
deriving DecidableEq, Repr

/-- `topology::implicit::Update`; the correlation tells messages apart. -/
structure Implicit where
  process : Handle
  domains : List Domain
  corr : Corr := 0
deriving DecidableEq, Repr

/-- `configuration::model::service::Service`: the name and its routes. -/
structure SvcCfg where
  name : Name
  routes : List Name
deriving DecidableEq, Repr

/-- What the process receives. -/
inductive Input where
  /-- a provider registers -/
  | registration (corr : Corr) (process : Handle) (abilities : Ability)
  /-- a request from this domain -/
  | api (r : Req)
  /-- a request from another domain, by an inbound; with directive `forward`, or `local` -/
  | request (forward : Bool) (r : Req)
  | rediscovery (corr : Corr) (process : Handle)
  | lookupReply (corr : Corr) (content : Offer)
  | reply (corr : Corr) (content : Offer)
  | knownReply (corr : Corr) (content : Want)
  | direct (d : Direct)
  | implicit (i : Implicit)
  | timeout
  | exit (pid : Pid)
  | ipcDestroyed (ipc : Ipc)
  | configuration (corr : Corr) (process : Handle) (services : List SvcCfg)
  | shutdown
deriving DecidableEq, Repr

/-- What the process sends. -/
inductive Out where
  | registrationReply (dst : Handle) (corr : Corr) (abilities : Ability)
  | apiReply (dst : Ipc) (corr : Corr) (content : Offer)
  | reply (dst : Ipc) (corr : Corr) (content : Offer)
  | rediscoveryReply (dst : Ipc) (corr : Corr) (content : Offer)
  | lookup (dst : Handle) (corr : Corr) (scope : Scope) (content : Want)
  | request (dst : Handle) (corr : Corr) (content : Want)
  | known (dst : Handle) (corr : Corr)
  | explore (dst : Ipc) (content : Want)
  | implicit (dst : Ipc) (domains : List Domain)
  | configurationReply (dst : Ipc) (corr : Corr)
deriving DecidableEq, Repr

inductive Item where
  | inp (i : Input)
  | out (o : Out)
  /-- could not be delivered -/
  | lost (o : Out)
deriving DecidableEq, Repr

/-- What the environment decides in a step. -/
structure Env where
  reach : Ipc → Bool
  busy : List Item → Bool

/-! ### State -/

/-- `Pending::State`, `coordinate.h:39-44` and `242-246`. -/
inductive PState where
  | pending | received | failed
deriving DecidableEq, Repr

/-- `Pending`, `coordinate.h:37-76` and `240-275`. -/
structure Pend where
  corr : Corr
  process : Handle
  state : PState := .pending
deriving DecidableEq, Repr

/-- `fan::Out::Entry`, `coordinate.h:78-134`: the messages `M` received, and the callback. -/
structure FanEntry (M K : Type) where
  pend : List Pend
  received : List M := []
  callback : K
deriving Repr

/-- The callbacks of `coordinate.lookup`, `handle.cpp:412-426` and `446-470`. -/
inductive LookupCb where
  | internal (r : Req)
  | extended (r : Req)
deriving DecidableEq, Repr

/-- The callbacks of `coordinate.known`, `handle.cpp:344-390` and `561-613`. -/
inductive KnownCb where
  | rediscovery (corr : Corr) (process : Handle)
  | topology (direct : List Direct) (implicit : List Implicit)
deriving DecidableEq, Repr

/-- The data shared by the callbacks of `coordinate.discovery`: `handle.cpp:236-287`
(`key` is the correlation of the guard), and `367-386`. -/
inductive DiscCb where
  | aggregated (content : Offer) (discovery api : List Req) (key : Nat)
  | rediscovery (content : Offer) (corr : Corr) (process : Handle)
deriving DecidableEq, Repr

/-- `minimal::fan::out::Entry`, `coordinate.h:278-329`. -/
structure DiscEntry where
  pend : List Pend
  callback : DiscCb
deriving DecidableEq, Repr

/-- `Accumulate`, `state.h:106-121` and `173-196`. -/
structure Accumulate where
  deadline : Bool := false
  discovery : List Req := []
  api : List Req := []
  implicit : List Implicit := []
  direct : List Direct := []
  lookup : Offer := {}
deriving DecidableEq, Repr

/-- `State`, `state.h:200-255`. -/
structure State where
  /-- the identity of the domain -/
  domain : Domain
  /-- `runlevel > running` -/
  shutdown : Bool := false
  providers : List Provider := []
  discovery : List DiscEntry := []
  lookup : List (FanEntry Offer LookupCb) := []
  known : List (FanEntry Want KnownCb) := []
  toRoutes : List (Name × List Name) := []
  toOrigin : List (Name × Name) := []
  accumulate : Accumulate := {}
  /-- `pending_content`, with the next key -/
  pending : List (Nat × Want) := []
  nextKey : Nat := 0
  nextCorr : Corr := 0
  log : List Item := []

/-- `State::done`, `state.cpp:211-217`. -/
def State.done (s : State) : Bool :=
  s.shutdown && (s.discovery.isEmpty && s.lookup.isEmpty && s.known.isEmpty)

/-- `detail::send::multiplex`, `handle.cpp:54-58`. -/
def State.send (s : State) (env : Env) (dst : Ipc) (o : Out) : State :=
  { s with log := s.log ++ [if env.reach dst then .out o else .lost o] }

/-- `detail::send::requests`, `handle.cpp:60-81`: each request gets a correlation of its own;
those that could be sent are waited for. -/
def State.requests (s : State) (env : Env) (ps : List Provider) (mk : Handle → Corr → Out) : State × List Pend :=
  ps.foldl (fun r p =>
    ({ r.1.send env p.process.ipc (mk p.process r.1.nextCorr) with nextCorr := r.1.nextCorr + 1 },
      if env.reach p.process.ipc then r.2 ++ [{ corr := r.1.nextCorr, process := p.process }] else r.2)) (s, [])

/-- `state.pending_content()`, `state.cpp:74-80`. -/
def State.pendingContent (s : State) : Want := s.pending.foldl (fun w p => w.add p.2) {}

/-! ### Contents, `handle.cpp:100-194` -/

/-- `content::normalize::request`, `handle.cpp:102-114`. -/
def State.normalize (s : State) (w : Want) : Want :=
  { services := sortUnique nameLe (w.services.map fun n =>
      match s.toOrigin.find? (·.1 == n) with
      | some p => p.2
      | none => n)
    queues := sortUnique nameLe w.queues }

/-- `content::normalize::reply`, `handle.cpp:116-136`. -/
def State.normalizeReply (s : State) (o : Offer) : Offer :=
  { queues := o.queues
    services := sortUnique svcLe (o.services.flatMap fun x =>
      match s.toRoutes.find? (·.1 == x.name) with
      | some p => p.2.map fun route => { x with name := route }
      | none => [x]) }

/-- `content::includes`, `handle.cpp:142-146`. -/
def Want.includedIn (w : Want) (o : Offer) : Bool :=
  (w.services.all fun n => o.services.any (·.name == n)) && (w.queues.all fun n => o.queues.any (·.name == n))

/-- `content::difference`, `handle.cpp:149-163`. -/
def Want.diff (w : Want) (o : Offer) : Want :=
  { services := w.services.filter fun n => !o.services.any (·.name == n)
    queues := w.queues.filter fun n => !o.queues.any (·.name == n) }

/-- The content of `content::send_reply`, `handle.cpp:167-179`: for each that is asked for the
first that has the name. -/
def Offer.answer (o : Offer) (w : Want) : Offer :=
  { services := w.services.filterMap fun n => o.services.find? (·.name == n)
    queues := w.queues.filterMap fun n => o.queues.find? (·.name == n) }

/-- `content::send_reply` to a request of another domain. -/
def State.sendReply (s : State) (env : Env) (o : Offer) (r : Req) : State :=
  s.send env r.process.ipc (.reply r.process.ipc r.corr (o.answer r.content))

/-- `content::send_reply` to a request of this domain. -/
def State.sendApiReply (s : State) (env : Env) (o : Offer) (r : Req) : State :=
  s.send env r.process.ipc (.apiReply r.process.ipc r.corr (o.answer r.content))

/-! ### The short-circuit fan-out, `coordinate.h:278-379` -/

/-- `done_callback`, `handle.cpp:256-267` and `381-386`. -/
def State.discDone (s : State) (env : Env) : DiscCb → State
  | .aggregated content discovery api _ =>
    discovery.foldl (fun s r => s.sendReply env content r) (api.foldl (fun s r => s.sendApiReply env content r) s)
  | .rediscovery content corr process => s.send env process.ipc (.rediscoveryReply process.ipc corr content)

/-- The entry is destroyed, and with it the guard that removes the pending content,
`handle.cpp:236-239`, `state.cpp:69-72`. -/
def State.discRelease (s : State) : DiscCb → State
  | .aggregated _ _ _ key => { s with pending := s.pending.filter fun p => !(p.1 == key) }
  | .rediscovery .. => s

/-- `all_of( m_pending, state == failed)`, `coordinate.h:309-316`. -/
def allFailed (ps : List Pend) : Bool := ps.all fun p => p.state == .failed

/-- `minimal::fan::Out::add`, `coordinate.h:340-350`. -/
def State.discAdd (s : State) (env : Env) (e : DiscEntry) : State :=
  if allFailed e.pend then (s.discDone env e.callback).discRelease e.callback
  else { s with discovery := s.discovery ++ [e] }

/-- Send the replies to those whose request is included, and erase them: `handle.cpp:275-281`. -/
def State.sendIncluded (s : State) (content : Offer) (send : State → Req → State) (rs : List Req) : State × List Req :=
  ((rs.filter fun r => r.content.includedIn content).foldl send s, rs.filter fun r => !r.content.includedIn content)

/-- `message_callback`, `handle.cpp:269-287` and `371-379`: `true` for `Directive::done`. -/
def State.discMessage (s : State) (env : Env) (o : Offer) : DiscCb → State × DiscCb × Bool
  | .aggregated content discovery api key =>
    let content := content.add (s.normalizeReply o)
    let a := s.sendIncluded content (fun s r => s.sendApiReply env content r) api
    let d := a.1.sendIncluded content (fun s r => s.sendReply env content r) discovery
    (d.1, .aggregated content d.2 a.2 key, a.2.isEmpty && d.2.isEmpty)
  | .rediscovery content corr process => (s, .rediscovery (content.add o) corr process, false)

/-- Erase the first that satisfies `p`. -/
def eraseFirst {α : Type} (p : α → Bool) : List α → List α
  | [] => []
  | x :: xs => if p x then xs else x :: eraseFirst p xs

/-- `Entry::operator()`, `coordinate.h:288-298`, then `Out::operator()`, `352-357`: the rest of
the entries is `before` and `after`. -/
def State.discEntryMsg (s : State) (env : Env) (corr : Corr) (o : Offer) (before : List DiscEntry) (e : DiscEntry)
    (after : List DiscEntry) : State :=
  let pend := eraseFirst (·.corr == corr) e.pend
  let r := s.discMessage env o e.callback
  if r.2.2 then { r.1 with discovery := before ++ after }.discRelease r.2.1
  else if allFailed pend then ({ r.1 with discovery := before ++ after }.discDone env r.2.1).discRelease r.2.1
  else { r.1 with discovery := before ++ { pend := pend, callback := r.2.1 } :: after }

/-- `algorithm::find( m_entries, message.correlation)`, `coordinate.h:354`. -/
def State.discMsgIn (s : State) (env : Env) (corr : Corr) (o : Offer) (before : List DiscEntry) : List DiscEntry → State
  | [] => s
  | e :: es =>
    if e.pend.any (·.corr == corr) then s.discEntryMsg env corr o before e es
    else s.discMsgIn env corr o (before ++ [e]) es

/-- `minimal::fan::Out::operator()( message)`. -/
def State.discMsg (s : State) (env : Env) (corr : Corr) (o : Offer) : State :=
  s.discMsgIn env corr o [] s.discovery

/-- Those of the process are failed, `coordinate.h:96-108` and `302-304`. -/
def failPend (p : Handle → Bool) (ps : List Pend) : List Pend :=
  ps.map fun x => if p x.process then { x with state := .failed } else x

/-- `minimal::fan::Out::failed`, `coordinate.h:359-365` with `Entry::failed`, `300-307`. -/
def State.discFailed (s : State) (env : Env) (p : Handle → Bool) : State :=
  let es := s.discovery.map fun e => { e with pend := failPend p e.pend }
  (es.filter fun e => allFailed e.pend).foldl (fun s e => (s.discDone env e.callback).discRelease e.callback)
    { s with discovery := es.filter fun e => !allFailed e.pend }

/-! ### Discovery, `handle.cpp:196-290` -/

/-- `send_aggregated_discovery`, `handle.cpp:196-290`. -/
def State.aggregated (s : State) (env : Env) (discovery api : List Req) (localContent : Offer) : State :=
  if discovery.isEmpty && api.isEmpty then s
  else
    let content := (discovery ++ api).foldl (fun w r => w.add r.content) ({} : Want)
    let content := s.normalize (content.diff localContent)
    let r := if content.any then s.requests env (s.providers.filter (·.abilities.discover)) (fun h c => .request h c content)
      else (s, [])
    let s := { r.1 with pending := r.1.pending ++ [(r.1.nextKey, content)], nextKey := r.1.nextKey + 1 }
    s.discAdd env { pend := r.2, callback := .aggregated localContent discovery api r.1.nextKey }

/-- `Accumulate::operator bool`, `state.cpp:184-190`. -/
def State.accumulating (s : State) (env : Env) : Bool := s.accumulate.deadline || env.busy s.log

/-- `Accumulate::add( discovery::Request)`, `state.cpp:136-142`. -/
def Accumulate.addDiscovery (a : Accumulate) (r : Req) : Accumulate :=
  { a with discovery := a.discovery ++ [r], deadline := true }

/-- `Accumulate::add( api::Request)`, `state.cpp:144-151`. -/
def Accumulate.addApi (a : Accumulate) (r : Req) : Accumulate :=
  { a with api := a.api ++ [r], deadline := true }

/-- `Accumulate::add( direct::Update)`, `state.cpp:153-160`. -/
def Accumulate.addDirect (a : Accumulate) (d : Direct) : Accumulate :=
  { a with direct := a.direct ++ [d], deadline := true }

/-- `Accumulate::add( implicit::Update)`, `state.cpp:162-168`. -/
def Accumulate.addImplicit (a : Accumulate) (i : Implicit) : Accumulate :=
  { a with implicit := a.implicit ++ [i], deadline := true }

/-- `Accumulate::add( reply::Content)`, `state.cpp:170-173`. -/
def Accumulate.addLookup (a : Accumulate) (o : Offer) : Accumulate := { a with lookup := a.lookup.add o }

/-! ### The fan-outs `lookup` and `known` -/

/-- The callbacks of `handle_internal_lookup`, `handle.cpp:412-426`, and
`handle_extended_lookup`, `446-470`. -/
def State.lookupDone (s : State) (env : Env) (replies : List Offer) : LookupCb → State
  | .internal r =>
    s.send env r.process.ipc (.reply r.process.ipc r.corr (replies.foldl Offer.add {}))
  | .extended r =>
    let content := replies.foldl Offer.add ({} : Offer)
    if r.content.includedIn content then s.sendReply env content r
    else if s.accumulating env then
      { s with accumulate := (s.accumulate.addDiscovery r).addLookup content }
    else s.aggregated env [r] [] content

/-- The targets of the explore message: `unique( sort( targets))`, `handle.cpp:589-595`. -/
def targets (direct : List Direct) (implicit : List Implicit) : List Ipc :=
  sortUnique nameLe (direct.map (·.process.ipc) ++ implicit.map (·.process.ipc))

/-- `append_unique_value`, `common/algorithm.h:717-726`. -/
def appendValue (d : Domain) (ds : List Domain) : List Domain := if ds.contains d then ds else ds ++ [d]

/-- `append_unique( range, output)`, `common/algorithm.h:762-770`. -/
def appendDomains (ds : List Domain) (out : List Domain) : List Domain := ds.foldl (fun r d => appendValue d r) out

/-- The callbacks of `rediscovery::request`, `handle.cpp:344-390`, and `send_direct_explore`,
`561-613`. -/
def State.knownDone (s : State) (env : Env) (replies : List Want) : KnownCb → State
  | .rediscovery corr process =>
    let content := replies.foldl Want.add ({} : Want)
    let content := (s.normalize content).add s.pendingContent
    let r := s.requests env (s.providers.filter (·.abilities.discover)) (fun h c => .request h c content)
    r.1.discAdd env { pend := r.2, callback := .rediscovery {} corr process }
  | .topology direct implicit =>
    let content := replies.foldl Want.add ({} : Want)
    let content := direct.foldl (fun w d => w.add d.configured) content
    let content := (s.normalize content).add s.pendingContent
    let s := if content.any then (targets direct implicit).foldl (fun s t => s.send env t (.explore t content)) s else s
    let domains := appendValue s.domain (implicit.foldl (fun r i => appendDomains i.domains r) [])
    (s.providers.filter (·.abilities.topology)).foldl (fun s p => s.send env p.process.ipc (.implicit p.process.ipc domains)) s

/-- `! any_of( m_pending, pending)`, `coordinate.h:110-117`. -/
def noneWaits (ps : List Pend) : Bool := !ps.any fun p => p.state == .pending

/-- `coordinate.lookup( pendings, callback)`, `coordinate.h:142-155`. -/
def State.lookupAdd (s : State) (env : Env) (pend : List Pend) (cb : LookupCb) : State :=
  if noneWaits pend then s.lookupDone env [] cb
  else { s with lookup := s.lookup ++ [{ pend := pend, callback := cb }] }

/-- `coordinate.known( pendings, callback)`, `coordinate.h:142-155`. -/
def State.knownAdd (s : State) (env : Env) (pend : List Pend) (cb : KnownCb) : State :=
  if noneWaits pend then s.knownDone env [] cb
  else { s with known := s.known ++ [{ pend := pend, callback := cb }] }

/-- Is the correlation waited for?  (It is in `m_lookup`.) -/
def waitsFor (corr : Corr) (ps : List Pend) : Bool := ps.any fun p => p.corr == corr && p.state == .pending

/-- `found->state = received`, `coordinate.h:87-90`. -/
def receivePend (corr : Corr) : List Pend → List Pend
  | [] => []
  | p :: ps => if p.corr == corr then { p with state := .received } :: ps else p :: receivePend corr ps

/-- `coordinate.lookup( message)`, `coordinate.h:159-170`. -/
def State.lookupMsgIn (s : State) (env : Env) (corr : Corr) (o : Offer) (before : List (FanEntry Offer LookupCb)) :
    List (FanEntry Offer LookupCb) → State
  | [] => s
  | e :: es =>
    if waitsFor corr e.pend then
      let e := { e with pend := receivePend corr e.pend, received := e.received ++ [o] }
      if noneWaits e.pend then { s with lookup := before ++ es }.lookupDone env e.received e.callback
      else { s with lookup := before ++ e :: es }
    else s.lookupMsgIn env corr o (before ++ [e]) es

/-- `coordinate.known( message)`, `coordinate.h:159-170`. -/
def State.knownMsgIn (s : State) (env : Env) (corr : Corr) (w : Want) (before : List (FanEntry Want KnownCb)) :
    List (FanEntry Want KnownCb) → State
  | [] => s
  | e :: es =>
    if waitsFor corr e.pend then
      let e := { e with pend := receivePend corr e.pend, received := e.received ++ [w] }
      if noneWaits e.pend then { s with known := before ++ es }.knownDone env e.received e.callback
      else { s with known := before ++ e :: es }
    else s.knownMsgIn env corr w (before ++ [e]) es

/-- Does the failed process have to do with the entry, and is it done?  `coordinate.h:180-188`. -/
def failDone (p : Handle → Bool) (ps : List Pend) : Bool :=
  (ps.any fun x => p x.process) && noneWaits (failPend p ps)

/-- `coordinate.lookup.failed`, `coordinate.h:175-191`. -/
def State.lookupFailed (s : State) (env : Env) (p : Handle → Bool) : State :=
  (s.lookup.filter fun e => failDone p e.pend).foldl (fun s e => s.lookupDone env e.received e.callback)
    { s with lookup := (s.lookup.filter fun e => !failDone p e.pend).map fun e => { e with pend := failPend p e.pend } }

/-- `coordinate.known.failed`, `coordinate.h:175-191`. -/
def State.knownFailed (s : State) (env : Env) (p : Handle → Bool) : State :=
  (s.known.filter fun e => failDone p e.pend).foldl (fun s e => s.knownDone env e.received e.callback)
    { s with known := (s.known.filter fun e => !failDone p e.pend).map fun e => { e with pend := failPend p e.pend } }

/-- `State::failed`, `state.cpp:199-209`, with `coordinate.failed`, `state.h:215`. -/
def State.failed (s : State) (env : Env) (p : Handle → Bool) : State :=
  let s := { s with providers := s.providers.filter fun x => !p x.process }
  ((s.discFailed env p).lookupFailed env p).knownFailed env p

/-! ### The handlers, `handle.cpp:295-730` -/

/-- `providers.registration`, `state.cpp:32-40`. -/
def State.register (s : State) (process : Handle) (abilities : Ability) : State :=
  if s.providers.any (·.process.ipc == process.ipc) then s
  else { s with providers := s.providers ++ [{ process := process, abilities := abilities }] }

/-- `collect::known::requests`, `handle.cpp:88-96`. -/
def State.collectKnown (s : State) (env : Env) : State × List Pend :=
  s.requests env (s.providers.filter (·.abilities.fetchKnown)) (fun h c => .known h c)

/-- `handle_internal_lookup` and `handle_extended_lookup`, `handle.cpp:397-411` and `428-445`. -/
def State.localLookup (s : State) (env : Env) (scope : Scope) (r : Req) : State :=
  let x := s.requests env (s.providers.filter (·.abilities.lookup)) (fun h c => .lookup h c scope r.content)
  x.1.lookupAdd env x.2 (match scope with
    | .internal => .internal r
    | .extended => .extended r)

/-- `send_direct_explore`, `handle.cpp:551-561`. -/
def State.explore (s : State) (env : Env) (direct : List Direct) (implicit : List Implicit) : State :=
  if direct.isEmpty && implicit.isEmpty then s
  else
    let r := s.collectKnown env
    r.1.knownAdd env r.2 (.topology direct implicit)

/-- `map[ key] = value`. -/
def assign {β : Type} (m : List (Name × β)) (k : Name) (v : β) : List (Name × β) :=
  (m.filter fun p => !(p.1 == k)) ++ [(k, v)]

/-- `handle::configuration_update`, `handle.cpp:796-809`. -/
def State.configure (s : State) (services : List SvcCfg) : State :=
  services.foldl (fun s x =>
    { s with
      toRoutes := assign s.toRoutes x.name x.routes
      toOrigin := x.routes.foldl (fun m route => assign m route x.name) s.toOrigin })
    { s with toRoutes := [], toOrigin := [] }

/-- One input: `handle::create`, `handle.cpp:811-837`, and the handlers it lists. -/
def State.handle (s : State) (env : Env) : Input → State
  | .registration corr process abilities =>
    -- `handle.cpp:299-311`
    let s := s.send env process.ipc (.registrationReply process corr abilities)
    if env.reach process.ipc then s.register process abilities else s
  | .api r =>
    -- `handle.cpp:314-332`
    if s.shutdown || !r.content.any then s.send env r.process.ipc (.apiReply r.process.ipc r.corr {})
    else if s.accumulating env then { s with accumulate := s.accumulate.addApi r }
    else s.aggregated env [] [r] {}
  | .request forward r =>
    -- `handle.cpp:476-502`
    if s.shutdown then s.send env r.process.ipc (.reply r.process.ipc r.corr {})
    else if forward then s.localLookup env .extended r
    else s.localLookup env .internal r
  | .rediscovery corr process =>
    -- `handle.cpp:336-392`
    let r := s.collectKnown env
    r.1.knownAdd env r.2 (.rediscovery corr process)
  | .lookupReply corr o => s.lookupMsgIn env corr o [] s.lookup
  | .reply corr o => s.discMsg env corr o
  | .knownReply corr w => s.knownMsgIn env corr w [] s.known
  | .direct d =>
    -- `handle.cpp:649-664`
    if s.shutdown then s else { s with accumulate := s.accumulate.addDirect d }
  | .implicit i =>
    -- `handle.cpp:625-644`
    if s.shutdown then s
    else if i.domains.contains s.domain then s
    else { s with accumulate := s.accumulate.addImplicit i }
  | .timeout =>
    -- `handle.cpp:670-683`
    let a := s.accumulate
    let s := { s with accumulate := {} }
    (s.explore env a.direct a.implicit).aggregated env a.discovery a.api a.lookup
  | .exit pid => s.failed env (·.pid == pid)
  | .ipcDestroyed ipc => s.failed env (·.ipc == ipc)
  | .configuration corr process services =>
    -- `handle.cpp:721-730`
    (s.configure services).send env process.ipc (.configurationReply process.ipc corr)
  | .shutdown => { s with shutdown := true }

/-- A step: the input is recorded, then handled.  When `done` the process leaves its message
pump, `main.cpp:65-88`. -/
def State.step (s : State) (x : Env × Input) : State :=
  if s.done then s
  else ({ s with log := s.log ++ [.inp x.2] } : State).handle x.1 x.2

/-- `initialize`, `main.cpp:32-52`: the routes of the configuration are known from the start. -/
def State.init (domain : Domain) (services : List SvcCfg) : State :=
  ({ domain := domain } : State).configure services

/-- A run of the process. -/
def State.run (domain : Domain) (services : List SvcCfg) (xs : List (Env × Input)) : State :=
  xs.foldl State.step (State.init domain services)

end Casual.Discovery
