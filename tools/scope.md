# Formal model of casualcore/casual - design

Source: `/repo` (C++), read as text only. Prover: Lean 4.33.0, project `/verif/lean`.
This file is put together by `tools/gen_design.py` from `tools/scope.md`, `MANIFEST.json` and the output of `#print axioms`.

## Method

* Each subsystem is a directory `Verif/<Name>/`: `Model.lean` has the code as functions (each definition cites
  the file and lines it models, and says what is simplified), `Spec.lean` the vocabulary in which the properties are stated
  (mostly: functions of the trace of what is sent and received, not of the state of the model), `Props*.lean` the
  property theorems `Cnn_...` with an `example` for each that shows a concrete case that meets the hypotheses.
  The other modules are lemmas.
* C++ `std::vector` -> `List`; ids (uuid, ipc, pid, resource id) -> `Nat`/`Int`; integers are
  unbounded unless the property is about widths; SQLite tables -> lists of rows (each prepared statement is one Lean function, triggers included);
  exceptions -> `Except`/`Option` or a state `halted`; undefined behaviour -> a distinct outcome.
* Closures stored in fan-outs are defunctionalised to a data type of continuations.
* The environment (schedule, other processes, clock, random choices, crashes) is a list of events: a theorem over
  "all histories" is an induction over that list.
* A property that does not hold of the code is kept as it is: its negation is proved with a concrete history as witness
  (`Cnn_..._refuted`), and what does hold is proved as `Cnn_..._partial`. The manifest calls it partial.
* Wrong programs: each subsystem has been edited the way a bug would change it, see `seeded/LOG.jsonl`.

## Trusted base

* Lean's kernel (4.33.0) and the axioms `propext`, `Classical.choice`, `Quot.sound`; which of them each theorem uses is
  in the last section. No axioms of our own, no compiled evaluation (`decide +kernel` only asks the kernel to evaluate).
* The reading of the C++ source by the author: the tie of model to code is the cited lines.
* SQLite executes the statements and triggers as documented, one statement is atomic,
  `COMMIT` makes everything before it durable, a crash discards everything after the last `COMMIT`.
* The kernel delivers datagrams of a unix domain socket whole, once, and in order for each sender.
* Correlation ids, transaction ids and message ids (uuids) are fresh where a theorem says so by a hypothesis.

### What the environment is assumed to do (hypotheses of theorems, by name)

* `HonestReplies` (TM): a resource answers a request with the branch and resource id of the request; `HonestUpstream`: an upstream
  coordinator that has asked us to prepare decides once; `Fresh`: a transaction id that begins has not been used before.
* `asked k tr <= 1`, `SameRequest` (Service): lookups have different correlations. `HonestAck`: who acknowledges a call is who serves it.
  `Forward`: the clock does not go back. `In.leaves`, `In.frees`, `In.patient`, `KeepsOrder`, `Stays`, `In.within`: restrictions of
  partial theorems, each of them with a refutation of the theorem without it.
* Tx: `Env.Willing`: resource managers answer `xa_start` and `xa_end` with ok; `Disjoint`: no resource is both static and dynamic; `Disciplined`:
  the control mode is not changed while transactions are nested. Only where a theorem says so; the others hold for every behaviour of resource managers,
  transaction manager and callees.
* Ipc: messages with a payload; senders do not use the same type and correlation at the same time (needed, see `C31_collision`).
* `Proper` (QManager): the requester can be reached and nobody else uses the correlation of the lookup.
* `NoReuse` (QManager): the pid of a child of the queue manager is not given to another of its children after it has exited.
* `StableSort` (DManager): `std::stable_sort` permutes and leaves a sorted range alone (proved for two sorts, one as in libstdc++). `OncePerLife`: no process is
  admitted twice in its life. `UniquePids`: a spawned process has a pid that no living child has, nor the manager itself. `Proper`, `Clean`: the entities are as
  the configuration makes them. `calm`, `patient`, `noScale`: which requests come meanwhile, as the theorem says. `Answers`: the service manager
  answers what it was asked. `notOf`: the domain manager does not hear of its own exit. `Ready`: the domain is idle when the shutdown is asked for.
* `Room` (Buffer): there is memory for the content after each call; `Call.long`, `IsLong`: ids fit in a `long`. `Op.Possible`: the memory allocator gives memory where no buffer is.
* `NeatHistory` (Conv): a server does not go back to its pump with a conversation open that it has initiated (needed for completeness of data: `conv_data_prefix_untidy`). `goesOn` (Conv): neither
  a rollback nor the end of a service.
* ConfModel: `AllNamed`, `NoDuplicates`: every entity has a name and no two of a kind have the same; `Explicit`: aliases are given and there are no defaults. Restrictions of theorems, with
  refutations without them where they are needed.
* DPost: `Sound`: unique names and aliases, no name begins with `.`, referred groups are there, servers are not in the domain's own groups; `Ordered`: groups come after those they depend on; `Reached`: the domain booted and such configurations were posted, one at a time.
* Http: `AllWant`: the calls want answers; `UserOk`: user codes in headers are numbers; `Accepted`: the service is configured and the call is not in a transaction (or it is discarded); `NotDone`: the request is not done yet; `Fed`: the request is sent before the reply comes; `Carries`: the reply of the other domain is what comes; `Dense`: no white space.
* Chrono: `Written`: the grammar of durations; numbers fit in 64 bits where it is said.
* Callback: `Handy`: destinations that callbacks send to are never blocked; no stack overflow.
* SForward: nothing that is sent to is blocked, where it is said.
* SConf: `Tidy`: each service is configured once, and no name is a route to, or the name of, two services. `answered_partial`: after boot of a `Tidy` configuration and any events of servers.
* TConf: `Quiet`: no instance dies that has not been asked to stop, and no resource that is there is modified; no spawn fails. `Keeps`: no update takes a resource away, and there is no shutdown.
* TConf: `Named`, `Clean` — no name is posted twice in the same configuration. Assumed by `present_partial` only.
* GConf: `Calm` — nothing else is posted, and groups end only when they have been asked to, before the manager is running again; `Unique` — no alias is used twice on a side. `Born` — only processes that have been spawned exit; `fits`, `posts` — an alias on a side is always for the same kind of connections. All are assumed by the `_partial` theorems only, and `Born` by `ended`.
* Env: `Plain`: no `$` in the text; `Name`: a name without braces; `Vars.Unique`: the environment has each name once.
* Queue: message ids of enqueued messages are new; configurations without duplicate names.

## What is modelled, and what is not

| directory | code | left out |
|---|---|---|
| `Code` | `common/code/xa.h`, `xa.cpp`, `tx.cpp`: the codes, their severity, `convert::to::tx` | other error categories |
| `FanOut` | `common/message/coordinate.h` `fan::Out`: `operator()`, `reply`, `failed`, callbacks and their timing | logging; `minimal::fan::Out` |
| `TM` | `transaction/source/manager/handle.cpp`, `state.cpp`, `log.cpp`: begin, involved, commit, rollback, prepare, external resources, active/branch/dynamic registration, resource instances, process exit, persistence of the log, crash and restart | metrics, deadlines of transactions, configuration, admin services, boot of resource proxies |
| `Queue` | `queue/source/group/queuebase.cpp`, `statement.cpp`, `schema.h`: all statements; `group/handle.cpp`, `state.cpp`: enqueue, dequeue, peek, browse, blocking dequeue, prepare/commit/rollback, size limit, persistence before replies, configuration update, crash and restart | metrics, SQLite failures, import/export of queuebases, admin |
| `Service` | `service/source/manager/state.cpp`, `handle.cpp`: see the head of `Service/Model.lean` | routes and configuration update, metrics and events, admin |
| `Data` | `common/transcode.h`/`.cpp` (hex), `transaction/id.h`/`.cpp` (XID), `transaction/global.h`/`.cpp`, `serialize/native/binary.h`, `native/network.h`, `serialize/value.h` (order archives), `memory.h`, `network/byteorder.h` | named archives (json, yaml, xml, ini), `complete.h`, text output of XIDs, multi-maps, durations other than nanoseconds, `bad_alloc` |
| `Tx` | `common/source/transaction/context.cpp`, `transaction.cpp`, the transaction side of `service/call/context.cpp` and `queue/source/api/queue.cpp`: the whole tx/ax interface, joining, automatic and branched transactions, service end | inside of `Resource` (reopen, retry), `tx_info`, forward, conversations |
| `Call` | `common/source/service/call/state.cpp`, `call/context.cpp`: descriptors, replies, cancel; deadlines along a chain of calls | buffers, headers, the wait in the service manager (see `Service`) |
| `Gateway` | `gateway/source/group/outbound/handle.cpp`, `state.cpp`, `gateway/group/tcp.h`, `connection.h`, `casual/task/concurrent.h`: the outbound group: calls, conversations, queue requests, transactions, discovery, metrics, lost connections, disconnect, shutdown (`Out*`). `gateway/source/group/inbound/handle.cpp`, `state.cpp`, `task/create.cpp`: the inbound group: the same, from the other side (`In*`) | connecting and reconnecting, the tcp protocol and its versions (but for the order of sending), the admin interface; of the inbound group: what discovery finds, topology updates, configuration updates, `abort` |
| `Forward` | `queue/source/forward/handle.cpp`, `state.cpp`, `queue/forward/state.h`: the forward process: lookups of queues, dequeue, service lookup and call, enqueue, commit and rollback, undeliverable messages, process exit, configuration updates, shutdown | the message contents but for an id, error events, metrics, the admin interface, groups of forwards (a group update is the update of its forwards) |
| `Task` | `casual/task.h`: the task coordinator (groups of units, actions, handlers, cancel), generic in the state and the tasks | logging, exceptions in actions |
| `QManager` | `queue/source/manager/handle.cpp`, `state.cpp`, `configuration.cpp`, `task.cpp`: the queue manager: registry of queues and remotes, lookups, discards, discovery, groups and forwards as child processes, configuration update, shutdown | metrics, recover and other admin requests, the default of paths |
| `Discovery` | `domain/source/discovery/handle.cpp`, `state.cpp`, `domain/discovery/state.h`, `common/message/coordinate.h` (`minimal::fan::Out`): the discovery process of a domain: requests of this and of other domains, rediscovery, accumulation under load, topology updates, routes, exits, shutdown | the load heuristic (any function), the admin interface, metrics; reading the configuration |
| `DManager` | `domain/source/manager/state.cpp`, `handle.cpp`, `task/create.cpp`, `state/order.cpp`, `main.cpp`, the groups of `transform.cpp`, on the task coordinator of `Task`: boot and shutdown order, instances, spawning, scaling, restarts, exits, connects, singletons, lookups, assassination, shutdown | runtime configuration updates, event subscribers, environment and arguments of processes, `bare` mode, admin output |
| `Buffer` | `buffer/source/field.cpp` (all calls and iteration), `order.cpp`, `string.cpp`, `octet.cpp`; `common/buffer/pool.h`, `pool.cpp`, `type.h`, `type.cpp`, `xatmi/source/xatmi/explicit/buffer.cpp` and what `explicit/service.cpp` does with buffers: handles, the inbound buffer, replies | names of fields, the serialization of structs to fields and the matching of fields, capacities, `bad_alloc` but for `set` |
| `Conv` | `common/source/service/conversation/context.cpp`, `state.h`, `xatmi/source/xatmi/conversation.cpp`, the server side of conversations in `common/server/handle/service.h`, `service.cpp`, `conversation.cpp`, the pump of `server/start.cpp`; with the transactions of `Tx`: tpconnect, tpsend, tprecv, tpdiscon, tpreturn, deaths and reports | deadlines, `TPNOCHANGE`, metrics, forward; conversations through gateways; messages are put into the cache of the receiver at once |
| `Config` | `configuration/model/change.h`: the change between two configurations | (reading, normalising and merging: `ConfModel`) |
| `ConfModel` | `configuration/source/model.cpp`, `configuration/model.h` (union, difference, intersection, normalize), `common.h`/`common.cpp` (aliases and placeholders), `group.cpp` (the coordinator of groups), `user.cpp` (normalize), `model/transform.cpp`, `model/load.cpp`, `model/validate.cpp`, post and put of `domain/source/manager/admin/server.cpp` | the sections `system`, `queue` and `gateway` of the files, environment files, the deprecated `domain.service` and `default.environment`, the parsing of durations |
| `Env` | `common/source/environment/expand.cpp`, `environment.cpp` (get, set, unset, current), `environment/variable.h` | `environment/normalize.h`, the directories, locking |
| `DPost` | domain manager `configuration.cpp` (post), `transform.cpp` (boot, and what it tells), the servers of its own (`handle.cpp`), configuration post of `admin/server.cpp` | how processes are started and stopped (`DManager`), the configuration of the other managers, bare domains |
| `Http` | http outbound (`handle.cpp`, `request.cpp`, `state.cpp`, `transform.cpp`, `configuration.cpp`), http inbound (`call.cpp`, `c/api.cpp`), `http/source/common.cpp`, `transcode.cpp` (base64), `service/header.cpp` | curl and nginx themselves (their events are arbitrary), `inbound/caller.cpp` (the older api), blocking and polling, the directive of inbound, deadlines and parents; cppcodec is taken to be RFC 4648 |
| `Chrono` | `common/source/chronology.cpp`: durations as text, both ways | points in time |
| `Callback` | `common/communication/ipc/send.h`, `send.cpp` (Coordinator, Remote) as a vector, with callbacks that send | parts of messages (`Ipc`), `Coordinator::send()` to all |
| `SForward` | service forward (`service/source/forward/handle.cpp`, `main.cpp`, `state.h`) | what sends that are re-entered do (`Callback`), logs |
| `SConf` | configuration of the service manager: routes, timeouts, visibility, at boot and when updated (`manager/configuration.cpp`, `transform.cpp`, `Services` in `state.cpp`) | restrictions, concurrent instances, metrics, notes, the order in which services are told |
| `TConf` | configuration of the transaction manager: resources, their proxies, scaling, restarts, mappings of aliases, on the task coordinator (`manager/configuration.cpp`, `state.cpp`, parts of `handle.cpp`) | the log, changes of the system configuration, resources without names, what is only logged; `std::partition` is taken to be stable |
| `GConf` | configuration of the gateway manager: its groups at boot, when updated, when they die and at shutdown, on the task coordinator (`manager/configuration.cpp`, `handle.cpp`, `main.cpp`) | what groups do, the admin interface; `std::partition` is taken to be stable |
| `Ipc` | `common/communication/ipc/*`, `device.h`: fragmentation, reassembly, inbound device, send coordinator | signals, tcp |
