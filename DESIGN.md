# Formal model of casualcore/casual - design

Source: `/repo` (C++), read as text only. Prover: Lean 4.33.0, project `/verif/lean`.
This file is put together by `tools/gen_design.py` from `tools/scope.md`, `MANIFEST.json` and the output of `#print axioms`.

## Method

* Each subsystem is a directory `Verif/<Name>/`: `Model.lean` has the code as functions (each definition cites
  the file and lines it models, and says what is simplified), `Spec.lean` the vocabulary in which the properties are stated
  (mostly: functions of the trace of what is sent and received, not of the state of the model), `Props*.lean` the
  property theorems `Cnn_...` with an `example` for each that shows a concrete case that meets the hypotheses.
  The other modules are lemmas.
* C++ `std::vector` -> `List`; ids (uuid, ipc, pid, resource id) -> `Nat`/`Int`; integers are
  unbounded unless the property is about widths; SQLite tables -> lists of rows (each prepared statement is one Lean function, triggers included);
  exceptions -> `Except`/`Option` or a state `halted`; undefined behaviour -> a distinct outcome.
* Closures stored in fan-outs are defunctionalised to a data type of continuations.
* The environment (schedule, other processes, clock, random choices, crashes) is a list of events: a theorem over
  "all histories" is an induction over that list.
* A property that does not hold of the code is kept as it is: its negation is proved with a concrete history as witness
  (`Cnn_..._refuted`), and what does hold is proved as `Cnn_..._partial`. The manifest calls it partial.
* Wrong programs: each subsystem has been edited the way a bug would change it, see `seeded/LOG.jsonl`.

## Trusted base

* Lean's kernel (4.33.0) and the axioms `propext`, `Classical.choice`, `Quot.sound`; which of them each theorem uses is
  in the last section. No axioms of our own, no compiled evaluation (`decide +kernel` only asks the kernel to evaluate).
* The reading of the C++ source by the author: the tie of model to code is the cited lines.
* SQLite executes the statements and triggers as documented, one statement is atomic,
  `COMMIT` makes everything before it durable, a crash discards everything after the last `COMMIT`.
* The kernel delivers datagrams of a unix domain socket whole, once, and in order for each sender.
* Correlation ids, transaction ids and message ids (uuids) are fresh where a theorem says so by a hypothesis.

### What the environment is assumed to do (hypotheses of theorems, by name)

* `HonestReplies` (TM): a resource answers a request with the branch and resource id of the request; `HonestUpstream`: an upstream
  coordinator that has asked us to prepare decides once; `Fresh`: a transaction id that begins has not been used before.
* `asked k tr <= 1`, `SameRequest` (Service): lookups have different correlations. `HonestAck`: who acknowledges a call is who serves it.
  `Forward`: the clock does not go back. `In.leaves`, `In.frees`, `In.patient`, `KeepsOrder`, `Stays`, `In.within`: restrictions of
  partial theorems, each of them with a refutation of the theorem without it.
* Tx: `Env.Willing`: resource managers answer `xa_start` and `xa_end` with ok; `Disjoint`: no resource is both static and dynamic; `Disciplined`:
  the control mode is not changed while transactions are nested. Only where a theorem says so; the others hold for every behaviour of resource managers,
  transaction manager and callees.
* Ipc: messages with a payload; senders do not use the same type and correlation at the same time (needed, see `C31_collision`).
* `Proper` (QManager): the requester can be reached and nobody else uses the correlation of the lookup.
* `NoReuse` (QManager): the pid of a child of the queue manager is not given to another of its children after it has exited.
* `StableSort` (DManager): `std::stable_sort` permutes and leaves a sorted range alone (proved for two sorts, one as in libstdc++). `OncePerLife`: no process is
  admitted twice in its life. `UniquePids`: a spawned process has a pid that no living child has, nor the manager itself. `Proper`, `Clean`: the entities are as
  the configuration makes them. `calm`, `patient`, `noScale`: which requests come meanwhile, as the theorem says. `Answers`: the service manager
  answers what it was asked. `notOf`: the domain manager does not hear of its own exit. `Ready`: the domain is idle when the shutdown is asked for.
* `Room` (Buffer): there is memory for the content after each call; `Call.long`, `IsLong`: ids fit in a `long`. `Op.Possible`: the memory allocator gives memory where no buffer is.
* `NeatHistory` (Conv): a server does not go back to its pump with a conversation open that it has initiated (needed for completeness of data: `conv_data_prefix_untidy`). `goesOn` (Conv): neither
  a rollback nor the end of a service.
* ConfModel: `AllNamed`, `NoDuplicates`: every entity has a name and no two of a kind have the same; `Explicit`: aliases are given and there are no defaults. Restrictions of theorems, with
  refutations without them where they are needed.
* DPost: `Sound`: unique names and aliases, no name begins with `.`, referred groups are there, servers are not in the domain's own groups; `Ordered`: groups come after those they depend on; `Reached`: the domain booted and such configurations were posted, one at a time.
* Http: `AllWant`: the calls want answers; `UserOk`: user codes in headers are numbers; `Accepted`: the service is configured and the call is not in a transaction (or it is discarded); `NotDone`: the request is not done yet; `Fed`: the request is sent before the reply comes; `Carries`: the reply of the other domain is what comes; `Dense`: no white space.
* Chrono: `Written`: the grammar of durations; numbers fit in 64 bits where it is said.
* Callback: `Handy`: destinations that callbacks send to are never blocked; no stack overflow.
* SForward: nothing that is sent to is blocked, where it is said.
* SConf: `Tidy`: each service is configured once, and no name is a route to, or the name of, two services. `answered_partial`: after boot of a `Tidy` configuration and any events of servers.
* TConf: `Quiet`: no instance dies that has not been asked to stop, and no resource that is there is modified; no spawn fails. `Keeps`: no update takes a resource away, and there is no shutdown.
* TConf: `Named`, `Clean` — no name is posted twice in the same configuration. Assumed by `present_partial` only.
* GConf: `Calm` — nothing else is posted, and groups end only when they have been asked to, before the manager is running again; `Unique` — no alias is used twice on a side. `Born` — only processes that have been spawned exit; `fits`, `posts` — an alias on a side is always for the same kind of connections. All are assumed by the `_partial` theorems only, and `Born` by `ended`.
* Env: `Plain`: no `$` in the text; `Name`: a name without braces; `Vars.Unique`: the environment has each name once.
* Queue: message ids of enqueued messages are new; configurations without duplicate names.

## What is modelled, and what is not

| directory | code | left out |
|---|---|---|
| `Code` | `common/code/xa.h`, `xa.cpp`, `tx.cpp`: the codes, their severity, `convert::to::tx` | other error categories |
| `FanOut` | `common/message/coordinate.h` `fan::Out`: `operator()`, `reply`, `failed`, callbacks and their timing | logging; `minimal::fan::Out` |
| `TM` | `transaction/source/manager/handle.cpp`, `state.cpp`, `log.cpp`: begin, involved, commit, rollback, prepare, external resources, active/branch/dynamic registration, resource instances, process exit, persistence of the log, crash and restart | metrics, deadlines of transactions, configuration, admin services, boot of resource proxies |
| `Queue` | `queue/source/group/queuebase.cpp`, `statement.cpp`, `schema.h`: all statements; `group/handle.cpp`, `state.cpp`: enqueue, dequeue, peek, browse, blocking dequeue, prepare/commit/rollback, size limit, persistence before replies, configuration update, crash and restart | metrics, SQLite failures, import/export of queuebases, admin |
| `Service` | `service/source/manager/state.cpp`, `handle.cpp`: see the head of `Service/Model.lean` | routes and configuration update, metrics and events, admin |
| `Data` | `common/transcode.h`/`.cpp` (hex), `transaction/id.h`/`.cpp` (XID), `transaction/global.h`/`.cpp`, `serialize/native/binary.h`, `native/network.h`, `serialize/value.h` (order archives), `memory.h`, `network/byteorder.h` | named archives (json, yaml, xml, ini), `complete.h`, text output of XIDs, multi-maps, durations other than nanoseconds, `bad_alloc` |
| `Tx` | `common/source/transaction/context.cpp`, `transaction.cpp`, the transaction side of `service/call/context.cpp` and `queue/source/api/queue.cpp`: the whole tx/ax interface, joining, automatic and branched transactions, service end | inside of `Resource` (reopen, retry), `tx_info`, forward, conversations |
| `Call` | `common/source/service/call/state.cpp`, `call/context.cpp`: descriptors, replies, cancel; deadlines along a chain of calls | buffers, headers, the wait in the service manager (see `Service`) |
| `Gateway` | `gateway/source/group/outbound/handle.cpp`, `state.cpp`, `gateway/group/tcp.h`, `connection.h`, `casual/task/concurrent.h`: the outbound group: calls, conversations, queue requests, transactions, discovery, metrics, lost connections, disconnect, shutdown (`Out*`). `gateway/source/group/inbound/handle.cpp`, `state.cpp`, `task/create.cpp`: the inbound group: the same, from the other side (`In*`) | connecting and reconnecting, the tcp protocol and its versions (but for the order of sending), the admin interface; of the inbound group: what discovery finds, topology updates, configuration updates, `abort` |
| `Forward` | `queue/source/forward/handle.cpp`, `state.cpp`, `queue/forward/state.h`: the forward process: lookups of queues, dequeue, service lookup and call, enqueue, commit and rollback, undeliverable messages, process exit, configuration updates, shutdown | the message contents but for an id, error events, metrics, the admin interface, groups of forwards (a group update is the update of its forwards) |
| `Task` | `casual/task.h`: the task coordinator (groups of units, actions, handlers, cancel), generic in the state and the tasks | logging, exceptions in actions |
| `QManager` | `queue/source/manager/handle.cpp`, `state.cpp`, `configuration.cpp`, `task.cpp`: the queue manager: registry of queues and remotes, lookups, discards, discovery, groups and forwards as child processes, configuration update, shutdown | metrics, recover and other admin requests, the default of paths |
| `Discovery` | `domain/source/discovery/handle.cpp`, `state.cpp`, `domain/discovery/state.h`, `common/message/coordinate.h` (`minimal::fan::Out`): the discovery process of a domain: requests of this and of other domains, rediscovery, accumulation under load, topology updates, routes, exits, shutdown | the load heuristic (any function), the admin interface, metrics; reading the configuration |
| `DManager` | `domain/source/manager/state.cpp`, `handle.cpp`, `task/create.cpp`, `state/order.cpp`, `main.cpp`, the groups of `transform.cpp`, on the task coordinator of `Task`: boot and shutdown order, instances, spawning, scaling, restarts, exits, connects, singletons, lookups, assassination, shutdown | runtime configuration updates, event subscribers, environment and arguments of processes, `bare` mode, admin output |
| `Buffer` | `buffer/source/field.cpp` (all calls and iteration), `order.cpp`, `string.cpp`, `octet.cpp`; `common/buffer/pool.h`, `pool.cpp`, `type.h`, `type.cpp`, `xatmi/source/xatmi/explicit/buffer.cpp` and what `explicit/service.cpp` does with buffers: handles, the inbound buffer, replies | names of fields, the serialization of structs to fields and the matching of fields, capacities, `bad_alloc` but for `set` |
| `Conv` | `common/source/service/conversation/context.cpp`, `state.h`, `xatmi/source/xatmi/conversation.cpp`, the server side of conversations in `common/server/handle/service.h`, `service.cpp`, `conversation.cpp`, the pump of `server/start.cpp`; with the transactions of `Tx`: tpconnect, tpsend, tprecv, tpdiscon, tpreturn, deaths and reports | deadlines, `TPNOCHANGE`, metrics, forward; conversations through gateways; messages are put into the cache of the receiver at once |
| `Config` | `configuration/model/change.h`: the change between two configurations | (reading, normalising and merging: `ConfModel`) |
| `ConfModel` | `configuration/source/model.cpp`, `configuration/model.h` (union, difference, intersection, normalize), `common.h`/`common.cpp` (aliases and placeholders), `group.cpp` (the coordinator of groups), `user.cpp` (normalize), `model/transform.cpp`, `model/load.cpp`, `model/validate.cpp`, post and put of `domain/source/manager/admin/server.cpp` | the sections `system`, `queue` and `gateway` of the files, environment files, the deprecated `domain.service` and `default.environment`, the parsing of durations |
| `Env` | `common/source/environment/expand.cpp`, `environment.cpp` (get, set, unset, current), `environment/variable.h` | `environment/normalize.h`, the directories, locking |
| `DPost` | domain manager `configuration.cpp` (post), `transform.cpp` (boot, and what it tells), the servers of its own (`handle.cpp`), configuration post of `admin/server.cpp` | how processes are started and stopped (`DManager`), the configuration of the other managers, bare domains |
| `Http` | http outbound (`handle.cpp`, `request.cpp`, `state.cpp`, `transform.cpp`, `configuration.cpp`), http inbound (`call.cpp`, `c/api.cpp`), `http/source/common.cpp`, `transcode.cpp` (base64), `service/header.cpp` | curl and nginx themselves (their events are arbitrary), `inbound/caller.cpp` (the older api), blocking and polling, the directive of inbound, deadlines and parents; cppcodec is taken to be RFC 4648 |
| `Chrono` | `common/source/chronology.cpp`: durations as text, both ways | points in time |
| `Callback` | `common/communication/ipc/send.h`, `send.cpp` (Coordinator, Remote) as a vector, with callbacks that send | parts of messages (`Ipc`), `Coordinator::send()` to all |
| `SForward` | service forward (`service/source/forward/handle.cpp`, `main.cpp`, `state.h`) | what sends that are re-entered do (`Callback`), logs |
| `SConf` | configuration of the service manager: routes, timeouts, visibility, at boot and when updated (`manager/configuration.cpp`, `transform.cpp`, `Services` in `state.cpp`) | restrictions, concurrent instances, metrics, notes, the order in which services are told |
| `TConf` | configuration of the transaction manager: resources, their proxies, scaling, restarts, mappings of aliases, on the task coordinator (`manager/configuration.cpp`, `state.cpp`, parts of `handle.cpp`) | the log, changes of the system configuration, resources without names, what is only logged; `std::partition` is taken to be stable |
| `GConf` | configuration of the gateway manager: its groups at boot, when updated, when they die and at shutdown, on the task coordinator (`manager/configuration.cpp`, `handle.cpp`, `main.cpp`) | what groups do, the admin interface; `std::partition` is taken to be stable |
| `Ipc` | `common/communication/ipc/*`, `device.h`: fragmentation, reassembly, inbound device, send coordinator | signals, tcp |

## Per property

The model and the method of proof follow from the directory: invariants over all event lists unless the note says otherwise.

| id | property | where | status | note |
|---|---|---|---|---|
| C01 | Combined XA outcome is the severest, whatever the order of replies | Code | proved |  |
| C02 | A fan-out calls its continuation exactly once, when nothing is outstanding | FanOut | proved | correlations unique (uuid); callbacks named apart |
| C03 | No phase-two commit without unanimous prepare | TM | proved | environment assumption HonestReplies: a resource answers with the branch and id of the request it answers; HonestUpstream: an upstream coordinator that asked us to prepare commits only after our ok vote |
| C04 | A commit reported ok means no resource reported failure | TM | proved |  |
| C05 | Read-only voters and non-voters get no second phase | TM | partial | missing: the second phase of a transaction that an upstream coordinator prepared earlier (resources involved between its prepare and commit get a commit request) |
| C06 | One-phase commit is used exactly when one resource is involved | TM | proved |  |
| C07 | Prepare is durable before anyone is told | TM | proved | Fresh: the transaction id has not been finished before and is used anew |
| C08 | The commit decision is durable before resources are told to commit | TM | partial | false of the code: negation proved with a witness |
| C09 | Every commit/rollback request is answered exactly once | TM | partial | at most one answer proved; that an answer comes is false of the code (witness) |
| C10 | A transaction's stage never moves backwards | TM | proved |  |
| C100 | An inbound gateway answers each request at most once | Gateway | proved | For all histories, also with failing sends. |
| C101 | An inbound gateway only gives answers that are due | Gateway | proved | For all histories. Replies to queue requests, conversation connect and discovery are forwarded by connection; that there was a request is not checked by the code. |
| C102 | An inbound gateway passes requests on in their own transaction | Gateway | proved | Assumes that correlations are unique and that TM answers with a branch of the transaction it was asked for; c102_never_external also that TM gives ids of its own. |
| C103 | An inbound gateway forgets no request | Gateway | partial | Holds for calls, prepare, commit, rollback when reply sends do not fail. Refuted for queue requests when there is no queue manager, and when TM gives the id of the other domain. |
| C104 | An inbound gateway maps prepare, commit and rollback to the local transaction | Gateway | partial | Refuted: if the service is not found before the branch comes, prepare is answered with a protocol error though TM has the branch; the answer is for the local id and not for the one asked for. What holds instead is proved. |
| C105 | An inbound gateway gives up the lookups of a lost connection | Gateway | partial | When reply sends do not fail (c108_others_refuted shows what happens then). |
| C106 | An inbound gateway closes a connection when it is done, and not before | Gateway | partial | Refuted for queue requests in flight, and for calls that want no reply (the connection is never closed). The positive direction asks that all transactions of the group are done. |
| C107 | An inbound gateway shuts down | Gateway | partial | Refuted for a connection that is being established at the shutdown. |
| C108 | An inbound gateway lives on | Gateway | partial | Refuted: a message in a conversation before the service is found, two disconnect replies, and a reply that fails to be sent (erases the unit of another request). The partial theorem says that there is nothing else. |
| C109 | A forward follows its protocol for every message | Forward | proved | For all histories. `walk` in Forward/Spec.lean is the protocol: an automaton over what was sent and received. |
| C11 | A resource proxy instance has at most one request at a time and no request is lost | TM | partial | a queued request is lost if the device of the instance has vanished (witness) |
| C110 | A forward commits only after success | Forward | proved | For all histories. |
| C111 | Each forwarded message has its own transaction, ended once | Forward | proved | For all histories; transaction ids are modelled as a counter (uniqueness of uuids). |
| C112 | A forward forgets no message | Forward | proved | For all histories. |
| C113 | A forward rolls back on failure | Forward | proved | For all histories. |
| C114 | A forward respects its configured concurrency | Forward | proved | For all histories; after shutdown only a later configuration update starts again. |
| C115 | A forward reports correct numbers | Forward | partial | Refuted: a commit answered with rollback counts as a commit; a dequeue request that cannot be delivered counts as running for ever. Exact values of all four numbers are proved instead. |
| C116 | A forward shuts down when it is done, and not before | Forward | partial | Refuted: after an undeliverable dequeue request the process is never done. Otherwise exact; and at shutdown everything that can still be given up is given up. |
| C117 | A forward keeps going | Forward | partial | Refuted: when two enqueues fail and the source is looked up in between, the forward goes to sleep until the next configuration. Proved, if all other processes behave, for every forward of which no enqueue fails (or that has no queue to enqueue to): as many requests under way as instances, or the queue manager is looking for one of its queues. |
| C118 | A forward survives the exit of queue groups | Forward | partial | Holds for the target queue. Refuted for the source queue: the dead process is asked to forget the request, and the instance is stuck. |
| C119 | A forward enqueues the right thing at the right place | Forward | partial | Message, transaction, queue and delay are right. Refuted for the process: after a failed enqueue, the other message under way is sent to a null process. |
| C12 | A finished transaction leaves nothing behind | TM | partial | the log row can be back after a crash (witness) |
| C120 | A forward follows configuration updates | Forward | partial | Only instances are updated (and exactly the surplus is given up); a forward that is disabled, or gets another target, by an update goes on as before. |
| C121 | Tasks run group by group | Task | proved |  |
| C122 | A task coordinator never stalls | Task | proved |  |
| C123 | A configuration change says what to do, and no more | Config | proved | That the result is the wanted configuration needs that no alias is used twice; the three parts are exact for all. |
| C124 | A queue lookup is answered with a provider that offers the queue | QManager | proved |  |
| C125 | "No such queue" only if there is none | QManager | proved | For a requester of another domain that has not discovered "nobody" is: no queue group of this domain. |
| C126 | Local queues before remote ones, remotes by order | QManager | proved |  |
| C127 | Requesters of other domains only get queues of this domain | QManager | partial | Does not hold for a lookup that waits: it is answered with whatever is advertised first. Proved for lookups that do not want to wait. |
| C128 | A queue lookup ends at most once | QManager | proved |  |
| C129 | A queue lookup waits only if nobody offers the queue | QManager | proved | For a lookup with a correlation of its own, whose requester can be reached. |
| C13 | A died owner's transaction is rolled back, never committed | TM | partial | false of the code when the owner dies during prepare (witness) |
| C130 | A lookup that does not want to wait does not | QManager | proved | As C129. |
| C131 | Nobody waits for a queue manager that stops | QManager | proved | As C129. |
| C132 | To discard a lookup is confirmed or refused correctly | QManager | proved | As C129. |
| C133 | Domain discovery is told the queues that are there | QManager | proved |  |
| C134 | The queue manager reports the children it has | QManager | proved | Assumes that the pid of a child is not used again for another child after it exits.  |
| C135 | A queue configuration update is answered once, after what it asks for is done | QManager | proved | Assumes that the pid of a child is not used again for another child after it exits. "After" is for an update with a correlation that its requester uses once. |
| C136 | A queue configuration update is answered after what it modifies has taken the new configuration | QManager | partial | Assumes that the pid of a child is not used again for another child after it exits. Does not hold: with two updates under way the second is answered on the reply to the first; a modified forward group is never sent its configuration (the queue groups are searched). Proved: every modified queue group has since answered some configuration, or exited. |
| C137 | A queue manager that shuts down stops all its children | QManager | partial | Assumes that the pid of a child is not used again for another child after it exits. Does not hold when the shutdown comes while the manager boots or updates: what waits to be spawned is spawned after it and is never told to stop. Proved: whatever was alive at the shutdown has exited when no task is left. |
| C138 | The queue manager is ready when all that is configured is up | QManager | partial | Assumes that the pid of a child is not used again for another child after it exits. Does not hold if a queue group exits before it connects: the forward groups are not started yet. Proved: every child that is alive has answered its configuration. |
| C139 | The queue manager ends exactly when it is to stop and has no children | QManager | proved | Assumes that the pid of a child is not used again for another child after it exits.  |
| C14 | Enqueue in a transaction is invisible until commit | Queue | proved | For every history before the enqueue and every history after it. |
| C140 | The queue manager says once that it is ready | QManager | proved | Assumes that the pid of a child is not used again for another child after it exits. (for the second theorem) |
| C141 | After an update the queue manager reports the configuration that was wanted | QManager | partial | Assumes that the pid of a child is not used again for another child after it exits. Does not hold for what is modified: the manager keeps and reports the old configuration. Proved for what is added and removed. |
| C142 | The queue manager stops only children that are not wanted any more | QManager | proved |  |
| C143 | A discovery is answered at most once | Discovery | proved |  |
| C144 | A discovery that is not answered waits for somebody alive | Discovery | proved |  |
| C145 | Shutdown leaves no discovery unanswered | Discovery | partial | Refuted: State::done does not look at what is accumulated (state.cpp:211-217), so requests accumulated under load when the process is told to stop are never answered. Proved: after shutdown new ones are answered at once, and when it ends only accumulated ones are unanswered. |
| C146 | An answer has only what was asked for and what somebody has said | Discovery | proved |  |
| C147 | Only what somebody needs is asked for in other domains | Discovery | proved |  |
| C148 | Topology updates do not run in circles | Discovery | proved |  |
| C149 | What is missing in an answer was looked for everywhere | Discovery | proved |  |
| C15 | Rollback undoes the transaction's queue work | Queue | proved | First rollback of the transaction; what a second one may do is C24. |
| C150 | A service is found in another domain under its own name unless routes say otherwise | Discovery | partial | Refuted: a service that is configured without routes (for its timeout, say) maps to an empty set of routes (handle.cpp:796-809) and is dropped from the answers of other domains (116-136). Proved for services that are not configured. |
| C151 | A new connection and a rediscovery lead to the discovery of all that is known | Discovery | proved |  |
| C152 | A topology update reaches every domain that has not seen it | Discovery | partial | Refuted: updates that are accumulated together are passed on as one that names the domains of all of them (handle.cpp:598-612), so a domain that is named by one ignores the other. Proved for domains no received update names. |
| C153 | A domain boots in the order of the dependencies and stops in the reverse order | DManager | partial | Refuted: the groups are sorted with a comparison that is not a strict weak ordering (only direct dependencies), so a group can be placed before one it needs. Proved when the configuration lists every group after those it depends on; each member in exactly one batch is proved unconditionally. |
| C154 | There is at most one process of a singleton at a time | DManager | proved |  |
| C155 | A process that connects is told once whether it may, and is turned down only with a reason | DManager | proved |  |
| C156 | Lookups of singletons | DManager | partial | Refuted: a lookup that waits when the shutdown comes is never answered; and a process that connects as two singletons leaves one of them behind when it exits, so lookups get a dead process. Proved: at most one answer, the content of the answers (alive when no process is admitted twice in its life), and that an unanswered one is for a singleton that is not there. |
| C157 | Processes that ask for it are spared from assassination | DManager | proved |  |
| C158 | A boot waits for what it depends on | DManager | partial | Proved for boots that nobody disturbs with a scale or shutdown request, and before a second process of a singleton has been turned down; by dependencies when groups are listed after those they depend on (see C153). |
| C159 | A shutdown stops what depends on others first | DManager | partial | Proved for a shutdown of a domain that is idle (no boot, scaling or restart going on), when nothing else is asked during it; the service manager answers only what it was asked. |
| C16 | No message is lost or duplicated | Queue | proved | Crash points are C21/C22. |
| C160 | A shutdown comes to its end | DManager | partial | Refuted: a shutdown request during a restart or during the boot leaves the first group of tasks in place, and it waits for what never comes. Proved for a domain that is idle. |
| C161 | A shutdown leaves no process | DManager | partial | Refuted: a server process that has not connected yet is forgotten, and not told to stop. Proved: processes that are up (connected, or executables) have exited when the manager ends, for a domain that is idle when it is asked. |
| C162 | Only processes of the domain are stopped | DManager | partial | Refuted: to restart an executable that has ended sends SIGTERM to the null process, kill( -1): everybody. Proved for every process but that one, for all histories. |
| C163 | Nothing is spawned in a shutdown | DManager | partial | Refuted: scale requests are carried out in a shutdown. Proved for all histories without one. |
| C164 | A boot comes to its end | DManager | partial | Refuted: a process of an entity that is to be restarted exits before it has connected; it is not spawned again in a boot, and the boot waits for it. Proved: otherwise, and when no process has been denied, the boot is done, for all histories without scale and shutdown requests in which the system gives no pid twice. |
| C165 | Scaling gives what was asked for | DManager | partial | Refuted: when a process has exited before, only the first of the gaps is filled. Proved for an idle domain and an entity whose instances are all up. |
| C166 | A restart stops only what it names | DManager | partial | Refuted: a restart of groups restarts untouchable entities if their batch has others. Proved: by alias never, by group only in the named groups; whatever tasks are going on. |
| C167 | A field buffer is a list of fields | Buffer | proved | While there is memory for the content (Room). |
| C168 | A field buffer that is sent is received | Buffer | proved |  |
| C169 | Iteration over a field buffer gives each field once | Buffer | proved |  |
| C17 | Dequeue is first-in first-out among the available messages | Queue | proved |  |
| C170 | Received field memory is accepted or rejected | Buffer | partial | Refuted: a header that does not fit is read all the same, and a negative size makes the construction not end. Proved when no size that is met is negative and each header is within the memory. |
| C171 | A field call that fails changes nothing | Buffer | partial | Refuted for set that runs out of memory: the old value is erased first. Proved for add, remove, and set that fails for another reason. |
| C172 | A removed field id is gone | Buffer | partial | Refuted for received fields with a negative id. Proved for all buffers made by calls. |
| C173 | Iteration over received fields ends | Buffer | partial | Refuted for a received field with id 0: the iteration never ends. Proved for all others. |
| C174 | Reads of received fields are within the memory | Buffer | partial | Refuted: the size of a number in received memory is not checked. Proved when each field has enough bytes for the type of its id. |
| C175 | casual_field_get_value | Buffer | partial | Refuted: the count of the caller is changed before the value of a number is looked for. The rest is proved. |
| C176 | An order buffer gives the values in the order they were added | Buffer | proved |  |
| C177 | The end of an order buffer | Buffer | partial | Refuted: values are read before the bounds are checked, and a negative size of a received binary moves the cursor to before the buffer. Proved for numbers: the code, and that the buffer is as it was. |
| C178 | String buffers | Buffer | partial | Refuted: the check for a NUL comes after strlen, and what a service is called with is not checked. The rest is proved. |
| C179 | Octet buffers | Buffer | proved |  |
| C18 | Too many redeliveries move a message to the error queue and nowhere else | Queue | proved | The error queue is the one named after the queue, in every reachable table, including after reconfigurations. |
| C180 | Handles | Buffer | proved |  |
| C181 | The buffer a service is called with | Buffer | proved |  |
| C182 | Handles that are not valid are refused | Buffer | partial | Refuted for the reply of a service that failed: the exception leaves the C function. Proved for every other call. |
| C183 | What is sent of a buffer | Buffer | partial | Refuted: a negative size is not refused. The rest is proved. |
| C184 | Replies into the buffer of the user | Buffer | partial | Refuted: the buffer of the user is freed before the type of the reply is looked for, and an empty reply gives null and leaves a buffer that can not be freed. Proved for replies that are not empty and of a known type. |
| C185 | Descriptors of conversations | Conv | proved |  |
| C186 | One side is in control | Conv | proved |  |
| C187 | Data arrives in order and complete | Conv | proved | Order for all histories; completeness when a server does not go back to its pump with a conversation open that it has initiated (a service disconnects, or receives until the end): conv_data_prefix_untidy shows data that is lost otherwise. |
| C188 | The events are true | Conv | proved |  |
| C189 | Nothing after the end | Conv | proved |  |
| C19 | Queue counters agree with the queue's contents | Queue | proved |  |
| C190 | The end of the service is noticed | Conv | proved | With the same condition on initiators that are servers as C187. |
| C191 | tpdiscon is noticed | Conv | proved |  |
| C192 | The service is started once | Conv | proved |  |
| C193 | tpconnect returns | Conv | partial | Refuted: when the service could not be called, or the server died with the request, the initiator is sent a message that tpconnect does not wait for, and it blocks for ever. Proved: it returns when the service has been called. |
| C194 | A server goes on after a conversation | Conv | partial | Refuted: after TPEV_DISCONIMM, or when the initiator has died, tpreturn ends the server with an exception (the descriptor is unreserved twice, the reply can not be sent). Proved for conversations that have not ended for the service. |
| C195 | The death of the other side is noticed | Conv | partial | Refuted for the service: nobody tells it that the initiator has died. Proved for the initiator, when the service manager has reported the death of the server. |
| C196 | Success means that all has been received | Conv | partial | Refuted: a service that has not received anything, and is not in control, succeeds as well. Proved: the data and code are the ones of a tpreturn with TPSUCCESS. |
| C197 | A transaction with a conversation can be committed | Conv | partial | Refuted for every history: nothing ever removes the correlation that tpconnect associates with the transaction, so tx_commit returns TX_PROTOCOL_ERROR, and a service that has connected within its transaction can not succeed. Proved: with TPNOTRAN the transaction is not touched. |
| C198 | A service that fails commits nothing | Conv | partial | Refuted: for a conversation TPFAIL is not passed on to the end of the transaction, the own transaction of the service is committed. Proved for services that are called with tpcall. |
| C199 | What is enabled | ConfModel | proved |  |
| C20 | Capacity limit is respected and size bookkeeping is exact | Queue | proved | For every sequence of handled messages, crashes included. |
| C200 | Aliases are unique | ConfModel | proved |  |
| C201 | A configured alias is kept | ConfModel | partial | Refuted: an executable without an alias takes the name of its file before the servers are looked at, and a server with that alias is renamed. Proved when no two have the same name, configured or of the file. |
| C202 | Restrictions and resources follow their server | ConfModel | partial | Refuted with the same configuration: the restrictions of the server stay with the name that another process has got. Proved for servers without an alias, and for those whose alias is kept. |
| C203 | Later files take precedence | ConfModel | partial | Refuted for the directory, queuebase and capacity of queue groups, the order of outbound groups and the memberships of connections and forward groups: the earlier counts. Proved for everything else in lists with names, and for single values. |
| C204 | Nothing is lost | ConfModel | proved |  |
| C205 | The same configuration twice | ConfModel | proved | union_self_unnamed: an unnamed executable is there twice. |
| C206 | Grouping of configurations | ConfModel | proved | union_assoc_duplicates: with duplicate names it matters. |
| C207 | Difference and intersection of configurations | ConfModel | partial | Refuted for the restrictions of servers, which are left untouched. Proved for everything else. |
| C208 | Defaults | ConfModel | proved |  |
| C209 | Instances of a resource | ConfModel | partial | Refuted: it has 0 instances (transform.cpp:117), the documentation says 1. Proved when there is a section for defaults. |
| C21 | Acknowledged non-transactional enqueues and commits survive a crash | Queue | proved | The queuebase after a crash is the result of a history that contains the acknowledged operation; with C14-C19 this says what that means for messages. |
| C210 | Negative instances are refused | ConfModel | partial | Refuted for queue forwards, and for everything that is posted. Proved for servers, executables, resources and service forwards in files. |
| C211 | Posted configuration means what a file means | ConfModel | partial | Refuted: defaults that are posted are not applied, and a server without an alias is refused if there is a transaction section. Proved if aliases are given and nothing is left to defaults, up to validation. |
| C212 | Sections can be split between files | ConfModel | partial | Refuted: the resources of a server are forgotten if the file with the server has no transaction section, and those of its groups if they are in another file. Proved for groups, servers, executables and the environment. |
| C213 | A later definition replaces an earlier | ConfModel | partial | Refuted: restrictions and resources of the earlier definition are left. Proved for the process itself, and for restrictions if the later has some. |
| C214 | Expansion of variables | Env | proved | Names are not empty: "${}" is left as it is at the end of the text, and removed elsewhere. |
| C215 | Environment variables | Env | partial | Refuted for names with a "=": another variable gets the value. Proved for all other names. |
| C216 | The environment of started processes | Env | proved |  |
| C217 | A posted configuration is what the domain has | DPost | partial | Refuted for groups with names that begin with "." and servers in the groups of the domain itself: they are there once more each time. Proved for all sensible configurations (`Sound`), groups listed after those they depend on, after any history of such posts. |
| C218 | What a domain boots with can be posted | DPost | partial | Refuted: groups must be listed after those they depend on when they are posted, but not at boot. Proved for groups in that order. |
| C219 | A refused configuration has no effect | DPost | partial | Refuted: groups are removed, and memberships of them, although the configuration is refused. Proved for the processes and their settings, for every state and configuration. |
| C22 | A prepare vote is durable | Queue | partial | The property does not hold of the code (prepare answers without persisting); the negation is proved, and what does hold. |
| C220 | A posted configuration does not take the domain down | DPost | partial | Refuted: a server in a group that is not there is accepted, and the domain shuts down. Proved for sensible configurations. |
| C221 | Posts can overlap | DPost | partial | Refuted: the domain shuts down. Proved for any sequence of posts, each when the one before is done. |
| C222 | What is referred to is there | DPost | partial | Refuted for groups and servers that are not changed. Proved for groups that are new or changed, for every state and configuration. |
| C223 | The gateway is last | DPost | partial | Refuted for groups that are posted. Proved at boot, for every configuration. |
| C224 | Posting what there is changes nothing | DPost | proved |  |
| C225 | A call by http is answered once | Http | partial | Refuted: a call that wants no answer gets one; a user code that is not a number terminates the process. Proved for all events without these two. |
| C226 | Data goes as it is by http | Http | partial | Refuted when the server replies before it has read the request: what is left of the request is in the answer. Proved when the request is sent before the body of the reply comes. |
| C227 | No transaction is lost in http | Http | partial | Refuted: with base64, a reply that can not be decoded is an error with the transaction told to be fine. Proved without base64. |
| C228 | Results can be told in http headers | Http | proved |  |
| C229 | Types and data can be told in http | Http | partial | Types and base64 proved for all types and data. Refuted for types with white space, when they are told as header fields. |
| C23 | A dequeued but uncommitted message is handed to nobody else | Queue | proved |  |
| C230 | Headers come as they are | Http | partial | Refuted: all white space is removed from headers. Proved for names and values without it. |
| C231 | A call by http to another domain is as a call | Http | partial | Refuted for requests and replies without data, for http servers that spell Content-Type with capitals, and content types with parameters. Proved otherwise. |
| C232 | The client of http is told what happened | Http | partial | Refuted for errors that are not xatmi codes: they are told as the xatmi code that has the same number. |
| C233 | A service is where the configuration says | Http | partial | Refuted for the default of discarded transactions, with more than one file. Proved for the rest, any files. |
| C234 | Each call by http is in the metrics | Http | partial | Each call is told once; the result that is told is that of the answer, in that order, without base64. Refuted with base64: a reply that can not be decoded is an error for the caller, but told as what the server said. |
| C235 | No client takes the http server down | Http | partial | Refuted: no body, no content-type in small letters, or (with base64) a body that is not base64 takes the worker process down. Proved for requests without base64 that have a body and a content-type. |
| C236 | A duration is what is written | Chrono | partial | Refuted: a number that does not fit in 64 bits is taken for 0. Proved for all texts with numbers that do; sums that do not fit are undefined. |
| C237 | A duration is read as it is told | Chrono | partial | Refuted for negative durations (which no configuration text can give). Proved for all others. |
| C238 | What is given to be sent is accounted for, also when callbacks send | Callback | proved | As long as nothing undefined happens (C240). |
| C239 | Callbacks of lost messages send once | Callback | proved | As long as nothing undefined happens (C240). |
| C24 | Committing or rolling back a transaction twice has no further effect | Queue | partial | False in general: rollback3 looks at messages in any state, so lowering the retry count (or restoring) between two rollbacks makes the second one move messages. Proved when nothing works in the transaction and no queue is reconfigured or restored in between. |
| C240 | Callbacks may send | Callback | partial | Refuted: a callback that sends to a destination that is blocked, or that gets rid of what waits for a destination before it in the vector, moves the element that is used (use after free, std::vector). Proved when what callbacks send to can be sent to at once or is gone. |
| C241 | The service forward handles each call once | SForward | proved |  |
| C242 | The service forward passes on what it was given, to whom it should | SForward | proved |  |
| C243 | The service forward answers with errors only when there is one | SForward | proved |  |
| C244 | The service forward looks up each call once | SForward | proved |  |
| C245 | No call is lost by the service forward | SForward | partial | Refuted: what waits to be sent when the forward shuts down is never sent, nor told as lost, and calls that are in its queue then are never read. Proved when nothing that is sent to is blocked, for the calls that arrive before the shutdown. |
| C246 | Deadlines through the service forward | SForward | partial | Refuted: the lookup has no deadline, the deadline of the reply is not used, and a reply that says timeout leads to TPENOENT. Proved: a call keeps the deadline it came with. |
| C247 | Names lead to services as configured | SConf | partial | Refuted when the name of one service with routes is a route to another: the routes of the former then lead to the latter. Proved for all configurations where each service is configured once, and no name is used by two services (`Tidy`). |
| C248 | Services have the timeout and visibility that are configured | SConf | partial | As C247: proved for all configurations where no name is used by two services. |
| C249 | An update changes timeouts and visibility | SConf | partial | Refuted: a service that is there already but was not configured does not get the timeout that is posted, and posting the same configuration again takes away the timeouts that are configured for all. Proved for what `configuration::model::change` calls modified. |
| C25 | A sequential server instance serves one caller at a time | Service | proved | In terms of the trace: `inUse` is computed from messages sent and received. |
| C250 | An update changes routes | SConf | partial | Refuted: a route that is moved to a new service leads nowhere afterwards, and the new service is lost. Proved for the services that are modified. |
| C251 | Each configuration update is answered | SConf | partial | Refuted: if a service that is taken away was never created under its own name the update throws, and there is no reply. Proved after boot of any `Tidy` configuration, and whatever servers have come and gone. |
| C252 | The configuration that is told is the one that was posted | SConf | partial | Refuted: visibility is not told, services without routes or timeouts are not told, and timeouts that are configured for all are told for each. Proved for the routes, in all states. |
| C253 | Each update of the transaction manager is answered once | TConf | proved |  |
| C254 | A resource instance that is asked to stop is not used again | TConf | proved |  |
| C255 | Resources have as many instances as configured | TConf | partial | Refuted: an instance that dies is not replaced, a process that can not be started is not tried again, and when a resource is modified the first instance that is restarted is not replaced, as it is taken away before the task gets to know that it has ended. Proved for all histories where no spawn fails, no instance dies unasked and no resource that is there is modified. |
| C256 | Instances run with the configuration that is posted | TConf | partial | Refuted: when a resource is modified, instances run on with the old configuration although the update is answered. Proved, at all times, for the histories of C255. |
| C257 | A server gets the resources of its alias | TConf | partial | Refuted: if a resource is removed with the mappings as before, the manager ends when a server of the alias asks. Proved for all histories where no resource is taken away; and that mappings are set as posted. Missing: a posted mapping that is as the current one, while another is under way. |
| C258 | Resources that are posted are there | TConf | partial | Proved: in all histories where no resource is taken away, no name is posted twice in the same configuration and the manager has not ended, all resources that were posted last, and that the system has, are there as posted, each once, at all times. Refuted otherwise: a resource that is removed and posted again before its instances have ended is not there, although both updates are answered; and if fewer instances are left than an update takes away an iterator is moved before the first. |
| C259 | Each update of the gateway manager is answered once | GConf | proved |  |
| C26 | Concurrent instance choice respects priority | Service | partial | Minimality proved for all histories. Affinity to the transaction refuted (a new instance inherits the place, and so the transactions, of one that has gone); proved when no concurrent instance goes. |
| C260 | A connected gateway group has been told its configuration | GConf | proved |  |
| C261 | Gateway groups are as posted when an update is done | GConf | partial | Proved: if no alias is used twice on a side, the update comes when nothing is under way, nothing else is posted until it is done, groups end only when asked to, and spawns do not fail, then the groups that there are, when it is done, are a permutation of those posted; so also at boot. For all histories: when nothing is under way all groups that have been asked to stop have ended. Refuted otherwise: with updates that overlap a group that was taken away is started again, one that was posted is not there, or one is there twice; a group that dies before boot is done or can not be started is not tried again. |
| C262 | A gateway group that dies is started again | GConf | partial | Refuted while the manager is configuring. Proved: when it is running, with nothing else to do and no spawn failing, whatever groups die after that, in whatever order and while others are started, there are as many of each configuration as before when nothing is under way again, until something is posted; and one death starts exactly that group again. |
| C263 | The gateway manager ends after shutdown | GConf | partial | Proved: if shutdown comes when nothing is under way, and no update comes after it, then, when it is done, there are no groups and the manager ends. Refuted otherwise: groups that wait to be started when shutdown comes are started after that and not asked to stop, so the manager does not end; so also with an update after shutdown. |
| C264 | A gateway group is the program for its kind of connections | GConf | partial | Proved for all histories where the kind of connections never changes for an alias on a side. Refuted otherwise: a group whose kind of connections is changed is told so, but remains the program for the other kind. |
| C27 | Deadlines expire exactly when due and the timer is always the earliest | Service | partial | Expiry exact, for all histories. The timer is not set for the deadline of a lookup that has to wait; and when the only deadline is removed, the element behind the last one is read. The timer is proved to be right when no lookup with deadline has to wait. |
| C28 | A changed order of a concurrent instance takes effect | Service | partial | Refuted: a known instance that announces a new order keeps the old one. Proved for instances that change their order only by a reset (or withdrawal, death) and a new advertise. |
| C29 | No service refers to a removed instance | Service | proved |  |
| C30 | Fragmented messages are reassembled byte for byte | Ipc | partial | Splitting and reassembly, blocking and non-blocking sends proved for every payload. Refuted for sends that may continue later (the coordinator): a message with an empty payload is 'done' without any datagram; proved for non-empty payloads (all of casual's own messages have one). |
| C31 | Re-sent and interleaved fragments do not corrupt messages | Ipc | proved | Assumes senders do not use the same type and correlation at the same time; C31_collision shows it is needed. |
| C32 | Transaction ids compare correctly | Data | proved |  |
| C33 | A new branch belongs to the same global transaction | Data | proved |  |
| C34 | A printed global transaction id can be read back | Data | partial | Refuted: operator >> compares the number of hex digits with 64, so ids of 33..64 bytes end the process. Holds for 1..32 bytes. |
| C35 | Hexadecimal text encoding round-trips | Data | partial | The round trip is proved. Refuted: upper case digits are decoded to wrong values, and other characters are not rejected. |
| C36 | Binary serialization round-trips | Data | proved | multi-maps and multi-sets not covered |
| C37 | A commit that was rolled back is reported as rolled back | Code | partial | false of the code: the negation is proved with a witness |
| C38 | Combining TX codes does not depend on the order | Code | partial | false of the code for *_NO_BEGIN codes: the negation is proved |
| C39 | Finishing a transaction makes others forget exactly that transaction | TM | partial | false of the code: reference into the erased element is read |
| C40 | A logged decision is carried out after a restart | TM | partial | false of the code: the log is never read at start; what holds is that the log row survives |
| C41 | Nobody can take the transaction manager down | TM | partial | false of the code for late replies of died resource instances |
| C42 | The prepared answer precedes the final answer | TM | partial | Proved: at an idle moment all answers that wait are sent, and all that is sent later comes after them. Refuted otherwise: the prepared answer waits to be collected with others while the final one does not, so with quick resources the final answer comes first. |
| C43 | A read-only vote given upstream means no resource is left prepared | TM | partial | false of the code when a resource answers prepare with "xid unknown" |
| C44 | An upstream one-phase commit reported as success was not rolled back | TM | partial | false of the code for the read-only answer; the ok answer is right |
| C45 | Browsing a queue shows every message once, in order | Queue | partial | Complete only when no two deliverable messages have the same timestamp: the loop asks for timestamp > last. Counterexample proved. |
| C46 | A message dequeued outside a transaction is not handed out again | Queue | partial | The property does not hold of the code (the delete is not on disk when the reply is sent); the negation is proved, and what does hold. |
| C47 | The transaction manager knows of the group before the client does | Queue | proved |  |
| C48 | Each dequeue request is answered at most once, and with a message it asked for | Queue | proved |  |
| C49 | A blocked dequeue is woken up | Queue | partial | The first half is proved. The second half (timer) does not hold of the code if some blocked request is served at the same time; the negation is proved, and what does hold. |
| C50 | A dequeue by name gets messages of the queue with that name | Queue | partial | Does not hold of the code with a reconfiguration in between (ids are reused, a blocked request is kept by id); negation proved, and what does hold. |
| C51 | Every configured queue is announced | Queue | partial | Does not hold of the code for a queue that was to be removed while it held messages and is wanted again; negation proved, and that it holds if there is no such queue. |
| C52 | A dead process gets nothing | Queue | proved |  |
| C53 | Reconfiguration keeps messages and installs the wanted queues | Queue | proved | For configurations without duplicate names and clashes with error queue names. |
| C54 | A sensible configuration is accepted | Queue | partial | Does not hold of the code if a queue to be removed holds only uncommitted messages (foreign key failure ends the group); negation proved, and that it holds otherwise. |
| C55 | Calls go only to servers that offer the service | Service | partial | Refuted with fatal timeout contract (an advertise of an instance whose call has timed out is dropped); proved without. |
| C56 | Every service lookup gets exactly one answer | Service | proved |  |
| C57 | The caller of a server that dies gets an error reply | Service | partial | Refuted for a server that withdraws while it serves, and then dies; proved when servers go only by dying. |
| C58 | No lookup waits while a local server that offers the service is idle | Service | partial | Refuted: a discard frees the server, but does not look for who waits. Proved without discards, undelivered lookup replies and shutdowns. |
| C59 | Local servers come before remote ones | Service | partial | Refuted when a busy server that is about to be shut down advertises again; proved for histories without shutdown. |
| C60 | Messages from one process are received in order | Ipc | proved |  |
| C61 | A receiver that gets nothing has received everything | Ipc | proved |  |
| C62 | Every message given to the send coordinator is sent, waits, or is reported lost | Ipc | proved | Assumes messages with a payload (see C30), and callbacks that do not use the coordinator. |
| C63 | The coordinator listens for writability exactly while something waits | Ipc | proved |  |
| C64 | A destination that accepts is drained | Ipc | proved |  |
| C65 | Coordinator to receiver: in order, nothing lost unreported | Ipc | proved | Assumes messages with a payload, told apart by type and correlation. |
| C66 | A discarded message is never received | Ipc | partial | Refuted if more than one message has the correlation (only one is discarded); proved for at most one. |
| C67 | The caller's deadline bounds the time left it is told | Service | proved | For instances that are handed out (a no-reply call that is forwarded is not told any time). Hypothesis: lookups have distinct correlations (uuids). |
| C68 | A call past its deadline is ended, and only such a call | Service | partial | First half refuted: the call to a server that has withdrawn is never ended. Proved when servers go by dying only. The second half (nobody else is told, or killed) is proved without that. Hypotheses: distinct correlations, and for the first half that only who serves a call acknowledges it. |
| C69 | The configured timeout bounds every call | Service | partial | Refuted: a service that was first made known by another domain without timeout never gets the configured one, not even when local servers offer it. Proved when services of other domains have timeouts not more than the configured one. Services with a timeout of their own in the configuration are not modelled. |
| C70 | Equal transaction ids have equal hashes | Data | partial | Refuted for null ids, which keep lengths and data (as when null is read into an id, see the example in XidArchiveProps). Holds for ids that are not null. |
| C71 | The previous content of an object does not affect what is read into it | Data | partial | Refuted: an optional keeps its value when none is read, maps and sets keep their entries. Holds for types without those. |
| C72 | A transaction id that is sent is the id that is received | Data | proved |  |
| C73 | A message that is cut off is never taken for a message | Data | proved |  |
| C74 | Bytes from the network can not make an id exceed its storage | Data | partial | Refuted: the lengths are not checked. Holds if the lengths in the bytes are at most 64. |
| C75 | A process decides each of its transactions once, and in one way | Tx | proved |  |
| C76 | A transaction is committed only after all its replies | Tx | partial | Refuted: a service with an automatic transaction that returns success without fetching a reply has it committed. Holds for tx_commit, and for replies that have been received. |
| C77 | Every resource that took part takes part in the decision | Tx | proved |  |
| C78 | Resources are dissociated before the decision | Tx | proved |  |
| C79 | Resources are associated with exactly the current transaction | Tx | partial | Refuted: a failing nested tx_begin, or changing the control mode within nested transactions, leaves the current transaction suspended in the resources. Holds when xa_start/xa_end succeed and the control mode is not changed while transactions are nested. |
| C80 | The transaction state in a reply is the state the caller sees | Tx | partial | Refuted: a cast swaps rollback and timeout. Holds: a state that is not ok makes the transaction not active. |
| C81 | tx_set_transaction_timeout applies to later transactions | Tx | partial | Refuted: the timeout is used once. Holds for the next tx_begin. |
| C82 | Suspend and resume | Tx | proved | C82_resume and C82_round_trip: with resource managers that accept xa_start and xa_end (a failure is an error to the caller), see C79. |
| C83 | The end of a service ends its transactions and says how it went | Tx | partial | Refuted: an own transaction that is rollback-only is rolled back, and the reply says ok. The rest holds. |
| C84 | A call descriptor stands for one call | Call | proved |  |
| C85 | No transaction is forgotten | Tx | partial | Refuted when xa_end fails in tx_commit or tx_rollback. Holds when xa_start and xa_end succeed. |
| C86 | tx_commit says what happened | Tx | partial | The first half holds. The second is refuted for chained control: TX_ERROR when the next transaction can not begin. Holds for unchained. |
| C87 | A deadline follows the chain of calls | Call | partial | Refuted within a joined transaction, that has no deadline. Holds outside of transactions, with TPNOTRAN, and for transactions with a deadline. |
| C88 | A transaction whose requests have all been answered ok can be committed | Tx | partial | Refuted: a call that fails to be sent leaves a pending correlation in the transaction. Holds for histories without that. |
| C89 | A service gets replies to its own calls only | Call | partial | Refuted with TPGETANY: descriptors survive the invocation. Holds when invocations end without calls in flight, and for descriptors of the invocation itself. |
| C90 | A request to another domain is answered at most once, and truthfully | Gateway | proved | The answer is matched by correlation only; that the other domain does not invent correlations is not checked by the code. |
| C91 | No request to another domain is forgotten | Gateway | partial | Refuted when the send itself fails: the unit is added after the connection was lost. Also refuted by a failing hang up of a conversation (an invalid iterator is erased). Holds for all histories where these sends do not fail. |
| C92 | The transaction manager knows which other domains take part | Gateway | partial | Refuted for the moment of sending, and after a failed send (stale association for a reused descriptor). Holds after each event, and before the answer, for histories without failing sends of calls, queue requests and hang ups. |
| C93 | A graceful disconnect waits for what is in progress, and no longer | Gateway | partial | Refuted after a failing hang up. Holds without that (and with distinct correlations of prepare/commit/rollback/discovery). |
| C94 | Shutdown of an outbound group | Gateway | partial | Refuted: a second disconnect of the same connection terminates the process; units that leak keep it from ending. The rest holds. |
| C95 | Conversations with another domain | Gateway | partial | The first half holds; the second is refuted, there is no handler for the failure. |
| C96 | A call that comes back is refused | Gateway | partial | For histories without failing hang ups; that others are sent: also without failing sends, and distinct correlations before. |
| C97 | Prepare, commit and rollback in another domain | Gateway | partial | The first half holds; the second is refuted when the connection is lost: there is no answer. |
| C98 | What is advertised for another domain | Gateway | partial | Refuted for a connection that is being closed: the answer to a discovery sent before advertises it again. All else holds; the withdrawal of a service at TPENOENT for histories without failing sends. |
| C99 | Calls to other domains are measured | Gateway | proved |  |

## Axioms of each theorem

* none: `Discovery.timeout_disarms`, `Buffer.Field.C173_iteration_refuted`, `Http.user_absent`, `Http.never_ok`
* propext: `Forward.forward_reported_commits_refuted`, `Forward.forward_reported_running_refuted`, `Forward.forward_enqueue_to_nobody_refuted`, `Forward.forward_update_refuted`, `Discovery.answered_at_once_after_shutdown`, `DManager.lookup_lost_at_shutdown_refuted`, `Buffer.Field.C167_set_one`, `Buffer.Field.C167_remove_one`, `Buffer.Field.C171_set_fails_refuted`, `Buffer.Field.C171_fails_partial`, `Buffer.Field.C172_remove_id_refuted`, `Buffer.Field.C174_reads_refuted`, `Buffer.Order.C177_beyond_refuted`, `Buffer.Order.C177_backwards_refuted`, `Buffer.Str.C178_unterminated_refuted`, `Buffer.Pool.C181_done`, `Buffer.Pool.C182_fail_refuted`, `Buffer.Pool.C183_negative_refuted`, `Buffer.Pool.C184_type_refuted`, `Buffer.Pool.C184_empty_refuted`, `ConfModel.validate_forward_refuted`, `Env.expand_open`, `Queue.C22_refuted`, `SForward.told_at_shutdown_refuted`, `SForward.told_after_shutdown_refuted`, `SForward.deadline_refuted`, `SForward.timeout_refuted`, `SConf.chain_refuted`, `SConf.chain_refuted`, `SConf.same_again_refuted`, `SConf.moved_route_refuted`, `SConf.update_stuck_refuted`, `SConf.told_refuted`, `GConf.early_refuted`, `GConf.spawn_refuted`, `GConf.again_refuted`, `GConf.removed_refuted`, `GConf.twice_refuted`, `GConf.early_refuted`, `GConf.shutdown_refuted`, `GConf.after_shutdown_refuted`, `GConf.program_refuted`, `Data.C33_null`, `Data.C34_gtrid_refuted`, `Data.C35_upper_refuted`, `Data.C35_reject_refuted`, `Code.rollback_reported_as_rollback_refuted`, `Code.toTx_ok_iff`, `Code.tx_add_comm_refuted`, `Code.tx_add_partial`, `Code.tx_no_begin_combines`, `Queue.C45_refuted`, `Queue.C46_refuted`, `Queue.C49_refuted`, `Data.C70_hash_refuted`, `Data.C71_target_refuted`, `Data.C71_map_refuted`, `Data.C74_xid_refuted`, `Data.C74_lengths_refuted`, `Data.C74_gtrid_refuted`
* propext, Classical.choice, Quot.sound: `FanOut.not_fired_while_outstanding`, `FanOut.fired_once_at_completion`, `FanOut.fired_once_empty`, `FanOut.stray_reply_ignored`, `TM.commit_after_unanimous`, `TM.commit_only_after_all_voted`, `TM.wire_commit_only_after_all_voted`, `TM.commit_ok_means_success`, `TM.rollback_ok_means_success`, `TM.upstream_commit_ok_means_success`, `TM.upstream_vote_ok_means_unanimous`, `TM.second_phase_exact_partial`, `TM.one_phase_iff_one`, `TM.prepared_is_durable`, `TM.prepared_survives`, `TM.decision_logged_partial`, `TM.answers_le_requests`, `TM.answered_once_partial`, `TM.stage_never_decreases`, `TM.late_commit_refused`, `Gateway.In.c100_at_most_one_answer`, `Gateway.In.c103_not_stuck_partial`, `Gateway.In.c103_answer_is_passed_on_partial`, `Gateway.In.c103_own_answer_is_passed_on_partial`, `Gateway.In.c104_reaches_tm_partial`, `Gateway.In.c105_no_lookup_is_left_partial`, `Gateway.In.c106_closed_when_done_partial`, `Gateway.In.c106_closes_partial`, `Gateway.In.c106_closes_refuted`, `Gateway.In.c108_lives_on_partial`, `Forward.forward_keeps_to_protocol`, `Forward.forward_never_dies`, `TM.one_request_at_a_time`, `TM.issued_distinct`, `TM.sent_in_order_partial`, `Forward.forward_commit_only_after_success`, `Forward.forward_own_transaction`, `Forward.forward_transaction_ended_once`, `Forward.forward_no_message_forgotten`, `Forward.forward_failure_rolled_back`, `Forward.forward_concurrency_bound`, `Forward.forward_no_dequeue_after_shutdown`, `Forward.forward_reported_numbers_partial`, `Forward.forward_done_partial`, `Forward.forward_shutdown_gives_up_all`, `Forward.forward_shutdown_refuted`, `Forward.forward_keeps_going_partial`, `Forward.forward_starts_over_partial`, `Forward.forward_keeps_going_refuted`, `Forward.forward_target_exit_partial`, `Forward.forward_source_exit_refuted`, `Forward.forward_enqueue_right_partial`, `TM.final_answer_removes`, `TM.nothing_left`, `Forward.forward_update_instances_partial`, `Forward.forward_update_gives_up_surplus`, `Task.task_groups_run_in_order`, `Task.task_action_once`, `Task.task_waits_for_a_running_unit`, `Task.task_empty_means_all_ended`, `Config.change_gives_wanted`, `Config.change_none`, `QManager.lookup_answer_offered`, `QManager.lookup_absent_only_if_none`, `QManager.lookup_prefers`, `QManager.lookup_external_direct_local_partial`, `QManager.lookup_external_local_refuted`, `QManager.lookup_ends_at_most_once`, `QManager.lookup_waits_only_if_none`, `TM.died_owner_rolled_back_partial`, `QManager.lookup_direct_answered`, `QManager.lookup_stop_answers_all`, `QManager.lookup_discard_confirms`, `QManager.lookup_discard_refuses`, `QManager.discovery_told_right`, `QManager.discovery_known`, `QManager.config_reply_lists_live`, `QManager.update_answered_at_most_once`, `QManager.update_answered_after`, `QManager.update_modified_group_answered_partial`, `QManager.modified_group_answered_refuted`, `QManager.modified_forward_sent_refuted`, `QManager.shutdown_stops_children_partial`, `QManager.shutdown_stops_all_refuted`, `QManager.ready_when_children_configured_partial`, `QManager.ready_all_spawned_refuted`, `QManager.manager_done_iff`, `Queue.C14_invisible_until_commit`, `Queue.C14_visible_after_commit`, `QManager.ready_at_most_once`, `QManager.connect_sends_spawned_configuration`, `QManager.config_after_update_partial`, `QManager.config_after_update_refuted`, `QManager.only_unwanted_told_to_stop`, `Discovery.discovery_answered_at_most_once`, `Discovery.unanswered_waits`, `Discovery.all_answered_when_settled`, `Discovery.done_only_accumulated_partial`, `Discovery.local_requests_stay`, `Discovery.api_missing_is_nowhere`, `Discovery.domain_missing_is_nowhere`, `Discovery.all_answers_thorough`, `Queue.C15_only_own_work`, `Queue.C15_enqueued_is_gone`, `Queue.C15_dequeued_is_back`, `Queue.C15_others_untouched`, `Discovery.unconfigured_missing_partial`, `Discovery.new_connection_explores`, `Discovery.update_explores_and_spreads`, `Discovery.rediscovery_asks_for_all_known`, `Discovery.update_reaches_unnamed_partial`, `DManager.singleton_alone`, `DManager.connect_answered`, `DManager.denied_with_reason`, `DManager.approved_admitted`, `DManager.no_admission_after_shutdown`, `DManager.singleton_lookup_answer`, `DManager.lookup_at_most_once`, `DManager.lookup_answered_when_there`, `DManager.whitelisted_spared`, `DManager.manager_spared`, `DManager.boot_waits_for_earlier`, `DManager.boot_waits_for_dependencies_partial`, `DManager.shutdown_in_order`, `Queue.C16_ids_unique`, `Queue.C16_committed_not_lost`, `Queue.C16_taken_not_lost`, `Queue.C16_content_unchanged`, `Queue.C16_handed_out_once`, `Queue.C16_handed_out_once_tx`, `DManager.shutdown_progress`, `DManager.shutdown_completes`, `DManager.shutdown_leaves_none`, `DManager.only_own_processes_partial`, `DManager.no_spawn_in_shutdown_partial`, `DManager.boot_completes`, `DManager.boot_completes_partial`, `DManager.scale_out_exact`, `DManager.scale_in_exact`, `DManager.restart_aliases_scope`, `DManager.restart_groups_scope_partial`, `Buffer.Field.C167_field_calls`, `Buffer.Field.C168_sent_received`, `Buffer.Field.C169_iteration`, `Queue.C17_first_in_first_out`, `Queue.C17_no_message_iff`, `Queue.C17_browse_next`, `Buffer.Field.C170_short_memory_refuted`, `Buffer.Field.C170_accepted_partial`, `Buffer.Field.C170_truncated_partial`, `Buffer.Field.C172_remove_id_partial`, `Buffer.Field.C173_iteration_partial`, `Buffer.Field.C174_reads_partial`, `Buffer.Field.C175_get_value`, `Buffer.Field.C175_minimum_need`, `Buffer.Order.C176_order`, `Buffer.Order.C176_sent`, `Buffer.Octet.C179_octet`, `Queue.C18_error_queue`, `Queue.C18_error_queue_is_own`, `Buffer.Pool.C180_distinct`, `Buffer.Pool.C180_untouched`, `Buffer.Pool.C180_gone`, `Buffer.Pool.C181_free`, `Buffer.Pool.C182_unknown`, `Buffer.Pool.C183_sent`, `Buffer.Pool.C184_reply_partial`, `Buffer.Pool.C184_leak_refuted`, `Conv.conv_descriptor_unique`, `Conv.conv_descriptor`, `Conv.conv_control`, `Conv.conv_data_order`, `Conv.conv_data_prefix`, `Conv.conv_control_all`, `Conv.conv_events_true`, `Conv.conv_end_final`, `Conv.conv_end_closed`, `Queue.C19_counters_exact`, `Conv.conv_end_noticed`, `Conv.conv_disconnect_noticed`, `Conv.conv_started_once`, `Conv.conv_started_data`, `Conv.conv_connected_started`, `Conv.conv_connect_returns_partial`, `Conv.conv_connect_hangs`, `Conv.conv_connect_returns_refuted`, `Conv.conv_connect_dead_refuted`, `Conv.conv_server_goes_on_partial`, `Conv.conv_server_goes_on_refuted`, `Conv.conv_death_noticed_refuted`, `Conv.conv_death_noticed_partial`, `Conv.conv_success_read_partial`, `Conv.Trans.conv_commit_refuted`, `Conv.Trans.conv_service_fails_refuted`, `ConfModel.enabled_iff`, `ConfModel.enabled_order`, `ConfModel.normalize_enabled`, `Queue.C20_size_exact`, `Queue.C20_capacity`, `Queue.C20_fitting_is_accepted`, `ConfModel.aliases_unique`, `ConfModel.entities_kept`, `ConfModel.alias_kept_refuted`, `ConfModel.aliases_kept_partial`, `ConfModel.follows_refuted`, `ConfModel.placeholder_follows`, `ConfModel.explicit_follows_partial`, `ConfModel.normalize_total`, `ConfModel.isPlaceholder_iff`, `ConfModel.union_precedence`, `ConfModel.union_values`, `ConfModel.union_queues_partial`, `ConfModel.union_queue_group_refuted`, `ConfModel.union_outbound_refuted`, `ConfModel.union_outbound_memberships_refuted`, `ConfModel.union_memberships_refuted`, `ConfModel.union_keeps`, `ConfModel.union_unnamed`, `ConfModel.unnamed_kept`, `ConfModel.union_self`, `ConfModel.union_self_unnamed`, `ConfModel.union_assoc`, `ConfModel.union_assoc_duplicates`, `ConfModel.difference_partial`, `ConfModel.intersection_partial`, `ConfModel.difference_keyed_partial`, `ConfModel.difference_restriction_refuted`, `ConfModel.entity_defaults`, `ConfModel.service_defaults`, `ConfModel.service_routes`, `ConfModel.resource_instances_refuted`, `ConfModel.resource_defaults_partial`, `ConfModel.load_instances_partial`, `ConfModel.posted_instances_refuted`, `ConfModel.posted_as_loaded_partial`, `ConfModel.posted_defaults_refuted`, `ConfModel.posted_alias_refuted`, `ConfModel.split_domain_partial`, `ConfModel.split_transaction_refuted`, `ConfModel.split_group_refuted`, `ConfModel.redefined_partial`, `ConfModel.redefined_refuted`, `Env.expand_local`, `Env.get_set_partial`, `Env.get_set_refuted`, `Env.get_unset`, `Env.has_get`, `Env.unique_set`, `Env.current_get`, `Env.current_unique`, `DPost.posted_is_had_partial`, `DPost.booted_is_had`, `DPost.history_forgotten`, `DPost.hidden_group_refuted`, `DPost.hidden_server_refuted`, `DPost.boots_posts_refuted`, `DPost.boots_posts_partial`, `DPost.refused_effect_refuted`, `DPost.refused_effect_partial`, `DPost.stays_up_refuted`, `DPost.stays_up_partial`, `DPost.overlapping_refuted`, `DPost.one_at_a_time_partial`, `DPost.dangling_refuted`, `DPost.dangling_group_refuted`, `DPost.dangling_partial`, `DPost.gateway_last_refuted`, `DPost.get_posted_nothing`, `Http.answered_once_partial`, `Http.never_twice`, `Http.unknown_refused`, `Http.no_reply_refuted`, `Http.user_code_refuted`, `Http.request_sent`, `Http.replied_partial`, `Http.reply_data_refuted`, `Http.transaction_refused`, `Http.replied_partial`, `Http.transaction_state_refuted`, `Http.code_round_trip`, `Http.code_unknown`, `Http.long_round_trip`, `Http.user_round_trip`, `Http.status_meaning`, `Http.type_round_trip`, `Http.decode64_encode64`, `Http.encode64_length`, `Http.wire_round_trip`, `Http.type_space_refuted`, `Queue.C23_taken_is_protected`, `Http.header_arrives_partial`, `Http.configured_header_refuted`, `Http.request_header_refuted`, `Http.request_arrives_partial`, `Http.reply_arrives_partial`, `Http.empty_request_refuted`, `Http.empty_reply_refuted`, `Http.spelling_refuted`, `Http.parameter_refuted`, `Http.absent_served`, `Http.late_lookup_served`, `Http.answer_served`, `Http.one_answer`, `Http.mixed_codes_refuted`, `Http.configured`, `Http.discovered`, `Http.default_partial`, `Http.default_refuted`, `Http.told_once`, `Http.told_result_partial`, `Http.told_result_refuted`, `Http.request_taken_partial`, `Http.no_body_refuted`, `Http.capital_refuted`, `Http.not_base64_refuted`, `Chrono.duration_read_partial`, `Chrono.nonsense_refused`, `Chrono.duration_read_refuted`, `Chrono.told_is_read_partial`, `Chrono.told_apart`, `Chrono.told_is_read_refuted`, `Callback.callbacks_run`, `Queue.C24_idempotent_partial`, `Callback.callbacks_safe_partial`, `SForward.each_call_once`, `SForward.passed_once`, `SForward.each_call_once`, `SForward.looked_up_once`, `SForward.discarded_once`, `SForward.all_told_partial`, `SConf.names_partial`, `SConf.limits_partial`, `SConf.update_modified_partial`, `Service.C25_one_caller_at_a_time`, `SConf.update_modified_partial`, `SConf.answered_partial`, `SConf.routes_told`, `TConf.answered_once`, `TConf.stopped_is_final`, `TConf.scaled_partial`, `TConf.told_partial`, `TConf.alias_partial`, `TConf.mapping_set`, `TConf.present_partial`, `GConf.answered_once`, `Service.C26_best`, `Service.C26_affinity_partial`, `GConf.told_current`, `GConf.updated_partial`, `GConf.booted_partial`, `GConf.ended`, `GConf.restarted`, `GConf.all_restarted`, `GConf.shutdown_partial`, `GConf.shut_stays`, `GConf.ended`, `GConf.program_partial`, `Service.C27_expire_exactly`, `Service.C27_timer_partial`, `Service.C28_new_order_partial`, `Service.C29_exit`, `Service.C29_withdraw`, `Service.C29_reset`, `Service.C29_sound`, `Ipc.C30_split`, `Ipc.C30_roundtrip`, `Ipc.C30_send`, `Ipc.C30_partial_send_partial`, `Ipc.C31_order`, `Ipc.C31_interleaved`, `Ipc.C31_nothing_else`, `Data.C32_eq`, `Data.C32_order`, `Data.C32_equivalence`, `Data.C33_branch`, `Data.C34_read`, `TM.told_to_forget_partial`, `TM.prepared_survives`, `TM.prepared_before_final_partial`, `TM.upstream_commit_ok_means_success`, `Queue.C45_browse_complete_partial`, `Queue.C46_not_again_partial`, `Queue.C47_manager_told_first`, `Queue.C48_answered_at_most_once`, `Queue.C48_answered_or_blocked`, `Queue.C48_answer_fits`, `Queue.C49_no_sleeping_request`, `Queue.C49_timer_partial`, `Queue.C50_named_queue`, `Queue.C50_named_queue_partial`, `Queue.C51_announced_partial`, `Queue.C52_dead_gets_nothing`, `Queue.C53_wanted_queues`, `Queue.C53_messages_kept`, `Queue.C53_unwanted_gone`, `Queue.C53_rejected_keeps_queues`, `Queue.C54_accepted_partial`, `Service.C55_offers_partial`, `Service.C56_answered_once`, `Service.C56_answers_who_asked`, `Service.C57_told_partial`, `Service.C58_no_idle_wait_partial`, `Service.C59_local_first_partial`, `Ipc.C60_fifo`, `Ipc.C61_all`, `Ipc.C62_every_message`, `Ipc.C63_registered`, `Ipc.C63_pending`, `Ipc.C64_drained`, `Ipc.C65_end_to_end`, `Ipc.C66_discard_partial`, `Service.C67_time_left`, `Service.C68_ended_refuted`, `Service.C68_ended_partial`, `Service.C68_only_late`, `Service.C69_bound_partial`, `Data.C70_hash_partial`, `Data.C72_xid`, `Tx.C75_one_decision`, `Tx.C75_one_way`, `Tx.C75_at_most_once`, `Tx.C76_state_partial`, `Tx.C76_tx_commit_partial`, `Tx.C77_commit_covers`, `Tx.C77_rollback_covers`, `Tx.C78_ended_first`, `Tx.C79_association_partial`, `Tx.C80_not_active_partial`, `Tx.C82_resume`, `Tx.C82_round_trip`, `Tx.C82_kept`, `Tx.C83_nothing_left`, `Tx.C83_reply_ok_partial`, `Call.C84_fetch`, `Call.C84_cancel`, `Tx.C85_not_forgotten_partial`, `Tx.C85_service_end_partial`, `Tx.C86_ok_means_committed`, `Tx.C86_unchained_partial`, `Tx.C88_committable_partial`, `Gateway.Out.c90_at_most_one_answer`, `Gateway.Out.c90_answer_is_due`, `Gateway.Out.c90_sent_is_due`, `Gateway.Out.c91_none_forgotten_partial`, `Gateway.Out.c92_told_partial`, `Gateway.Out.c92_told_before_answer_partial`, `Gateway.Out.c93_graceful_partial`, `Gateway.Out.c93_graceful_transactions_partial`, `Gateway.Out.c93_closes_partial`, `Gateway.Out.c94_ends_when_done_partial`, `Gateway.Out.c94_all_answered_partial`, `Gateway.Out.c94_ends_partial`, `Gateway.Out.c94_alive_partial`, `Gateway.Out.c95_to_the_requester`, `Gateway.Out.c95_connected_to_the_requester`, `Gateway.Out.c96_refused_partial`, `Gateway.Out.c96_sent_partial`, `Gateway.Out.c97_answer_is_due`, `Gateway.Out.c98_advertised`, `Gateway.Out.c98_advertised_queues`, `Gateway.Out.c98_gone`, `Gateway.Out.c98_refused`, `Gateway.Out.c98_not_explored`, `Gateway.Out.c98_asked`, `Gateway.Out.c98_answered`, `Gateway.Out.c98_withdrawn`, `Gateway.Out.c98_shutdown`, `Gateway.Out.c98_no_entry_partial`, `Gateway.Out.c99_reported`, `Gateway.Out.c99_idle`
* propext, Quot.sound: `Code.severest_spec`, `Code.severest_semilattice`, `Code.combine_spec`, `Code.combine_good`, `TM.issued_are_fanouts`, `TM.log_is_replay`, `TM.logged_persisted_survives`, `TM.decision_durable_refuted`, `TM.answered_eventually_refuted`, `Gateway.In.c101_call_answer_is_due`, `Gateway.In.c101_resource_answer_is_due`, `Gateway.In.c101_other_answer_is_due`, `Gateway.In.c102_passed_on_in_its_transaction`, `Gateway.In.c102_never_external`, `Gateway.In.c103_no_queue_manager_refuted`, `Gateway.In.c103_own_branch_refuted`, `Gateway.In.c104_mapped`, `Gateway.In.c104_reaches_tm_refuted`, `Gateway.In.c104_external_id_refuted`, `Gateway.In.c104_answer_id_partial`, `Gateway.In.c105_discard_is_due`, `Gateway.In.c106_queue_refuted`, `Gateway.In.c107_all_are_asked`, `Gateway.In.c107_done`, `Gateway.In.c107_later_connection_refuted`, `Gateway.In.c108_say_refuted`, `Gateway.In.c108_twice_refuted`, `Gateway.In.c108_others_refuted`, `TM.no_request_lost_refuted`, `TM.nothing_left_after_crash_refuted`, `Task.task_message_reaches_running`, `Task.task_message_ignored`, `Config.change_calculate`, `TM.rollback_then_commit_refuted`, `Discovery.accumulated_lost_at_shutdown_refuted`, `Discovery.api_answer_asked_and_said`, `Discovery.domain_answer_asked_and_said`, `Discovery.all_sent_is_proper`, `Discovery.request_is_asked_for`, `Discovery.lookup_is_asked_for`, `Discovery.implicit_update_names_us`, `Discovery.own_update_stops`, `Discovery.explore_is_asked_for`, `Discovery.configured_without_routes_lost_refuted`, `Discovery.merged_updates_lost_refuted`, `DManager.boot_each_once`, `DManager.shutdown_each_once`, `DManager.boot_after_dependencies_partial`, `DManager.shutdown_before_dependencies_partial`, `DManager.domainGroups_first`, `DManager.boot_after_dependencies_refuted`, `DManager.libstdcxxSort_stable`, `DManager.insertAll_stable`, `DManager.stale_singleton_refuted`, `DManager.shutdown_in_restart_refuted`, `DManager.shutdown_in_boot_refuted`, `DManager.shutdown_forgets_unconnected_refuted`, `DManager.restart_signals_everybody_refuted`, `DManager.scale_in_shutdown_refuted`, `DManager.boot_ends_refuted`, `DManager.exit_restarts_iff`, `DManager.scale_reaches_refuted`, `DManager.restart_spares_refuted`, `Buffer.Field.C170_endless_refuted`, `Buffer.Field.C175_count_refuted`, `Buffer.Order.C177_numbers_partial`, `Buffer.Order.C177_binary_partial`, `Buffer.Str.C178_string`, `Buffer.Str.C178_reallocate`, `Buffer.Pool.C180_allocate`, `Buffer.Pool.C180_resized`, `Buffer.Pool.C181_inbound`, `Conv.conv_bad_descriptor`, `Conv.conv_control_protocol`, `Conv.conv_data_prefix_untidy`, `Conv.conv_server_goes_on_dead_refuted`, `Conv.conv_success_read_refuted`, `Conv.Trans.conv_commit_partial`, `Conv.Trans.conv_fail_refuted`, `Conv.Trans.conv_fail_resource_refuted`, `Conv.Trans.conv_fail_same`, `Conv.Trans.conv_fail_partial`, `ConfModel.union_inbound_partial`, `Queue.C21_enqueue_survives`, `Queue.C21_commit_survives`, `Queue.C21_rollback_survives`, `Env.expand_references`, `Env.expand_plain`, `Queue.C22_prepare_durable_partial`, `DPost.gateway_last_partial`, `Http.field_kept`, `Callback.accounted`, `Queue.C24_refuted`, `Callback.callback_blocked_refuted`, `Callback.callback_erase_refuted`, `SForward.sent_with_reason`, `SForward.sent_with_reason`, `SForward.deadline_partial`, `SConf.update_timeout_refuted`, `SConf.unconfigured_refuted`, `TConf.restart_refuted`, `TConf.crash_refuted`, `TConf.spawn_refuted`, `TConf.restart_refuted`, `TConf.alias_refuted`, `TConf.readd_refuted`, `TConf.undefined_refuted`, `Service.C26_affinity_refuted`, `Service.C27_timer_refuted`, `Service.C27_no_read_behind_end_refuted`, `Service.C28_new_order_refuted`, `Service.C28_readvertise_refuted`, `Ipc.C30_empty_refuted`, `Ipc.C31_beyond`, `Ipc.C31_collision`, `Data.C32_strict`, `Data.C33_create`, `Data.C34_gtrid_partial`, `Data.C35_roundtrip`, `Data.C35_text`, `Data.C35_decode`, `Data.C36_native`, `Data.C36_network`, `Data.C36_wire`, `Data.C36_injective`, `TM.told_to_forget_refuted`, `TM.decision_carried_out_refuted`, `TM.late_reply_harmless_refuted`, `TM.requests_never_halt_partial`, `TM.idle_sends`, `TM.prepared_before_final_refuted`, `TM.read_only_vote_refuted`, `TM.read_only_vote_partial`, `TM.upstream_commit_read_only_refuted`, `Queue.C45_browse_terminates`, `Queue.C45_browse_sound`, `Queue.C50_refuted`, `Queue.C51_refuted`, `Queue.C54_refuted`, `Service.C55_offers_refuted`, `Service.C57_told_refuted`, `Service.C58_no_idle_wait_refuted`, `Service.C59_local_first_refuted`, `Ipc.C66_discard_refuted`, `Service.C69_bound_refuted`, `Data.C71_target_partial`, `Data.C72_gtrid`, `Data.C73_cut`, `Data.C73_more`, `Data.C74_xid_partial`, `Data.C74_gtrid_partial`, `Tx.C75_joined`, `Tx.C76_refuted`, `Tx.C79_refuted`, `Tx.C80_refuted`, `Tx.C81_refuted`, `Tx.C81_next_begin_partial`, `Tx.C82_refused`, `Tx.C83_failed_commits_nothing`, `Tx.C83_refuted`, `Call.C84_descriptor`, `Call.C84_reply`, `Call.C84_one_call`, `Tx.C85_refuted`, `Tx.C86_refuted`, `Call.C87_refuted`, `Call.C87_chain_partial`, `Call.C87_transaction_partial`, `Tx.C88_refuted`, `Call.C89_refuted`, `Call.C89_own_partial`, `Call.C89_descriptor_partial`, `Gateway.Out.c91_none_forgotten_refuted`, `Gateway.Out.c91_queue_refuted`, `Gateway.Out.c91_hangup_refuted`, `Gateway.Out.c92_told_refuted`, `Gateway.Out.c92_told_before_sent_refuted`, `Gateway.Out.c93_graceful_refuted`, `Gateway.Out.c94_alive_refuted`, `Gateway.Out.c94_ends_refuted`, `Gateway.Out.c94_refused_conversation_refuted`, `Gateway.Out.c95_lost_refuted`, `Gateway.Out.c97_lost_refuted`, `Gateway.Out.c98_leaving_refuted`, `Gateway.Out.c98_announced`
