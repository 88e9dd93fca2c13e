{"id": "C01", "title": "Combined XA outcome is the severest, whatever the order of replies", "statement": "When several resources answer, the transaction manager combines the answers into one XA code. The result is one of the combined codes, no combined code is more severe than it, and it does not depend on the order or grouping or repetition of replies; read_only is the neutral answer.", "quantifier": "all pairs/lists of the 24 XA codes, all reply orders", "why_tests_cant": "Reply order is decided by the schedule; lists of replies have unbounded length", "anchors": ["middleware/common/source/code/xa.cpp: severest, severity::convert"]}
{"id": "C02", "title": "A fan-out calls its continuation exactly once, when nothing is outstanding", "statement": "A registered fan-out (a set of correlated requests plus a callback) invokes its callback exactly once, precisely at the moment when each of its requests has been answered or has failed, and hands over exactly the replies received for it; replies with an unknown or already failed correlation have no effect.", "quantifier": "all sets of requests, all interleavings of replies and failures for any number of concurrent fan-outs", "why_tests_cant": "needs every interleaving of replies, failures and new registrations", "anchors": ["middleware/common/include/common/message/coordinate.h: fan::Out, Entry::coordinate, Entry::failed, Entry::done"]}
{"id": "C03", "title": "No phase-two commit without unanimous prepare", "statement": "The transaction manager sends an ordinary (not one-phase) commit request for a transaction to a resource only after every resource that was asked to prepare in that transaction has answered ok or read-only.", "quantifier": "all event histories, all numbers of transactions, branches and resources, all failures", "why_tests_cant": "Safety over every interleaving of messages, failures and process exits", "anchors": ["middleware/transaction/source/manager/handle.cpp: coordinate::prepare, commit::request"]}
{"id": "C04", "title": "A commit reported ok means no resource reported failure", "statement": "If the application receives TX_OK for its commit request (commit stage), then every reply the manager received from the resources in the phase that decided it was ok, read-only or 'xid unknown', and no resource of that phase had failed.", "quantifier": "all reply codes, all numbers of resources, all failures", "why_tests_cant": "all combinations of reply codes and resource counts", "anchors": ["middleware/transaction/source/manager/handle.cpp: accumulate::code, create::reply", "middleware/common/source/code/convert.cpp: to::tx"]}
{"id": "C05", "title": "Read-only voters and non-voters get no second phase", "statement": "In phase two, commit or rollback requests are sent exactly to the resources whose prepare answer was something else than read-only: one request for each such answer, on the branch it was given for, and none to anybody else.", "quantifier": "all vote combinations", "why_tests_cant": "2^n vote combinations for unbounded n", "anchors": ["middleware/transaction/source/manager/handle.cpp: coordinate::prepare", "middleware/transaction/include/transaction/manager/state.h: Transaction::purge"]}
{"id": "C06", "title": "One-phase commit is used exactly when one resource is involved", "statement": "On a commit request for a fresh transaction: no involved resource - immediate ok; exactly one - a single commit request flagged one-phase and no prepare; more than one - one prepare request per resource and branch and no commit request yet.", "quantifier": "all transactions (any number of branches and resources)", "why_tests_cant": "unbounded number of branches/resources", "anchors": ["middleware/transaction/source/manager/handle.cpp: commit::request", "middleware/transaction/source/manager/state.cpp: Transaction::resource_count, purge"]}
{"id": "C07", "title": "Prepare is durable before anyone is told", "statement": "The 'prepared' answer (to the application, or to an upstream transaction manager) for a transaction leaves the manager only after the log record of the transaction's branches has been durably written.", "quantifier": "all histories and all crash points, any batch size", "why_tests_cant": "needs a crash at each point of every history", "anchors": ["middleware/transaction/source/manager/handle.cpp: send::persist::reply, persist::send", "middleware/transaction/source/manager/log.cpp: prepare, persist"]}
{"id": "C08", "title": "The commit decision is durable before resources are told to commit", "statement": "No phase-two commit request reaches a resource before the commit decision for that transaction is durable in the transaction log, so that a manager crash can never leave some resources committed and no record of it.", "quantifier": "all histories and all crash points", "why_tests_cant": "needs a crash at each point of every history", "anchors": ["middleware/transaction/source/manager/handle.cpp: coordinate::prepare (log.prepare, then pending::replies<commit::Request>)"]}
{"id": "C09", "title": "Every commit/rollback request is answered exactly once", "statement": "For each commit or rollback request from an application the manager sends exactly one final answer (plus at most one earlier 'prepared' answer for a commit) once all resource answers or failures it waits for have arrived, and never more than one.", "quantifier": "all histories", "why_tests_cant": "any interleaving of replies, failures, concurrent transactions", "anchors": ["middleware/transaction/source/manager/handle.cpp: coordinate::commit, rollback, prepare"]}
{"id": "C10", "title": "A transaction's stage never moves backwards", "statement": "The stage of a transaction (involved, prepare, post-prepare, commit, rollback) never decreases while the transaction exists, and a commit request that arrives after the transaction left the first stage is refused with a protocol error and sends nothing to resources.", "quantifier": "all histories", "why_tests_cant": "every history of requests", "anchors": ["middleware/common/include/common/state/machine.h: Machine", "middleware/transaction/source/manager/handle.cpp: commit::request"]}
{"id": "C100", "title": "An inbound gateway answers each request at most once", "statement": "For each correlation, an inbound group never sends more answers to calls, prepares, commits and rollbacks to the other domain than there were such requests.", "quantifier": "every sequence of messages from other domains and local processes, lost connections, failing sends, disconnects and shutdowns of one inbound group", "why_tests_cant": "it is about all interleavings of requests of several connections with replies, lookups and lost connections", "anchors": ["middleware/gateway/source/group/inbound/handle.cpp", "middleware/gateway/source/group/inbound/task/create.cpp", "middleware/gateway/source/group/inbound/state.cpp"]}
{"id": "C101", "title": "An inbound gateway only gives answers that are due", "statement": "An answer goes to a connection that is up and that has made the request (calls, prepare, commit, rollback), and says what a local process has answered to that correlation, or one of the defined errors, for a reason that was given: no such service, timeout, not deliverable, unknown transaction.", "quantifier": "every sequence of messages from other domains and local processes, lost connections, failing sends, disconnects and shutdowns of one inbound group", "why_tests_cant": "it is about all interleavings of requests of several connections with replies, lookups and lost connections", "anchors": ["middleware/gateway/source/group/inbound/handle.cpp", "middleware/gateway/source/group/inbound/task/create.cpp", "middleware/gateway/source/group/inbound/state.cpp"]}
{"id": "C102", "title": "An inbound gateway passes requests on in their own transaction", "statement": "A request is passed on only to the process the lookup gave; it is in a transaction if and only if the request of the other domain was, and then in a branch given by the local TM of the same global transaction, never with the id of the other domain.", "quantifier": "every sequence of messages from other domains and local processes, lost connections, failing sends, disconnects and shutdowns of one inbound group", "why_tests_cant": "it is about all interleavings of requests of several connections with replies, lookups and lost connections", "anchors": ["middleware/gateway/source/group/inbound/handle.cpp", "middleware/gateway/source/group/inbound/task/create.cpp", "middleware/gateway/source/group/inbound/state.cpp"]}
{"id": "C103", "title": "An inbound gateway forgets no request", "statement": "A request that has not been answered and whose connection is up always has something that will answer it: an outstanding lookup, branch request or local call, or an error reply under way; and when that comes, the answer is sent at once on the right connection.", "quantifier": "every sequence of messages from other domains and local processes, lost connections, failing sends, disconnects and shutdowns of one inbound group", "why_tests_cant": "it is about all interleavings of requests of several connections with replies, lookups and lost connections", "anchors": ["middleware/gateway/source/group/inbound/handle.cpp", "middleware/gateway/source/group/inbound/task/create.cpp", "middleware/gateway/source/group/inbound/state.cpp"]}
{"id": "C104", "title": "An inbound gateway maps prepare, commit and rollback to the local transaction", "statement": "Prepare, commit and rollback reach the local TM with the local id of the same global transaction, whenever the connection has taken part in a transaction TM is not done with; and the answer is for the id that was asked for.", "quantifier": "every sequence of messages from other domains and local processes, lost connections, failing sends, disconnects and shutdowns of one inbound group", "why_tests_cant": "it is about all interleavings of requests of several connections with replies, lookups and lost connections", "anchors": ["middleware/gateway/source/group/inbound/handle.cpp", "middleware/gateway/source/group/inbound/task/create.cpp", "middleware/gateway/source/group/inbound/state.cpp"]}
{"id": "C105", "title": "An inbound gateway gives up the lookups of a lost connection", "statement": "When a connection is lost, the service manager is told to discard exactly the outstanding service lookups made for it.", "quantifier": "every sequence of messages from other domains and local processes, lost connections, failing sends, disconnects and shutdowns of one inbound group", "why_tests_cant": "it is about all interleavings of requests of several connections with replies, lookups and lost connections", "anchors": ["middleware/gateway/source/group/inbound/handle.cpp", "middleware/gateway/source/group/inbound/task/create.cpp", "middleware/gateway/source/group/inbound/state.cpp"]}
{"id": "C106", "title": "An inbound gateway closes a connection when it is done, and not before", "statement": "When the other domain agrees to disconnect, the connection is closed only when all its requests are answered and all transactions it takes part in are done; and then it is closed.", "quantifier": "every sequence of messages from other domains and local processes, lost connections, failing sends, disconnects and shutdowns of one inbound group", "why_tests_cant": "it is about all interleavings of requests of several connections with replies, lookups and lost connections", "anchors": ["middleware/gateway/source/group/inbound/handle.cpp", "middleware/gateway/source/group/inbound/task/create.cpp", "middleware/gateway/source/group/inbound/state.cpp"]}
{"id": "C107", "title": "An inbound gateway shuts down", "statement": "At shutdown every connection is closed or asked to disconnect, and the group is done exactly when no connection is left.", "quantifier": "every sequence of messages from other domains and local processes, lost connections, failing sends, disconnects and shutdowns of one inbound group", "why_tests_cant": "it is about all interleavings of requests of several connections with replies, lookups and lost connections", "anchors": ["middleware/gateway/source/group/inbound/handle.cpp", "middleware/gateway/source/group/inbound/task/create.cpp", "middleware/gateway/source/group/inbound/state.cpp"]}
{"id": "C108", "title": "An inbound gateway lives on", "statement": "No sequence of messages kills an inbound group, and what happens on one connection does not take away requests of another.", "quantifier": "every sequence of messages from other domains and local processes, lost connections, failing sends, disconnects and shutdowns of one inbound group", "why_tests_cant": "it is about all interleavings of requests of several connections with replies, lookups and lost connections", "anchors": ["middleware/gateway/source/group/inbound/handle.cpp", "middleware/gateway/source/group/inbound/task/create.cpp", "middleware/gateway/source/group/inbound/state.cpp", "middleware/common/include/casual/task/concurrent.h"]}
{"id": "C109", "title": "A forward follows its protocol for every message", "statement": "For each message, the forward process only ever does the next step that is allowed (dequeue, look up the service, call, enqueue, commit or rollback, each after the answer to the step before), and otherwise waits for exactly one answer; no sequence of messages kills the process.", "quantifier": "every sequence of configuration updates, replies of queue groups, of the queue, service and transaction managers and of services, in any order, undeliverable messages, process exits and shutdown, at one forward process with any number of forwards", "why_tests_cant": "it is about all interleavings of the answers to any number of messages under way, with updates, exits and shutdown", "anchors": ["middleware/queue/source/forward/handle.cpp", "middleware/queue/source/forward/state.cpp", "middleware/queue/include/queue/forward/state.h"]}
{"id": "C11", "title": "A resource proxy instance has at most one request at a time and no request is lost", "statement": "A request to a local resource is sent only to an idle instance, which is then busy until it answers; when all are busy the request is kept and later sent exactly once in first-in first-out order per resource.", "quantifier": "all histories of requests, answers and instance starts", "why_tests_cant": "every interleaving of requests/answers over any number of instances", "anchors": ["middleware/transaction/source/manager/state.cpp: try_reserve, Instance::reserve, unreserve", "middleware/transaction/source/manager/handle.cpp: send::resource::request, instance::ready, instance::replied"]}
{"id": "C110", "title": "A forward commits only after success", "statement": "A forward commits the transaction of a message only if that message was delivered in this transaction as configured: enqueued to the target queue, or the configured service called and answered with success and its reply (if configured) enqueued to the reply queue.", "quantifier": "every sequence of configuration updates, replies of queue groups, of the queue, service and transaction managers and of services, in any order, undeliverable messages, process exits and shutdown, at one forward process with any number of forwards", "why_tests_cant": "it is about all interleavings of the answers to any number of messages under way, with updates, exits and shutdown", "anchors": ["middleware/queue/source/forward/handle.cpp", "middleware/queue/source/forward/state.cpp", "middleware/queue/include/queue/forward/state.h"]}
{"id": "C111", "title": "Each forwarded message has its own transaction, ended once", "statement": "Each dequeue request has a transaction of its own, and at most one commit or rollback is ever requested for it.", "quantifier": "every sequence of configuration updates, replies of queue groups, of the queue, service and transaction managers and of services, in any order, undeliverable messages, process exits and shutdown, at one forward process with any number of forwards", "why_tests_cant": "it is about all interleavings of the answers to any number of messages under way, with updates, exits and shutdown", "anchors": ["middleware/queue/source/forward/handle.cpp", "middleware/queue/source/forward/state.cpp", "middleware/queue/include/queue/forward/state.h"]}
{"id": "C112", "title": "A forward forgets no message", "statement": "A message that was dequeued is either waiting for an answer from another process, in its transaction, or its transaction was asked to commit or roll back.", "quantifier": "every sequence of configuration updates, replies of queue groups, of the queue, service and transaction managers and of services, in any order, undeliverable messages, process exits and shutdown, at one forward process with any number of forwards", "why_tests_cant": "it is about all interleavings of the answers to any number of messages under way, with updates, exits and shutdown", "anchors": ["middleware/queue/source/forward/handle.cpp", "middleware/queue/source/forward/state.cpp", "middleware/queue/include/queue/forward/state.h"]}
{"id": "C113", "title": "A forward rolls back on failure", "statement": "Whenever something fails (no message, service not found, service fails, enqueue fails, shutdown before the message arrives), the transaction is rolled back at once and never committed.", "quantifier": "every sequence of configuration updates, replies of queue groups, of the queue, service and transaction managers and of services, in any order, undeliverable messages, process exits and shutdown, at one forward process with any number of forwards", "why_tests_cant": "it is about all interleavings of the answers to any number of messages under way, with updates, exits and shutdown", "anchors": ["middleware/queue/source/forward/handle.cpp", "middleware/queue/source/forward/state.cpp", "middleware/queue/include/queue/forward/state.h"]}
{"id": "C114", "title": "A forward respects its configured concurrency", "statement": "A message is asked for only if fewer messages of this forward are under way than instances are configured, the forward is enabled and the queue manager has named the queue and process; after shutdown none is asked for.", "quantifier": "every sequence of configuration updates, replies of queue groups, of the queue, service and transaction managers and of services, in any order, undeliverable messages, process exits and shutdown, at one forward process with any number of forwards", "why_tests_cant": "it is about all interleavings of the answers to any number of messages under way, with updates, exits and shutdown", "anchors": ["middleware/queue/source/forward/handle.cpp", "middleware/queue/source/forward/state.cpp", "middleware/queue/include/queue/forward/state.h"]}
{"id": "C115", "title": "A forward reports correct numbers", "statement": "The reported configured and running instances, commits and rollbacks of a forward are the actual ones.", "quantifier": "every sequence of configuration updates, replies of queue groups, of the queue, service and transaction managers and of services, in any order, undeliverable messages, process exits and shutdown, at one forward process with any number of forwards", "why_tests_cant": "it is about all interleavings of the answers to any number of messages under way, with updates, exits and shutdown", "anchors": ["middleware/queue/source/forward/handle.cpp", "middleware/queue/source/forward/state.cpp", "middleware/queue/include/queue/forward/state.h"]}
{"id": "C116", "title": "A forward shuts down when it is done, and not before", "statement": "After shutdown the process is done exactly when no message is on its way.", "quantifier": "every sequence of configuration updates, replies of queue groups, of the queue, service and transaction managers and of services, in any order, undeliverable messages, process exits and shutdown, at one forward process with any number of forwards", "why_tests_cant": "it is about all interleavings of the answers to any number of messages under way, with updates, exits and shutdown", "anchors": ["middleware/queue/source/forward/handle.cpp", "middleware/queue/source/forward/state.cpp", "middleware/queue/include/queue/forward/state.h"]}
{"id": "C117", "title": "A forward keeps going", "statement": "As long as it is enabled and the other processes work, a forward has as many requests under way as instances are configured, or is going to.", "quantifier": "every sequence of configuration updates, replies of queue groups, of the queue, service and transaction managers and of services, in any order, undeliverable messages, process exits and shutdown, at one forward process with any number of forwards", "why_tests_cant": "it is about all interleavings of the answers to any number of messages under way, with updates, exits and shutdown", "anchors": ["middleware/queue/source/forward/handle.cpp", "middleware/queue/source/forward/state.cpp", "middleware/queue/include/queue/forward/state.h"]}
{"id": "C118", "title": "A forward survives the exit of queue groups", "statement": "If a queue group exits, all that waits for it is given up: rolled back or asked for again when the queue is back.", "quantifier": "every sequence of configuration updates, replies of queue groups, of the queue, service and transaction managers and of services, in any order, undeliverable messages, process exits and shutdown, at one forward process with any number of forwards", "why_tests_cant": "it is about all interleavings of the answers to any number of messages under way, with updates, exits and shutdown", "anchors": ["middleware/queue/source/forward/handle.cpp", "middleware/queue/source/forward/state.cpp", "middleware/queue/include/queue/forward/state.h"]}
{"id": "C119", "title": "A forward enqueues the right thing at the right place", "statement": "What is enqueued is the dequeued message, or the reply of the service to it, in the same transaction, to the configured queue with the configured delay, at the process the queue manager named.", "quantifier": "every sequence of configuration updates, replies of queue groups, of the queue, service and transaction managers and of services, in any order, undeliverable messages, process exits and shutdown, at one forward process with any number of forwards", "why_tests_cant": "it is about all interleavings of the answers to any number of messages under way, with updates, exits and shutdown", "anchors": ["middleware/queue/source/forward/handle.cpp", "middleware/queue/source/forward/state.cpp", "middleware/queue/include/queue/forward/state.h"]}
{"id": "C12", "title": "A finished transaction leaves nothing behind", "statement": "When the final answer of a commit or rollback has been sent (or a transaction is found to be read-only) the manager holds no state for that transaction: it is not in its table and there is no log record of it.", "quantifier": "all histories", "why_tests_cant": "every path to the end of a transaction", "anchors": ["middleware/transaction/source/manager/handle.cpp: remove::transaction", "middleware/transaction/source/manager/log.cpp: remove"]}
{"id": "C120", "title": "A forward follows configuration updates", "statement": "After an update every forward works as the update says.", "quantifier": "every sequence of configuration updates, replies of queue groups, of the queue, service and transaction managers and of services, in any order, undeliverable messages, process exits and shutdown, at one forward process with any number of forwards", "why_tests_cant": "it is about all interleavings of the answers to any number of messages under way, with updates, exits and shutdown", "anchors": ["middleware/queue/source/forward/handle.cpp", "middleware/queue/source/forward/state.cpp", "middleware/queue/include/queue/forward/state.h"]}
{"id": "C121", "title": "Tasks run group by group", "statement": "A unit of a task group is started only when all units of all groups given before have ended or were cancelled; an action is invoked at most once, a unit ends at most once, and what is cancelled is never started.", "quantifier": "every sequence of groups of tasks given to a coordinator, with any actions and handlers, any messages, cancellations and changes of the state of the owner in between", "why_tests_cant": "it is about all interleavings of task groups, messages and cancellations, for any tasks", "anchors": ["middleware/common/include/casual/task.h"]}
{"id": "C122", "title": "A task coordinator never stalls", "statement": "A unit that is not started waits for one that is started and has not ended; a message that a started unit handles ends it, one that it does not handle leaves it as it is; the coordinator is empty only when everything has ended or was cancelled.", "quantifier": "every sequence of groups of tasks given to a coordinator, with any actions and handlers, any messages, cancellations and changes of the state of the owner in between", "why_tests_cant": "it is about all interleavings of task groups, messages and cancellations, for any tasks", "anchors": ["middleware/common/include/casual/task.h"]}
{"id": "C123", "title": "A configuration change says what to do, and no more", "statement": "The calculated change lists as added, modified and removed exactly the entities that are, and to apply it to the current configuration gives the wanted one.", "quantifier": "all current and wanted configurations, of any entities with an alias", "why_tests_cant": "it is about all pairs of configurations", "anchors": ["middleware/configuration/include/configuration/model/change.h calculate", "middleware/common/include/common/algorithm.h intersection"]}
{"id": "C124", "title": "A queue lookup is answered with a provider that offers the queue", "statement": "A lookup that is answered with a process is answered with one that offers that queue at that moment, and for which the queue is enabled for what the lookup wants (enqueue, dequeue); the reply goes to who asked, for what was asked.", "quantifier": "every sequence of messages to the queue manager - connects, replies and exits of queue groups, advertises of remotes, lookups, discards, discovery replies and requests, configuration updates, shutdown - with any processes that can or cannot be reached", "why_tests_cant": "it is about all interleavings of lookups with what providers, remotes and discovery do", "anchors": ["middleware/queue/source/manager/handle.cpp", "middleware/queue/source/manager/state.cpp", "middleware/queue/include/queue/manager/state.h"]}
{"id": "C125", "title": "\"No such queue\" only if there is none", "statement": "A lookup is answered with \"absent\" only if the manager is to stop, or the lookup does not want to wait and nobody offers the queue.", "quantifier": "every sequence of messages to the queue manager - connects, replies and exits of queue groups, advertises of remotes, lookups, discards, discovery replies and requests, configuration updates, shutdown - with any processes that can or cannot be reached", "why_tests_cant": "it is about all interleavings of lookups with what providers, remotes and discovery do", "anchors": ["middleware/queue/source/manager/handle.cpp", "middleware/queue/source/manager/state.cpp", "middleware/queue/include/queue/manager/state.h"]}
{"id": "C126", "title": "Local queues before remote ones, remotes by order", "statement": "The answer prefers a queue group of this domain; of the remote providers it is one with the lowest order.", "quantifier": "every sequence of messages to the queue manager - connects, replies and exits of queue groups, advertises of remotes, lookups, discards, discovery replies and requests, configuration updates, shutdown - with any processes that can or cannot be reached", "why_tests_cant": "it is about all interleavings of lookups with what providers, remotes and discovery do", "anchors": ["middleware/queue/source/manager/handle.cpp", "middleware/queue/source/manager/state.cpp", "middleware/queue/include/queue/manager/state.h"]}
{"id": "C127", "title": "Requesters of other domains only get queues of this domain", "statement": "A lookup from another domain that has not discovered is never answered with a queue of a third domain.", "quantifier": "every sequence of messages to the queue manager - connects, replies and exits of queue groups, advertises of remotes, lookups, discards, discovery replies and requests, configuration updates, shutdown - with any processes that can or cannot be reached", "why_tests_cant": "it is about all interleavings of lookups with what providers, remotes and discovery do", "anchors": ["middleware/queue/source/manager/handle.cpp", "middleware/queue/source/manager/state.cpp", "middleware/queue/include/queue/manager/state.h"]}
{"id": "C128", "title": "A queue lookup ends at most once", "statement": "A lookup has at most one reply, or one confirmation that it is discarded, never both.", "quantifier": "every sequence of messages to the queue manager - connects, replies and exits of queue groups, advertises of remotes, lookups, discards, discovery replies and requests, configuration updates, shutdown - with any processes that can or cannot be reached", "why_tests_cant": "it is about all interleavings of lookups with what providers, remotes and discovery do", "anchors": ["middleware/queue/source/manager/handle.cpp", "middleware/queue/source/manager/state.cpp", "middleware/queue/include/queue/manager/state.h"]}
{"id": "C129", "title": "A queue lookup waits only if nobody offers the queue", "statement": "A lookup that is not answered waits for a queue that nobody offers it.", "quantifier": "every sequence of messages to the queue manager - connects, replies and exits of queue groups, advertises of remotes, lookups, discards, discovery replies and requests, configuration updates, shutdown - with any processes that can or cannot be reached", "why_tests_cant": "it is about all interleavings of lookups with what providers, remotes and discovery do", "anchors": ["middleware/queue/source/manager/handle.cpp", "middleware/queue/source/manager/state.cpp", "middleware/queue/include/queue/manager/state.h"]}
{"id": "C13", "title": "A died owner's transaction is rolled back, never committed", "statement": "When a process that owns a transaction dies, the manager rolls the transaction back: no phase-two commit request is sent after it has sent rollback requests for the same transaction.", "quantifier": "all histories and all points at which the process may die", "why_tests_cant": "the death can hit any stage of the protocol", "anchors": ["middleware/transaction/source/manager/handle.cpp: event::process::exit, rollback::request, coordinate::prepare"]}
{"id": "C130", "title": "A lookup that does not want to wait does not", "statement": "A lookup with direct semantics is answered at the latest when the discovery it caused is answered.", "quantifier": "every sequence of messages to the queue manager - connects, replies and exits of queue groups, advertises of remotes, lookups, discards, discovery replies and requests, configuration updates, shutdown - with any processes that can or cannot be reached", "why_tests_cant": "it is about all interleavings of lookups with what providers, remotes and discovery do", "anchors": ["middleware/queue/source/manager/handle.cpp", "middleware/queue/source/manager/state.cpp", "middleware/queue/include/queue/manager/state.h"]}
{"id": "C131", "title": "Nobody waits for a queue manager that stops", "statement": "When the manager is told to stop every lookup that waits is answered, and every one after that.", "quantifier": "every sequence of messages to the queue manager - connects, replies and exits of queue groups, advertises of remotes, lookups, discards, discovery replies and requests, configuration updates, shutdown - with any processes that can or cannot be reached", "why_tests_cant": "it is about all interleavings of lookups with what providers, remotes and discovery do", "anchors": ["middleware/queue/source/manager/handle.cpp", "middleware/queue/source/manager/state.cpp", "middleware/queue/include/queue/manager/state.h"]}
{"id": "C132", "title": "To discard a lookup is confirmed or refused correctly", "statement": "A discard of a lookup that waits is confirmed and there is no reply to it after that; a refused discard means that the lookup does not wait.", "quantifier": "every sequence of messages to the queue manager - connects, replies and exits of queue groups, advertises of remotes, lookups, discards, discovery replies and requests, configuration updates, shutdown - with any processes that can or cannot be reached", "why_tests_cant": "it is about all interleavings of lookups with what providers, remotes and discovery do", "anchors": ["middleware/queue/source/manager/handle.cpp", "middleware/queue/source/manager/state.cpp", "middleware/queue/include/queue/manager/state.h"]}
{"id": "C133", "title": "Domain discovery is told the queues that are there", "statement": "A discovery is told of every queue it asks for, that it is there or is not there, and that is right; a rediscovery is told the remote queues and those that are waited for.", "quantifier": "every sequence of messages to the queue manager - connects, replies and exits of queue groups, advertises of remotes, lookups, discards, discovery replies and requests, configuration updates, shutdown - with any processes that can or cannot be reached", "why_tests_cant": "it is about all interleavings of lookups with what providers, remotes and discovery do", "anchors": ["middleware/queue/source/manager/handle.cpp", "middleware/queue/source/manager/state.cpp", "middleware/queue/include/queue/manager/state.h"]}
{"id": "C134", "title": "The queue manager reports the children it has", "statement": "A request for the configuration is answered at once with the queue groups and forward groups that are alive, each as it was spawned, in the order of spawning.", "quantifier": "every sequence of messages to the queue manager - connects, replies and exits of its children, configuration updates and requests, shutdown, lookups and advertises - with any processes that can or cannot be reached", "why_tests_cant": "it is about all interleavings of updates, connects, replies and exits", "anchors": ["middleware/queue/source/manager/handle.cpp", "middleware/queue/source/manager/configuration.cpp", "middleware/queue/source/manager/state.cpp", "middleware/common/source/task.cpp"]}
{"id": "C135", "title": "A queue configuration update is answered once, after what it asks for is done", "statement": "An update is answered at most once; when it is, everything that was alive and is not wanted has exited, and everything wanted that was not there has been spawned since and has connected (or exited).", "quantifier": "every sequence of messages to the queue manager - connects, replies and exits of its children, configuration updates and requests, shutdown, lookups and advertises - with any processes that can or cannot be reached", "why_tests_cant": "it is about all interleavings of updates, connects, replies and exits", "anchors": ["middleware/queue/source/manager/handle.cpp", "middleware/queue/source/manager/configuration.cpp", "middleware/queue/source/manager/state.cpp", "middleware/common/source/task.cpp"]}
{"id": "C136", "title": "A queue configuration update is answered after what it modifies has taken the new configuration", "statement": "When an update is answered every queue group and forward group that it modifies has been sent its new configuration and has answered it (or exited).", "quantifier": "every sequence of messages to the queue manager - connects, replies and exits of its children, configuration updates and requests, shutdown, lookups and advertises - with any processes that can or cannot be reached", "why_tests_cant": "it is about all interleavings of updates, connects, replies and exits", "anchors": ["middleware/queue/source/manager/handle.cpp", "middleware/queue/source/manager/configuration.cpp", "middleware/queue/source/manager/state.cpp", "middleware/common/source/task.cpp"]}
{"id": "C137", "title": "A queue manager that shuts down stops all its children", "statement": "After a shutdown, when the manager has nothing left to do, no child is alive.", "quantifier": "every sequence of messages to the queue manager - connects, replies and exits of its children, configuration updates and requests, shutdown, lookups and advertises - with any processes that can or cannot be reached", "why_tests_cant": "it is about all interleavings of updates, connects, replies and exits", "anchors": ["middleware/queue/source/manager/handle.cpp", "middleware/queue/source/manager/configuration.cpp", "middleware/queue/source/manager/state.cpp", "middleware/common/source/task.cpp"]}
{"id": "C138", "title": "The queue manager is ready when all that is configured is up", "statement": "When the manager says that it is ready everything configured has been spawned and has answered its configuration.", "quantifier": "every sequence of messages to the queue manager - connects, replies and exits of its children, configuration updates and requests, shutdown, lookups and advertises - with any processes that can or cannot be reached", "why_tests_cant": "it is about all interleavings of updates, connects, replies and exits", "anchors": ["middleware/queue/source/manager/handle.cpp", "middleware/queue/source/manager/configuration.cpp", "middleware/queue/source/manager/state.cpp", "middleware/common/source/task.cpp"]}
{"id": "C139", "title": "The queue manager ends exactly when it is to stop and has no children", "statement": "The manager leaves its message loop if and only if it was told to stop and none of its children is alive.", "quantifier": "every sequence of messages to the queue manager - connects, replies and exits of its children, configuration updates and requests, shutdown, lookups and advertises - with any processes that can or cannot be reached", "why_tests_cant": "it is about all interleavings of updates, connects, replies and exits", "anchors": ["middleware/queue/source/manager/handle.cpp", "middleware/queue/source/manager/configuration.cpp", "middleware/queue/source/manager/state.cpp", "middleware/common/source/task.cpp"]}
{"id": "C14", "title": "Enqueue in a transaction is invisible until commit", "statement": "A message enqueued in a transaction cannot be dequeued or browsed by anybody before that transaction commits; after commit it can.", "quantifier": "all contents of the queuebase and all operation histories", "why_tests_cant": "arbitrary interleavings of transactions and queue contents", "anchors": ["middleware/queue/source/group/queuebase.cpp: enqueue, dequeue, commit", "middleware/queue/source/group/queuebase/statement.cpp: dequeue.first, commit1"]}
{"id": "C140", "title": "The queue manager says once that it is ready", "statement": "The manager tells the domain manager at most once that it is ready; a queue group that connects is sent the configuration it was spawned for.", "quantifier": "every sequence of messages to the queue manager - connects, replies and exits of its children, configuration updates and requests, shutdown, lookups and advertises - with any processes that can or cannot be reached", "why_tests_cant": "it is about all interleavings of updates, connects, replies and exits", "anchors": ["middleware/queue/source/manager/handle.cpp", "middleware/queue/source/manager/configuration.cpp", "middleware/queue/source/manager/state.cpp", "middleware/common/source/task.cpp"]}
{"id": "C141", "title": "After an update the queue manager reports the configuration that was wanted", "statement": "When an update has been answered a request for the configuration is answered with what the update wanted.", "quantifier": "every sequence of messages to the queue manager - connects, replies and exits of its children, configuration updates and requests, shutdown, lookups and advertises - with any processes that can or cannot be reached", "why_tests_cant": "it is about all interleavings of updates, connects, replies and exits", "anchors": ["middleware/queue/source/manager/handle.cpp", "middleware/queue/source/manager/configuration.cpp", "middleware/queue/source/manager/state.cpp", "middleware/common/source/task.cpp"]}
{"id": "C142", "title": "The queue manager stops only children that are not wanted any more", "statement": "As long as every configuration update wants some queue groups and forward groups (and the manager is not told to stop) none of these is told to stop or terminated; a request to shut down goes to the address the child has connected with.", "quantifier": "every sequence of messages to the queue manager, with any processes that can or cannot be reached", "why_tests_cant": "it is about all interleavings of updates, connects, replies and exits", "anchors": ["middleware/queue/source/manager/configuration.cpp", "middleware/queue/source/manager/handle.cpp"]}
{"id": "C143", "title": "A discovery is answered at most once", "statement": "A discovery request from this domain or from another one, and a rediscovery, is answered at most as many times as it was received.", "quantifier": "every configuration and every sequence of messages, timeouts and process exits to the discovery process, with any load and any processes that can or cannot be reached at each step", "why_tests_cant": "it is about all interleavings of requests, replies, exits, topology and configuration updates and load", "anchors": ["middleware/domain/source/discovery/handle.cpp", "middleware/domain/source/discovery/state.cpp", "middleware/domain/include/domain/discovery/state.h", "middleware/common/include/common/message/coordinate.h"]}
{"id": "C144", "title": "A discovery that is not answered waits for somebody alive", "statement": "A question to discovery that is not yet answered waits for the accumulation timer, which is armed, or for a provider that was asked, is alive and has not answered. When nothing is outstanding every question has been answered; a timeout leaves nothing accumulated.", "quantifier": "every configuration and every sequence of messages, timeouts and process exits to the discovery process, with any load and any processes that can or cannot be reached at each step", "why_tests_cant": "it is about all interleavings of requests, replies, exits, topology and configuration updates and load", "anchors": ["middleware/domain/source/discovery/handle.cpp", "middleware/domain/source/discovery/state.cpp", "middleware/domain/include/domain/discovery/state.h", "middleware/common/include/common/message/coordinate.h"]}
{"id": "C145", "title": "Shutdown leaves no discovery unanswered", "statement": "When the discovery process has been told to stop, discoveries are answered at once (with nothing), and when it ends every discovery it has received has been answered.", "quantifier": "every configuration and every sequence of messages, timeouts and process exits to the discovery process, with any load and any processes that can or cannot be reached at each step", "why_tests_cant": "it is about all interleavings of requests, replies, exits, topology and configuration updates and load", "anchors": ["middleware/domain/source/discovery/handle.cpp", "middleware/domain/source/discovery/state.cpp", "middleware/domain/include/domain/discovery/state.h", "middleware/common/include/common/message/coordinate.h"]}
{"id": "C146", "title": "An answer has only what was asked for and what somebody has said", "statement": "The answer to a discovery belongs to a request that was received, holds only names that request asks for (for a request limited to this domain: only what the lookup answers hold), and only services and queues that some provider has said exist (services under a route of the name that was said).", "quantifier": "every configuration and every sequence of messages, timeouts and process exits to the discovery process, with any load and any processes that can or cannot be reached at each step", "why_tests_cant": "it is about all interleavings of requests, replies, exits, topology and configuration updates and load", "anchors": ["middleware/domain/source/discovery/handle.cpp", "middleware/domain/source/discovery/state.cpp", "middleware/domain/include/domain/discovery/state.h", "middleware/common/include/common/message/coordinate.h"]}
{"id": "C147", "title": "Only what somebody needs is asked for in other domains", "statement": "What discovery asks other domains for has been asked for here or is known to a provider (under its own name or the name it is a route to), goes to providers that are registered with that ability, is sorted and without duplicates; a request that is limited to this domain is only ever looked up here.", "quantifier": "every configuration and every sequence of messages, timeouts and process exits to the discovery process, with any load and any processes that can or cannot be reached at each step", "why_tests_cant": "it is about all interleavings of requests, replies, exits, topology and configuration updates and load", "anchors": ["middleware/domain/source/discovery/handle.cpp", "middleware/domain/source/discovery/state.cpp", "middleware/domain/include/domain/discovery/state.h", "middleware/common/include/common/message/coordinate.h"]}
{"id": "C148", "title": "Topology updates do not run in circles", "statement": "An update that is passed on names this domain and else only domains of updates that were received; an update that names this domain leads to nothing; a connection is told to explore only what is asked for, known or configured, and only if it (or a domain behind it) is new.", "quantifier": "every configuration and every sequence of messages, timeouts and process exits to the discovery process, with any load and any processes that can or cannot be reached at each step", "why_tests_cant": "it is about all interleavings of requests, replies, exits, topology and configuration updates and load", "anchors": ["middleware/domain/source/discovery/handle.cpp", "middleware/domain/source/discovery/state.cpp", "middleware/domain/include/domain/discovery/state.h", "middleware/common/include/common/message/coordinate.h"]}
{"id": "C149", "title": "What is missing in an answer was looked for everywhere", "statement": "If something that was asked for is missing in an answer (before the process is told to stop) then, since the request came, every provider that is registered and can discover was asked for it, under the name other domains know, and could not be reached, has gone, or answered without it; for a request of another domain all providers that can look up in this domain were asked as well.", "quantifier": "every configuration and every sequence of messages, timeouts and process exits to the discovery process, with any load and any processes that can or cannot be reached at each step", "why_tests_cant": "it is about all interleavings of requests, replies, exits, topology and configuration updates and load", "anchors": ["middleware/domain/source/discovery/handle.cpp", "middleware/domain/source/discovery/state.cpp", "middleware/domain/include/domain/discovery/state.h", "middleware/common/include/common/message/coordinate.h"]}
{"id": "C15", "title": "Rollback undoes the transaction's queue work", "statement": "After the (first) rollback of a transaction no message enqueued by it exists, every message it had dequeued is back (on its queue or that queue's error queue, see C18), committed, with the same content, and no other message is changed.", "quantifier": "all queuebase contents and transactions", "why_tests_cant": "arbitrary contents", "anchors": ["middleware/queue/source/group/queuebase.cpp: rollback", "middleware/queue/source/group/queuebase/statement.cpp: rollback1, rollback2, rollback3"]}
{"id": "C150", "title": "A service is found in another domain under its own name unless routes say otherwise", "statement": "A service without configured routes is found by discovery under its own name if another domain that is asked has it.", "quantifier": "every configuration and every sequence of messages, timeouts and process exits to the discovery process, with any load and any processes that can or cannot be reached at each step", "why_tests_cant": "it is about all interleavings of requests, replies, exits, topology and configuration updates and load", "anchors": ["middleware/domain/source/discovery/handle.cpp", "middleware/domain/source/discovery/state.cpp", "middleware/domain/include/domain/discovery/state.h", "middleware/common/include/common/message/coordinate.h"]}
{"id": "C151", "title": "A new connection and a rediscovery lead to the discovery of all that is known", "statement": "Once nothing is outstanding, every new connection has been told to explore everything every provider knows of (asked after the update) and what is configured for it, every update of another domain likewise explores over the connection it came by, in both cases every provider upstream that wants to know is told (with all domains of the update and this one); a rediscovery asks every provider that can discover for everything that is known.", "quantifier": "every configuration and every sequence of messages, timeouts and process exits to the discovery process, with any load and any processes that can or cannot be reached at each step", "why_tests_cant": "it is about all interleavings of requests, replies, exits, topology and configuration updates and load", "anchors": ["middleware/domain/source/discovery/handle.cpp", "middleware/domain/source/discovery/state.cpp", "middleware/domain/include/domain/discovery/state.h", "middleware/common/include/common/message/coordinate.h"]}
{"id": "C152", "title": "A topology update reaches every domain that has not seen it", "statement": "An update of another domain is passed on to the upstream domains so that every one of them that the update does not name takes it up (does not ignore it).", "quantifier": "every configuration and every sequence of messages, timeouts and process exits to the discovery process, with any load and any processes that can or cannot be reached at each step", "why_tests_cant": "it is about all interleavings of requests, replies, exits, topology and configuration updates and load", "anchors": ["middleware/domain/source/discovery/handle.cpp", "middleware/domain/source/discovery/state.cpp", "middleware/domain/include/domain/discovery/state.h", "middleware/common/include/common/message/coordinate.h"]}
{"id": "C153", "title": "A domain boots in the order of the dependencies and stops in the reverse order", "statement": "Every server and executable that is a member of a configured group is in exactly one batch of the boot order and of the shutdown order; one whose groups need the groups of another is booted in a later batch and stopped in an earlier one.", "quantifier": "every set of groups with any dependencies without cycles, and every set of members", "why_tests_cant": "it is about all interleavings of connects, exits, lookups, scale, restart and shutdown requests", "anchors": ["middleware/domain/source/manager/state/order.cpp", "middleware/domain/source/manager/state.cpp", "middleware/domain/source/transform.cpp"]}
{"id": "C154", "title": "There is at most one process of a singleton at a time", "statement": "Between two admissions of processes as the same singleton, the first of them exits.", "quantifier": "every configuration of groups, servers and executables, every system that spawns or fails to, and every sequence of messages and process exits to the domain manager", "why_tests_cant": "it is about all interleavings of connects, exits, lookups, scale, restart and shutdown requests", "anchors": ["middleware/domain/source/manager/handle.cpp", "middleware/domain/source/manager/state.cpp", "middleware/domain/include/domain/manager/state.h", "middleware/domain/source/manager/task/create.cpp", "middleware/common/include/casual/task.h"]}
{"id": "C155", "title": "A process that connects is told once whether it may, and is turned down only with a reason", "statement": "A process that asks to connect is answered exactly once for each time it asks; it is turned down only if the domain is shutting down or another process is the singleton it wants to be; after a shutdown request no process is admitted.", "quantifier": "every configuration of groups, servers and executables, every system that spawns or fails to, and every sequence of messages and process exits to the domain manager", "why_tests_cant": "it is about all interleavings of connects, exits, lookups, scale, restart and shutdown requests", "anchors": ["middleware/domain/source/manager/handle.cpp", "middleware/domain/source/manager/state.cpp", "middleware/domain/include/domain/manager/state.h", "middleware/domain/source/manager/task/create.cpp", "middleware/common/include/casual/task.h"]}
{"id": "C156", "title": "Lookups of singletons", "statement": "A lookup is answered at most once, with the process that is the singleton at that time, or with nothing only if there is none and the lookup is direct or the domain is shutting down; a lookup that is not answered is for a singleton that is not there; when the manager ends none is left, and none is answered with a process that has exited.", "quantifier": "every configuration of groups, servers and executables, every system that spawns or fails to, and every sequence of messages and process exits to the domain manager", "why_tests_cant": "it is about all interleavings of connects, exits, lookups, scale, restart and shutdown requests", "anchors": ["middleware/domain/source/manager/handle.cpp", "middleware/domain/source/manager/state.cpp", "middleware/domain/include/domain/manager/state.h", "middleware/domain/source/manager/task/create.cpp", "middleware/common/include/casual/task.h"]}
{"id": "C157", "title": "Processes that ask for it are spared from assassination", "statement": "A process that asked to be whitelisted when it connected is not signalled on behalf of anyone before it has exited, and neither is the domain manager itself.", "quantifier": "every configuration of groups, servers and executables, every system that spawns or fails to, and every sequence of messages and process exits to the domain manager", "why_tests_cant": "it is about all interleavings of connects, exits, lookups, scale, restart and shutdown requests", "anchors": ["middleware/domain/source/manager/handle.cpp", "middleware/domain/source/manager/state.cpp", "middleware/domain/include/domain/manager/state.h", "middleware/domain/source/manager/task/create.cpp", "middleware/common/include/casual/task.h"]}
{"id": "C158", "title": "A boot waits for what it depends on", "statement": "In a boot, a process is spawned only when every server process spawned for an earlier batch - in particular for the groups it depends on - has connected or has exited.", "quantifier": "every configuration of groups, servers and executables, every system that spawns or fails to, and every sequence of messages and process exits to the domain manager", "why_tests_cant": "it is about all interleavings of connects, exits, lookups, scale, restart and shutdown requests", "anchors": ["middleware/domain/source/manager/handle.cpp", "middleware/domain/source/manager/state.cpp", "middleware/domain/include/domain/manager/state.h", "middleware/domain/source/manager/task/create.cpp", "middleware/common/include/casual/task.h"]}
{"id": "C159", "title": "A shutdown stops what depends on others first", "statement": "In a shutdown nothing is done to stop a process (prepare, shutdown request, signal) before all processes of the batches to be stopped earlier have exited.", "quantifier": "every configuration of groups, servers and executables, every system that spawns or fails to, and every sequence of messages and process exits to the domain manager", "why_tests_cant": "it is about all interleavings of connects, exits, lookups, scale, restart and shutdown requests", "anchors": ["middleware/domain/source/manager/handle.cpp", "middleware/domain/source/manager/state.cpp", "middleware/domain/include/domain/manager/state.h", "middleware/domain/source/manager/task/create.cpp", "middleware/common/include/casual/task.h"]}
{"id": "C16", "title": "No message is lost or duplicated", "statement": "A message id occurs at most once in the queuebase; a committed message only disappears by a dequeue outside a transaction that hands it out, by commit of the transaction that dequeued it, or by an administrator's clear/remove; its content never changes; a message handed out by a committed (or non-transactional) dequeue is never handed out again.", "quantifier": "all histories of operations", "why_tests_cant": "every history", "anchors": ["middleware/queue/source/group/queuebase.cpp", "middleware/queue/source/group/queuebase/statement.cpp"]}
{"id": "C160", "title": "A shutdown comes to its end", "statement": "After a shutdown request the domain manager ends when the processes have exited, and until then it has done something about a process that has not.", "quantifier": "every configuration of groups, servers and executables, every system that spawns or fails to, and every sequence of messages and process exits to the domain manager", "why_tests_cant": "it is about all interleavings of connects, exits, lookups, scale, restart and shutdown requests", "anchors": ["middleware/domain/source/manager/handle.cpp", "middleware/domain/source/manager/state.cpp", "middleware/domain/include/domain/manager/state.h", "middleware/domain/source/manager/task/create.cpp", "middleware/common/include/casual/task.h"]}
{"id": "C161", "title": "A shutdown leaves no process", "statement": "When the domain manager has ended, every process it has spawned has exited.", "quantifier": "every configuration of groups, servers and executables, every system that spawns or fails to, and every sequence of messages and process exits to the domain manager", "why_tests_cant": "it is about all interleavings of connects, exits, lookups, scale, restart and shutdown requests", "anchors": ["middleware/domain/source/manager/handle.cpp", "middleware/domain/source/manager/state.cpp", "middleware/domain/include/domain/manager/state.h", "middleware/domain/source/manager/task/create.cpp", "middleware/common/include/casual/task.h"]}
{"id": "C162", "title": "Only processes of the domain are stopped", "statement": "Whatever is scaled, restarted or shut down, the domain manager tells only processes it has spawned itself to stop, and sends signals to no other.", "quantifier": "every configuration of groups, servers and executables, every system that spawns or fails to, and every sequence of messages and process exits to the domain manager", "why_tests_cant": "it is about all interleavings of connects, exits, lookups, scale, restart and shutdown requests", "anchors": ["middleware/domain/source/manager/handle.cpp", "middleware/domain/source/manager/state.cpp", "middleware/domain/include/domain/manager/state.h", "middleware/domain/source/manager/task/create.cpp", "middleware/common/include/casual/task.h"]}
{"id": "C163", "title": "Nothing is spawned in a shutdown", "statement": "From a shutdown request on, no process is spawned.", "quantifier": "every configuration of groups, servers and executables, every system that spawns or fails to, and every sequence of messages and process exits to the domain manager", "why_tests_cant": "it is about all interleavings of connects, exits, lookups, scale, restart and shutdown requests", "anchors": ["middleware/domain/source/manager/handle.cpp", "middleware/domain/source/manager/state.cpp", "middleware/domain/include/domain/manager/state.h", "middleware/domain/source/manager/task/create.cpp", "middleware/common/include/casual/task.h"]}
{"id": "C164", "title": "A boot comes to its end", "statement": "A boot is done as soon as every server process that has been spawned for it has connected or has exited.", "quantifier": "every configuration of groups, servers and executables, every system that spawns or fails to, and every sequence of messages and process exits to the domain manager", "why_tests_cant": "it is about all interleavings of connects, exits, lookups, scale, restart and shutdown requests", "anchors": ["middleware/domain/source/manager/handle.cpp", "middleware/domain/source/manager/state.cpp", "middleware/domain/include/domain/manager/state.h", "middleware/domain/source/manager/task/create.cpp", "middleware/common/include/casual/task.h"]}
{"id": "C165", "title": "Scaling gives what was asked for", "statement": "A request to scale an entity to n instances spawns exactly the missing processes, or stops exactly the superfluous ones, the last first; and a process that exits is replaced exactly when its entity is configured to be restarted.", "quantifier": "every configuration of groups, servers and executables, every system that spawns or fails to, and every sequence of messages and process exits to the domain manager", "why_tests_cant": "it is about all interleavings of connects, exits, lookups, scale, restart and shutdown requests", "anchors": ["middleware/domain/source/manager/handle.cpp", "middleware/domain/source/manager/state.cpp", "middleware/domain/include/domain/manager/state.h", "middleware/domain/source/manager/task/create.cpp", "middleware/common/include/casual/task.h"]}
{"id": "C166", "title": "A restart stops only what it names", "statement": "A restart by aliases or groups stops only processes of the entities or groups it names, and never an untouchable process.", "quantifier": "every configuration of groups, servers and executables, every system that spawns or fails to, and every sequence of messages and process exits to the domain manager", "why_tests_cant": "it is about all interleavings of connects, exits, lookups, scale, restart and shutdown requests", "anchors": ["middleware/domain/source/manager/handle.cpp", "middleware/domain/source/manager/state.cpp", "middleware/domain/include/domain/manager/state.h", "middleware/domain/source/manager/task/create.cpp", "middleware/common/include/casual/task.h"]}
{"id": "C167", "title": "A field buffer is a list of fields", "statement": "Any sequence of add, set, put and remove calls on a new field buffer returns the codes and leaves the content that the same calls on a list of (id, value) give; a set changes, and a removal removes, one occurrence of one id only.", "quantifier": "every sequence of calls, every content of buffers (made by calls or received), both byte orders and every choice of the memory allocator", "why_tests_cant": "it is about all sequences of calls and all contents of received memory", "anchors": ["middleware/buffer/source/field.cpp", "middleware/buffer/include/casual/buffer/field.h"]}
{"id": "C168", "title": "A field buffer that is sent is received", "statement": "A field buffer, sent to a process on a host of either byte order, is accepted there and reads there as the same list of fields.", "quantifier": "every sequence of calls, every content of buffers (made by calls or received), both byte orders and every choice of the memory allocator", "why_tests_cant": "it is about all sequences of calls and all contents of received memory", "anchors": ["middleware/buffer/source/field.cpp", "middleware/buffer/include/casual/buffer/field.h"]}
{"id": "C169", "title": "Iteration over a field buffer gives each field once", "statement": "casual_field_next from CASUAL_FIELD_NO_ID until it fails gives each occurrence of each id exactly once, by id and occurrence.", "quantifier": "every sequence of calls, every content of buffers (made by calls or received), both byte orders and every choice of the memory allocator", "why_tests_cant": "it is about all sequences of calls and all contents of received memory", "anchors": ["middleware/buffer/source/field.cpp", "middleware/buffer/include/casual/buffer/field.h"]}
{"id": "C17", "title": "Dequeue is first-in first-out among the available messages", "statement": "Dequeue returns a message of the requested queue that is committed and not taken by anybody, that fits what is asked for (any, or by properties: its available time has passed; by id: regardless of the available time), and no other such message has an earlier enqueue time (ties by available time when any message will do); it reports 'no message' if and only if there is none. Browsing from a point in time shows the first such message enqueued later.", "quantifier": "all queue contents, selectors and times", "why_tests_cant": "arbitrary contents", "anchors": ["middleware/queue/source/group/queuebase.cpp: dequeue", "middleware/queue/source/group/queuebase/statement.cpp: dequeue.first, first_id, first_match"]}
{"id": "C170", "title": "Received field memory is accepted or rejected", "statement": "Any memory that is received as a field buffer is either rejected or accepted as a list of fields, without reading outside of it and in finite time.", "quantifier": "every sequence of calls, every content of buffers (made by calls or received), both byte orders and every choice of the memory allocator", "why_tests_cant": "it is about all sequences of calls and all contents of received memory", "anchors": ["middleware/buffer/source/field.cpp", "middleware/buffer/include/casual/buffer/field.h"]}
{"id": "C171", "title": "A field call that fails changes nothing", "statement": "A call on a field buffer that does not succeed leaves the buffer as it was.", "quantifier": "every sequence of calls, every content of buffers (made by calls or received), both byte orders and every choice of the memory allocator", "why_tests_cant": "it is about all sequences of calls and all contents of received memory", "anchors": ["middleware/buffer/source/field.cpp", "middleware/buffer/include/casual/buffer/field.h"]}
{"id": "C172", "title": "A removed field id is gone", "statement": "After casual_field_remove_id has returned success there is no field with the id and all others are as they were.", "quantifier": "every sequence of calls, every content of buffers (made by calls or received), both byte orders and every choice of the memory allocator", "why_tests_cant": "it is about all sequences of calls and all contents of received memory", "anchors": ["middleware/buffer/source/field.cpp", "middleware/buffer/include/casual/buffer/field.h"]}
{"id": "C173", "title": "Iteration over received fields ends", "statement": "Iteration over any field buffer that is accepted comes to an end and gives each field once.", "quantifier": "every sequence of calls, every content of buffers (made by calls or received), both byte orders and every choice of the memory allocator", "why_tests_cant": "it is about all sequences of calls and all contents of received memory", "anchors": ["middleware/buffer/source/field.cpp", "middleware/buffer/include/casual/buffer/field.h"]}
{"id": "C174", "title": "Reads of received fields are within the memory", "statement": "Any get on a field buffer that has been accepted reads within the memory of the buffer.", "quantifier": "every sequence of calls, every content of buffers (made by calls or received), both byte orders and every choice of the memory allocator", "why_tests_cant": "it is about all sequences of calls and all contents of received memory", "anchors": ["middleware/buffer/source/field.cpp", "middleware/buffer/include/casual/buffer/field.h"]}
{"id": "C175", "title": "casual_field_get_value", "statement": "casual_field_get_value of a field that there is gives the value and its size if there is room, and says how much is needed otherwise; if it fails the count of the caller is as it was; casual_field_minimum_need is what the empty value of a type takes.", "quantifier": "every sequence of calls, every content of buffers (made by calls or received), both byte orders and every choice of the memory allocator", "why_tests_cant": "it is about all sequences of calls and all contents of received memory", "anchors": ["middleware/buffer/source/field.cpp", "middleware/buffer/include/casual/buffer/field.h"]}
{"id": "C176", "title": "An order buffer gives the values in the order they were added", "statement": "However adding, getting, starting over and recycling are interleaved, each get with the function for the type that was added gives the next value; also when the buffer has been sent to a host of either byte order.", "quantifier": "every sequence of calls, every content of buffers (made by calls or received), both byte orders and every choice of the memory allocator", "why_tests_cant": "it is about all sequences of calls and all contents of received memory", "anchors": ["middleware/buffer/source/order.cpp"]}
{"id": "C177", "title": "The end of an order buffer", "statement": "A get beyond the end of an order buffer is answered with out of bounds, changes nothing and reads nothing outside of the buffer, also when the buffer has been received.", "quantifier": "every sequence of calls, every content of buffers (made by calls or received), both byte orders and every choice of the memory allocator", "why_tests_cant": "it is about all sequences of calls and all contents of received memory", "anchors": ["middleware/buffer/source/order.cpp"]}
{"id": "C178", "title": "String buffers", "statement": "A string that is set is what is got and what the receiver gets, with exactly its NUL sent; a reallocated string buffer has a string in it that ends within it; a buffer without a NUL is recognised.", "quantifier": "every sequence of calls, every content of buffers (made by calls or received), both byte orders and every choice of the memory allocator", "why_tests_cant": "it is about all sequences of calls and all contents of received memory", "anchors": ["middleware/buffer/source/string.cpp"]}
{"id": "C179", "title": "Octet buffers", "statement": "What is set in an octet buffer is what is got and what is sent, whatever size the sender gives; a negative size is refused.", "quantifier": "every sequence of calls, every content of buffers (made by calls or received), both byte orders and every choice of the memory allocator", "why_tests_cant": "it is about all sequences of calls and all contents of received memory", "anchors": ["middleware/buffer/source/octet.cpp"]}
{"id": "C18", "title": "Too many redeliveries move a message to the error queue and nowhere else", "statement": "On rollback a dequeued message goes back to its queue while its redelivery count does not exceed the queue's retry count, otherwise to that queue's own error queue with count 0; messages rolled back on an error queue stay there.", "quantifier": "all queues, counts and histories of queue creation/removal", "why_tests_cant": "relies on an id-parity convention that must hold in every reachable table", "anchors": ["middleware/queue/source/group/queuebase/statement.cpp: rollback3", "middleware/queue/source/group/queuebase.cpp: create, remove, update"]}
{"id": "C180", "title": "Handles", "statement": "No two buffers have the same handle; a buffer stays as it is, at its handle, until a call is given that handle (or it is the inbound buffer and the service is done), whatever happens with other buffers; a freed buffer is gone, a reallocated one is at the new handle only and keeps its type and content.", "quantifier": "every sequence of calls, every content of buffers (made by calls or received), both byte orders and every choice of the memory allocator", "why_tests_cant": "it is about all sequences of calls and all contents of received memory", "anchors": ["middleware/common/include/common/buffer/pool.h", "middleware/common/source/buffer/pool.cpp", "middleware/common/source/buffer/type.cpp", "middleware/xatmi/source/xatmi/explicit/buffer.cpp", "middleware/xatmi/source/xatmi/explicit/service.cpp"]}
{"id": "C181", "title": "The buffer a service is called with", "statement": "The buffer a service is called with is not freed by tpfree; when the service is done it is gone, and no other buffer is.", "quantifier": "every sequence of calls, every content of buffers (made by calls or received), both byte orders and every choice of the memory allocator", "why_tests_cant": "it is about all sequences of calls and all contents of received memory", "anchors": ["middleware/common/include/common/buffer/pool.h", "middleware/common/source/buffer/pool.cpp", "middleware/common/source/buffer/type.cpp", "middleware/xatmi/source/xatmi/explicit/buffer.cpp", "middleware/xatmi/source/xatmi/explicit/service.cpp"]}
{"id": "C182", "title": "Handles that are not valid are refused", "statement": "A handle that is not of a buffer is refused with TPEINVAL by every call that is given it, and nothing changes.", "quantifier": "every sequence of calls, every content of buffers (made by calls or received), both byte orders and every choice of the memory allocator", "why_tests_cant": "it is about all sequences of calls and all contents of received memory", "anchors": ["middleware/common/include/common/buffer/pool.h", "middleware/common/source/buffer/pool.cpp", "middleware/common/source/buffer/type.cpp", "middleware/xatmi/source/xatmi/explicit/buffer.cpp", "middleware/xatmi/source/xatmi/explicit/service.cpp"]}
{"id": "C183", "title": "What is sent of a buffer", "statement": "Of an X_OCTET buffer the given number of bytes is sent, a number that is not within the buffer is refused with TPEINVAL; buffers of other types are sent as a whole.", "quantifier": "every sequence of calls, every content of buffers (made by calls or received), both byte orders and every choice of the memory allocator", "why_tests_cant": "it is about all sequences of calls and all contents of received memory", "anchors": ["middleware/common/include/common/buffer/pool.h", "middleware/common/source/buffer/pool.cpp", "middleware/common/source/buffer/type.cpp", "middleware/xatmi/source/xatmi/explicit/buffer.cpp", "middleware/xatmi/source/xatmi/explicit/service.cpp"]}
{"id": "C184", "title": "Replies into the buffer of the user", "statement": "A reply gives the user a buffer with its type and content; if the call fails because of the type of the reply the buffer of the user is as it was, and no buffer is left that the user can not free.", "quantifier": "every sequence of calls, every content of buffers (made by calls or received), both byte orders and every choice of the memory allocator", "why_tests_cant": "it is about all sequences of calls and all contents of received memory", "anchors": ["middleware/common/include/common/buffer/pool.h", "middleware/common/source/buffer/pool.cpp", "middleware/common/source/buffer/type.cpp", "middleware/xatmi/source/xatmi/explicit/buffer.cpp", "middleware/xatmi/source/xatmi/explicit/service.cpp"]}
{"id": "C185", "title": "Descriptors of conversations", "statement": "A conversation has at most one descriptor in a process, and it is the one tpconnect returned as long as it is open; a descriptor that is not open is refused by tpsend, tprecv and tpdiscon with TPEBADDESC, and nothing happens.", "quantifier": "every history of connects, sends, receives, disconnects, returns, deaths and reports of any number of processes and conversations, in every interleaving", "why_tests_cant": "it is about all interleavings of the processes and all crash points", "anchors": ["middleware/common/source/service/conversation/context.cpp (Context::connect, send, receive, disconnect)", "middleware/common/include/common/service/conversation/state.h", "middleware/xatmi/source/xatmi/conversation.cpp"]}
{"id": "C186", "title": "One side is in control", "statement": "The two sides of a conversation are never in control at the same time; tpsend without control and tprecv with control are refused with TPEPROTO and nothing happens.", "quantifier": "every history of connects, sends, receives, disconnects, returns, deaths and reports of any number of processes and conversations, in every interleaving", "why_tests_cant": "it is about all interleavings of the processes and all crash points", "anchors": ["middleware/common/source/service/conversation/context.cpp (Context::connect, send, receive, disconnect)", "middleware/common/include/common/service/conversation/state.h", "middleware/xatmi/source/xatmi/conversation.cpp"]}
{"id": "C187", "title": "Data arrives in order and complete", "statement": "What tprecv has given is the first part of what the other side has sent with tpsend, in that order, nothing twice and nothing missing; whoever is in control has received everything.", "quantifier": "every history of connects, sends, receives, disconnects, returns, deaths and reports of any number of processes and conversations, in every interleaving", "why_tests_cant": "it is about all interleavings of the processes and all crash points", "anchors": ["middleware/common/source/service/conversation/context.cpp (Context::connect, send, receive, disconnect)", "middleware/common/include/common/service/conversation/state.h", "middleware/xatmi/source/xatmi/conversation.cpp"]}
{"id": "C188", "title": "The events are true", "statement": "TPEV_DISCONIMM is given only when the initiator has disconnected, TPEV_SVCSUCC and TPEV_SVCFAIL only when the service has returned so, with its user code and data, TPEV_SVCERR only when the service could not be called, its server died, it takes too long or its transaction failed.", "quantifier": "every history of connects, sends, receives, disconnects, returns, deaths and reports of any number of processes and conversations, in every interleaving", "why_tests_cant": "it is about all interleavings of the processes and all crash points", "anchors": ["middleware/common/source/service/conversation/context.cpp (Context::connect, send, receive, disconnect)", "middleware/common/include/common/service/conversation/state.h", "middleware/xatmi/source/xatmi/conversation.cpp", "middleware/common/include/common/server/handle/service.h (call)", "middleware/common/source/server/handle/service.cpp (transform::parameter, complement::reply)", "middleware/common/source/server/handle/conversation.cpp"]}
{"id": "C189", "title": "Nothing after the end", "statement": "When a conversation has ended for a process, with an event or an error, its descriptor is closed and no later call sends, gives data or gives an event for it.", "quantifier": "every history of connects, sends, receives, disconnects, returns, deaths and reports of any number of processes and conversations, in every interleaving", "why_tests_cant": "it is about all interleavings of the processes and all crash points", "anchors": ["middleware/common/source/service/conversation/context.cpp (Context::connect, send, receive, disconnect)", "middleware/common/include/common/service/conversation/state.h", "middleware/xatmi/source/xatmi/conversation.cpp"]}
{"id": "C19", "title": "Queue counters agree with the queue's contents", "statement": "The reported number of messages, total size and number of uncommitted messages of each queue always equal what a full count of the message table gives.", "quantifier": "all histories of all operations", "why_tests_cant": "counters are maintained incrementally by triggers; must hold in every reachable state", "anchors": ["middleware/queue/include/queue/group/queuebase/schema.h: triggers"]}
{"id": "C190", "title": "The end of the service is noticed", "statement": "When the service has returned, could not be called, or the service manager has reported its end, tprecv of the initiator does not block and tpsend gives an event and sends nothing.", "quantifier": "every history of connects, sends, receives, disconnects, returns, deaths and reports of any number of processes and conversations, in every interleaving", "why_tests_cant": "it is about all interleavings of the processes and all crash points", "anchors": ["middleware/common/source/service/conversation/context.cpp (Context::connect, send, receive, disconnect)", "middleware/common/include/common/service/conversation/state.h", "middleware/xatmi/source/xatmi/conversation.cpp", "middleware/common/include/common/server/handle/service.h (call)", "middleware/common/source/server/handle/service.cpp (transform::parameter, complement::reply)", "middleware/common/source/server/handle/conversation.cpp"]}
{"id": "C191", "title": "tpdiscon is noticed", "statement": "After tpdiscon the next tprecv or tpsend of the service gives TPEV_DISCONIMM, whatever has been sent before.", "quantifier": "every history of connects, sends, receives, disconnects, returns, deaths and reports of any number of processes and conversations, in every interleaving", "why_tests_cant": "it is about all interleavings of the processes and all crash points", "anchors": ["middleware/common/source/service/conversation/context.cpp (Context::connect, send, receive, disconnect)", "middleware/common/include/common/service/conversation/state.h", "middleware/xatmi/source/xatmi/conversation.cpp"]}
{"id": "C192", "title": "The service is started once", "statement": "For a tpconnect the service is called at most once, with the data of the tpconnect, and in control if and only if TPRECVONLY was given; tpconnect returns only when the service has been called.", "quantifier": "every history of connects, sends, receives, disconnects, returns, deaths and reports of any number of processes and conversations, in every interleaving", "why_tests_cant": "it is about all interleavings of the processes and all crash points", "anchors": ["middleware/common/source/service/conversation/context.cpp (Context::connect, send, receive, disconnect)", "middleware/common/include/common/service/conversation/state.h", "middleware/xatmi/source/xatmi/conversation.cpp", "middleware/common/include/common/server/handle/service.h (call)", "middleware/common/source/server/handle/service.cpp (transform::parameter, complement::reply)", "middleware/common/source/server/handle/conversation.cpp"]}
{"id": "C193", "title": "tpconnect returns", "statement": "tpconnect to a service returns, with a descriptor or an error, unless the service takes for ever to be called.", "quantifier": "every history of connects, sends, receives, disconnects, returns, deaths and reports of any number of processes and conversations, in every interleaving", "why_tests_cant": "it is about all interleavings of the processes and all crash points", "anchors": ["middleware/common/source/service/conversation/context.cpp (Context::connect, send, receive, disconnect)", "middleware/common/include/common/service/conversation/state.h", "middleware/xatmi/source/xatmi/conversation.cpp", "middleware/common/include/common/server/handle/service.h (call)", "middleware/common/source/server/handle/service.cpp (transform::parameter, complement::reply)", "middleware/common/source/server/handle/conversation.cpp"]}
{"id": "C194", "title": "A server goes on after a conversation", "statement": "When a service that was connected to returns, the server waits for the next request.", "quantifier": "every history of connects, sends, receives, disconnects, returns, deaths and reports of any number of processes and conversations, in every interleaving", "why_tests_cant": "it is about all interleavings of the processes and all crash points", "anchors": ["middleware/common/source/service/conversation/context.cpp (Context::connect, send, receive, disconnect)", "middleware/common/include/common/service/conversation/state.h", "middleware/xatmi/source/xatmi/conversation.cpp", "middleware/common/include/common/server/handle/service.h (call)", "middleware/common/source/server/handle/service.cpp (transform::parameter, complement::reply)", "middleware/common/source/server/handle/conversation.cpp"]}
{"id": "C195", "title": "The death of the other side is noticed", "statement": "When one of the processes dies the other one is given an event, and does not wait in tprecv for ever.", "quantifier": "every history of connects, sends, receives, disconnects, returns, deaths and reports of any number of processes and conversations, in every interleaving", "why_tests_cant": "it is about all interleavings of the processes and all crash points", "anchors": ["middleware/common/source/service/conversation/context.cpp (Context::connect, send, receive, disconnect)", "middleware/common/include/common/service/conversation/state.h", "middleware/xatmi/source/xatmi/conversation.cpp", "middleware/common/include/common/server/handle/service.h (call)", "middleware/common/source/server/handle/service.cpp (transform::parameter, complement::reply)", "middleware/common/source/server/handle/conversation.cpp"]}
{"id": "C196", "title": "Success means that all has been received", "statement": "TPEV_SVCSUCC is given only for a tpreturn in control, that is when the service has received all that was sent to it.", "quantifier": "every history of connects, sends, receives, disconnects, returns, deaths and reports of any number of processes and conversations, in every interleaving", "why_tests_cant": "it is about all interleavings of the processes and all crash points", "anchors": ["middleware/common/source/service/conversation/context.cpp (Context::connect, send, receive, disconnect)", "middleware/common/include/common/service/conversation/state.h", "middleware/xatmi/source/xatmi/conversation.cpp", "middleware/common/include/common/server/handle/service.h (call)", "middleware/common/source/server/handle/service.cpp (transform::parameter, complement::reply)", "middleware/common/source/server/handle/conversation.cpp"]}
{"id": "C197", "title": "A transaction with a conversation can be committed", "statement": "A transaction in which a conversation has been connected to, and ended, can be committed.", "quantifier": "every history of connects, sends, receives, disconnects, returns, deaths and reports of any number of processes and conversations, in every interleaving", "why_tests_cant": "it is about all interleavings of the processes and all crash points", "anchors": ["middleware/common/source/service/conversation/context.cpp (Context::connect, send, receive, disconnect)", "middleware/common/include/common/service/conversation/state.h", "middleware/xatmi/source/xatmi/conversation.cpp", "middleware/common/include/common/server/handle/service.h (call)", "middleware/common/source/server/handle/service.cpp (transform::parameter, complement::reply)", "middleware/common/source/server/handle/conversation.cpp", "middleware/common/source/transaction/context.cpp (Context::commit, finalize)", "middleware/common/source/transaction/transaction.cpp (associate, replied)"]}
{"id": "C198", "title": "A service that fails commits nothing", "statement": "When a service that was connected to returns TPFAIL nothing is committed by it.", "quantifier": "every history of connects, sends, receives, disconnects, returns, deaths and reports of any number of processes and conversations, in every interleaving", "why_tests_cant": "it is about all interleavings of the processes and all crash points", "anchors": ["middleware/common/source/service/conversation/context.cpp (Context::connect, send, receive, disconnect)", "middleware/common/include/common/service/conversation/state.h", "middleware/xatmi/source/xatmi/conversation.cpp", "middleware/common/include/common/server/handle/service.h (call)", "middleware/common/source/server/handle/service.cpp (transform::parameter, complement::reply)", "middleware/common/source/server/handle/conversation.cpp", "middleware/common/source/transaction/context.cpp (Context::commit, finalize)", "middleware/common/source/transaction/transaction.cpp (associate, replied)"]}
{"id": "C199", "title": "What is enabled", "statement": "A server, executable or connection is enabled if and only if all groups it is a member of, and all groups these depend on, directly or not, are enabled; the order of the groups does not matter.", "quantifier": "every configuration, of any size", "why_tests_cant": "it is about all configurations and all combinations of them", "anchors": ["middleware/configuration/source/group.cpp (Coordinator)", "middleware/configuration/source/model.cpp (normalize)"]}
{"id": "C20", "title": "Capacity limit is respected and size bookkeeping is exact", "statement": "The size a queue group believes it uses equals the sum of the payload sizes of all its stored messages, and with a capacity configured an accepted enqueue never brings the stored size above the capacity.", "quantifier": "all histories", "why_tests_cant": "every history of enqueue/dequeue/commit/rollback/clear/remove/recovery", "anchors": ["middleware/queue/source/group/handle.cpp: has::sufficient::capacity, enqueue::request, dequeue::handle, transaction::commit, rollback, recovery"]}
{"id": "C200", "title": "Aliases are unique", "statement": "After a configuration has been loaded no two servers or executables have the same alias, nor two connection groups, nor two forwards; and there are as many of them, with the same settings, in the same order, as were configured.", "quantifier": "every configuration, of any size", "why_tests_cant": "it is about all configurations and all combinations of them", "anchors": ["middleware/configuration/source/model.cpp (normalize)", "middleware/configuration/include/configuration/common.h (alias::normalize::mutator)", "middleware/configuration/source/common.cpp"]}
{"id": "C201", "title": "A configured alias is kept", "statement": "The alias that is configured for a server or executable, and for no other, is its alias in the domain.", "quantifier": "every configuration, of any size", "why_tests_cant": "it is about all configurations and all combinations of them", "anchors": ["middleware/configuration/source/model.cpp (normalize)", "middleware/configuration/include/configuration/common.h (alias::normalize::mutator)", "middleware/configuration/source/common.cpp"]}
{"id": "C202", "title": "Restrictions and resources follow their server", "statement": "The services a server is restricted to and its resources are, after loading, those of the same server, whatever alias it has been given.", "quantifier": "every configuration, of any size", "why_tests_cant": "it is about all configurations and all combinations of them", "anchors": ["middleware/configuration/source/model.cpp (normalize)", "middleware/configuration/include/configuration/common.h (alias::normalize::mutator)", "middleware/configuration/source/common.cpp"]}
{"id": "C203", "title": "Later files take precedence", "statement": "When configurations are put together, what the later says about something counts, if it says something about it.", "quantifier": "every configuration, of any size", "why_tests_cant": "it is about all configurations and all combinations of them", "anchors": ["middleware/configuration/source/model.cpp (normalize, set_union, set_difference, set_intersection)", "middleware/configuration/include/configuration/model.h"]}
{"id": "C204", "title": "Nothing is lost", "statement": "When configurations are put together nothing that has no name is lost, and nothing that the later does not name.", "quantifier": "every configuration, of any size", "why_tests_cant": "it is about all configurations and all combinations of them", "anchors": ["middleware/configuration/source/model.cpp (normalize, set_union, set_difference, set_intersection)", "middleware/configuration/include/configuration/model.h"]}
{"id": "C205", "title": "The same configuration twice", "statement": "A configuration put together with itself, in which everything is named, is the same configuration.", "quantifier": "every configuration, of any size", "why_tests_cant": "it is about all configurations and all combinations of them", "anchors": ["middleware/configuration/source/model.cpp (normalize, set_union, set_difference, set_intersection)", "middleware/configuration/include/configuration/model.h"]}
{"id": "C206", "title": "Grouping of configurations", "statement": "It does not matter how configurations, each without duplicate names, are grouped when they are put together.", "quantifier": "every configuration, of any size", "why_tests_cant": "it is about all configurations and all combinations of them", "anchors": ["middleware/configuration/source/model.cpp (normalize, set_union, set_difference, set_intersection)", "middleware/configuration/include/configuration/model.h"]}
{"id": "C207", "title": "Difference and intersection of configurations", "statement": "The difference of two configurations is all of the first that the second does not name, the intersection is all of the first that the second names.", "quantifier": "every configuration, of any size", "why_tests_cant": "it is about all configurations and all combinations of them", "anchors": ["middleware/configuration/source/model.cpp (normalize, set_union, set_difference, set_intersection)", "middleware/configuration/include/configuration/model.h"]}
{"id": "C208", "title": "Defaults", "statement": "What is not said about a server, executable or service in a file is what the defaults of the file say, or else the documented default.", "quantifier": "every configuration, of any size", "why_tests_cant": "it is about all configurations and all combinations of them", "anchors": ["middleware/configuration/source/model/load.cpp", "middleware/configuration/source/model/transform.cpp", "middleware/configuration/source/user.cpp (normalize)", "middleware/configuration/source/model/validate.cpp", "middleware/domain/source/manager/admin/server.cpp (configuration post, put)"]}
{"id": "C209", "title": "Instances of a resource", "statement": "A transaction resource for which neither instances nor a default is configured has 1 instance.", "quantifier": "every configuration, of any size", "why_tests_cant": "it is about all configurations and all combinations of them", "anchors": ["middleware/configuration/source/model/load.cpp", "middleware/configuration/source/model/transform.cpp", "middleware/configuration/source/user.cpp (normalize)", "middleware/configuration/source/model/validate.cpp", "middleware/domain/source/manager/admin/server.cpp (configuration post, put)"]}
{"id": "C21", "title": "Acknowledged non-transactional enqueues and commits survive a crash", "statement": "When the caller has got the ok answer to an enqueue outside a transaction, or the transaction manager the ok answer to a commit or rollback, the effect is on disk: a crash right after does not undo it.", "quantifier": "all histories and crash points", "why_tests_cant": "needs a crash at each point", "anchors": ["middleware/queue/source/group/handle.cpp: persistent::reply, persist", "middleware/queue/source/group/queuebase.cpp: persist"]}
{"id": "C210", "title": "Negative instances are refused", "statement": "A configuration with a negative number of instances, for anything, is refused.", "quantifier": "every configuration, of any size", "why_tests_cant": "it is about all configurations and all combinations of them", "anchors": ["middleware/configuration/source/model/load.cpp", "middleware/configuration/source/model/transform.cpp", "middleware/configuration/source/user.cpp (normalize)", "middleware/configuration/source/model/validate.cpp", "middleware/domain/source/manager/admin/server.cpp (configuration post, put)"]}
{"id": "C211", "title": "Posted configuration means what a file means", "statement": "A configuration that is posted to the domain means the same as a file with the same content.", "quantifier": "every configuration, of any size", "why_tests_cant": "it is about all configurations and all combinations of them", "anchors": ["middleware/configuration/source/model/load.cpp", "middleware/configuration/source/model/transform.cpp", "middleware/configuration/source/user.cpp (normalize)", "middleware/configuration/source/model/validate.cpp", "middleware/domain/source/manager/admin/server.cpp (configuration post, put)"]}
{"id": "C212", "title": "Sections can be split between files", "statement": "The sections of the configuration can be split between files in arbitrary ways: two files mean the same as one with all of it.", "quantifier": "every configuration, of any size", "why_tests_cant": "it is about all configurations and all combinations of them", "anchors": ["middleware/configuration/source/model/load.cpp", "middleware/configuration/source/model/transform.cpp", "middleware/configuration/source/user.cpp (normalize)", "middleware/configuration/source/model/validate.cpp", "middleware/domain/source/manager/admin/server.cpp (configuration post, put)"]}
{"id": "C213", "title": "A later definition replaces an earlier", "statement": "A server that is configured again in a later file is what the later file says, and nothing of the earlier definition is left.", "quantifier": "every configuration, of any size", "why_tests_cant": "it is about all configurations and all combinations of them", "anchors": ["middleware/configuration/source/model/load.cpp", "middleware/configuration/source/model/transform.cpp", "middleware/configuration/source/user.cpp (normalize)", "middleware/configuration/source/model/validate.cpp", "middleware/domain/source/manager/admin/server.cpp (configuration post, put)"]}
{"id": "C214", "title": "Expansion of variables", "statement": "In configured text every ${name} is replaced by the value of the variable, local ones first, and everything else is left as it is.", "quantifier": "every text, every environment", "why_tests_cant": "it is about all configurations and all combinations of them", "anchors": ["middleware/common/source/environment/expand.cpp", "middleware/common/source/environment.cpp", "middleware/common/include/common/environment/variable.h"]}
{"id": "C215", "title": "Environment variables", "statement": "A variable that is set has the value, one that is unset has none, and the others are not affected.", "quantifier": "every environment, name and value", "why_tests_cant": "it is about all configurations and all combinations of them", "anchors": ["middleware/common/source/environment/expand.cpp", "middleware/common/source/environment.cpp", "middleware/common/include/common/environment/variable.h"]}
{"id": "C216", "title": "The environment of started processes", "statement": "A process that is started gets for every name exactly one variable, with the value it has in the process that starts it.", "quantifier": "every environment", "why_tests_cant": "it is about all configurations and all combinations of them", "anchors": ["middleware/common/source/environment/expand.cpp", "middleware/common/source/environment.cpp", "middleware/common/include/common/environment/variable.h"]}
{"id": "C217", "title": "A posted configuration is what the domain has", "statement": "When a configuration has been posted and the domain is done with it, the domain has exactly the groups, servers and executables of it, with their settings, memberships and dependencies, whatever it had before.", "quantifier": "every configuration that makes sense on its own, every domain whatever configurations it has had before", "why_tests_cant": "it is about all configurations, and all histories of configurations", "anchors": ["middleware/domain/source/manager/configuration.cpp (post, change, group::remove, group::transform, group::modify, entity::add, remove, modify)", "middleware/domain/source/manager/transform.cpp (model, modify, alias)", "middleware/domain/source/manager/admin/server.cpp (configuration post)"]}
{"id": "C218", "title": "What a domain boots with can be posted", "statement": "A configuration that a domain can boot with is accepted when it is posted to a domain that runs.", "quantifier": "every configuration that makes sense on its own, every domain whatever configurations it has had before", "why_tests_cant": "it is about all configurations, and all histories of configurations", "anchors": ["middleware/domain/source/manager/configuration.cpp (post, change, group::remove, group::transform, group::modify, entity::add, remove, modify)", "middleware/domain/source/manager/transform.cpp (model, modify, alias)", "middleware/domain/source/manager/admin/server.cpp (configuration post)"]}
{"id": "C219", "title": "A refused configuration has no effect", "statement": "If a configuration that is posted is refused, everything is as it was.", "quantifier": "every configuration that makes sense on its own, every domain whatever configurations it has had before", "why_tests_cant": "it is about all configurations, and all histories of configurations", "anchors": ["middleware/domain/source/manager/configuration.cpp (post, change, group::remove, group::transform, group::modify, entity::add, remove, modify)", "middleware/domain/source/manager/transform.cpp (model, modify, alias)", "middleware/domain/source/manager/admin/server.cpp (configuration post)"]}
{"id": "C22", "title": "A prepare vote is durable", "statement": "When a queue group has answered ok to prepare for a transaction, a crash of the group does not lose the transaction's enqueued messages and dequeues: a later commit still makes them effective.", "quantifier": "all histories and crash points", "why_tests_cant": "needs a crash at each point", "anchors": ["middleware/queue/source/group/handle.cpp: transaction::prepare::request"]}
{"id": "C220", "title": "A posted configuration does not take the domain down", "statement": "Whatever configuration is posted, the domain keeps running: what can not be carried out is refused.", "quantifier": "every configuration that makes sense on its own, every domain whatever configurations it has had before", "why_tests_cant": "it is about all configurations, and all histories of configurations", "anchors": ["middleware/domain/source/manager/configuration.cpp (post, change, group::remove, group::transform, group::modify, entity::add, remove, modify)", "middleware/domain/source/manager/transform.cpp (model, modify, alias)", "middleware/domain/source/manager/admin/server.cpp (configuration post)"]}
{"id": "C221", "title": "Posts can overlap", "statement": "Configurations that can be posted one at a time can be posted before the one before is done.", "quantifier": "every configuration that makes sense on its own, every domain whatever configurations it has had before", "why_tests_cant": "it is about all configurations, and all histories of configurations", "anchors": ["middleware/domain/source/manager/configuration.cpp (post, change, group::remove, group::transform, group::modify, entity::add, remove, modify)", "middleware/domain/source/manager/transform.cpp (model, modify, alias)", "middleware/domain/source/manager/admin/server.cpp (configuration post)"]}
{"id": "C222", "title": "What is referred to is there", "statement": "A configuration that is accepted only refers to groups that it has.", "quantifier": "every configuration that makes sense on its own, every domain whatever configurations it has had before", "why_tests_cant": "it is about all configurations, and all histories of configurations", "anchors": ["middleware/domain/source/manager/configuration.cpp (post, change, group::remove, group::transform, group::modify, entity::add, remove, modify)", "middleware/domain/source/manager/transform.cpp (model, modify, alias)", "middleware/domain/source/manager/admin/server.cpp (configuration post)"]}
{"id": "C223", "title": "The gateway is last", "statement": "The group of the gateway depends on all other groups, so that it is opened last and closed first.", "quantifier": "every configuration that makes sense on its own, every domain whatever configurations it has had before", "why_tests_cant": "it is about all configurations, and all histories of configurations", "anchors": ["middleware/domain/source/manager/configuration.cpp (post, change, group::remove, group::transform, group::modify, entity::add, remove, modify)", "middleware/domain/source/manager/transform.cpp (model, modify, alias)", "middleware/domain/source/manager/admin/server.cpp (configuration post)"]}
{"id": "C224", "title": "Posting what there is changes nothing", "statement": "A domain that is given the configuration it says that it has is not changed.", "quantifier": "every configuration that makes sense on its own, every domain whatever configurations it has had before", "why_tests_cant": "it is about all configurations, and all histories of configurations", "anchors": ["middleware/domain/source/manager/configuration.cpp (post, change, group::remove, group::transform, group::modify, entity::add, remove, modify)", "middleware/domain/source/manager/transform.cpp (model, modify, alias)", "middleware/domain/source/manager/admin/server.cpp (configuration post)"]}
{"id": "C225", "title": "A call by http is answered once", "statement": "Each call to a service that is called by http is answered exactly once when it wants an answer, and not at all when it does not; no call is answered that has not been made.", "quantifier": "every configuration, every sequence of calls and of events of curl, every request and reply", "why_tests_cant": "it is about all calls, interleaved in all ways, and all texts and data that can be sent", "anchors": ["middleware/http/source/outbound/handle.cpp (service call, discovery, external::reply, metric)", "middleware/http/source/outbound/request.cpp (prepare, receive::payload, transform::code, transform::transaction)", "middleware/http/source/outbound/state.cpp (Pending)"]}
{"id": "C226", "title": "Data goes as it is by http", "statement": "The http server gets the data of the call, all of it, once and in order; the caller gets the body of the reply, all of it, and nothing else.", "quantifier": "every configuration, every sequence of calls and of events of curl, every request and reply", "why_tests_cant": "it is about all calls, interleaved in all ways, and all texts and data that can be sent", "anchors": ["middleware/http/source/outbound/handle.cpp (service call, discovery, external::reply, metric)", "middleware/http/source/outbound/request.cpp (prepare, receive::payload, transform::code, transform::transaction)", "middleware/http/source/outbound/state.cpp (Pending)"]}
{"id": "C227", "title": "No transaction is lost in http", "statement": "A call within a transaction is not sent by http unless the service discards transactions; and when the call fails, the transaction is told to be rolled back.", "quantifier": "every configuration, every sequence of calls and of events of curl, every request and reply", "why_tests_cant": "it is about all calls, interleaved in all ways, and all texts and data that can be sent", "anchors": ["middleware/http/source/outbound/handle.cpp (service call, discovery, external::reply, metric)", "middleware/http/source/outbound/request.cpp (prepare, receive::payload, transform::code, transform::transaction)", "middleware/http/source/outbound/state.cpp (Pending)"]}
{"id": "C228", "title": "Results can be told in http headers", "statement": "Each result code and user code comes back as it was after it has been told in a http header; without those headers a call never succeeds, and the status tells how it failed.", "quantifier": "every configuration, every sequence of calls and of events of curl, every request and reply", "why_tests_cant": "it is about all calls, interleaved in all ways, and all texts and data that can be sent", "anchors": ["middleware/http/source/common.cpp", "middleware/common/source/transcode.cpp (base64)", "middleware/common/source/service/header.cpp", "middleware/common/source/code/xatmi.cpp"]}
{"id": "C229", "title": "Types and data can be told in http", "statement": "Each buffer type comes back from the content type it is told as, and each buffer comes back from base64.", "quantifier": "every configuration, every sequence of calls and of events of curl, every request and reply", "why_tests_cant": "it is about all calls, interleaved in all ways, and all texts and data that can be sent", "anchors": ["middleware/http/source/common.cpp", "middleware/common/source/transcode.cpp (base64)", "middleware/common/source/service/header.cpp", "middleware/common/source/code/xatmi.cpp"]}
{"id": "C23", "title": "A dequeued but uncommitted message is handed to nobody else", "statement": "While a transaction that dequeued a message is neither committed nor rolled back, no dequeue, browse, clear, restore or (non-forced) remove touches that message.", "quantifier": "all histories", "why_tests_cant": "every interleaving", "anchors": ["middleware/queue/source/group/queuebase.cpp", "middleware/queue/source/group/queuebase/statement.cpp"]}
{"id": "C230", "title": "Headers come as they are", "statement": "A http header that is configured, or that a client sends, comes to the other side as it is.", "quantifier": "every configuration, every sequence of calls and of events of curl, every request and reply", "why_tests_cant": "it is about all calls, interleaved in all ways, and all texts and data that can be sent", "anchors": ["middleware/http/source/common.cpp", "middleware/common/source/transcode.cpp (base64)", "middleware/common/source/service/header.cpp", "middleware/common/source/code/xatmi.cpp"]}
{"id": "C231", "title": "A call by http to another domain is as a call", "statement": "When a service is called by http in another domain, the service gets the request as it is, and the caller gets the answer of the service as it is.", "quantifier": "every configuration, every sequence of calls and of events of curl, every request and reply", "why_tests_cant": "it is about all calls, interleaved in all ways, and all texts and data that can be sent", "anchors": ["middleware/http/source/outbound/handle.cpp (service call, discovery, external::reply, metric)", "middleware/http/source/outbound/request.cpp (prepare, receive::payload, transform::code, transform::transaction)", "middleware/http/source/outbound/state.cpp (Pending)", "middleware/http/source/inbound/call.cpp (Context, Service::transform)", "middleware/http/source/inbound/c/api.cpp (casual_http_inbound_call_on_request, _receive, reply)", "middleware/http/source/common.cpp"]}
{"id": "C232", "title": "The client of http is told what happened", "statement": "The client gets a status, the result and the user code that say what happened to its request; when the service answered, also the type and the data of the answer.", "quantifier": "every configuration, every sequence of calls and of events of curl, every request and reply", "why_tests_cant": "it is about all calls, interleaved in all ways, and all texts and data that can be sent", "anchors": ["middleware/http/source/inbound/call.cpp (Context, Service::transform)", "middleware/http/source/inbound/c/api.cpp (casual_http_inbound_call_on_request, _receive, reply)", "middleware/http/source/common.cpp"]}
{"id": "C233", "title": "A service is where the configuration says", "statement": "A call goes to the url, with the headers, that the configuration files say; defaults are used for what a service does not say; a discovery is answered with the services that are configured.", "quantifier": "every configuration, every sequence of calls and of events of curl, every request and reply", "why_tests_cant": "it is about all calls, interleaved in all ways, and all texts and data that can be sent", "anchors": ["middleware/http/source/outbound/configuration.cpp", "middleware/http/source/outbound/transform.cpp", "middleware/http/source/outbound/handle.cpp (discovery)"]}
{"id": "C234", "title": "Each call by http is in the metrics", "statement": "Each call that is answered is told to the service manager once; when nothing is pending, nothing is left to tell.", "quantifier": "every configuration, every sequence of calls and of events of curl, every request and reply", "why_tests_cant": "it is about all calls, interleaved in all ways, and all texts and data that can be sent", "anchors": ["middleware/http/source/outbound/handle.cpp (service call, discovery, external::reply, metric)", "middleware/http/source/outbound/request.cpp (prepare, receive::payload, transform::code, transform::transaction)", "middleware/http/source/outbound/state.cpp (Pending)"]}
{"id": "C235", "title": "No client takes the http server down", "statement": "No request that a client sends, whatever headers and body it has, takes the http server down.", "quantifier": "every configuration, every sequence of calls and of events of curl, every request and reply", "why_tests_cant": "it is about all calls, interleaved in all ways, and all texts and data that can be sent", "anchors": ["middleware/http/source/inbound/call.cpp (Context, Service::transform)", "middleware/http/source/inbound/c/api.cpp (casual_http_inbound_call_on_request, _receive, reply)", "middleware/http/source/common.cpp"]}
{"id": "C236", "title": "A duration is what is written", "statement": "A text that says a duration, as numbers with units and + between, is read as the sum of them, to the nanosecond; any other text is refused.", "quantifier": "every text, every duration", "why_tests_cant": "it is about all texts and all durations", "anchors": ["middleware/common/source/chronology.cpp (from::string, to::string)", "middleware/configuration/source/model/transform.cpp"]}
{"id": "C237", "title": "A duration is read as it is told", "statement": "A duration that is told as text (in a configuration that is fetched) is the same duration when the text is read, and different durations are told differently.", "quantifier": "every text, every duration", "why_tests_cant": "it is about all texts and all durations", "anchors": ["middleware/common/source/chronology.cpp (from::string, to::string)", "middleware/configuration/source/model/transform.cpp"]}
{"id": "C238", "title": "What is given to be sent is accounted for, also when callbacks send", "statement": "Each message that is given to the coordinator of sends is exactly one of: sent, told as lost to its callback, or still waiting; also when callbacks of lost messages send.", "quantifier": "every history of sends, writability and failures, for any number of destinations, and whatever the callbacks of lost messages send", "why_tests_cant": "it is about all histories of a vector that is changed while it is used, by callbacks that re-enter it", "anchors": ["middleware/common/include/common/communication/ipc/send.h (Coordinator, Remote)", "middleware/common/source/communication/ipc/send.cpp", "middleware/service/source/forward/handle.cpp (88-92)", "middleware/queue/source/forward/handle.cpp (769-774)"]}
{"id": "C239", "title": "Callbacks of lost messages send once", "statement": "All that is given to the coordinator is what was asked for, and what the callbacks of lost messages send, once for each lost message.", "quantifier": "every history of sends, writability and failures, for any number of destinations, and whatever the callbacks of lost messages send", "why_tests_cant": "it is about all histories of a vector that is changed while it is used, by callbacks that re-enter it", "anchors": ["middleware/common/include/common/communication/ipc/send.h (Coordinator, Remote)", "middleware/common/source/communication/ipc/send.cpp", "middleware/service/source/forward/handle.cpp (88-92)", "middleware/queue/source/forward/handle.cpp (769-774)"]}
{"id": "C24", "title": "Committing or rolling back a transaction twice has no further effect", "statement": "A second commit or rollback of the same transaction changes nothing.", "quantifier": "all queuebase contents", "why_tests_cant": "arbitrary contents", "anchors": ["middleware/queue/source/group/queuebase.cpp: commit, rollback"]}
{"id": "C240", "title": "Callbacks may send", "statement": "The callback of a lost message may send to any destination, in any state of the destinations, without undefined behaviour.", "quantifier": "every history of sends, writability and failures, for any number of destinations, and whatever the callbacks of lost messages send", "why_tests_cant": "it is about all histories of a vector that is changed while it is used, by callbacks that re-enter it", "anchors": ["middleware/common/include/common/communication/ipc/send.h (Coordinator, Remote)", "middleware/common/source/communication/ipc/send.cpp", "middleware/service/source/forward/handle.cpp (88-92)", "middleware/queue/source/forward/handle.cpp (769-774)"]}
{"id": "C241", "title": "The service forward handles each call once", "statement": "Each call that arrives at the service forward before it shuts down, and whose caller waits for a reply, is exactly one of: held until there is a service, passed on, answered with an error. No call is passed on twice.", "quantifier": "every sequence of calls, replies to lookups and shutdown, and whatever happens to what is sent", "why_tests_cant": "it is about all orders of calls, replies, failures and shutdown, with any number of calls", "anchors": ["middleware/service/source/forward/handle.cpp", "middleware/service/source/forward/main.cpp", "middleware/service/include/service/forward/state.h"]}
{"id": "C242", "title": "The service forward passes on what it was given, to whom it should", "statement": "What the service forward passes on is a call that has arrived, unchanged but for what is known about the service, to the process that the lookup of that call gave.", "quantifier": "every sequence of calls, replies to lookups and shutdown, and whatever happens to what is sent", "why_tests_cant": "it is about all orders of calls, replies, failures and shutdown, with any number of calls", "anchors": ["middleware/service/source/forward/handle.cpp", "middleware/service/source/forward/main.cpp", "middleware/service/include/service/forward/state.h"]}
{"id": "C243", "title": "The service forward answers with errors only when there is one", "statement": "The service forward sends error replies only to callers that wait for a reply: when the service does not exist, when the call could not be sent, and at shutdown.", "quantifier": "every sequence of calls, replies to lookups and shutdown, and whatever happens to what is sent", "why_tests_cant": "it is about all orders of calls, replies, failures and shutdown, with any number of calls", "anchors": ["middleware/service/source/forward/handle.cpp", "middleware/service/source/forward/main.cpp", "middleware/service/include/service/forward/state.h"]}
{"id": "C244", "title": "The service forward looks up each call once", "statement": "The service of each call is looked up once, with its name and correlation, and lookups that are not answered are discarded at shutdown.", "quantifier": "every sequence of calls, replies to lookups and shutdown, and whatever happens to what is sent", "why_tests_cant": "it is about all orders of calls, replies, failures and shutdown, with any number of calls", "anchors": ["middleware/service/source/forward/handle.cpp", "middleware/service/source/forward/main.cpp", "middleware/service/include/service/forward/state.h"]}
{"id": "C245", "title": "No call is lost by the service forward", "statement": "Each call that has been sent to the service forward is passed on, or its caller is told.", "quantifier": "every sequence of calls, replies to lookups and shutdown, and whatever happens to what is sent", "why_tests_cant": "it is about all orders of calls, replies, failures and shutdown, with any number of calls", "anchors": ["middleware/service/source/forward/handle.cpp", "middleware/service/source/forward/main.cpp", "middleware/service/include/service/forward/state.h"]}
{"id": "C246", "title": "Deadlines through the service forward", "statement": "A call through the service forward has the deadline that the service manager says, and if there is no instance in time the caller is told that it timed out.", "quantifier": "every sequence of calls, replies to lookups and shutdown, and whatever happens to what is sent", "why_tests_cant": "it is about all orders of calls, replies, failures and shutdown, with any number of calls", "anchors": ["middleware/service/source/forward/handle.cpp", "middleware/service/source/forward/main.cpp", "middleware/service/include/service/forward/state.h"]}
{"id": "C247", "title": "Names lead to services as configured", "statement": "After boot, whichever servers come and go: a name leads to a service exactly if the service is configured or has been advertised, and the name is one of its routes, or its own name if it has no routes.", "quantifier": "every configuration at boot, every sequence of advertisements, unadvertisements and exits of servers, every name", "why_tests_cant": "it is about all configurations, all orders in which servers come and go, and all updates in all states that these lead to", "anchors": ["middleware/service/source/manager/configuration.cpp", "middleware/service/source/manager/transform.cpp: configuration", "middleware/service/source/manager/state.cpp: Services, find_or_add_service", "middleware/service/source/manager/handle.cpp: configuration update", "middleware/configuration/include/configuration/model/change.h"]}
{"id": "C248", "title": "Services have the timeout and visibility that are configured", "statement": "After boot, whichever servers come and go: each service has the timeout configured for it, and what it does not say is as configured for all; and the visibility configured for it.", "quantifier": "every configuration at boot, every sequence of advertisements, unadvertisements and exits of servers, every name", "why_tests_cant": "it is about all configurations, all orders in which servers come and go, and all updates in all states that these lead to", "anchors": ["middleware/service/source/manager/configuration.cpp", "middleware/service/source/manager/transform.cpp: configuration", "middleware/service/source/manager/state.cpp: Services, find_or_add_service", "middleware/service/source/manager/handle.cpp: configuration update", "middleware/configuration/include/configuration/model/change.h"]}
{"id": "C249", "title": "An update changes timeouts and visibility", "statement": "After a configuration has been posted, each service has the timeout and the visibility that the posted configuration says.", "quantifier": "every state of the service manager, every configuration that is posted", "why_tests_cant": "it is about all configurations, all orders in which servers come and go, and all updates in all states that these lead to", "anchors": ["middleware/service/source/manager/configuration.cpp", "middleware/service/source/manager/transform.cpp: configuration", "middleware/service/source/manager/state.cpp: Services, find_or_add_service", "middleware/service/source/manager/handle.cpp: configuration update", "middleware/configuration/include/configuration/model/change.h"]}
{"id": "C25", "title": "A sequential server instance serves one caller at a time", "statement": "A sequential instance is handed out to a caller only when it is idle, and is not handed out again until it has acknowledged (or is gone).", "quantifier": "all histories of lookups, acks, advertise and removals", "why_tests_cant": "every interleaving", "anchors": ["middleware/service/source/manager/state.cpp: reserve_sequential, unreserve", "middleware/service/source/manager/handle.cpp"]}
{"id": "C250", "title": "An update changes routes", "statement": "After a configuration has been posted, the routes in it lead to their services, and no other names do.", "quantifier": "every state of the service manager, every configuration that is posted", "why_tests_cant": "it is about all configurations, all orders in which servers come and go, and all updates in all states that these lead to", "anchors": ["middleware/service/source/manager/configuration.cpp", "middleware/service/source/manager/transform.cpp: configuration", "middleware/service/source/manager/state.cpp: Services, find_or_add_service", "middleware/service/source/manager/handle.cpp: configuration update", "middleware/configuration/include/configuration/model/change.h"]}
{"id": "C251", "title": "Each configuration update is answered", "statement": "When a configuration is posted to the service manager, there is a reply.", "quantifier": "every state of the service manager, every configuration that is posted", "why_tests_cant": "it is about all configurations, all orders in which servers come and go, and all updates in all states that these lead to", "anchors": ["middleware/service/source/manager/configuration.cpp", "middleware/service/source/manager/transform.cpp: configuration", "middleware/service/source/manager/state.cpp: Services, find_or_add_service", "middleware/service/source/manager/handle.cpp: configuration update", "middleware/configuration/include/configuration/model/change.h"]}
{"id": "C252", "title": "The configuration that is told is the one that was posted", "statement": "When the service manager is asked for its configuration it tells what was posted last.", "quantifier": "every state of the service manager, every configuration that is posted", "why_tests_cant": "it is about all configurations, all orders in which servers come and go, and all updates in all states that these lead to", "anchors": ["middleware/service/source/manager/configuration.cpp", "middleware/service/source/manager/transform.cpp: configuration", "middleware/service/source/manager/state.cpp: Services, find_or_add_service", "middleware/service/source/manager/handle.cpp: configuration update", "middleware/configuration/include/configuration/model/change.h"]}
{"id": "C253", "title": "Each update of the transaction manager is answered once", "statement": "A configuration update that is posted to the transaction manager is answered at most once, and has been answered exactly once when all tasks are done, unless the manager has ended.", "quantifier": "every configuration at boot, every sequence of updates, exits of instances, requests of instances and servers, and spawns that fail", "why_tests_cant": "it is about all configurations, all orders in which instances come and go, all updates and all interleavings of the tasks", "anchors": ["middleware/transaction/source/manager/configuration.cpp: conform, added_resources, modified_resources, removed_resources, scale_in_resource, scale_out_resource, restart_resource, alias_configuration", "middleware/transaction/source/manager/state.cpp: Proxy, State::configuration", "middleware/transaction/source/manager/handle.cpp: event::process::exit, resource::ready, configuration::update", "middleware/transaction/source/manager/main.cpp", "middleware/common/source/task.cpp"]}
{"id": "C254", "title": "A resource instance that is asked to stop is not used again", "statement": "An instance of a resource proxy that has been asked to stop is never taken for work after that, an instance that has not is not regarded as stopping, and each process is one instance of one resource.", "quantifier": "every configuration at boot, every sequence of updates, exits of instances, requests of instances and servers, and spawns that fail", "why_tests_cant": "it is about all configurations, all orders in which instances come and go, all updates and all interleavings of the tasks", "anchors": ["middleware/transaction/source/manager/configuration.cpp: conform, added_resources, modified_resources, removed_resources, scale_in_resource, scale_out_resource, restart_resource, alias_configuration", "middleware/transaction/source/manager/state.cpp: Proxy, State::configuration", "middleware/transaction/source/manager/handle.cpp: event::process::exit, resource::ready, configuration::update", "middleware/transaction/source/manager/main.cpp", "middleware/common/source/task.cpp"]}
{"id": "C255", "title": "Resources have as many instances as configured", "statement": "When a configuration update is done each resource has as many running instances as is configured.", "quantifier": "every configuration at boot, every sequence of updates, exits of instances, requests of instances and servers, and spawns that fail", "why_tests_cant": "it is about all configurations, all orders in which instances come and go, all updates and all interleavings of the tasks", "anchors": ["middleware/transaction/source/manager/configuration.cpp: conform, added_resources, modified_resources, removed_resources, scale_in_resource, scale_out_resource, restart_resource, alias_configuration", "middleware/transaction/source/manager/state.cpp: Proxy, State::configuration", "middleware/transaction/source/manager/handle.cpp: event::process::exit, resource::ready, configuration::update", "middleware/transaction/source/manager/main.cpp", "middleware/common/source/task.cpp"]}
{"id": "C256", "title": "Instances run with the configuration that is posted", "statement": "When a configuration update is done the running instances have been told the configuration that was posted.", "quantifier": "every configuration at boot, every sequence of updates, exits of instances, requests of instances and servers, and spawns that fail", "why_tests_cant": "it is about all configurations, all orders in which instances come and go, all updates and all interleavings of the tasks", "anchors": ["middleware/transaction/source/manager/configuration.cpp: conform, added_resources, modified_resources, removed_resources, scale_in_resource, scale_out_resource, restart_resource, alias_configuration", "middleware/transaction/source/manager/state.cpp: Proxy, State::configuration", "middleware/transaction/source/manager/handle.cpp: event::process::exit, resource::ready, configuration::update", "middleware/transaction/source/manager/main.cpp", "middleware/common/source/task.cpp"]}
{"id": "C257", "title": "A server gets the resources of its alias", "statement": "A server that asks for its resources gets those that it names and those that the configuration maps its alias to, and no others.", "quantifier": "every configuration at boot, every sequence of updates, exits of instances, requests of instances and servers, and spawns that fail", "why_tests_cant": "it is about all configurations, all orders in which instances come and go, all updates and all interleavings of the tasks", "anchors": ["middleware/transaction/source/manager/configuration.cpp: conform, added_resources, modified_resources, removed_resources, scale_in_resource, scale_out_resource, restart_resource, alias_configuration", "middleware/transaction/source/manager/state.cpp: Proxy, State::configuration", "middleware/transaction/source/manager/handle.cpp: event::process::exit, resource::ready, configuration::update", "middleware/transaction/source/manager/main.cpp", "middleware/common/source/task.cpp"]}
{"id": "C258", "title": "Resources that are posted are there", "statement": "When a configuration update is done the resources that were posted are there, and nothing that is undefined has been done.", "quantifier": "every configuration at boot, every sequence of updates, exits of instances, requests of instances and servers, and spawns that fail", "why_tests_cant": "it is about all configurations, all orders in which instances come and go, all updates and all interleavings of the tasks", "anchors": ["middleware/transaction/source/manager/configuration.cpp: conform, added_resources, modified_resources, removed_resources, scale_in_resource, scale_out_resource, restart_resource, alias_configuration", "middleware/transaction/source/manager/state.cpp: Proxy, State::configuration", "middleware/transaction/source/manager/handle.cpp: event::process::exit, resource::ready, configuration::update", "middleware/transaction/source/manager/main.cpp", "middleware/common/source/task.cpp"]}
{"id": "C259", "title": "Each update of the gateway manager is answered once", "statement": "A configuration update that is posted to the gateway manager is answered at most once, and has been answered exactly once when all tasks are done, unless the manager has ended.", "quantifier": "every configuration at boot, every sequence of updates, connects, replies and exits of groups and shutdowns, and spawns that fail", "why_tests_cant": "it is about all configurations, all orders in which groups connect, reply and die, all updates and all interleavings of the tasks", "anchors": ["middleware/gateway/source/manager/configuration.cpp: conform, added_*_groups, modified_*_groups, removed_*_groups, add::group", "middleware/gateway/source/manager/handle.cpp: process::exit, connect, configuration::update, shutdown", "middleware/gateway/source/manager/state.cpp: executable::path, State::done", "middleware/gateway/source/manager/main.cpp", "middleware/configuration/include/configuration/model/change.h", "middleware/common/include/casual/task.h"]}
{"id": "C26", "title": "Concurrent instance choice respects priority", "statement": "A lookup that ends in a concurrent (remote) instance picks one with minimal (order, hops) among those providing the service, and a preferred one (same transaction) when such exists in that group.", "quantifier": "all sets of instances, orders, hops and all advertise/unadvertise histories", "why_tests_cant": "arbitrary histories", "anchors": ["middleware/service/source/manager/state.cpp: Instances::add, remove, prioritize, next_concurrent"]}
{"id": "C260", "title": "A connected gateway group has been told its configuration", "statement": "Each process is one group of the gateway, and a group that has connected to the gateway manager has been told, last, the configuration that the manager has for it.", "quantifier": "every configuration at boot, every sequence of updates, connects, replies and exits of groups and shutdowns, and spawns that fail", "why_tests_cant": "it is about all configurations, all orders in which groups connect, reply and die, all updates and all interleavings of the tasks", "anchors": ["middleware/gateway/source/manager/configuration.cpp: conform, added_*_groups, modified_*_groups, removed_*_groups, add::group", "middleware/gateway/source/manager/handle.cpp: process::exit, connect, configuration::update, shutdown", "middleware/gateway/source/manager/state.cpp: executable::path, State::done", "middleware/gateway/source/manager/main.cpp", "middleware/configuration/include/configuration/model/change.h", "middleware/common/include/casual/task.h"]}
{"id": "C261", "title": "Gateway groups are as posted when an update is done", "statement": "When a configuration update of the gateway manager is done there is exactly one group for each that is configured, with its configuration, and no others.", "quantifier": "every configuration at boot, every sequence of updates, connects, replies and exits of groups and shutdowns, and spawns that fail", "why_tests_cant": "it is about all configurations, all orders in which groups connect, reply and die, all updates and all interleavings of the tasks", "anchors": ["middleware/gateway/source/manager/configuration.cpp: conform, added_*_groups, modified_*_groups, removed_*_groups, add::group", "middleware/gateway/source/manager/handle.cpp: process::exit, connect, configuration::update, shutdown", "middleware/gateway/source/manager/state.cpp: executable::path, State::done", "middleware/gateway/source/manager/main.cpp", "middleware/configuration/include/configuration/model/change.h", "middleware/common/include/casual/task.h"]}
{"id": "C262", "title": "A gateway group that dies is started again", "statement": "If a group of the gateway dies unasked it is started again with the same configuration, and the other groups are left as they are.", "quantifier": "every configuration at boot, every sequence of updates, connects, replies and exits of groups and shutdowns, and spawns that fail", "why_tests_cant": "it is about all configurations, all orders in which groups connect, reply and die, all updates and all interleavings of the tasks", "anchors": ["middleware/gateway/source/manager/configuration.cpp: conform, added_*_groups, modified_*_groups, removed_*_groups, add::group", "middleware/gateway/source/manager/handle.cpp: process::exit, connect, configuration::update, shutdown", "middleware/gateway/source/manager/state.cpp: executable::path, State::done", "middleware/gateway/source/manager/main.cpp", "middleware/configuration/include/configuration/model/change.h", "middleware/common/include/casual/task.h"]}
{"id": "C263", "title": "The gateway manager ends after shutdown", "statement": "After shutdown the gateway manager starts no groups, asks all that there are to stop, and ends when they have.", "quantifier": "every configuration at boot, every sequence of updates, connects, replies and exits of groups and shutdowns, and spawns that fail", "why_tests_cant": "it is about all configurations, all orders in which groups connect, reply and die, all updates and all interleavings of the tasks", "anchors": ["middleware/gateway/source/manager/configuration.cpp: conform, added_*_groups, modified_*_groups, removed_*_groups, add::group", "middleware/gateway/source/manager/handle.cpp: process::exit, connect, configuration::update, shutdown", "middleware/gateway/source/manager/state.cpp: executable::path, State::done", "middleware/gateway/source/manager/main.cpp", "middleware/configuration/include/configuration/model/change.h", "middleware/common/include/casual/task.h"]}
{"id": "C264", "title": "A gateway group is the program for its kind of connections", "statement": "A group that is configured with reversed connections is the program for reversed connections, and others are the program for regular connections.", "quantifier": "every configuration at boot, every sequence of updates, connects, replies and exits of groups and shutdowns, and spawns that fail", "why_tests_cant": "it is about all configurations, all orders in which groups connect, reply and die, all updates and all interleavings of the tasks", "anchors": ["middleware/gateway/source/manager/configuration.cpp: conform, added_*_groups, modified_*_groups, removed_*_groups, add::group", "middleware/gateway/source/manager/handle.cpp: process::exit, connect, configuration::update, shutdown", "middleware/gateway/source/manager/state.cpp: executable::path, State::done", "middleware/gateway/source/manager/main.cpp", "middleware/configuration/include/configuration/model/change.h", "middleware/common/include/casual/task.h"]}
{"id": "C27", "title": "Deadlines expire exactly when due and the timer is always the earliest", "statement": "The set of pending deadlines is kept so that an expiry at a time returns exactly the entries before that time, and the reported next deadline is the earliest remaining one.", "quantifier": "all histories of add/remove/expire", "why_tests_cant": "arbitrary histories", "anchors": ["middleware/service/source/manager/state.cpp: pending::Deadline"]}
{"id": "C28", "title": "A changed order of a concurrent instance takes effect", "statement": "When a concurrent instance announces a new order, later lookups respect the new order.", "quantifier": "all histories", "why_tests_cant": "arbitrary histories", "anchors": ["middleware/service/source/manager/state.cpp: State::update(concurrent::Advertise), update_prioritized"]}
{"id": "C29", "title": "No service refers to a removed instance", "statement": "After a process is removed no service lists any of its instances, and all other instances are still listed as before.", "quantifier": "all histories", "why_tests_cant": "every history", "anchors": ["middleware/service/source/manager/state.cpp: local::remove, remove_services, prepare_shutdown"]}
{"id": "C30", "title": "Fragmented messages are reassembled byte for byte", "statement": "Splitting a message in transport chunks and adding the chunks in order gives back the identical message, for every size (including empty); it is complete exactly after the last chunk.", "quantifier": "all payload sizes and contents, all chunk sizes", "why_tests_cant": "unbounded sizes", "anchors": ["middleware/common/source/communication/ipc/message.cpp: Complete::add, complete", "middleware/common/include/common/communication/ipc/message.h: complete::Send"]}
{"id": "C31", "title": "Re-sent and interleaved fragments do not corrupt messages", "statement": "A fragment that is re-sent is ignored, a fragment with a gap or beyond the size is refused, and fragments of different messages interleaved in any way on one inbound queue each reassemble to their own message.", "quantifier": "all interleavings, all numbers of senders", "why_tests_cant": "every interleaving", "anchors": ["middleware/common/source/communication/ipc/message.cpp: Complete::add", "middleware/common/include/common/communication/device.h: inbound"]}
{"id": "C32", "title": "Transaction ids compare correctly", "statement": "Equality of transaction ids is an equivalence that is equality of format, lengths and used data bytes (all null ids equal), and the ordering is a strict order compatible with that equality.", "quantifier": "all XIDs with valid lengths", "why_tests_cant": "128 bytes of data", "anchors": ["middleware/common/source/transaction/id.cpp: operator ==, operator <"]}
{"id": "C33", "title": "A new branch belongs to the same global transaction", "statement": "Creating a branch of a transaction keeps the global part, changes the branch part to the new id, stays within the id's data area, and the null id has the null branch.", "quantifier": "all XIDs", "why_tests_cant": "all 128 byte ids", "anchors": ["middleware/common/source/transaction/id.cpp: id::branch, range::global, range::branch, casual_xid"]}
{"id": "C34", "title": "A printed global transaction id can be read back", "statement": "Writing a global transaction id as text and reading it back gives the same id, for every allowed length (up to 64 bytes).", "quantifier": "all ids of 1..64 bytes", "why_tests_cant": "2^512 ids", "anchors": ["middleware/common/source/transaction/global.cpp: operator <<, operator >>"]}
{"id": "C35", "title": "Hexadecimal text encoding round-trips", "statement": "Decoding the hex encoding of any bytes gives the bytes back; decoding accepts digits in either case and rejects other characters.", "quantifier": "all byte strings, all texts", "why_tests_cant": "unbounded strings", "anchors": ["middleware/common/include/common/transcode.h: hex", "middleware/common/source/transcode.cpp"]}
{"id": "C36", "title": "Binary serialization round-trips", "statement": "Reading back what the native/network archives wrote into a fresh object gives the same value and leaves exactly what follows, for all types built from numbers, booleans, strings, binaries, arrays, sequences, maps, sets, optionals, tuples and composites; the network archive also between hosts of different byte order. The bytes on the wire do not depend on the host, and no value looks like (the beginning of) another.", "quantifier": "all types, all values, all following bytes, all pairs of hosts", "why_tests_cant": "unbounded values and types", "anchors": ["middleware/common/include/common/serialize/native/binary.h", "middleware/common/include/common/serialize/native/network.h", "middleware/common/include/common/serialize/value.h", "middleware/common/include/common/network/byteorder.h"]}
{"id": "C37", "title": "A commit that was rolled back is reported as rolled back", "statement": "If the XA outcome of a transaction is one of the XA_RB* rollback codes, the TX code given to the application calling tx_commit is TX_ROLLBACK (or its begin-new variant).", "quantifier": "all XA outcome codes", "why_tests_cant": "the mapping has a branch for every code; tests exercise a few of them", "anchors": ["middleware/common/source/code/convert.cpp: to::tx"]}
{"id": "C38", "title": "Combining TX codes does not depend on the order", "statement": "When several TX results are combined the result is the same whatever the order and grouping of the combination.", "quantifier": "all TX codes and all orders", "why_tests_cant": "algebraic law over all combinations", "anchors": ["middleware/common/source/code/tx.cpp: operator +"]}
{"id": "C39", "title": "Finishing a transaction makes others forget exactly that transaction", "statement": "When the manager has finished a transaction it tells the other managers to forget its associations; the id announced is the id of the transaction that was finished.", "quantifier": "all histories", "why_tests_cant": "depends on what else is in the transaction table at that moment", "anchors": ["middleware/transaction/source/manager/handle.cpp: remove::transaction (262-280), callers 525, 625, 920"]}
{"id": "C40", "title": "A logged decision is carried out after a restart", "statement": "When the application has been told that the decision to commit is durable, then after a crash and restart of the manager every resource that has prepared is told to commit.", "quantifier": "all histories and crash points", "why_tests_cant": "needs a crash at each point", "anchors": ["middleware/transaction/source/manager/log.cpp: Log::logged", "middleware/transaction/source/manager/main.cpp"]}
{"id": "C41", "title": "Nobody can take the transaction manager down", "statement": "No request, reply, announcement or death of another process, in any order, ends the transaction manager.", "quantifier": "all states and events", "why_tests_cant": "every order of messages", "anchors": ["middleware/transaction/source/manager/handle.cpp", "middleware/transaction/source/manager/state.cpp: get_instance, reserve", "middleware/common/include/common/communication/select.h: pump"]}
{"id": "C42", "title": "The prepared answer precedes the final answer", "statement": "An application that gets a prepared answer and a final answer to its commit gets them in that order.", "quantifier": "all interleavings of resource answers and idle moments", "why_tests_cant": "timing of batching", "anchors": ["middleware/transaction/source/manager/handle.cpp: send::persist::reply, persist::send"]}
{"id": "C43", "title": "A read-only vote given upstream means no resource is left prepared", "statement": "If the manager answers an upstream coordinator's prepare with read-only, none of its resources stays in the prepared state.", "quantifier": "all vote combinations and histories", "why_tests_cant": "vote combinations", "anchors": ["middleware/transaction/source/manager/handle.cpp: coordinate::prepare (475-575), create::reply (392-417)"]}
{"id": "C44", "title": "An upstream one-phase commit reported as success was not rolled back", "statement": "If the manager answers an upstream coordinator's commit with ok or read-only, it has not rolled back the transaction at any of its resources.", "quantifier": "all vote combinations and histories", "why_tests_cant": "vote combinations", "anchors": ["middleware/transaction/source/manager/handle.cpp: external::commit::request, coordinate::prepare, create::reply"]}
{"id": "C45", "title": "Browsing a queue shows every message once, in order", "statement": "Browsing a queue (which does not change meanwhile) calls the callback once for each message that could be dequeued, in the order of enqueue, and ends.", "quantifier": "all queue contents and times", "why_tests_cant": "arbitrary contents; the loop moves on by timestamp", "anchors": ["middleware/queue/source/api/queue.cpp: browse::peek", "middleware/queue/source/group/queuebase.cpp: browse", "middleware/queue/source/group/queuebase/statement.cpp: browse"]}
{"id": "C46", "title": "A message dequeued outside a transaction is not handed out again", "statement": "When a message has been handed out to a client outside a transaction, no other client gets the same message, also if the group crashes.", "quantifier": "all histories and crash points", "why_tests_cant": "needs a crash at each point", "anchors": ["middleware/queue/source/group/handle.cpp: dequeue::handle", "middleware/queue/source/group/queuebase.cpp: persist"]}
{"id": "C47", "title": "The transaction manager knows of the group before the client does", "statement": "Whenever a queue group answers a client about an enqueue or dequeue in a transaction, it has told the transaction manager before that it is involved in that transaction, and the transaction has not been completed in the group in between.", "quantifier": "all histories", "why_tests_cant": "every order of requests, blocked requests woken up later, transactions completed and reused", "anchors": ["middleware/queue/source/group/handle.cpp: detail::transaction::involved, detail::transaction::done"]}
{"id": "C48", "title": "Each dequeue request is answered at most once, and with a message it asked for", "statement": "A queue group sends no more answers to dequeue requests than it gets requests, per correlation; a request is answered or still blocked, unless its process died; a message handed out is for the process, correlation and transaction of a request, committed, not taken by anybody, from the queue asked for and fits the selector.", "quantifier": "all histories", "why_tests_cant": "every interleaving of blocked requests, forgets, deaths and enqueues", "anchors": ["middleware/queue/source/group/handle.cpp: dequeue::request, dequeue::handle, pending::dequeues, forget::request", "middleware/queue/source/group/state.cpp: Pending"]}
{"id": "C49", "title": "A blocked dequeue is woken up", "statement": "When a queue group has been idle, no dequeue request is blocked for which there is an available message; and if a message to be available later could serve a blocked request, a timer is set that is not later.", "quantifier": "all histories", "why_tests_cant": "every set of blocked requests, messages and times", "anchors": ["middleware/queue/source/group/handle.cpp: pending::dequeues, persist, signal::timeout, dequeue::handle", "middleware/common/source/signal/timer.cpp: set"]}
{"id": "C50", "title": "A dequeue by name gets messages of the queue with that name", "statement": "A client that asks a queue group for a message by the name of the queue gets a message only from the queue with that name.", "quantifier": "all histories, with reconfigurations", "why_tests_cant": "blocked requests outlive reconfigurations", "anchors": ["middleware/queue/source/group/handle.cpp: dequeue::handle, configuration::update::request", "middleware/queue/include/queue/group/queuebase.h: id"]}
{"id": "C51", "title": "Every configured queue is announced", "statement": "The answer of a queue group to a configuration update lists every wanted queue, with the id it has.", "quantifier": "all histories and configurations", "why_tests_cant": "arbitrary history of reconfigurations and messages", "anchors": ["middleware/queue/source/group/handle.cpp: configuration::update::request, detail::update"]}
{"id": "C52", "title": "A dead process gets nothing", "statement": "After a queue group has been told that a process has died, it sends nothing to that process any more (as long as no message of that process arrives).", "quantifier": "all histories", "why_tests_cant": "every set of blocked requests and pending replies", "anchors": ["middleware/queue/source/group/handle.cpp: dead::process", "middleware/queue/source/group/state.cpp: Pending::remove"]}
{"id": "C53", "title": "Reconfiguration keeps messages and installs the wanted queues", "statement": "After an accepted reconfiguration every wanted queue exists with the configured retry settings, and keeps its id if it existed; no message is lost or changed and its queue keeps its id and name; unwanted queues without messages are gone; all is on disk. After a rejected one all queues are as before.", "quantifier": "all histories and configurations", "why_tests_cant": "arbitrary contents and configurations", "anchors": ["middleware/queue/source/group/handle.cpp: configuration::update::request", "middleware/queue/source/group/queuebase.cpp: update, create, remove"]}
{"id": "C54", "title": "A sensible configuration is accepted", "statement": "A reconfiguration without a clash of queue names is applied; it does not end the group.", "quantifier": "all histories and configurations", "why_tests_cant": "depends on the messages of transactions in progress", "anchors": ["middleware/queue/source/group/handle.cpp: configuration::update::request", "middleware/queue/source/group/queuebase/schema.h"]}
{"id": "C55", "title": "Calls go only to servers that offer the service", "statement": "A local server that is handed out by a lookup has advertised the service (and may offer it), and since then has neither withdrawn it, nor been asked to shut down, nor died.", "quantifier": "all configurations, all histories of messages", "why_tests_cant": "every history of advertise, timeouts, lookups", "anchors": ["middleware/service/source/manager/state.cpp: State::update(Advertise), reserve_sequential", "middleware/service/source/manager/handle.cpp: service::detail::lookup, handle_timeout"]}
{"id": "C56", "title": "Every service lookup gets exactly one answer", "statement": "Each lookup received is answered at most once; it is answered, or waiting, or has been discarded by its caller. Each answer goes to who asked, with the correlation and about the service asked for.", "quantifier": "all configurations, all histories of messages and correlations", "why_tests_cant": "every interleaving of lookups, acknowledgements, timeouts, deaths and discoveries", "anchors": ["middleware/service/source/manager/handle.cpp: service::detail::lookup, discard::lookup, handle::pending, timeout, discovery reply"]}
{"id": "C57", "title": "The caller of a server that dies gets an error reply", "statement": "When a server process dies while a caller waits for its reply, the caller gets an error reply with the correlation of the call.", "quantifier": "all configurations, all histories", "why_tests_cant": "death at every point of every history", "anchors": ["middleware/service/source/manager/handle.cpp: event::process::exit", "middleware/service/source/manager/state.cpp: local::remove"]}
{"id": "C58", "title": "No lookup waits while a local server that offers the service is idle", "statement": "A lookup is kept waiting only while every local server that offers the service is in use.", "quantifier": "all configurations (non-fatal contract), all histories", "why_tests_cant": "lost wake-ups show only in special interleavings", "anchors": ["middleware/service/source/manager/handle.cpp: ack, discard::lookup, handle::pending", "middleware/service/source/manager/state.cpp: State::update(Advertise)"]}
{"id": "C59", "title": "Local servers come before remote ones", "statement": "A remote (concurrent) instance is handed out only if no local server offers the service.", "quantifier": "all configurations (non-fatal contract), all histories", "why_tests_cant": "every history", "anchors": ["middleware/service/source/manager/handle.cpp: dispatch::lookup::external_internal"]}
{"id": "C60", "title": "Messages from one process are received in order", "statement": "For messages one process sends to another, as long as the receiver does not ask for particular ones of them, the messages received are a prefix of the messages that were sent as a whole, in the order they were sent; when the socket is empty, the rest are complete and ready to be received.", "quantifier": "all numbers of senders, payloads, datagram sizes, broken-off and restarted sends, interleavings, and sequences of operations of the receiver", "why_tests_cant": "every interleaving of datagrams and receives", "anchors": ["middleware/common/source/communication/ipc.cpp: policy::blocking::receive, policy::non::blocking::receive", "middleware/common/include/common/communication/device.h: Inbound::select, find"]}
{"id": "C61", "title": "A receiver that gets nothing has received everything", "statement": "When all datagrams have arrived and asking for (a set of) the messages of a sender gives nothing, every one of them that was sent as a whole has been received.", "quantifier": "all histories as in C60", "why_tests_cant": "every interleaving", "anchors": ["middleware/common/include/common/communication/device.h: Inbound::select, find"]}
{"id": "C62", "title": "Every message given to the send coordinator is sent, waits, or is reported lost", "statement": "For each destination, the messages given to the coordinator are, in the given order, those it is done with and those that wait. Each one it is done with was either sent as a whole, or was reported as lost exactly once (with its callback, if it has one); on the wire are exactly the datagrams of these messages in order.", "quantifier": "all sequences of sends, writable events, batch flushes, failures, with every behaviour of the kernel (accepts, would block, fails, at any datagram)", "why_tests_cant": "would-block and failure at any point", "anchors": ["middleware/common/source/communication/ipc/send.cpp: Coordinator::send, Remote::send, failed", "middleware/common/source/communication/ipc.cpp: partial::send"]}
{"id": "C63", "title": "The coordinator listens for writability exactly while something waits", "statement": "A destination is registered for write events if and only if messages wait for it, at most once; and pending() is 0 exactly when nothing waits.", "quantifier": "all histories as in C62", "why_tests_cant": "needs every history", "anchors": ["middleware/common/source/communication/ipc/send.cpp: Coordinator, pending", "middleware/common/source/communication/select.cpp: Set::add, remove"]}
{"id": "C64", "title": "A destination that accepts is drained", "statement": "When a destination becomes writable and accepts enough datagrams, all messages waiting for it are sent, and none is lost.", "quantifier": "all histories as in C62, all numbers and sizes of waiting messages", "why_tests_cant": "unbounded queues", "anchors": ["middleware/common/source/communication/ipc/send.cpp: Coordinator::operator(), Remote::send"]}
{"id": "C65", "title": "Coordinator to receiver: in order, nothing lost unreported", "statement": "Any number of processes send to one device through their coordinators; if the messages are told apart by type and correlation, the receiver gets no exception and gets each process's messages in order: exactly those that are neither reported lost nor waiting; what it has not got is ready in its cache when the socket is empty.", "quantifier": "all sender histories, all interleavings, all receiver histories", "why_tests_cant": "every schedule of several processes", "anchors": ["middleware/common/source/communication/ipc/send.cpp: Coordinator", "middleware/common/include/common/communication/device.h: Inbound"]}
{"id": "C66", "title": "A discarded message is never received", "statement": "After discard(correlation), the message with this correlation is not received, whether it has arrived before, partly, or arrives later.", "quantifier": "all histories of datagrams and operations before and after", "why_tests_cant": "every arrival time of every datagram", "anchors": ["middleware/common/include/common/communication/device.h: Inbound::discard"]}
{"id": "C67", "title": "The caller's deadline bounds the time left it is told", "statement": "A caller that asks for a service with a deadline of its own, and gets an instance, is told a time left that is not more than its deadline allows, however long its lookup has been waiting.", "quantifier": "All sequences of messages to the service manager, all times of arrival, all lookups with distinct correlations", "why_tests_cant": "The bound must hold for every interleaving of lookups, waits and acknowledgements; tests try a handful with a fixed clock", "anchors": ["middleware/service/source/manager/handle.cpp: lookup::reply, lookup::pending, handle::timeout, calculate_deadline", "middleware/service/source/manager/state.cpp: State::update, deadlines"]}
{"id": "C68", "title": "A call past its deadline is ended, and only such a call", "statement": "When the timer goes off, a caller that awaits the reply of a call that is past the time it was told to have gets the reply that the call has timed out, and the server is killed; a caller is told so, and a server killed, for no other reason.", "quantifier": "All sequences of messages to the service manager, all times, all pending lookups and servers", "why_tests_cant": "Needs every history of reservation, acknowledgement, discard, death and re-use of a server", "anchors": ["middleware/service/source/manager/handle.cpp: lookup::reply, lookup::pending, handle::timeout, calculate_deadline", "middleware/service/source/manager/state.cpp: State::update, deadlines"]}
{"id": "C69", "title": "The configured timeout bounds every call", "statement": "If a timeout is configured for the domain no caller that gets an instance is told that it has more time left than that.", "quantifier": "All sequences of messages to the service manager (lookups, advertisements from local servers and other domains), all times that do not go back", "why_tests_cant": "Depends on in which order services were made known, by whom, and how long lookups have waited", "anchors": ["middleware/service/source/manager/handle.cpp: lookup::reply, lookup::pending, handle::timeout, calculate_deadline", "middleware/service/source/manager/state.cpp: State::update, deadlines"]}
{"id": "C70", "title": "Equal transaction ids have equal hashes", "statement": "Two transaction ids that compare equal have the same hash, as hash containers require.", "quantifier": "all pairs of valid ids", "why_tests_cant": "128 bytes of data; padding and left over bytes", "anchors": ["middleware/common/include/common/transaction/id.h: std::hash< ID>", "middleware/common/source/transaction/id.cpp: operator =="]}
{"id": "C71", "title": "The previous content of an object does not affect what is read into it", "statement": "Reading a value from an archive into an object gives that value, whatever the object contained before.", "quantifier": "all types, all values, all previous contents", "why_tests_cant": "unbounded", "anchors": ["middleware/common/include/common/serialize/value.h: container::read, optional::read_order_type"]}
{"id": "C72", "title": "A transaction id that is sent is the id that is received", "statement": "An XID (global transaction id) written to an archive and read into any object, on any host with the network archive, compares equal to the one written, is valid, and what follows is left unread.", "quantifier": "all valid ids, all previous contents, all following bytes", "why_tests_cant": "2^1024 ids", "anchors": ["middleware/common/include/common/transaction/id.h: Value< XID, A>", "middleware/common/include/common/transaction/global.h: ID::serialize"]}
{"id": "C73", "title": "A message that is cut off is never taken for a message", "statement": "If any bytes at the end of a written value are missing the reader does not accept it; bytes that follow do not change what is read.", "quantifier": "all types, all values, all cut points", "why_tests_cant": "unbounded", "anchors": ["middleware/common/include/common/serialize/native/binary.h: consume", "middleware/common/include/common/memory.h: copy"]}
{"id": "C74", "title": "Bytes from the network can not make an id exceed its storage", "statement": "Whatever bytes an XID or global transaction id is read from, nothing is written outside of the object, and the lengths of the id that was read are within its data.", "quantifier": "all byte sequences", "why_tests_cant": "all inputs, adversarial", "anchors": ["middleware/common/include/common/transaction/id.h: Value< XID, A>", "middleware/common/include/common/transaction/global.h: ID::serialize", "middleware/common/include/common/serialize/native/binary.h: consume"]}
{"id": "C75", "title": "A process decides each of its transactions once, and in one way", "statement": "In any history of tx_begin/tx_commit/tx_rollback/tx_suspend/tx_resume, service calls, resource registration and service ends, a transaction is committed at most once, never both committed and rolled back, only by the process that began it, and a process that has joined a transaction can do neither.", "quantifier": "all histories of calls, all answers of resource managers, callees and transaction manager", "why_tests_cant": "histories and answers are unbounded", "anchors": ["middleware/common/source/transaction/context.cpp: commit, rollback, finalize"]}
{"id": "C76", "title": "A transaction is committed only after all its replies", "statement": "Whenever a transaction is committed, every service call made within it has been answered, and with transaction state ok.", "quantifier": "all histories, all answers", "why_tests_cant": "histories and answers are unbounded", "anchors": ["middleware/common/source/transaction/context.cpp: commit, update, finalize", "middleware/common/source/service/call/context.cpp: async, reply"]}
{"id": "C77", "title": "Every resource that took part takes part in the decision", "statement": "Commit and rollback requests list every resource manager that has been started for, or has registered with, the transaction; one-phase commit in the process happens only when a single resource is involved and no work has left the process; a local rollback reaches all of them.", "quantifier": "all histories, all answers", "why_tests_cant": "histories are unbounded", "anchors": ["middleware/common/source/transaction/context.cpp: commit( const Transaction&), rollback( const Transaction&), resource_registration"]}
{"id": "C78", "title": "Resources are dissociated before the decision", "statement": "When a transaction is committed or rolled back, the last thing each of its resource managers saw from this process is a successful xa_end(TMSUCCESS).", "quantifier": "all histories, all answers", "why_tests_cant": "histories are unbounded", "anchors": ["middleware/common/source/transaction/context.cpp: resources_end, commit, rollback"]}
{"id": "C79", "title": "Resources are associated with exactly the current transaction", "statement": "At every point between calls, each statically registered resource manager is associated (xa_start without xa_end) with the current transaction and no other.", "quantifier": "all histories, all answers", "why_tests_cant": "histories are unbounded", "anchors": ["middleware/common/source/transaction/context.cpp: begin, suspend, resume, control_continuation, join"]}
{"id": "C80", "title": "The transaction state in a reply is the state the caller sees", "statement": "If the callee reports rollback-only, or timeout, tx_info in the caller says the same.", "quantifier": "all reply states", "why_tests_cant": "combination with histories", "anchors": ["middleware/common/source/transaction/context.cpp: update", "middleware/common/include/common/message/service.h: transaction::State"]}
{"id": "C81", "title": "tx_set_transaction_timeout applies to later transactions", "statement": "A timeout set with tx_set_transaction_timeout is used by the transactions begun from then on, until it is changed.", "quantifier": "all histories", "why_tests_cant": "histories are unbounded", "anchors": ["middleware/common/source/transaction/context.cpp: set_transaction_timeout, begin"]}
{"id": "C82", "title": "Suspend and resume", "statement": "A suspended transaction is left as it is by everything but its own resume, replies and the end of the service; resuming it makes it current again with its state and its resources, and only a suspended transaction can be resumed.", "quantifier": "all histories, all orders of suspended transactions", "why_tests_cant": "histories are unbounded", "anchors": ["middleware/common/source/transaction/context.cpp: suspend, resume"]}
{"id": "C83", "title": "The end of a service ends its transactions and says how it went", "statement": "When a service returns no transaction is left in the process; a failed service commits nothing; if the caller is told ok, everything the service did in its transactions is committed, or can be by the caller.", "quantifier": "all histories of a service, all answers", "why_tests_cant": "histories are unbounded", "anchors": ["middleware/common/source/transaction/context.cpp: finalize"]}
{"id": "C84", "title": "A call descriptor stands for one call", "statement": "tpacall returns the smallest positive descriptor that is not in use; the reply tpgetrply returns for a descriptor is the reply to the call it was returned for, at most once; tpcancel and tpgetrply of anything else fail without effect.", "quantifier": "all histories of calls, arrivals in any order, failures, cancellations and TPGETANY", "why_tests_cant": "histories and orders of arrival are unbounded", "anchors": ["middleware/common/source/service/call/state.cpp: Pending", "middleware/common/source/service/call/context.cpp: async, reply, cancel"]}
{"id": "C85", "title": "No transaction is forgotten", "statement": "Every transaction the process has begun is still in its context or has been decided; after the end of a service all have been.", "quantifier": "all histories, all answers", "why_tests_cant": "histories are unbounded", "anchors": ["middleware/common/source/transaction/context.cpp: commit, rollback, finalize"]}
{"id": "C86", "title": "tx_commit says what happened", "statement": "TX_OK means that the transaction that was current has been committed by this call; if it has been committed the answer is TX_OK or TX_NO_BEGIN.", "quantifier": "all histories, all answers, all control modes", "why_tests_cant": "histories are unbounded", "anchors": ["middleware/common/source/transaction/context.cpp: commit, control_continuation"]}
{"id": "C87", "title": "A deadline follows the chain of calls", "statement": "A service called by a service that has a deadline gets a deadline, not later than the caller's (but for transport time), and not later than the timeout configured for it.", "quantifier": "all chains of calls of any length, all timeouts, all transport times", "why_tests_cant": "chains are unbounded", "anchors": ["middleware/common/include/common/server/handle/service.h: call", "middleware/common/source/service/call/context.cpp: deadline, prepare::lookup", "middleware/service/source/manager/handle.cpp: calculate_deadline"]}
{"id": "C88", "title": "A transaction whose requests have all been answered ok can be committed", "statement": "If the current transaction was begun by the process and every request sent within it has been answered with transaction state ok, tx_commit commits it.", "quantifier": "all histories", "why_tests_cant": "histories are unbounded", "anchors": ["middleware/common/source/transaction/context.cpp: precondition::commit", "middleware/common/source/service/call/context.cpp: prepare::message, async"]}
{"id": "C89", "title": "A service gets replies to its own calls only", "statement": "Each reply tpgetrply returns is the reply to a call made in the same service invocation.", "quantifier": "all histories of invocations of one process", "why_tests_cant": "histories are unbounded", "anchors": ["middleware/common/source/service/call/context.cpp: clean, reply", "middleware/common/source/service/call/state.cpp: Pending"]}
{"id": "C90", "title": "A request to another domain is answered at most once, and truthfully", "statement": "A service call, enqueue or dequeue to another domain gets at most one answer from the gateway; it goes to the process that asked, and is what the other domain has answered for that correlation, or an error since the connection is lost. Only what has been asked for is sent to the other domain.", "quantifier": "all histories of connections, requests, replies in any order, lost connections, failing sends, disconnects and shutdown", "why_tests_cant": "histories, orders of arrival and failure points are unbounded", "anchors": ["middleware/gateway/source/group/outbound/handle.cpp: service::call::request, queue::basic::request, tcp::send", "middleware/common/include/casual/task/concurrent.h: Coordinator"]}
{"id": "C91", "title": "No request to another domain is forgotten", "statement": "When the connections that a service call or queue request was for are gone, it has been answered.", "quantifier": "all histories of connections, requests, replies in any order, lost connections, failing sends, disconnects and shutdown", "why_tests_cant": "histories, orders of arrival and failure points are unbounded", "anchors": ["middleware/gateway/source/group/outbound/handle.cpp: connection::lost, service::call::request, queue::basic::request", "middleware/gateway/source/group/outbound/state.cpp: State::failed", "middleware/common/include/casual/task/concurrent.h: Coordinator"]}
{"id": "C92", "title": "The transaction manager knows which other domains take part", "statement": "If a request in a transaction has been sent to another domain, the transaction manager has been told that the connection takes part, before the caller gets an answer (and before the request leaves).", "quantifier": "all histories of connections, requests, replies in any order, lost connections, failing sends, disconnects and shutdown", "why_tests_cant": "histories, orders of arrival and failure points are unbounded", "anchors": ["middleware/gateway/source/group/outbound/handle.cpp: associate_and_involve, service::call::request, connection::lost", "middleware/gateway/source/group/outbound/state.cpp: Transactions"]}
{"id": "C93", "title": "A graceful disconnect waits for what is in progress, and no longer", "statement": "When the gateway closes a connection on request, every request sent on it is answered, no conversation is going on, and no transaction that it takes part in; and it is closed when that is so.", "quantifier": "all histories of connections, requests, replies in any order, lost connections, failing sends, disconnects and shutdown", "why_tests_cant": "histories, orders of arrival and failure points are unbounded", "anchors": ["middleware/gateway/source/group/outbound/handle.cpp: idle, connection::disconnect", "middleware/gateway/source/group/outbound/state.cpp: State::idle"]}
{"id": "C94", "title": "Shutdown of an outbound group", "statement": "After shutdown the process ends when, and only when, nothing is outstanding on any connection, with all requests answered; it never terminates by itself.", "quantifier": "all histories of connections, requests, replies in any order, lost connections, failing sends, disconnects and shutdown", "why_tests_cant": "histories, orders of arrival and failure points are unbounded", "anchors": ["middleware/gateway/source/group/outbound/handle.cpp: shutdown, idle", "middleware/gateway/source/group/outbound/state.cpp: State::done, State::failed", "middleware/gateway/include/gateway/group/connection.h: Holder::extract"]}
{"id": "C95", "title": "Conversations with another domain", "statement": "What the gateway sends to a process in a conversation is for a conversation that it has asked for; the process is told when the connection is lost.", "quantifier": "all histories of connections, requests, replies in any order, lost connections, failing sends, disconnects and shutdown", "why_tests_cant": "histories, orders of arrival and failure points are unbounded", "anchors": ["middleware/gateway/source/group/outbound/handle.cpp: conversation"]}
{"id": "C96", "title": "A call that comes back is refused", "statement": "A service call with a correlation that is in flight in the outbound group is refused, and not sent; any other is sent.", "quantifier": "all histories of connections, requests, replies in any order, lost connections, failing sends, disconnects and shutdown", "why_tests_cant": "histories, orders of arrival and failure points are unbounded", "anchors": ["middleware/gateway/source/group/outbound/handle.cpp: service::call::request, loop detection", "middleware/common/include/casual/task/concurrent.h: Coordinator"]}
{"id": "C97", "title": "Prepare, commit and rollback in another domain", "statement": "An answer to a request to prepare, commit or rollback goes to the one that asked and says what the other domain has answered; each request is answered.", "quantifier": "all histories of connections, requests, replies in any order, lost connections, failing sends, disconnects and shutdown", "why_tests_cant": "histories, orders of arrival and failure points are unbounded", "anchors": ["middleware/gateway/source/group/outbound/handle.cpp: transaction::resource, external::transaction::resource", "middleware/gateway/source/group/outbound/state.cpp: reply::Destination"]}
{"id": "C98", "title": "What is advertised for another domain", "statement": "Services and queues are advertised for a connection only if the other domain has said that it has them, one hop further away, while the connection is there; nothing is offered when it is gone, or being closed.", "quantifier": "all histories of connections, requests, replies in any order, lost connections, failing sends, disconnects and shutdown", "why_tests_cant": "histories, orders of arrival and failure points are unbounded", "anchors": ["middleware/gateway/source/group/outbound/handle.cpp: external::domain::discovery::reply, unadvertise"]}
{"id": "C99", "title": "Calls to other domains are measured", "statement": "Every answered call is reported to the service manager exactly once, at the latest when the gateway is idle.", "quantifier": "all histories of connections, requests, replies in any order, lost connections, failing sends, disconnects and shutdown", "why_tests_cant": "histories, orders of arrival and failure points are unbounded", "anchors": ["middleware/gateway/source/group/outbound/handle.cpp: service::metric, idle", "middleware/gateway/include/gateway/group/outbound/state.h: Metric"]}
