{
 "claims": [
  {
   "property": "C01",
   "status": "proved",
   "theorems": [
    "Casual.Code.severest_spec",
    "Casual.Code.severest_semilattice",
    "Casual.Code.combine_spec",
    "Casual.Code.combine_good"
   ],
   "note": ""
  },
  {
   "property": "C02",
   "status": "proved",
   "theorems": [
    "Casual.FanOut.not_fired_while_outstanding",
    "Casual.FanOut.fired_once_at_completion",
    "Casual.FanOut.fired_once_empty",
    "Casual.FanOut.stray_reply_ignored"
   ],
   "note": "correlations unique (uuid); callbacks named apart"
  },
  {
   "property": "C03",
   "status": "proved",
   "theorems": [
    "Casual.TM.commit_after_unanimous",
    "Casual.TM.commit_only_after_all_voted",
    "Casual.TM.wire_commit_only_after_all_voted"
   ],
   "note": "environment assumption HonestReplies: a resource answers with the branch and id of the request it answers; HonestUpstream: an upstream coordinator that asked us to prepare commits only after our ok vote"
  },
  {
   "property": "C04",
   "status": "proved",
   "theorems": [
    "Casual.TM.commit_ok_means_success",
    "Casual.TM.rollback_ok_means_success",
    "Casual.TM.upstream_commit_ok_means_success",
    "Casual.TM.upstream_vote_ok_means_unanimous"
   ],
   "note": ""
  },
  {
   "property": "C05",
   "status": "partial",
   "theorems": [
    "Casual.TM.second_phase_exact_partial",
    "Casual.TM.issued_are_fanouts"
   ],
   "note": "missing: the second phase of a transaction that an upstream coordinator prepared earlier (resources involved between its prepare and commit get a commit request)"
  },
  {
   "property": "C06",
   "status": "proved",
   "theorems": [
    "Casual.TM.one_phase_iff_one"
   ],
   "note": ""
  },
  {
   "property": "C07",
   "status": "proved",
   "theorems": [
    "Casual.TM.prepared_is_durable",
    "Casual.TM.log_is_replay",
    "Casual.TM.logged_persisted_survives",
    "Casual.TM.prepared_survives"
   ],
   "note": "Fresh: the transaction id has not been finished before and is used anew"
  },
  {
   "property": "C08",
   "status": "partial",
   "theorems": [
    "Casual.TM.decision_durable_refuted",
    "Casual.TM.decision_logged_partial"
   ],
   "note": "false of the code: negation proved with a witness"
  },
  {
   "property": "C09",
   "status": "partial",
   "theorems": [
    "Casual.TM.answers_le_requests",
    "Casual.TM.answered_once_partial",
    "Casual.TM.answered_eventually_refuted"
   ],
   "note": "at most one answer proved; that an answer comes is false of the code (witness)"
  },
  {
   "property": "C10",
   "status": "proved",
   "theorems": [
    "Casual.TM.stage_never_decreases",
    "Casual.TM.late_commit_refused"
   ],
   "note": ""
  },
  {
   "property": "C100",
   "status": "proved",
   "theorems": [
    "Casual.Gateway.In.c100_at_most_one_answer"
   ],
   "note": "For all histories, also with failing sends."
  },
  {
   "property": "C101",
   "status": "proved",
   "theorems": [
    "Casual.Gateway.In.c101_call_answer_is_due",
    "Casual.Gateway.In.c101_resource_answer_is_due",
    "Casual.Gateway.In.c101_other_answer_is_due"
   ],
   "note": "For all histories. Replies to queue requests, conversation connect and discovery are forwarded by connection; that there was a request is not checked by the code."
  },
  {
   "property": "C102",
   "status": "proved",
   "theorems": [
    "Casual.Gateway.In.c102_passed_on_in_its_transaction",
    "Casual.Gateway.In.c102_never_external"
   ],
   "note": "Assumes that correlations are unique and that TM answers with a branch of the transaction it was asked for; c102_never_external also that TM gives ids of its own."
  },
  {
   "property": "C103",
   "status": "partial",
   "theorems": [
    "Casual.Gateway.In.c103_not_stuck_partial",
    "Casual.Gateway.In.c103_answer_is_passed_on_partial",
    "Casual.Gateway.In.c103_own_answer_is_passed_on_partial",
    "Casual.Gateway.In.c103_no_queue_manager_refuted",
    "Casual.Gateway.In.c103_own_branch_refuted"
   ],
   "note": "Holds for calls, prepare, commit, rollback when reply sends do not fail. Refuted for queue requests when there is no queue manager, and when TM gives the id of the other domain."
  },
  {
   "property": "C104",
   "status": "partial",
   "theorems": [
    "Casual.Gateway.In.c104_mapped",
    "Casual.Gateway.In.c104_reaches_tm_partial",
    "Casual.Gateway.In.c104_reaches_tm_refuted",
    "Casual.Gateway.In.c104_external_id_refuted",
    "Casual.Gateway.In.c104_answer_id_partial"
   ],
   "note": "Refuted: if the service is not found before the branch comes, prepare is answered with a protocol error though TM has the branch; the answer is for the local id and not for the one asked for. What holds instead is proved."
  },
  {
   "property": "C105",
   "status": "partial",
   "theorems": [
    "Casual.Gateway.In.c105_no_lookup_is_left_partial",
    "Casual.Gateway.In.c105_discard_is_due"
   ],
   "note": "When reply sends do not fail (c108_others_refuted shows what happens then)."
  },
  {
   "property": "C106",
   "status": "partial",
   "theorems": [
    "Casual.Gateway.In.c106_closed_when_done_partial",
    "Casual.Gateway.In.c106_queue_refuted",
    "Casual.Gateway.In.c106_closes_partial",
    "Casual.Gateway.In.c106_closes_refuted"
   ],
   "note": "Refuted for queue requests in flight, and for calls that want no reply (the connection is never closed). The positive direction asks that all transactions of the group are done."
  },
  {
   "property": "C107",
   "status": "partial",
   "theorems": [
    "Casual.Gateway.In.c107_all_are_asked",
    "Casual.Gateway.In.c107_done",
    "Casual.Gateway.In.c107_later_connection_refuted"
   ],
   "note": "Refuted for a connection that is being established at the shutdown."
  },
  {
   "property": "C108",
   "status": "partial",
   "theorems": [
    "Casual.Gateway.In.c108_lives_on_partial",
    "Casual.Gateway.In.c108_say_refuted",
    "Casual.Gateway.In.c108_twice_refuted",
    "Casual.Gateway.In.c108_others_refuted"
   ],
   "note": "Refuted: a message in a conversation before the service is found, two disconnect replies, and a reply that fails to be sent (erases the unit of another request). The partial theorem says that there is nothing else."
  },
  {
   "property": "C109",
   "status": "proved",
   "theorems": [
    "Casual.Forward.forward_keeps_to_protocol",
    "Casual.Forward.forward_never_dies"
   ],
   "note": "For all histories. `walk` in Forward/Spec.lean is the protocol: an automaton over what was sent and received."
  },
  {
   "property": "C11",
   "status": "partial",
   "theorems": [
    "Casual.TM.one_request_at_a_time",
    "Casual.TM.issued_distinct",
    "Casual.TM.sent_in_order_partial",
    "Casual.TM.no_request_lost_refuted"
   ],
   "note": "a queued request is lost if the device of the instance has vanished (witness)"
  },
  {
   "property": "C110",
   "status": "proved",
   "theorems": [
    "Casual.Forward.forward_commit_only_after_success"
   ],
   "note": "For all histories."
  },
  {
   "property": "C111",
   "status": "proved",
   "theorems": [
    "Casual.Forward.forward_own_transaction",
    "Casual.Forward.forward_transaction_ended_once"
   ],
   "note": "For all histories; transaction ids are modelled as a counter (uniqueness of uuids)."
  },
  {
   "property": "C112",
   "status": "proved",
   "theorems": [
    "Casual.Forward.forward_no_message_forgotten"
   ],
   "note": "For all histories."
  },
  {
   "property": "C113",
   "status": "proved",
   "theorems": [
    "Casual.Forward.forward_failure_rolled_back"
   ],
   "note": "For all histories."
  },
  {
   "property": "C114",
   "status": "proved",
   "theorems": [
    "Casual.Forward.forward_concurrency_bound",
    "Casual.Forward.forward_no_dequeue_after_shutdown"
   ],
   "note": "For all histories; after shutdown only a later configuration update starts again."
  },
  {
   "property": "C115",
   "status": "partial",
   "theorems": [
    "Casual.Forward.forward_reported_numbers_partial",
    "Casual.Forward.forward_reported_commits_refuted",
    "Casual.Forward.forward_reported_running_refuted"
   ],
   "note": "Refuted: a commit answered with rollback counts as a commit; a dequeue request that cannot be delivered counts as running for ever. Exact values of all four numbers are proved instead."
  },
  {
   "property": "C116",
   "status": "partial",
   "theorems": [
    "Casual.Forward.forward_done_partial",
    "Casual.Forward.forward_shutdown_gives_up_all",
    "Casual.Forward.forward_shutdown_refuted"
   ],
   "note": "Refuted: after an undeliverable dequeue request the process is never done. Otherwise exact; and at shutdown everything that can still be given up is given up."
  },
  {
   "property": "C117",
   "status": "partial",
   "theorems": [
    "Casual.Forward.forward_keeps_going_partial",
    "Casual.Forward.forward_starts_over_partial",
    "Casual.Forward.forward_keeps_going_refuted"
   ],
   "note": "Refuted: when two enqueues fail and the source is looked up in between, the forward goes to sleep until the next configuration. Proved, if all other processes behave, for every forward of which no enqueue fails (or that has no queue to enqueue to): as many requests under way as instances, or the queue manager is looking for one of its queues."
  },
  {
   "property": "C118",
   "status": "partial",
   "theorems": [
    "Casual.Forward.forward_target_exit_partial",
    "Casual.Forward.forward_source_exit_refuted"
   ],
   "note": "Holds for the target queue. Refuted for the source queue: the dead process is asked to forget the request, and the instance is stuck."
  },
  {
   "property": "C119",
   "status": "partial",
   "theorems": [
    "Casual.Forward.forward_enqueue_right_partial",
    "Casual.Forward.forward_enqueue_to_nobody_refuted"
   ],
   "note": "Message, transaction, queue and delay are right. Refuted for the process: after a failed enqueue, the other message under way is sent to a null process."
  },
  {
   "property": "C12",
   "status": "partial",
   "theorems": [
    "Casual.TM.final_answer_removes",
    "Casual.TM.nothing_left",
    "Casual.TM.nothing_left_after_crash_refuted"
   ],
   "note": "the log row can be back after a crash (witness)"
  },
  {
   "property": "C120",
   "status": "partial",
   "theorems": [
    "Casual.Forward.forward_update_instances_partial",
    "Casual.Forward.forward_update_gives_up_surplus",
    "Casual.Forward.forward_update_refuted"
   ],
   "note": "Only instances are updated (and exactly the surplus is given up); a forward that is disabled, or gets another target, by an update goes on as before."
  },
  {
   "property": "C121",
   "status": "proved",
   "theorems": [
    "Casual.Task.task_groups_run_in_order",
    "Casual.Task.task_action_once"
   ],
   "note": ""
  },
  {
   "property": "C122",
   "status": "proved",
   "theorems": [
    "Casual.Task.task_waits_for_a_running_unit",
    "Casual.Task.task_message_reaches_running",
    "Casual.Task.task_message_ignored",
    "Casual.Task.task_empty_means_all_ended"
   ],
   "note": ""
  },
  {
   "property": "C123",
   "status": "proved",
   "theorems": [
    "Casual.Config.change_calculate",
    "Casual.Config.change_gives_wanted",
    "Casual.Config.change_none"
   ],
   "note": "That the result is the wanted configuration needs that no alias is used twice; the three parts are exact for all."
  },
  {
   "property": "C124",
   "status": "proved",
   "theorems": [
    "Casual.QManager.lookup_answer_offered"
   ],
   "note": ""
  },
  {
   "property": "C125",
   "status": "proved",
   "theorems": [
    "Casual.QManager.lookup_absent_only_if_none"
   ],
   "note": "For a requester of another domain that has not discovered \"nobody\" is: no queue group of this domain."
  },
  {
   "property": "C126",
   "status": "proved",
   "theorems": [
    "Casual.QManager.lookup_prefers"
   ],
   "note": ""
  },
  {
   "property": "C127",
   "status": "partial",
   "theorems": [
    "Casual.QManager.lookup_external_direct_local_partial",
    "Casual.QManager.lookup_external_local_refuted"
   ],
   "note": "Does not hold for a lookup that waits: it is answered with whatever is advertised first. Proved for lookups that do not want to wait."
  },
  {
   "property": "C128",
   "status": "proved",
   "theorems": [
    "Casual.QManager.lookup_ends_at_most_once"
   ],
   "note": ""
  },
  {
   "property": "C129",
   "status": "proved",
   "theorems": [
    "Casual.QManager.lookup_waits_only_if_none"
   ],
   "note": "For a lookup with a correlation of its own, whose requester can be reached."
  },
  {
   "property": "C13",
   "status": "partial",
   "theorems": [
    "Casual.TM.died_owner_rolled_back_partial",
    "Casual.TM.rollback_then_commit_refuted"
   ],
   "note": "false of the code when the owner dies during prepare (witness)"
  },
  {
   "property": "C130",
   "status": "proved",
   "theorems": [
    "Casual.QManager.lookup_direct_answered"
   ],
   "note": "As C129."
  },
  {
   "property": "C131",
   "status": "proved",
   "theorems": [
    "Casual.QManager.lookup_stop_answers_all"
   ],
   "note": "As C129."
  },
  {
   "property": "C132",
   "status": "proved",
   "theorems": [
    "Casual.QManager.lookup_discard_confirms",
    "Casual.QManager.lookup_discard_refuses"
   ],
   "note": "As C129."
  },
  {
   "property": "C133",
   "status": "proved",
   "theorems": [
    "Casual.QManager.discovery_told_right",
    "Casual.QManager.discovery_known"
   ],
   "note": ""
  },
  {
   "property": "C134",
   "status": "proved",
   "theorems": [
    "Casual.QManager.config_reply_lists_live"
   ],
   "note": "Assumes that the pid of a child is not used again for another child after it exits. "
  },
  {
   "property": "C135",
   "status": "proved",
   "theorems": [
    "Casual.QManager.update_answered_at_most_once",
    "Casual.QManager.update_answered_after"
   ],
   "note": "Assumes that the pid of a child is not used again for another child after it exits. \"After\" is for an update with a correlation that its requester uses once."
  },
  {
   "property": "C136",
   "status": "partial",
   "theorems": [
    "Casual.QManager.update_modified_group_answered_partial",
    "Casual.QManager.modified_group_answered_refuted",
    "Casual.QManager.modified_forward_sent_refuted"
   ],
   "note": "Assumes that the pid of a child is not used again for another child after it exits. Does not hold: with two updates under way the second is answered on the reply to the first; a modified forward group is never sent its configuration (the queue groups are searched). Proved: every modified queue group has since answered some configuration, or exited."
  },
  {
   "property": "C137",
   "status": "partial",
   "theorems": [
    "Casual.QManager.shutdown_stops_children_partial",
    "Casual.QManager.shutdown_stops_all_refuted"
   ],
   "note": "Assumes that the pid of a child is not used again for another child after it exits. Does not hold when the shutdown comes while the manager boots or updates: what waits to be spawned is spawned after it and is never told to stop. Proved: whatever was alive at the shutdown has exited when no task is left."
  },
  {
   "property": "C138",
   "status": "partial",
   "theorems": [
    "Casual.QManager.ready_when_children_configured_partial",
    "Casual.QManager.ready_all_spawned_refuted"
   ],
   "note": "Assumes that the pid of a child is not used again for another child after it exits. Does not hold if a queue group exits before it connects: the forward groups are not started yet. Proved: every child that is alive has answered its configuration."
  },
  {
   "property": "C139",
   "status": "proved",
   "theorems": [
    "Casual.QManager.manager_done_iff"
   ],
   "note": "Assumes that the pid of a child is not used again for another child after it exits. "
  },
  {
   "property": "C14",
   "status": "proved",
   "theorems": [
    "Casual.Queue.C14_invisible_until_commit",
    "Casual.Queue.C14_visible_after_commit"
   ],
   "note": "For every history before the enqueue and every history after it."
  },
  {
   "property": "C140",
   "status": "proved",
   "theorems": [
    "Casual.QManager.ready_at_most_once",
    "Casual.QManager.connect_sends_spawned_configuration"
   ],
   "note": "Assumes that the pid of a child is not used again for another child after it exits. (for the second theorem)"
  },
  {
   "property": "C141",
   "status": "partial",
   "theorems": [
    "Casual.QManager.config_after_update_partial",
    "Casual.QManager.config_after_update_refuted"
   ],
   "note": "Assumes that the pid of a child is not used again for another child after it exits. Does not hold for what is modified: the manager keeps and reports the old configuration. Proved for what is added and removed."
  },
  {
   "property": "C142",
   "status": "proved",
   "theorems": [
    "Casual.QManager.only_unwanted_told_to_stop"
   ],
   "note": ""
  },
  {
   "property": "C143",
   "status": "proved",
   "theorems": [
    "Casual.Discovery.discovery_answered_at_most_once"
   ],
   "note": ""
  },
  {
   "property": "C144",
   "status": "proved",
   "theorems": [
    "Casual.Discovery.unanswered_waits",
    "Casual.Discovery.all_answered_when_settled",
    "Casual.Discovery.timeout_disarms"
   ],
   "note": ""
  },
  {
   "property": "C145",
   "status": "partial",
   "theorems": [
    "Casual.Discovery.answered_at_once_after_shutdown",
    "Casual.Discovery.done_only_accumulated_partial",
    "Casual.Discovery.accumulated_lost_at_shutdown_refuted"
   ],
   "note": "Refuted: State::done does not look at what is accumulated (state.cpp:211-217), so requests accumulated under load when the process is told to stop are never answered. Proved: after shutdown new ones are answered at once, and when it ends only accumulated ones are unanswered."
  },
  {
   "property": "C146",
   "status": "proved",
   "theorems": [
    "Casual.Discovery.api_answer_asked_and_said",
    "Casual.Discovery.domain_answer_asked_and_said",
    "Casual.Discovery.all_sent_is_proper"
   ],
   "note": ""
  },
  {
   "property": "C147",
   "status": "proved",
   "theorems": [
    "Casual.Discovery.request_is_asked_for",
    "Casual.Discovery.local_requests_stay",
    "Casual.Discovery.lookup_is_asked_for"
   ],
   "note": ""
  },
  {
   "property": "C148",
   "status": "proved",
   "theorems": [
    "Casual.Discovery.implicit_update_names_us",
    "Casual.Discovery.own_update_stops",
    "Casual.Discovery.explore_is_asked_for"
   ],
   "note": ""
  },
  {
   "property": "C149",
   "status": "proved",
   "theorems": [
    "Casual.Discovery.api_missing_is_nowhere",
    "Casual.Discovery.domain_missing_is_nowhere",
    "Casual.Discovery.all_answers_thorough"
   ],
   "note": ""
  },
  {
   "property": "C15",
   "status": "proved",
   "theorems": [
    "Casual.Queue.C15_only_own_work",
    "Casual.Queue.C15_enqueued_is_gone",
    "Casual.Queue.C15_dequeued_is_back",
    "Casual.Queue.C15_others_untouched"
   ],
   "note": "First rollback of the transaction; what a second one may do is C24."
  },
  {
   "property": "C150",
   "status": "partial",
   "theorems": [
    "Casual.Discovery.configured_without_routes_lost_refuted",
    "Casual.Discovery.unconfigured_missing_partial"
   ],
   "note": "Refuted: a service that is configured without routes (for its timeout, say) maps to an empty set of routes (handle.cpp:796-809) and is dropped from the answers of other domains (116-136). Proved for services that are not configured."
  },
  {
   "property": "C151",
   "status": "proved",
   "theorems": [
    "Casual.Discovery.new_connection_explores",
    "Casual.Discovery.update_explores_and_spreads",
    "Casual.Discovery.rediscovery_asks_for_all_known"
   ],
   "note": ""
  },
  {
   "property": "C152",
   "status": "partial",
   "theorems": [
    "Casual.Discovery.merged_updates_lost_refuted",
    "Casual.Discovery.update_reaches_unnamed_partial"
   ],
   "note": "Refuted: updates that are accumulated together are passed on as one that names the domains of all of them (handle.cpp:598-612), so a domain that is named by one ignores the other. Proved for domains no received update names."
  },
  {
   "property": "C153",
   "status": "partial",
   "theorems": [
    "Casual.DManager.boot_each_once",
    "Casual.DManager.shutdown_each_once",
    "Casual.DManager.boot_after_dependencies_partial",
    "Casual.DManager.shutdown_before_dependencies_partial",
    "Casual.DManager.domainGroups_first",
    "Casual.DManager.boot_after_dependencies_refuted",
    "Casual.DManager.libstdcxxSort_stable",
    "Casual.DManager.insertAll_stable"
   ],
   "note": "Refuted: the groups are sorted with a comparison that is not a strict weak ordering (only direct dependencies), so a group can be placed before one it needs. Proved when the configuration lists every group after those it depends on; each member in exactly one batch is proved unconditionally."
  },
  {
   "property": "C154",
   "status": "proved",
   "theorems": [
    "Casual.DManager.singleton_alone"
   ],
   "note": ""
  },
  {
   "property": "C155",
   "status": "proved",
   "theorems": [
    "Casual.DManager.connect_answered",
    "Casual.DManager.denied_with_reason",
    "Casual.DManager.approved_admitted",
    "Casual.DManager.no_admission_after_shutdown"
   ],
   "note": ""
  },
  {
   "property": "C156",
   "status": "partial",
   "theorems": [
    "Casual.DManager.singleton_lookup_answer",
    "Casual.DManager.lookup_at_most_once",
    "Casual.DManager.lookup_answered_when_there",
    "Casual.DManager.lookup_lost_at_shutdown_refuted",
    "Casual.DManager.stale_singleton_refuted"
   ],
   "note": "Refuted: a lookup that waits when the shutdown comes is never answered; and a process that connects as two singletons leaves one of them behind when it exits, so lookups get a dead process. Proved: at most one answer, the content of the answers (alive when no process is admitted twice in its life), and that an unanswered one is for a singleton that is not there."
  },
  {
   "property": "C157",
   "status": "proved",
   "theorems": [
    "Casual.DManager.whitelisted_spared",
    "Casual.DManager.manager_spared"
   ],
   "note": ""
  },
  {
   "property": "C158",
   "status": "partial",
   "theorems": [
    "Casual.DManager.boot_waits_for_earlier",
    "Casual.DManager.boot_waits_for_dependencies_partial"
   ],
   "note": "Proved for boots that nobody disturbs with a scale or shutdown request, and before a second process of a singleton has been turned down; by dependencies when groups are listed after those they depend on (see C153)."
  },
  {
   "property": "C159",
   "status": "partial",
   "theorems": [
    "Casual.DManager.shutdown_in_order"
   ],
   "note": "Proved for a shutdown of a domain that is idle (no boot, scaling or restart going on), when nothing else is asked during it; the service manager answers only what it was asked."
  },
  {
   "property": "C16",
   "status": "proved",
   "theorems": [
    "Casual.Queue.C16_ids_unique",
    "Casual.Queue.C16_committed_not_lost",
    "Casual.Queue.C16_taken_not_lost",
    "Casual.Queue.C16_content_unchanged",
    "Casual.Queue.C16_handed_out_once",
    "Casual.Queue.C16_handed_out_once_tx"
   ],
   "note": "Crash points are C21/C22."
  },
  {
   "property": "C160",
   "status": "partial",
   "theorems": [
    "Casual.DManager.shutdown_progress",
    "Casual.DManager.shutdown_completes",
    "Casual.DManager.shutdown_in_restart_refuted",
    "Casual.DManager.shutdown_in_boot_refuted"
   ],
   "note": "Refuted: a shutdown request during a restart or during the boot leaves the first group of tasks in place, and it waits for what never comes. Proved for a domain that is idle."
  },
  {
   "property": "C161",
   "status": "partial",
   "theorems": [
    "Casual.DManager.shutdown_leaves_none",
    "Casual.DManager.shutdown_forgets_unconnected_refuted"
   ],
   "note": "Refuted: a server process that has not connected yet is forgotten, and not told to stop. Proved: processes that are up (connected, or executables) have exited when the manager ends, for a domain that is idle when it is asked."
  },
  {
   "property": "C162",
   "status": "partial",
   "theorems": [
    "Casual.DManager.only_own_processes_partial",
    "Casual.DManager.restart_signals_everybody_refuted"
   ],
   "note": "Refuted: to restart an executable that has ended sends SIGTERM to the null process, kill( -1): everybody. Proved for every process but that one, for all histories."
  },
  {
   "property": "C163",
   "status": "partial",
   "theorems": [
    "Casual.DManager.no_spawn_in_shutdown_partial",
    "Casual.DManager.scale_in_shutdown_refuted"
   ],
   "note": "Refuted: scale requests are carried out in a shutdown. Proved for all histories without one."
  },
  {
   "property": "C164",
   "status": "partial",
   "theorems": [
    "Casual.DManager.boot_completes",
    "Casual.DManager.boot_completes_partial",
    "Casual.DManager.boot_ends_refuted"
   ],
   "note": "Refuted: a process of an entity that is to be restarted exits before it has connected; it is not spawned again in a boot, and the boot waits for it. Proved: otherwise, and when no process has been denied, the boot is done, for all histories without scale and shutdown requests in which the system gives no pid twice."
  },
  {
   "property": "C165",
   "status": "partial",
   "theorems": [
    "Casual.DManager.scale_out_exact",
    "Casual.DManager.scale_in_exact",
    "Casual.DManager.exit_restarts_iff",
    "Casual.DManager.scale_reaches_refuted"
   ],
   "note": "Refuted: when a process has exited before, only the first of the gaps is filled. Proved for an idle domain and an entity whose instances are all up."
  },
  {
   "property": "C166",
   "status": "partial",
   "theorems": [
    "Casual.DManager.restart_aliases_scope",
    "Casual.DManager.restart_groups_scope_partial",
    "Casual.DManager.restart_spares_refuted"
   ],
   "note": "Refuted: a restart of groups restarts untouchable entities if their batch has others. Proved: by alias never, by group only in the named groups; whatever tasks are going on."
  },
  {
   "property": "C167",
   "status": "proved",
   "theorems": [
    "Casual.Buffer.Field.C167_field_calls",
    "Casual.Buffer.Field.C167_set_one",
    "Casual.Buffer.Field.C167_remove_one"
   ],
   "note": "While there is memory for the content (Room)."
  },
  {
   "property": "C168",
   "status": "proved",
   "theorems": [
    "Casual.Buffer.Field.C168_sent_received"
   ],
   "note": ""
  },
  {
   "property": "C169",
   "status": "proved",
   "theorems": [
    "Casual.Buffer.Field.C169_iteration"
   ],
   "note": ""
  },
  {
   "property": "C17",
   "status": "proved",
   "theorems": [
    "Casual.Queue.C17_first_in_first_out",
    "Casual.Queue.C17_no_message_iff",
    "Casual.Queue.C17_browse_next"
   ],
   "note": ""
  },
  {
   "property": "C170",
   "status": "partial",
   "theorems": [
    "Casual.Buffer.Field.C170_short_memory_refuted",
    "Casual.Buffer.Field.C170_endless_refuted",
    "Casual.Buffer.Field.C170_accepted_partial",
    "Casual.Buffer.Field.C170_truncated_partial"
   ],
   "note": "Refuted: a header that does not fit is read all the same, and a negative size makes the construction not end. Proved when no size that is met is negative and each header is within the memory."
  },
  {
   "property": "C171",
   "status": "partial",
   "theorems": [
    "Casual.Buffer.Field.C171_set_fails_refuted",
    "Casual.Buffer.Field.C171_fails_partial"
   ],
   "note": "Refuted for set that runs out of memory: the old value is erased first. Proved for add, remove, and set that fails for another reason."
  },
  {
   "property": "C172",
   "status": "partial",
   "theorems": [
    "Casual.Buffer.Field.C172_remove_id_refuted",
    "Casual.Buffer.Field.C172_remove_id_partial"
   ],
   "note": "Refuted for received fields with a negative id. Proved for all buffers made by calls."
  },
  {
   "property": "C173",
   "status": "partial",
   "theorems": [
    "Casual.Buffer.Field.C173_iteration_refuted",
    "Casual.Buffer.Field.C173_iteration_partial"
   ],
   "note": "Refuted for a received field with id 0: the iteration never ends. Proved for all others."
  },
  {
   "property": "C174",
   "status": "partial",
   "theorems": [
    "Casual.Buffer.Field.C174_reads_refuted",
    "Casual.Buffer.Field.C174_reads_partial"
   ],
   "note": "Refuted: the size of a number in received memory is not checked. Proved when each field has enough bytes for the type of its id."
  },
  {
   "property": "C175",
   "status": "partial",
   "theorems": [
    "Casual.Buffer.Field.C175_get_value",
    "Casual.Buffer.Field.C175_minimum_need",
    "Casual.Buffer.Field.C175_count_refuted"
   ],
   "note": "Refuted: the count of the caller is changed before the value of a number is looked for. The rest is proved."
  },
  {
   "property": "C176",
   "status": "proved",
   "theorems": [
    "Casual.Buffer.Order.C176_order",
    "Casual.Buffer.Order.C176_sent"
   ],
   "note": ""
  },
  {
   "property": "C177",
   "status": "partial",
   "theorems": [
    "Casual.Buffer.Order.C177_beyond_refuted",
    "Casual.Buffer.Order.C177_backwards_refuted",
    "Casual.Buffer.Order.C177_numbers_partial",
    "Casual.Buffer.Order.C177_binary_partial"
   ],
   "note": "Refuted: values are read before the bounds are checked, and a negative size of a received binary moves the cursor to before the buffer. Proved for numbers: the code, and that the buffer is as it was."
  },
  {
   "property": "C178",
   "status": "partial",
   "theorems": [
    "Casual.Buffer.Str.C178_string",
    "Casual.Buffer.Str.C178_reallocate",
    "Casual.Buffer.Str.C178_unterminated_refuted"
   ],
   "note": "Refuted: the check for a NUL comes after strlen, and what a service is called with is not checked. The rest is proved."
  },
  {
   "property": "C179",
   "status": "proved",
   "theorems": [
    "Casual.Buffer.Octet.C179_octet"
   ],
   "note": ""
  },
  {
   "property": "C18",
   "status": "proved",
   "theorems": [
    "Casual.Queue.C18_error_queue",
    "Casual.Queue.C18_error_queue_is_own"
   ],
   "note": "The error queue is the one named after the queue, in every reachable table, including after reconfigurations."
  },
  {
   "property": "C180",
   "status": "proved",
   "theorems": [
    "Casual.Buffer.Pool.C180_distinct",
    "Casual.Buffer.Pool.C180_untouched",
    "Casual.Buffer.Pool.C180_allocate",
    "Casual.Buffer.Pool.C180_gone",
    "Casual.Buffer.Pool.C180_resized"
   ],
   "note": ""
  },
  {
   "property": "C181",
   "status": "proved",
   "theorems": [
    "Casual.Buffer.Pool.C181_inbound",
    "Casual.Buffer.Pool.C181_free",
    "Casual.Buffer.Pool.C181_done"
   ],
   "note": ""
  },
  {
   "property": "C182",
   "status": "partial",
   "theorems": [
    "Casual.Buffer.Pool.C182_unknown",
    "Casual.Buffer.Pool.C182_fail_refuted"
   ],
   "note": "Refuted for the reply of a service that failed: the exception leaves the C function. Proved for every other call."
  },
  {
   "property": "C183",
   "status": "partial",
   "theorems": [
    "Casual.Buffer.Pool.C183_sent",
    "Casual.Buffer.Pool.C183_negative_refuted"
   ],
   "note": "Refuted: a negative size is not refused. The rest is proved."
  },
  {
   "property": "C184",
   "status": "partial",
   "theorems": [
    "Casual.Buffer.Pool.C184_reply_partial",
    "Casual.Buffer.Pool.C184_type_refuted",
    "Casual.Buffer.Pool.C184_empty_refuted",
    "Casual.Buffer.Pool.C184_leak_refuted"
   ],
   "note": "Refuted: the buffer of the user is freed before the type of the reply is looked for, and an empty reply gives null and leaves a buffer that can not be freed. Proved for replies that are not empty and of a known type."
  },
  {
   "property": "C185",
   "status": "proved",
   "theorems": [
    "Casual.Conv.conv_descriptor_unique",
    "Casual.Conv.conv_descriptor",
    "Casual.Conv.conv_bad_descriptor"
   ],
   "note": ""
  },
  {
   "property": "C186",
   "status": "proved",
   "theorems": [
    "Casual.Conv.conv_control",
    "Casual.Conv.conv_control_protocol"
   ],
   "note": ""
  },
  {
   "property": "C187",
   "status": "proved",
   "theorems": [
    "Casual.Conv.conv_data_order",
    "Casual.Conv.conv_data_prefix",
    "Casual.Conv.conv_control_all",
    "Casual.Conv.conv_data_prefix_untidy"
   ],
   "note": "Order for all histories; completeness when a server does not go back to its pump with a conversation open that it has initiated (a service disconnects, or receives until the end): conv_data_prefix_untidy shows data that is lost otherwise."
  },
  {
   "property": "C188",
   "status": "proved",
   "theorems": [
    "Casual.Conv.conv_events_true"
   ],
   "note": ""
  },
  {
   "property": "C189",
   "status": "proved",
   "theorems": [
    "Casual.Conv.conv_end_final",
    "Casual.Conv.conv_end_closed"
   ],
   "note": ""
  },
  {
   "property": "C19",
   "status": "proved",
   "theorems": [
    "Casual.Queue.C19_counters_exact"
   ],
   "note": ""
  },
  {
   "property": "C190",
   "status": "proved",
   "theorems": [
    "Casual.Conv.conv_end_noticed"
   ],
   "note": "With the same condition on initiators that are servers as C187."
  },
  {
   "property": "C191",
   "status": "proved",
   "theorems": [
    "Casual.Conv.conv_disconnect_noticed"
   ],
   "note": ""
  },
  {
   "property": "C192",
   "status": "proved",
   "theorems": [
    "Casual.Conv.conv_started_once",
    "Casual.Conv.conv_started_data",
    "Casual.Conv.conv_connected_started"
   ],
   "note": ""
  },
  {
   "property": "C193",
   "status": "partial",
   "theorems": [
    "Casual.Conv.conv_connect_returns_partial",
    "Casual.Conv.conv_connect_hangs",
    "Casual.Conv.conv_connect_returns_refuted",
    "Casual.Conv.conv_connect_dead_refuted"
   ],
   "note": "Refuted: when the service could not be called, or the server died with the request, the initiator is sent a message that tpconnect does not wait for, and it blocks for ever. Proved: it returns when the service has been called."
  },
  {
   "property": "C194",
   "status": "partial",
   "theorems": [
    "Casual.Conv.conv_server_goes_on_partial",
    "Casual.Conv.conv_server_goes_on_refuted",
    "Casual.Conv.conv_server_goes_on_dead_refuted"
   ],
   "note": "Refuted: after TPEV_DISCONIMM, or when the initiator has died, tpreturn ends the server with an exception (the descriptor is unreserved twice, the reply can not be sent). Proved for conversations that have not ended for the service."
  },
  {
   "property": "C195",
   "status": "partial",
   "theorems": [
    "Casual.Conv.conv_death_noticed_refuted",
    "Casual.Conv.conv_death_noticed_partial"
   ],
   "note": "Refuted for the service: nobody tells it that the initiator has died. Proved for the initiator, when the service manager has reported the death of the server."
  },
  {
   "property": "C196",
   "status": "partial",
   "theorems": [
    "Casual.Conv.conv_success_read_refuted",
    "Casual.Conv.conv_success_read_partial"
   ],
   "note": "Refuted: a service that has not received anything, and is not in control, succeeds as well. Proved: the data and code are the ones of a tpreturn with TPSUCCESS."
  },
  {
   "property": "C197",
   "status": "partial",
   "theorems": [
    "Casual.Conv.Trans.conv_commit_refuted",
    "Casual.Conv.Trans.conv_service_fails_refuted",
    "Casual.Conv.Trans.conv_commit_partial"
   ],
   "note": "Refuted for every history: nothing ever removes the correlation that tpconnect associates with the transaction, so tx_commit returns TX_PROTOCOL_ERROR, and a service that has connected within its transaction can not succeed. Proved: with TPNOTRAN the transaction is not touched."
  },
  {
   "property": "C198",
   "status": "partial",
   "theorems": [
    "Casual.Conv.Trans.conv_fail_refuted",
    "Casual.Conv.Trans.conv_fail_resource_refuted",
    "Casual.Conv.Trans.conv_fail_same",
    "Casual.Conv.Trans.conv_fail_partial"
   ],
   "note": "Refuted: for a conversation TPFAIL is not passed on to the end of the transaction, the own transaction of the service is committed. Proved for services that are called with tpcall."
  },
  {
   "property": "C199",
   "status": "proved",
   "theorems": [
    "Casual.ConfModel.enabled_iff",
    "Casual.ConfModel.enabled_order",
    "Casual.ConfModel.normalize_enabled"
   ],
   "note": ""
  },
  {
   "property": "C20",
   "status": "proved",
   "theorems": [
    "Casual.Queue.C20_size_exact",
    "Casual.Queue.C20_capacity",
    "Casual.Queue.C20_fitting_is_accepted"
   ],
   "note": "For every sequence of handled messages, crashes included."
  },
  {
   "property": "C200",
   "status": "proved",
   "theorems": [
    "Casual.ConfModel.aliases_unique",
    "Casual.ConfModel.entities_kept"
   ],
   "note": ""
  },
  {
   "property": "C201",
   "status": "partial",
   "theorems": [
    "Casual.ConfModel.alias_kept_refuted",
    "Casual.ConfModel.aliases_kept_partial"
   ],
   "note": "Refuted: an executable without an alias takes the name of its file before the servers are looked at, and a server with that alias is renamed. Proved when no two have the same name, configured or of the file."
  },
  {
   "property": "C202",
   "status": "partial",
   "theorems": [
    "Casual.ConfModel.follows_refuted",
    "Casual.ConfModel.placeholder_follows",
    "Casual.ConfModel.explicit_follows_partial",
    "Casual.ConfModel.normalize_total",
    "Casual.ConfModel.isPlaceholder_iff"
   ],
   "note": "Refuted with the same configuration: the restrictions of the server stay with the name that another process has got. Proved for servers without an alias, and for those whose alias is kept."
  },
  {
   "property": "C203",
   "status": "partial",
   "theorems": [
    "Casual.ConfModel.union_precedence",
    "Casual.ConfModel.union_values",
    "Casual.ConfModel.union_queues_partial",
    "Casual.ConfModel.union_queue_group_refuted",
    "Casual.ConfModel.union_outbound_refuted",
    "Casual.ConfModel.union_outbound_memberships_refuted",
    "Casual.ConfModel.union_memberships_refuted",
    "Casual.ConfModel.union_inbound_partial"
   ],
   "note": "Refuted for the directory, queuebase and capacity of queue groups, the order of outbound groups and the memberships of connections and forward groups: the earlier counts. Proved for everything else in lists with names, and for single values."
  },
  {
   "property": "C204",
   "status": "proved",
   "theorems": [
    "Casual.ConfModel.union_keeps",
    "Casual.ConfModel.union_unnamed",
    "Casual.ConfModel.unnamed_kept"
   ],
   "note": ""
  },
  {
   "property": "C205",
   "status": "proved",
   "theorems": [
    "Casual.ConfModel.union_self",
    "Casual.ConfModel.union_self_unnamed"
   ],
   "note": "union_self_unnamed: an unnamed executable is there twice."
  },
  {
   "property": "C206",
   "status": "proved",
   "theorems": [
    "Casual.ConfModel.union_assoc",
    "Casual.ConfModel.union_assoc_duplicates"
   ],
   "note": "union_assoc_duplicates: with duplicate names it matters."
  },
  {
   "property": "C207",
   "status": "partial",
   "theorems": [
    "Casual.ConfModel.difference_partial",
    "Casual.ConfModel.intersection_partial",
    "Casual.ConfModel.difference_keyed_partial",
    "Casual.ConfModel.difference_restriction_refuted"
   ],
   "note": "Refuted for the restrictions of servers, which are left untouched. Proved for everything else."
  },
  {
   "property": "C208",
   "status": "proved",
   "theorems": [
    "Casual.ConfModel.entity_defaults",
    "Casual.ConfModel.service_defaults",
    "Casual.ConfModel.service_routes"
   ],
   "note": ""
  },
  {
   "property": "C209",
   "status": "partial",
   "theorems": [
    "Casual.ConfModel.resource_instances_refuted",
    "Casual.ConfModel.resource_defaults_partial"
   ],
   "note": "Refuted: it has 0 instances (transform.cpp:117), the documentation says 1. Proved when there is a section for defaults."
  },
  {
   "property": "C21",
   "status": "proved",
   "theorems": [
    "Casual.Queue.C21_enqueue_survives",
    "Casual.Queue.C21_commit_survives",
    "Casual.Queue.C21_rollback_survives"
   ],
   "note": "The queuebase after a crash is the result of a history that contains the acknowledged operation; with C14-C19 this says what that means for messages."
  },
  {
   "property": "C210",
   "status": "partial",
   "theorems": [
    "Casual.ConfModel.load_instances_partial",
    "Casual.ConfModel.validate_forward_refuted",
    "Casual.ConfModel.posted_instances_refuted"
   ],
   "note": "Refuted for queue forwards, and for everything that is posted. Proved for servers, executables, resources and service forwards in files."
  },
  {
   "property": "C211",
   "status": "partial",
   "theorems": [
    "Casual.ConfModel.posted_as_loaded_partial",
    "Casual.ConfModel.posted_defaults_refuted",
    "Casual.ConfModel.posted_alias_refuted"
   ],
   "note": "Refuted: defaults that are posted are not applied, and a server without an alias is refused if there is a transaction section. Proved if aliases are given and nothing is left to defaults, up to validation."
  },
  {
   "property": "C212",
   "status": "partial",
   "theorems": [
    "Casual.ConfModel.split_domain_partial",
    "Casual.ConfModel.split_transaction_refuted",
    "Casual.ConfModel.split_group_refuted"
   ],
   "note": "Refuted: the resources of a server are forgotten if the file with the server has no transaction section, and those of its groups if they are in another file. Proved for groups, servers, executables and the environment."
  },
  {
   "property": "C213",
   "status": "partial",
   "theorems": [
    "Casual.ConfModel.redefined_partial",
    "Casual.ConfModel.redefined_refuted"
   ],
   "note": "Refuted: restrictions and resources of the earlier definition are left. Proved for the process itself, and for restrictions if the later has some."
  },
  {
   "property": "C214",
   "status": "proved",
   "theorems": [
    "Casual.Env.expand_references",
    "Casual.Env.expand_plain",
    "Casual.Env.expand_open",
    "Casual.Env.expand_local"
   ],
   "note": "Names are not empty: \"${}\" is left as it is at the end of the text, and removed elsewhere."
  },
  {
   "property": "C215",
   "status": "partial",
   "theorems": [
    "Casual.Env.get_set_partial",
    "Casual.Env.get_set_refuted",
    "Casual.Env.get_unset",
    "Casual.Env.has_get",
    "Casual.Env.unique_set"
   ],
   "note": "Refuted for names with a \"=\": another variable gets the value. Proved for all other names."
  },
  {
   "property": "C216",
   "status": "proved",
   "theorems": [
    "Casual.Env.current_get",
    "Casual.Env.current_unique"
   ],
   "note": ""
  },
  {
   "property": "C217",
   "status": "partial",
   "theorems": [
    "Casual.DPost.posted_is_had_partial",
    "Casual.DPost.booted_is_had",
    "Casual.DPost.history_forgotten",
    "Casual.DPost.hidden_group_refuted",
    "Casual.DPost.hidden_server_refuted"
   ],
   "note": "Refuted for groups with names that begin with \".\" and servers in the groups of the domain itself: they are there once more each time. Proved for all sensible configurations (`Sound`), groups listed after those they depend on, after any history of such posts."
  },
  {
   "property": "C218",
   "status": "partial",
   "theorems": [
    "Casual.DPost.boots_posts_refuted",
    "Casual.DPost.boots_posts_partial"
   ],
   "note": "Refuted: groups must be listed after those they depend on when they are posted, but not at boot. Proved for groups in that order."
  },
  {
   "property": "C219",
   "status": "partial",
   "theorems": [
    "Casual.DPost.refused_effect_refuted",
    "Casual.DPost.refused_effect_partial"
   ],
   "note": "Refuted: groups are removed, and memberships of them, although the configuration is refused. Proved for the processes and their settings, for every state and configuration."
  },
  {
   "property": "C22",
   "status": "partial",
   "theorems": [
    "Casual.Queue.C22_refuted",
    "Casual.Queue.C22_prepare_durable_partial"
   ],
   "note": "The property does not hold of the code (prepare answers without persisting); the negation is proved, and what does hold."
  },
  {
   "property": "C220",
   "status": "partial",
   "theorems": [
    "Casual.DPost.stays_up_refuted",
    "Casual.DPost.stays_up_partial"
   ],
   "note": "Refuted: a server in a group that is not there is accepted, and the domain shuts down. Proved for sensible configurations."
  },
  {
   "property": "C221",
   "status": "partial",
   "theorems": [
    "Casual.DPost.overlapping_refuted",
    "Casual.DPost.one_at_a_time_partial"
   ],
   "note": "Refuted: the domain shuts down. Proved for any sequence of posts, each when the one before is done."
  },
  {
   "property": "C222",
   "status": "partial",
   "theorems": [
    "Casual.DPost.dangling_refuted",
    "Casual.DPost.dangling_group_refuted",
    "Casual.DPost.dangling_partial"
   ],
   "note": "Refuted for groups and servers that are not changed. Proved for groups that are new or changed, for every state and configuration."
  },
  {
   "property": "C223",
   "status": "partial",
   "theorems": [
    "Casual.DPost.gateway_last_refuted",
    "Casual.DPost.gateway_last_partial"
   ],
   "note": "Refuted for groups that are posted. Proved at boot, for every configuration."
  },
  {
   "property": "C224",
   "status": "proved",
   "theorems": [
    "Casual.DPost.get_posted_nothing"
   ],
   "note": ""
  },
  {
   "property": "C225",
   "status": "partial",
   "theorems": [
    "Casual.Http.answered_once_partial",
    "Casual.Http.never_twice",
    "Casual.Http.unknown_refused",
    "Casual.Http.no_reply_refuted",
    "Casual.Http.user_code_refuted"
   ],
   "note": "Refuted: a call that wants no answer gets one; a user code that is not a number terminates the process. Proved for all events without these two."
  },
  {
   "property": "C226",
   "status": "partial",
   "theorems": [
    "Casual.Http.request_sent",
    "Casual.Http.replied_partial",
    "Casual.Http.reply_data_refuted"
   ],
   "note": "Refuted when the server replies before it has read the request: what is left of the request is in the answer. Proved when the request is sent before the body of the reply comes."
  },
  {
   "property": "C227",
   "status": "partial",
   "theorems": [
    "Casual.Http.transaction_refused",
    "Casual.Http.replied_partial",
    "Casual.Http.transaction_state_refuted"
   ],
   "note": "Refuted: with base64, a reply that can not be decoded is an error with the transaction told to be fine. Proved without base64."
  },
  {
   "property": "C228",
   "status": "proved",
   "theorems": [
    "Casual.Http.code_round_trip",
    "Casual.Http.code_unknown",
    "Casual.Http.long_round_trip",
    "Casual.Http.user_round_trip",
    "Casual.Http.user_absent",
    "Casual.Http.status_meaning",
    "Casual.Http.never_ok"
   ],
   "note": ""
  },
  {
   "property": "C229",
   "status": "partial",
   "theorems": [
    "Casual.Http.type_round_trip",
    "Casual.Http.decode64_encode64",
    "Casual.Http.encode64_length",
    "Casual.Http.wire_round_trip",
    "Casual.Http.type_space_refuted"
   ],
   "note": "Types and base64 proved for all types and data. Refuted for types with white space, when they are told as header fields."
  },
  {
   "property": "C23",
   "status": "proved",
   "theorems": [
    "Casual.Queue.C23_taken_is_protected"
   ],
   "note": ""
  },
  {
   "property": "C230",
   "status": "partial",
   "theorems": [
    "Casual.Http.field_kept",
    "Casual.Http.header_arrives_partial",
    "Casual.Http.configured_header_refuted",
    "Casual.Http.request_header_refuted"
   ],
   "note": "Refuted: all white space is removed from headers. Proved for names and values without it."
  },
  {
   "property": "C231",
   "status": "partial",
   "theorems": [
    "Casual.Http.request_arrives_partial",
    "Casual.Http.reply_arrives_partial",
    "Casual.Http.empty_request_refuted",
    "Casual.Http.empty_reply_refuted",
    "Casual.Http.spelling_refuted",
    "Casual.Http.parameter_refuted"
   ],
   "note": "Refuted for requests and replies without data, for http servers that spell Content-Type with capitals, and content types with parameters. Proved otherwise."
  },
  {
   "property": "C232",
   "status": "partial",
   "theorems": [
    "Casual.Http.absent_served",
    "Casual.Http.late_lookup_served",
    "Casual.Http.answer_served",
    "Casual.Http.one_answer",
    "Casual.Http.mixed_codes_refuted"
   ],
   "note": "Refuted for errors that are not xatmi codes: they are told as the xatmi code that has the same number."
  },
  {
   "property": "C233",
   "status": "partial",
   "theorems": [
    "Casual.Http.configured",
    "Casual.Http.discovered",
    "Casual.Http.default_partial",
    "Casual.Http.default_refuted"
   ],
   "note": "Refuted for the default of discarded transactions, with more than one file. Proved for the rest, any files."
  },
  {
   "property": "C234",
   "status": "partial",
   "theorems": [
    "Casual.Http.told_once",
    "Casual.Http.told_result_partial",
    "Casual.Http.told_result_refuted"
   ],
   "note": "Each call is told once; the result that is told is that of the answer, in that order, without base64. Refuted with base64: a reply that can not be decoded is an error for the caller, but told as what the server said."
  },
  {
   "property": "C235",
   "status": "partial",
   "theorems": [
    "Casual.Http.request_taken_partial",
    "Casual.Http.no_body_refuted",
    "Casual.Http.capital_refuted",
    "Casual.Http.not_base64_refuted"
   ],
   "note": "Refuted: no body, no content-type in small letters, or (with base64) a body that is not base64 takes the worker process down. Proved for requests without base64 that have a body and a content-type."
  },
  {
   "property": "C236",
   "status": "partial",
   "theorems": [
    "Casual.Chrono.duration_read_partial",
    "Casual.Chrono.nonsense_refused",
    "Casual.Chrono.duration_read_refuted"
   ],
   "note": "Refuted: a number that does not fit in 64 bits is taken for 0. Proved for all texts with numbers that do; sums that do not fit are undefined."
  },
  {
   "property": "C237",
   "status": "partial",
   "theorems": [
    "Casual.Chrono.told_is_read_partial",
    "Casual.Chrono.told_apart",
    "Casual.Chrono.told_is_read_refuted"
   ],
   "note": "Refuted for negative durations (which no configuration text can give). Proved for all others."
  },
  {
   "property": "C238",
   "status": "proved",
   "theorems": [
    "Casual.Callback.accounted"
   ],
   "note": "As long as nothing undefined happens (C240)."
  },
  {
   "property": "C239",
   "status": "proved",
   "theorems": [
    "Casual.Callback.callbacks_run"
   ],
   "note": "As long as nothing undefined happens (C240)."
  },
  {
   "property": "C24",
   "status": "partial",
   "theorems": [
    "Casual.Queue.C24_idempotent_partial",
    "Casual.Queue.C24_refuted"
   ],
   "note": "False in general: rollback3 looks at messages in any state, so lowering the retry count (or restoring) between two rollbacks makes the second one move messages. Proved when nothing works in the transaction and no queue is reconfigured or restored in between."
  },
  {
   "property": "C240",
   "status": "partial",
   "theorems": [
    "Casual.Callback.callbacks_safe_partial",
    "Casual.Callback.callback_blocked_refuted",
    "Casual.Callback.callback_erase_refuted"
   ],
   "note": "Refuted: a callback that sends to a destination that is blocked, or that gets rid of what waits for a destination before it in the vector, moves the element that is used (use after free, std::vector). Proved when what callbacks send to can be sent to at once or is gone."
  },
  {
   "property": "C241",
   "status": "proved",
   "theorems": [
    "Casual.SForward.each_call_once",
    "Casual.SForward.passed_once"
   ],
   "note": ""
  },
  {
   "property": "C242",
   "status": "proved",
   "theorems": [
    "Casual.SForward.sent_with_reason"
   ],
   "note": ""
  },
  {
   "property": "C243",
   "status": "proved",
   "theorems": [
    "Casual.SForward.sent_with_reason",
    "Casual.SForward.each_call_once"
   ],
   "note": ""
  },
  {
   "property": "C244",
   "status": "proved",
   "theorems": [
    "Casual.SForward.looked_up_once",
    "Casual.SForward.discarded_once"
   ],
   "note": ""
  },
  {
   "property": "C245",
   "status": "partial",
   "theorems": [
    "Casual.SForward.all_told_partial",
    "Casual.SForward.told_at_shutdown_refuted",
    "Casual.SForward.told_after_shutdown_refuted"
   ],
   "note": "Refuted: what waits to be sent when the forward shuts down is never sent, nor told as lost, and calls that are in its queue then are never read. Proved when nothing that is sent to is blocked, for the calls that arrive before the shutdown."
  },
  {
   "property": "C246",
   "status": "partial",
   "theorems": [
    "Casual.SForward.deadline_partial",
    "Casual.SForward.deadline_refuted",
    "Casual.SForward.timeout_refuted"
   ],
   "note": "Refuted: the lookup has no deadline, the deadline of the reply is not used, and a reply that says timeout leads to TPENOENT. Proved: a call keeps the deadline it came with."
  },
  {
   "property": "C247",
   "status": "partial",
   "theorems": [
    "Casual.SConf.names_partial",
    "Casual.SConf.chain_refuted"
   ],
   "note": "Refuted when the name of one service with routes is a route to another: the routes of the former then lead to the latter. Proved for all configurations where each service is configured once, and no name is used by two services (`Tidy`)."
  },
  {
   "property": "C248",
   "status": "partial",
   "theorems": [
    "Casual.SConf.limits_partial",
    "Casual.SConf.chain_refuted"
   ],
   "note": "As C247: proved for all configurations where no name is used by two services."
  },
  {
   "property": "C249",
   "status": "partial",
   "theorems": [
    "Casual.SConf.update_modified_partial",
    "Casual.SConf.update_timeout_refuted",
    "Casual.SConf.same_again_refuted",
    "Casual.SConf.unconfigured_refuted"
   ],
   "note": "Refuted: a service that is there already but was not configured does not get the timeout that is posted, and posting the same configuration again takes away the timeouts that are configured for all. Proved for what `configuration::model::change` calls modified."
  },
  {
   "property": "C25",
   "status": "proved",
   "theorems": [
    "Casual.Service.C25_one_caller_at_a_time"
   ],
   "note": "In terms of the trace: `inUse` is computed from messages sent and received."
  },
  {
   "property": "C250",
   "status": "partial",
   "theorems": [
    "Casual.SConf.update_modified_partial",
    "Casual.SConf.moved_route_refuted"
   ],
   "note": "Refuted: a route that is moved to a new service leads nowhere afterwards, and the new service is lost. Proved for the services that are modified."
  },
  {
   "property": "C251",
   "status": "partial",
   "theorems": [
    "Casual.SConf.answered_partial",
    "Casual.SConf.update_stuck_refuted"
   ],
   "note": "Refuted: if a service that is taken away was never created under its own name the update throws, and there is no reply. Proved after boot of any `Tidy` configuration, and whatever servers have come and gone."
  },
  {
   "property": "C252",
   "status": "partial",
   "theorems": [
    "Casual.SConf.routes_told",
    "Casual.SConf.told_refuted"
   ],
   "note": "Refuted: visibility is not told, services without routes or timeouts are not told, and timeouts that are configured for all are told for each. Proved for the routes, in all states."
  },
  {
   "property": "C253",
   "status": "proved",
   "theorems": [
    "Casual.TConf.answered_once"
   ],
   "note": ""
  },
  {
   "property": "C254",
   "status": "proved",
   "theorems": [
    "Casual.TConf.stopped_is_final"
   ],
   "note": ""
  },
  {
   "property": "C255",
   "status": "partial",
   "theorems": [
    "Casual.TConf.scaled_partial",
    "Casual.TConf.restart_refuted",
    "Casual.TConf.crash_refuted",
    "Casual.TConf.spawn_refuted"
   ],
   "note": "Refuted: an instance that dies is not replaced, a process that can not be started is not tried again, and when a resource is modified the first instance that is restarted is not replaced, as it is taken away before the task gets to know that it has ended. Proved for all histories where no spawn fails, no instance dies unasked and no resource that is there is modified."
  },
  {
   "property": "C256",
   "status": "partial",
   "theorems": [
    "Casual.TConf.told_partial",
    "Casual.TConf.restart_refuted"
   ],
   "note": "Refuted: when a resource is modified, instances run on with the old configuration although the update is answered. Proved, at all times, for the histories of C255."
  },
  {
   "property": "C257",
   "status": "partial",
   "theorems": [
    "Casual.TConf.alias_partial",
    "Casual.TConf.mapping_set",
    "Casual.TConf.alias_refuted"
   ],
   "note": "Refuted: if a resource is removed with the mappings as before, the manager ends when a server of the alias asks. Proved for all histories where no resource is taken away; and that mappings are set as posted. Missing: a posted mapping that is as the current one, while another is under way."
  },
  {
   "property": "C258",
   "status": "partial",
   "theorems": [
    "Casual.TConf.present_partial",
    "Casual.TConf.readd_refuted",
    "Casual.TConf.undefined_refuted"
   ],
   "note": "Proved: in all histories where no resource is taken away, no name is posted twice in the same configuration and the manager has not ended, all resources that were posted last, and that the system has, are there as posted, each once, at all times. Refuted otherwise: a resource that is removed and posted again before its instances have ended is not there, although both updates are answered; and if fewer instances are left than an update takes away an iterator is moved before the first."
  },
  {
   "property": "C259",
   "status": "proved",
   "theorems": [
    "Casual.GConf.answered_once"
   ],
   "note": ""
  },
  {
   "property": "C26",
   "status": "partial",
   "theorems": [
    "Casual.Service.C26_best",
    "Casual.Service.C26_affinity_refuted",
    "Casual.Service.C26_affinity_partial"
   ],
   "note": "Minimality proved for all histories. Affinity to the transaction refuted (a new instance inherits the place, and so the transactions, of one that has gone); proved when no concurrent instance goes."
  },
  {
   "property": "C260",
   "status": "proved",
   "theorems": [
    "Casual.GConf.told_current"
   ],
   "note": ""
  },
  {
   "property": "C261",
   "status": "partial",
   "theorems": [
    "Casual.GConf.updated_partial",
    "Casual.GConf.booted_partial",
    "Casual.GConf.ended",
    "Casual.GConf.early_refuted",
    "Casual.GConf.spawn_refuted",
    "Casual.GConf.again_refuted",
    "Casual.GConf.removed_refuted",
    "Casual.GConf.twice_refuted"
   ],
   "note": "Proved: if no alias is used twice on a side, the update comes when nothing is under way, nothing else is posted until it is done, groups end only when asked to, and spawns do not fail, then the groups that there are, when it is done, are a permutation of those posted; so also at boot. For all histories: when nothing is under way all groups that have been asked to stop have ended. Refuted otherwise: with updates that overlap a group that was taken away is started again, one that was posted is not there, or one is there twice; a group that dies before boot is done or can not be started is not tried again."
  },
  {
   "property": "C262",
   "status": "partial",
   "theorems": [
    "Casual.GConf.restarted",
    "Casual.GConf.all_restarted",
    "Casual.GConf.early_refuted"
   ],
   "note": "Refuted while the manager is configuring. Proved: when it is running, with nothing else to do and no spawn failing, whatever groups die after that, in whatever order and while others are started, there are as many of each configuration as before when nothing is under way again, until something is posted; and one death starts exactly that group again."
  },
  {
   "property": "C263",
   "status": "partial",
   "theorems": [
    "Casual.GConf.shutdown_partial",
    "Casual.GConf.shut_stays",
    "Casual.GConf.ended",
    "Casual.GConf.shutdown_refuted",
    "Casual.GConf.after_shutdown_refuted"
   ],
   "note": "Proved: if shutdown comes when nothing is under way, and no update comes after it, then, when it is done, there are no groups and the manager ends. Refuted otherwise: groups that wait to be started when shutdown comes are started after that and not asked to stop, so the manager does not end; so also with an update after shutdown."
  },
  {
   "property": "C264",
   "status": "partial",
   "theorems": [
    "Casual.GConf.program_partial",
    "Casual.GConf.program_refuted"
   ],
   "note": "Proved for all histories where the kind of connections never changes for an alias on a side. Refuted otherwise: a group whose kind of connections is changed is told so, but remains the program for the other kind."
  },
  {
   "property": "C27",
   "status": "partial",
   "theorems": [
    "Casual.Service.C27_expire_exactly",
    "Casual.Service.C27_timer_refuted",
    "Casual.Service.C27_timer_partial",
    "Casual.Service.C27_no_read_behind_end_refuted"
   ],
   "note": "Expiry exact, for all histories. The timer is not set for the deadline of a lookup that has to wait; and when the only deadline is removed, the element behind the last one is read. The timer is proved to be right when no lookup with deadline has to wait."
  },
  {
   "property": "C28",
   "status": "partial",
   "theorems": [
    "Casual.Service.C28_new_order_refuted",
    "Casual.Service.C28_readvertise_refuted",
    "Casual.Service.C28_new_order_partial"
   ],
   "note": "Refuted: a known instance that announces a new order keeps the old one. Proved for instances that change their order only by a reset (or withdrawal, death) and a new advertise."
  },
  {
   "property": "C29",
   "status": "proved",
   "theorems": [
    "Casual.Service.C29_exit",
    "Casual.Service.C29_withdraw",
    "Casual.Service.C29_reset",
    "Casual.Service.C29_sound"
   ],
   "note": ""
  },
  {
   "property": "C30",
   "status": "partial",
   "theorems": [
    "Casual.Ipc.C30_split",
    "Casual.Ipc.C30_roundtrip",
    "Casual.Ipc.C30_send",
    "Casual.Ipc.C30_partial_send_partial",
    "Casual.Ipc.C30_empty_refuted"
   ],
   "note": "Splitting and reassembly, blocking and non-blocking sends proved for every payload. Refuted for sends that may continue later (the coordinator): a message with an empty payload is 'done' without any datagram; proved for non-empty payloads (all of casual's own messages have one)."
  },
  {
   "property": "C31",
   "status": "proved",
   "theorems": [
    "Casual.Ipc.C31_order",
    "Casual.Ipc.C31_beyond",
    "Casual.Ipc.C31_interleaved",
    "Casual.Ipc.C31_nothing_else",
    "Casual.Ipc.C31_collision"
   ],
   "note": "Assumes senders do not use the same type and correlation at the same time; C31_collision shows it is needed."
  },
  {
   "property": "C32",
   "status": "proved",
   "theorems": [
    "Casual.Data.C32_eq",
    "Casual.Data.C32_strict",
    "Casual.Data.C32_order",
    "Casual.Data.C32_equivalence"
   ],
   "note": ""
  },
  {
   "property": "C33",
   "status": "proved",
   "theorems": [
    "Casual.Data.C33_branch",
    "Casual.Data.C33_null",
    "Casual.Data.C33_create"
   ],
   "note": ""
  },
  {
   "property": "C34",
   "status": "partial",
   "theorems": [
    "Casual.Data.C34_gtrid_refuted",
    "Casual.Data.C34_gtrid_partial",
    "Casual.Data.C34_read"
   ],
   "note": "Refuted: operator >> compares the number of hex digits with 64, so ids of 33..64 bytes end the process. Holds for 1..32 bytes."
  },
  {
   "property": "C35",
   "status": "partial",
   "theorems": [
    "Casual.Data.C35_roundtrip",
    "Casual.Data.C35_text",
    "Casual.Data.C35_decode",
    "Casual.Data.C35_upper_refuted",
    "Casual.Data.C35_reject_refuted"
   ],
   "note": "The round trip is proved. Refuted: upper case digits are decoded to wrong values, and other characters are not rejected."
  },
  {
   "property": "C36",
   "status": "proved",
   "theorems": [
    "Casual.Data.C36_native",
    "Casual.Data.C36_network",
    "Casual.Data.C36_wire",
    "Casual.Data.C36_injective"
   ],
   "note": "multi-maps and multi-sets not covered"
  },
  {
   "property": "C37",
   "status": "partial",
   "theorems": [
    "Casual.Code.rollback_reported_as_rollback_refuted",
    "Casual.Code.toTx_ok_iff"
   ],
   "note": "false of the code: the negation is proved with a witness"
  },
  {
   "property": "C38",
   "status": "partial",
   "theorems": [
    "Casual.Code.tx_add_comm_refuted",
    "Casual.Code.tx_add_partial",
    "Casual.Code.tx_no_begin_combines"
   ],
   "note": "false of the code for *_NO_BEGIN codes: the negation is proved"
  },
  {
   "property": "C39",
   "status": "partial",
   "theorems": [
    "Casual.TM.told_to_forget_refuted",
    "Casual.TM.told_to_forget_partial"
   ],
   "note": "false of the code: reference into the erased element is read"
  },
  {
   "property": "C40",
   "status": "partial",
   "theorems": [
    "Casual.TM.decision_carried_out_refuted",
    "Casual.TM.prepared_survives"
   ],
   "note": "false of the code: the log is never read at start; what holds is that the log row survives"
  },
  {
   "property": "C41",
   "status": "partial",
   "theorems": [
    "Casual.TM.late_reply_harmless_refuted",
    "Casual.TM.requests_never_halt_partial"
   ],
   "note": "false of the code for late replies of died resource instances"
  },
  {
   "property": "C42",
   "status": "partial",
   "theorems": [
    "Casual.TM.prepared_before_final_partial",
    "Casual.TM.idle_sends",
    "Casual.TM.prepared_before_final_refuted"
   ],
   "note": "Proved: at an idle moment all answers that wait are sent, and all that is sent later comes after them. Refuted otherwise: the prepared answer waits to be collected with others while the final one does not, so with quick resources the final answer comes first."
  },
  {
   "property": "C43",
   "status": "partial",
   "theorems": [
    "Casual.TM.read_only_vote_refuted",
    "Casual.TM.read_only_vote_partial"
   ],
   "note": "false of the code when a resource answers prepare with \"xid unknown\""
  },
  {
   "property": "C44",
   "status": "partial",
   "theorems": [
    "Casual.TM.upstream_commit_read_only_refuted",
    "Casual.TM.upstream_commit_ok_means_success"
   ],
   "note": "false of the code for the read-only answer; the ok answer is right"
  },
  {
   "property": "C45",
   "status": "partial",
   "theorems": [
    "Casual.Queue.C45_browse_terminates",
    "Casual.Queue.C45_browse_sound",
    "Casual.Queue.C45_browse_complete_partial",
    "Casual.Queue.C45_refuted"
   ],
   "note": "Complete only when no two deliverable messages have the same timestamp: the loop asks for timestamp > last. Counterexample proved."
  },
  {
   "property": "C46",
   "status": "partial",
   "theorems": [
    "Casual.Queue.C46_refuted",
    "Casual.Queue.C46_not_again_partial"
   ],
   "note": "The property does not hold of the code (the delete is not on disk when the reply is sent); the negation is proved, and what does hold."
  },
  {
   "property": "C47",
   "status": "proved",
   "theorems": [
    "Casual.Queue.C47_manager_told_first"
   ],
   "note": ""
  },
  {
   "property": "C48",
   "status": "proved",
   "theorems": [
    "Casual.Queue.C48_answered_at_most_once",
    "Casual.Queue.C48_answered_or_blocked",
    "Casual.Queue.C48_answer_fits"
   ],
   "note": ""
  },
  {
   "property": "C49",
   "status": "partial",
   "theorems": [
    "Casual.Queue.C49_no_sleeping_request",
    "Casual.Queue.C49_refuted",
    "Casual.Queue.C49_timer_partial"
   ],
   "note": "The first half is proved. The second half (timer) does not hold of the code if some blocked request is served at the same time; the negation is proved, and what does hold."
  },
  {
   "property": "C50",
   "status": "partial",
   "theorems": [
    "Casual.Queue.C50_named_queue",
    "Casual.Queue.C50_refuted",
    "Casual.Queue.C50_named_queue_partial"
   ],
   "note": "Does not hold of the code with a reconfiguration in between (ids are reused, a blocked request is kept by id); negation proved, and what does hold."
  },
  {
   "property": "C51",
   "status": "partial",
   "theorems": [
    "Casual.Queue.C51_refuted",
    "Casual.Queue.C51_announced_partial"
   ],
   "note": "Does not hold of the code for a queue that was to be removed while it held messages and is wanted again; negation proved, and that it holds if there is no such queue."
  },
  {
   "property": "C52",
   "status": "proved",
   "theorems": [
    "Casual.Queue.C52_dead_gets_nothing"
   ],
   "note": ""
  },
  {
   "property": "C53",
   "status": "proved",
   "theorems": [
    "Casual.Queue.C53_wanted_queues",
    "Casual.Queue.C53_messages_kept",
    "Casual.Queue.C53_unwanted_gone",
    "Casual.Queue.C53_rejected_keeps_queues"
   ],
   "note": "For configurations without duplicate names and clashes with error queue names."
  },
  {
   "property": "C54",
   "status": "partial",
   "theorems": [
    "Casual.Queue.C54_refuted",
    "Casual.Queue.C54_accepted_partial"
   ],
   "note": "Does not hold of the code if a queue to be removed holds only uncommitted messages (foreign key failure ends the group); negation proved, and that it holds otherwise."
  },
  {
   "property": "C55",
   "status": "partial",
   "theorems": [
    "Casual.Service.C55_offers_refuted",
    "Casual.Service.C55_offers_partial"
   ],
   "note": "Refuted with fatal timeout contract (an advertise of an instance whose call has timed out is dropped); proved without."
  },
  {
   "property": "C56",
   "status": "proved",
   "theorems": [
    "Casual.Service.C56_answered_once",
    "Casual.Service.C56_answers_who_asked"
   ],
   "note": ""
  },
  {
   "property": "C57",
   "status": "partial",
   "theorems": [
    "Casual.Service.C57_told_refuted",
    "Casual.Service.C57_told_partial"
   ],
   "note": "Refuted for a server that withdraws while it serves, and then dies; proved when servers go only by dying."
  },
  {
   "property": "C58",
   "status": "partial",
   "theorems": [
    "Casual.Service.C58_no_idle_wait_refuted",
    "Casual.Service.C58_no_idle_wait_partial"
   ],
   "note": "Refuted: a discard frees the server, but does not look for who waits. Proved without discards, undelivered lookup replies and shutdowns."
  },
  {
   "property": "C59",
   "status": "partial",
   "theorems": [
    "Casual.Service.C59_local_first_partial",
    "Casual.Service.C59_local_first_refuted"
   ],
   "note": "Refuted when a busy server that is about to be shut down advertises again; proved for histories without shutdown."
  },
  {
   "property": "C60",
   "status": "proved",
   "theorems": [
    "Casual.Ipc.C60_fifo"
   ],
   "note": ""
  },
  {
   "property": "C61",
   "status": "proved",
   "theorems": [
    "Casual.Ipc.C61_all"
   ],
   "note": ""
  },
  {
   "property": "C62",
   "status": "proved",
   "theorems": [
    "Casual.Ipc.C62_every_message"
   ],
   "note": "Assumes messages with a payload (see C30), and callbacks that do not use the coordinator."
  },
  {
   "property": "C63",
   "status": "proved",
   "theorems": [
    "Casual.Ipc.C63_registered",
    "Casual.Ipc.C63_pending"
   ],
   "note": ""
  },
  {
   "property": "C64",
   "status": "proved",
   "theorems": [
    "Casual.Ipc.C64_drained"
   ],
   "note": ""
  },
  {
   "property": "C65",
   "status": "proved",
   "theorems": [
    "Casual.Ipc.C65_end_to_end"
   ],
   "note": "Assumes messages with a payload, told apart by type and correlation."
  },
  {
   "property": "C66",
   "status": "partial",
   "theorems": [
    "Casual.Ipc.C66_discard_refuted",
    "Casual.Ipc.C66_discard_partial"
   ],
   "note": "Refuted if more than one message has the correlation (only one is discarded); proved for at most one."
  },
  {
   "property": "C67",
   "status": "proved",
   "theorems": [
    "Casual.Service.C67_time_left"
   ],
   "note": "For instances that are handed out (a no-reply call that is forwarded is not told any time). Hypothesis: lookups have distinct correlations (uuids)."
  },
  {
   "property": "C68",
   "status": "partial",
   "theorems": [
    "Casual.Service.C68_ended_refuted",
    "Casual.Service.C68_ended_partial",
    "Casual.Service.C68_only_late"
   ],
   "note": "First half refuted: the call to a server that has withdrawn is never ended. Proved when servers go by dying only. The second half (nobody else is told, or killed) is proved without that. Hypotheses: distinct correlations, and for the first half that only who serves a call acknowledges it."
  },
  {
   "property": "C69",
   "status": "partial",
   "theorems": [
    "Casual.Service.C69_bound_refuted",
    "Casual.Service.C69_bound_partial"
   ],
   "note": "Refuted: a service that was first made known by another domain without timeout never gets the configured one, not even when local servers offer it. Proved when services of other domains have timeouts not more than the configured one. Services with a timeout of their own in the configuration are not modelled."
  },
  {
   "property": "C70",
   "status": "partial",
   "theorems": [
    "Casual.Data.C70_hash_refuted",
    "Casual.Data.C70_hash_partial"
   ],
   "note": "Refuted for null ids, which keep lengths and data (as when null is read into an id, see the example in XidArchiveProps). Holds for ids that are not null."
  },
  {
   "property": "C71",
   "status": "partial",
   "theorems": [
    "Casual.Data.C71_target_refuted",
    "Casual.Data.C71_map_refuted",
    "Casual.Data.C71_target_partial"
   ],
   "note": "Refuted: an optional keeps its value when none is read, maps and sets keep their entries. Holds for types without those."
  },
  {
   "property": "C72",
   "status": "proved",
   "theorems": [
    "Casual.Data.C72_xid",
    "Casual.Data.C72_gtrid"
   ],
   "note": ""
  },
  {
   "property": "C73",
   "status": "proved",
   "theorems": [
    "Casual.Data.C73_cut",
    "Casual.Data.C73_more"
   ],
   "note": ""
  },
  {
   "property": "C74",
   "status": "partial",
   "theorems": [
    "Casual.Data.C74_xid_refuted",
    "Casual.Data.C74_lengths_refuted",
    "Casual.Data.C74_gtrid_refuted",
    "Casual.Data.C74_xid_partial",
    "Casual.Data.C74_gtrid_partial"
   ],
   "note": "Refuted: the lengths are not checked. Holds if the lengths in the bytes are at most 64."
  },
  {
   "property": "C75",
   "status": "proved",
   "theorems": [
    "Casual.Tx.C75_one_decision",
    "Casual.Tx.C75_one_way",
    "Casual.Tx.C75_at_most_once",
    "Casual.Tx.C75_joined"
   ],
   "note": ""
  },
  {
   "property": "C76",
   "status": "partial",
   "theorems": [
    "Casual.Tx.C76_refuted",
    "Casual.Tx.C76_state_partial",
    "Casual.Tx.C76_tx_commit_partial"
   ],
   "note": "Refuted: a service with an automatic transaction that returns success without fetching a reply has it committed. Holds for tx_commit, and for replies that have been received."
  },
  {
   "property": "C77",
   "status": "proved",
   "theorems": [
    "Casual.Tx.C77_commit_covers",
    "Casual.Tx.C77_rollback_covers"
   ],
   "note": ""
  },
  {
   "property": "C78",
   "status": "proved",
   "theorems": [
    "Casual.Tx.C78_ended_first"
   ],
   "note": ""
  },
  {
   "property": "C79",
   "status": "partial",
   "theorems": [
    "Casual.Tx.C79_refuted",
    "Casual.Tx.C79_association_partial"
   ],
   "note": "Refuted: a failing nested tx_begin, or changing the control mode within nested transactions, leaves the current transaction suspended in the resources. Holds when xa_start/xa_end succeed and the control mode is not changed while transactions are nested."
  },
  {
   "property": "C80",
   "status": "partial",
   "theorems": [
    "Casual.Tx.C80_refuted",
    "Casual.Tx.C80_not_active_partial"
   ],
   "note": "Refuted: a cast swaps rollback and timeout. Holds: a state that is not ok makes the transaction not active."
  },
  {
   "property": "C81",
   "status": "partial",
   "theorems": [
    "Casual.Tx.C81_refuted",
    "Casual.Tx.C81_next_begin_partial"
   ],
   "note": "Refuted: the timeout is used once. Holds for the next tx_begin."
  },
  {
   "property": "C82",
   "status": "proved",
   "theorems": [
    "Casual.Tx.C82_resume",
    "Casual.Tx.C82_round_trip",
    "Casual.Tx.C82_refused",
    "Casual.Tx.C82_kept"
   ],
   "note": "C82_resume and C82_round_trip: with resource managers that accept xa_start and xa_end (a failure is an error to the caller), see C79."
  },
  {
   "property": "C83",
   "status": "partial",
   "theorems": [
    "Casual.Tx.C83_nothing_left",
    "Casual.Tx.C83_failed_commits_nothing",
    "Casual.Tx.C83_refuted",
    "Casual.Tx.C83_reply_ok_partial"
   ],
   "note": "Refuted: an own transaction that is rollback-only is rolled back, and the reply says ok. The rest holds."
  },
  {
   "property": "C84",
   "status": "proved",
   "theorems": [
    "Casual.Call.C84_descriptor",
    "Casual.Call.C84_reply",
    "Casual.Call.C84_one_call",
    "Casual.Call.C84_fetch",
    "Casual.Call.C84_cancel"
   ],
   "note": ""
  },
  {
   "property": "C85",
   "status": "partial",
   "theorems": [
    "Casual.Tx.C85_refuted",
    "Casual.Tx.C85_not_forgotten_partial",
    "Casual.Tx.C85_service_end_partial"
   ],
   "note": "Refuted when xa_end fails in tx_commit or tx_rollback. Holds when xa_start and xa_end succeed."
  },
  {
   "property": "C86",
   "status": "partial",
   "theorems": [
    "Casual.Tx.C86_ok_means_committed",
    "Casual.Tx.C86_refuted",
    "Casual.Tx.C86_unchained_partial"
   ],
   "note": "The first half holds. The second is refuted for chained control: TX_ERROR when the next transaction can not begin. Holds for unchained."
  },
  {
   "property": "C87",
   "status": "partial",
   "theorems": [
    "Casual.Call.C87_refuted",
    "Casual.Call.C87_chain_partial",
    "Casual.Call.C87_transaction_partial"
   ],
   "note": "Refuted within a joined transaction, that has no deadline. Holds outside of transactions, with TPNOTRAN, and for transactions with a deadline."
  },
  {
   "property": "C88",
   "status": "partial",
   "theorems": [
    "Casual.Tx.C88_refuted",
    "Casual.Tx.C88_committable_partial"
   ],
   "note": "Refuted: a call that fails to be sent leaves a pending correlation in the transaction. Holds for histories without that."
  },
  {
   "property": "C89",
   "status": "partial",
   "theorems": [
    "Casual.Call.C89_refuted",
    "Casual.Call.C89_own_partial",
    "Casual.Call.C89_descriptor_partial"
   ],
   "note": "Refuted with TPGETANY: descriptors survive the invocation. Holds when invocations end without calls in flight, and for descriptors of the invocation itself."
  },
  {
   "property": "C90",
   "status": "proved",
   "theorems": [
    "Casual.Gateway.Out.c90_at_most_one_answer",
    "Casual.Gateway.Out.c90_answer_is_due",
    "Casual.Gateway.Out.c90_sent_is_due"
   ],
   "note": "The answer is matched by correlation only; that the other domain does not invent correlations is not checked by the code."
  },
  {
   "property": "C91",
   "status": "partial",
   "theorems": [
    "Casual.Gateway.Out.c91_none_forgotten_refuted",
    "Casual.Gateway.Out.c91_queue_refuted",
    "Casual.Gateway.Out.c91_hangup_refuted",
    "Casual.Gateway.Out.c91_none_forgotten_partial"
   ],
   "note": "Refuted when the send itself fails: the unit is added after the connection was lost. Also refuted by a failing hang up of a conversation (an invalid iterator is erased). Holds for all histories where these sends do not fail."
  },
  {
   "property": "C92",
   "status": "partial",
   "theorems": [
    "Casual.Gateway.Out.c92_told_refuted",
    "Casual.Gateway.Out.c92_told_before_sent_refuted",
    "Casual.Gateway.Out.c92_told_partial",
    "Casual.Gateway.Out.c92_told_before_answer_partial"
   ],
   "note": "Refuted for the moment of sending, and after a failed send (stale association for a reused descriptor). Holds after each event, and before the answer, for histories without failing sends of calls, queue requests and hang ups."
  },
  {
   "property": "C93",
   "status": "partial",
   "theorems": [
    "Casual.Gateway.Out.c93_graceful_refuted",
    "Casual.Gateway.Out.c93_graceful_partial",
    "Casual.Gateway.Out.c93_graceful_transactions_partial",
    "Casual.Gateway.Out.c93_closes_partial"
   ],
   "note": "Refuted after a failing hang up. Holds without that (and with distinct correlations of prepare/commit/rollback/discovery)."
  },
  {
   "property": "C94",
   "status": "partial",
   "theorems": [
    "Casual.Gateway.Out.c94_alive_refuted",
    "Casual.Gateway.Out.c94_ends_refuted",
    "Casual.Gateway.Out.c94_refused_conversation_refuted",
    "Casual.Gateway.Out.c94_ends_when_done_partial",
    "Casual.Gateway.Out.c94_all_answered_partial",
    "Casual.Gateway.Out.c94_ends_partial",
    "Casual.Gateway.Out.c94_alive_partial"
   ],
   "note": "Refuted: a second disconnect of the same connection terminates the process; units that leak keep it from ending. The rest holds."
  },
  {
   "property": "C95",
   "status": "partial",
   "theorems": [
    "Casual.Gateway.Out.c95_to_the_requester",
    "Casual.Gateway.Out.c95_connected_to_the_requester",
    "Casual.Gateway.Out.c95_lost_refuted"
   ],
   "note": "The first half holds; the second is refuted, there is no handler for the failure."
  },
  {
   "property": "C96",
   "status": "partial",
   "theorems": [
    "Casual.Gateway.Out.c96_refused_partial",
    "Casual.Gateway.Out.c96_sent_partial"
   ],
   "note": "For histories without failing hang ups; that others are sent: also without failing sends, and distinct correlations before."
  },
  {
   "property": "C97",
   "status": "partial",
   "theorems": [
    "Casual.Gateway.Out.c97_answer_is_due",
    "Casual.Gateway.Out.c97_lost_refuted"
   ],
   "note": "The first half holds; the second is refuted when the connection is lost: there is no answer."
  },
  {
   "property": "C98",
   "status": "partial",
   "theorems": [
    "Casual.Gateway.Out.c98_advertised",
    "Casual.Gateway.Out.c98_advertised_queues",
    "Casual.Gateway.Out.c98_gone",
    "Casual.Gateway.Out.c98_leaving_refuted",
    "Casual.Gateway.Out.c98_refused",
    "Casual.Gateway.Out.c98_not_explored",
    "Casual.Gateway.Out.c98_asked",
    "Casual.Gateway.Out.c98_announced",
    "Casual.Gateway.Out.c98_answered",
    "Casual.Gateway.Out.c98_withdrawn",
    "Casual.Gateway.Out.c98_shutdown",
    "Casual.Gateway.Out.c98_no_entry_partial"
   ],
   "note": "Refuted for a connection that is being closed: the answer to a discovery sent before advertises it again. All else holds; the withdrawal of a service at TPENOENT for histories without failing sends."
  },
  {
   "property": "C99",
   "status": "proved",
   "theorems": [
    "Casual.Gateway.Out.c99_reported",
    "Casual.Gateway.Out.c99_idle"
   ],
   "note": ""
  }
 ]
}