{
 "claims": [
  {
   "property": "C01",
   "status": "partial",
   "theorems": [
    "Braft.Props.election_safety_static_partial",
    "Braft.Props.election_safety_partial",
    "Braft.Props.elections_unique",
    "Braft.Props.two_leaders_if_meta_write_fails",
    "Braft.Props.two_leaders_if_electing_while_installing",
    "Braft.Props.Cluster.one_leader_per_term_partial",
    "Braft.Props.Cluster.leaders_agree_partial",
    "Braft.Props.Cluster.leader_without_vote"
   ],
   "note": "election_safety_static_partial: groups without membership change, any timing, with snapshots, provided elect_self persists its term; without that the code violates it (witness). With membership changes under Normal; violated when a node stands for election while it installs a snapshot (witness). The Cluster theorems say the same of the cluster of servers (handlers with real vote contexts, ballots and ballot boxes), under COk (met by braft's default flags), by simulation."
  },
  {
   "property": "C02",
   "status": "partial",
   "theorems": [
    "Braft.Props.log_matching_partial",
    "Braft.Props.log_matching_fails_if_meta_write_fails",
    "Braft.Props.Cluster.log_matching_partial",
    "Braft.Props.Cluster.stalled_replicator_breaks_safety"
   ],
   "note": "Proved under Normal, with snapshots. Without metaOk the code violates it (witness). Cluster: the same for the cluster of servers; violated when a replicator stalls between filling in the previous log id and reading the entries (witness)."
  },
  {
   "property": "C03",
   "status": "partial",
   "theorems": [
    "Braft.Props.leader_completeness_partial",
    "Braft.Props.leader_has_applied_partial",
    "Braft.Props.vote_race_breaks_safety",
    "Braft.Props.committed_entry_lost_by_early_ack",
    "Braft.Props.applied_not_in_leader_if_term_not_durable",
    "Braft.Props.Cluster.leader_completeness_partial"
   ],
   "note": "Proved under Normal, with snapshots, for what was counted as committed and for what was applied or loaded. Without strict, without flushOk, and (for what was loaded from a snapshot) without durOk, the code violates it (witnesses). Cluster: the same for the cluster of servers."
  },
  {
   "property": "C04",
   "status": "partial",
   "theorems": [
    "Braft.Props.state_machine_safety_partial",
    "Braft.Props.applied_logs_agree_partial",
    "Braft.Props.state_machines_agree_partial",
    "Braft.Props.state_machine_content_partial",
    "Braft.Props.vote_race_breaks_safety",
    "Braft.Props.Cluster.applied_agree_partial",
    "Braft.Props.Cluster.state_machines_agree_partial",
    "Braft.Props.Cluster.stalled_replicator_breaks_safety"
   ],
   "note": "Proved under Normal, with snapshots. Without strict the code violates it (witness). Cluster: the same for the cluster of servers; violated by a stalled replicator (witness)."
  },
  {
   "property": "C05",
   "status": "proved",
   "theorems": [
    "Braft.Props.one_vote_per_term",
    "Braft.Props.own_vote_exclusive",
    "Braft.Props.Cluster.one_vote_per_term_partial"
   ],
   "note": "Any Params: includes crashes, failed meta writes and concurrent AppendEntries. One vote handler at a time is between its critical sections per node. one_vote_per_term_partial: the same for the cluster of servers, under COk."
  },
  {
   "property": "C06",
   "status": "proved",
   "theorems": [
    "Braft.Props.term_monotonic"
   ],
   "note": "Every action of the cluster model; restart falls back to the persisted term or one above the last log term."
  },
  {
   "property": "C07",
   "status": "partial",
   "theorems": [
    "Braft.Props.vote_up_to_date_partial",
    "Braft.Props.vote_race_breaks_safety"
   ],
   "note": "Up to date with respect to the log at the moment the handler released the mutex; equal to the log at grant time under strict; otherwise violated by the witness."
  },
  {
   "property": "C08",
   "status": "proved",
   "theorems": [
    "Braft.Props.C08_no_side_effects",
    "Braft.Props.C08_term_checked",
    "Braft.Props.C08_granted_iff",
    "Braft.Props.C08_election_needs_quorum",
    "Braft.Props.C08_elected_is_member",
    "Braft.Props.C08_round_start",
    "Braft.Props.C08_shutdown_race",
    "Braft.Props.C08_log_may_have_grown"
   ],
   "note": "Voter and candidate side, every interleaving of rounds, answers, timers, step downs and configuration changes. Findings: a node shut down while pre_vote reads the log id still goes on; the log id is read without the lock."
  },
  {
   "property": "C09",
   "status": "proved",
   "theorems": [
    "Braft.Props.C09_granted_iff_quorum",
    "Braft.Props.C09_hints_irrelevant",
    "Braft.Props.C09_empty_never_granted"
   ],
   "note": "For every configuration, old configuration and grant sequence with arbitrary hints."
  },
  {
   "property": "C10",
   "status": "proved",
   "theorems": [
    "Braft.Props.C10_same_conf",
    "Braft.Props.C10_one_peer_apart",
    "Braft.Props.C10_joint"
   ],
   "note": "Quorum intersection for equal, one-apart and joint configurations."
  },
  {
   "property": "C11",
   "status": "proved",
   "theorems": [
    "Braft.Props.C11_commit_sound",
    "Braft.Props.C11_committed_iff",
    "Braft.Props.C11_notifications_increase",
    "Braft.Props.C11_committed_monotone"
   ],
   "note": "Over every history of BallotBox operations."
  },
  {
   "property": "C12",
   "status": "proved",
   "theorems": [
    "Braft.Props.C12_pop_in_range",
    "Braft.Props.C12_conservation",
    "Braft.Props.C12_order",
    "Braft.Props.C12_not_both",
    "Braft.Props.task_closures_once",
    "Braft.Props.task_closure_never_twice",
    "Braft.Props.task_closure_rollback",
    "Braft.Props.task_closure_matches",
    "Braft.Props.task_closures_all_answered",
    "Braft.Props.rollback_reruns_configuration_closure",
    "Braft.Props.closures_lost_if_loading_while_leading"
   ],
   "note": "ClosureQueue over every history, and the whole path from apply() to the closure over every interleaving (Pipe). Witnesses: a rollback over a configuration entry runs its closure a second time (use after free); a snapshot loaded while closures wait (possible only if a node is elected while installing) loses them."
  },
  {
   "property": "C13",
   "status": "proved",
   "theorems": [
    "Braft.Props.on_apply_exact",
    "Braft.Props.committed_gets_applied",
    "Braft.Props.do_committed_exact"
   ],
   "note": "FSMCaller::run/do_committed/IteratorImpl with arbitrary user code in on_apply, arbitrary read failures and batches. Assumes pops in range (C12) and that the log manager shows the committed log (C16, C17)."
  },
  {
   "property": "C14",
   "status": "partial",
   "theorems": [
    "Braft.Props.nothing_after_error",
    "Braft.Props.error_fails_the_rest_partial",
    "Braft.Props.applied_index_after_error"
   ],
   "note": "Everything but the last clause; the last clause is false: FSMCaller stores the committed index as last applied index after a rollback (witness)."
  },
  {
   "property": "C15",
   "status": "proved",
   "theorems": [
    "Braft.Props.C15_get",
    "Braft.Props.C15_in_force_unique",
    "Braft.Props.C15_last_configuration"
   ],
   "note": "ConfigurationManager over every operation sequence."
  },
  {
   "property": "C16",
   "status": "partial",
   "theorems": [
    "Braft.Props.append_gives_leaders_log_partial",
    "Braft.Props.append_below_compaction",
    "Braft.Props.applied_never_truncated"
   ],
   "note": "Proved for every history of the log manager if the request's previous entry is known (or the log starts at 1); append_below_compaction is a concrete history in which a delayed request from index 1 meets a compacted log and corrupts the entries in memory."
  },
  {
   "property": "C17",
   "status": "partial",
   "theorems": [
    "Braft.Props.term_lookup_partial",
    "Braft.Props.clear_keeps_log_partial",
    "Braft.Props.disk_keeps_log",
    "Braft.Props.stale_entry_after_clear"
   ],
   "note": "Proved for all interleavings with the disk thread if entries leave the memory only when ids always increased or when they are not waiting for the disk. stale_entry_after_clear: a stale _disk_id removes an unwritten entry from memory and get_entry returns the replaced one."
  },
  {
   "property": "C18",
   "status": "proved",
   "theorems": [
    "Braft.Props.snapshot_compaction",
    "Braft.Props.old_snapshot_ignored"
   ],
   "note": ""
  },
  {
   "property": "C19",
   "status": "proved",
   "theorems": [
    "Braft.Props.C19_roundtrip",
    "Braft.Props.C19_only_verified",
    "Braft.Props.C19_oversize_lost"
   ],
   "note": "Round trip of the 24-byte header + body for every entry whose body fits the 32-bit length field; every entry ever returned passed both checksums. The oversize witness shows the length-field limit is real."
  },
  {
   "property": "C20",
   "status": "proved",
   "theorems": [
    "Braft.Props.C20_recovery",
    "Braft.Props.C20_corrupt_configuration_truncates"
   ],
   "note": "Process-crash model: any prefix of the appended bytes survives. Recovery yields the old log plus a prefix of the new entries."
  },
  {
   "property": "C21",
   "status": "proved",
   "theorems": [
    "Braft.Props.C21_array",
    "Braft.Props.C21_append_result",
    "Braft.Props.C21_reopen",
    "Braft.Props.C21_suffix_beyond_end",
    "Braft.Props.C21_suffix_empty_reports_failure"
   ],
   "note": "For every history of appends, truncations, resets and reopens; unbounded."
  },
  {
   "property": "C22",
   "status": "partial",
   "theorems": [
    "Braft.Props.C22_crash_partial",
    "Braft.Props.C22_reset_counterexample"
   ],
   "note": "Proved for truncate_prefix, truncate_suffix, and reset to an index outside the log. Missing: reset to an index inside the existing log, for which the property is false (three concrete crash outcomes in C22_reset_counterexample)."
  },
  {
   "property": "C23",
   "status": "partial",
   "theorems": [
    "Braft.Props.C23_array",
    "Braft.Props.C23_results",
    "Braft.Props.C23_gap_reported_as_success",
    "Braft.Props.C23_prefix_below_first_breaks"
   ],
   "note": "Proved for every history that respects the callers' contract (appends continue the log, truncate_prefix not below first, truncate_suffix within the log). For sequences outside the contract the property as stated is false: two witnesses."
  },
  {
   "property": "C24",
   "status": "proved",
   "theorems": [
    "Braft.Props.C24_atomic",
    "Braft.Props.C24_durable",
    "Braft.Props.C24_failed_set_memory_differs",
    "Braft.Props.C24_short_file_and_stale_errno"
   ],
   "note": "Process-crash model, all crash points including partial writes. Power failure (unsynced data) is not modelled."
  },
  {
   "property": "C25",
   "status": "proved",
   "theorems": [
    "Braft.Props.C25_get",
    "Braft.Props.C25_never_lost",
    "Braft.Props.C25_no_false_conflict"
   ],
   "note": "All contents of both stores, all failures of the inner calls, all crash points between the two writes."
  },
  {
   "property": "C26",
   "status": "partial",
   "theorems": [
    "Braft.Props.LeaseReads.C26_lease_excludes_newer_leader_partial",
    "Braft.Props.C26_lease_net_partial",
    "Braft.Props.C26_lease_lost_at_first_start",
    "Braft.Props.C26_lease_of_removed_leader",
    "Braft.Props.C26_lease_of_new_peer",
    "Braft.Props.reset_timeout_eats_clock_drift",
    "Braft.Props.C26_expired_iff_votable"
   ],
   "note": "Proved on the joint timed and Raft model: any number of nodes (also witnesses), all timings within the drift, losses, crashes, transfers, disrupted-leader votes, snapshots, membership changes (one peer or joint) and calls of vote / reset_election_timeout_ms that leave room for the real clock skew. Premises, each shown necessary by a run of the model: a node handles no AppendEntries of its own term before that term is stored (C26_lease_lost_at_first_start); the leader is a member of its configuration (C26_lease_of_removed_leader: a leader that removes itself has a lease whenever asked); a peer is added after it has answered an AppendEntries, not only an InstallSnapshot (C26_lease_of_new_peer). Also the environment assumptions of the Raft model (C01). Finding reset_timeout_eats_clock_drift: reset_election_timeout_ms accepts a timeout as large as election_timeout_ms + max_clock_drift_ms, which leaves no room for clock drift. C26_expired_iff_votable: a follower takes its leader for gone exactly when its lease lets it vote."
  },
  {
   "property": "C27",
   "status": "partial",
   "theorems": [
    "Braft.Props.C27_one_configuration_partial",
    "Braft.Props.C27_quorum_timestamp_partial",
    "Braft.Props.C27_latest",
    "Braft.Props.C27_leader_outside_conf"
   ],
   "note": "Proved for a leader that is a member of the configuration(s); false otherwise, shown by C27_leader_outside_conf."
  },
  {
   "property": "C28",
   "status": "partial",
   "theorems": [
    "Braft.Props.C28_exact_after_report_partial",
    "Braft.Props.C28_exact_always_partial",
    "Braft.Props.C28_own_mode",
    "Braft.Props.C28_joint_overwritten",
    "Braft.Props.C28_stale_after_leave"
   ],
   "note": "The full claim is false of the code: in joint mode the check of the old configuration overwrites that of the new one, and leave_readonly_mode does not recompute; both are proved as witnesses. Proved for a stable configuration."
  },
  {
   "property": "C29",
   "status": "proved",
   "theorems": [
    "Braft.AeCache.Props.cache_each_once",
    "Braft.AeCache.Props.cache_parks_only",
    "Braft.AeCache.Props.cache_bounded_ordered",
    "Braft.AeCache.Props.cache_parks_quietly",
    "Braft.AeCache.Props.cache_hands_over_in_order",
    "Braft.AeCache.Props.cache_timer_armed",
    "Braft.AeCache.Props.cache_timer_hands_over",
    "Braft.AeCache.Props.cache_no_abort",
    "Braft.AeCache.Props.cache_timer_failure_aborts",
    "Braft.AeCache.Props.cache_version_not_distinct"
   ],
   "note": "Every history of requests, timers and step downs. Handing over means start_to_handle: the request goes through handle_append_entries_request again. Findings: a failed bthread_timer_add leaves an empty cache and the next fitting request hits a CHECK; all cache objects have version 0, so a late timer of an earlier one acts on the next."
  },
  {
   "property": "C30",
   "status": "proved",
   "theorems": [
    "Braft.Props.confchange_each_once",
    "Braft.Props.confchange_all_answered",
    "Braft.Props.confchange_ok_committed",
    "Braft.Props.confchange_refused",
    "Braft.Props.confchange_chain",
    "Braft.Props.confchange_idle_leader",
    "Braft.Props.confchange_catching",
    "Braft.Props.confchange_needs_catchup",
    "Braft.Props.confchange_no_check_fails",
    "Braft.Props.confchange_catchup_fails",
    "Braft.Props.confchange_step_down",
    "Braft.Props.confchange_to_empty_witness"
   ],
   "note": "ConfigurationCtx with everything that drives it, over all orders of requests, catch-up results, commits, elections, step-downs, transfers, resets and shutdown. Finding: a change to the empty configuration is accepted and can then never commit."
  },
  {
   "property": "C31",
   "status": "partial",
   "theorems": [
    "Braft.Props.election_safety_partial",
    "Braft.Props.log_matching_partial",
    "Braft.Props.leader_completeness_partial",
    "Braft.Props.state_machine_safety_partial",
    "Braft.Props.applied_logs_agree_partial",
    "Braft.Props.two_leaders_if_electing_while_installing"
   ],
   "note": "The cluster model includes add/remove one peer, joint changes and snapshots; proved under Normal. Violated when a node stands for election while it installs a snapshot with a newer configuration (witness)."
  },
  {
   "property": "C32",
   "status": "proved",
   "theorems": [
    "Braft.Props.snapshot_last_complete",
    "Braft.Props.snapshot_recovered",
    "Braft.Props.snapshot_index_monotone",
    "Braft.Props.snapshot_publish",
    "Braft.Props.snapshot_older_witness",
    "Braft.Props.executor_publishes_newer",
    "Braft.Props.snapshot_resumed_listed"
   ],
   "note": "Process crashes at any system call; recursive removal non-atomic, rename and meta-file replacement atomic; power failures (fsync) not modelled. Assumes snapshots closed without error are not older than the last one; executor_publishes_newer shows the executor guarantees this as long as loads of installed snapshots do not fail, snapshot_older_witness shows it is needed."
  },
  {
   "property": "C33",
   "status": "proved",
   "theorems": [
    "Braft.Props.snapshot_reader_safe",
    "Braft.Props.snapshot_reader_stable",
    "Braft.Props.snapshot_superseded_deleted",
    "Braft.Props.snapshot_last_close_deletes"
   ],
   "note": "All interleavings of one writer with readers and deletions."
  },
  {
   "property": "C34",
   "status": "partial",
   "theorems": [
    "Braft.Props.executor_compacts_published_partial",
    "Braft.Props.executor_failed_save_partial",
    "Braft.Props.executor_compacts_iff_ok",
    "Braft.Props.executor_closure_status",
    "Braft.Props.executor_loads_right_partial",
    "Braft.Props.close_outcome",
    "Braft.Props.executor_sync_failure_witness",
    "Braft.Props.executor_user_error_witness",
    "Braft.Props.executor_wrong_load_witness",
    "Braft.Props.executor_load_done"
   ],
   "note": "Holds when the failures of close(writer) are reported. It is violated when the meta file cannot be written (sync returns -1, close returns 0) or the state machine sets an error on the writer and succeeds: witnesses."
  },
  {
   "property": "C35",
   "status": "proved",
   "theorems": [
    "Braft.Props.executor_exclusive",
    "Braft.Props.executor_busy_save",
    "Braft.Props.executor_busy_install",
    "Braft.Props.executor_stale_install",
    "Braft.Props.executor_term_install",
    "Braft.Props.executor_install_install",
    "Braft.Props.executor_last_monotone",
    "Braft.Props.executor_save_answers",
    "Braft.Props.executor_install_answers",
    "Braft.Props.executor_install_waiting",
    "Braft.Props.executor_checks",
    "Braft.Props.executor_publishes_newer",
    "Braft.Props.executor_older_witness",
    "Braft.Props.executor_stuck_witness",
    "Braft.Props.executor_load_done",
    "Braft.Props.executor_load_end"
   ],
   "note": "The recorded last index is the executor's; the storage itself can go back after a failed load (executor_older_witness)."
  },
  {
   "property": "C36",
   "status": "partial",
   "theorems": [
    "Braft.Props.copy_exact_partial",
    "Braft.Props.copy_holes_partial",
    "Braft.Props.copy_prefix",
    "Braft.Props.segments_roundtrip",
    "Braft.Props.copy_finished",
    "Braft.Props.copy_cancelled",
    "Braft.Props.copy_holes_lost",
    "Braft.Props.copy_flag_hole",
    "Braft.Props.reader_stuck",
    "Braft.Props.reader_stuck_reached",
    "Braft.Props.reader_order",
    "Braft.Props.copy_ok_is_closed"
   ],
   "note": "Exact for every run of a session with raft_file_check_hole off on the server and raft_allow_read_partly_when_install_snapshot not changed during the copy (the defaults). With hole checking: exact up to zeros at the end, and a witness that those are lost; with the flag switched: witness of a hole. Also a witness that a failed size() blocks the reader for good."
  },
  {
   "property": "C37",
   "status": "partial",
   "theorems": [
    "Braft.Props.C37_not_more_than_asked",
    "Braft.Props.C37_cycle_bound",
    "Braft.Props.C37_window_bound_partial",
    "Braft.Props.C37_window_exceeds_limit",
    "Braft.Props.C37_return_credits_wrong_cycle",
    "Braft.Props.C37_task_bound",
    "Braft.Props.C37_task_accepted"
   ],
   "note": "Per internal cycle (net of returns) and task bound proved for all histories; in wall-clock windows the code allows twice the limit (bound proved, violation of the single limit shown by witness)."
  },
  {
   "property": "C38",
   "status": "proved",
   "theorems": [
    "Braft.Props.C38_peer_round_trip",
    "Braft.Props.C38_configuration_round_trip",
    "Braft.Props.C38_text_injective",
    "Braft.Props.C38_role_out_of_range",
    "Braft.Props.C38_long_host_overflows",
    "Braft.Props.C38_accepted_text",
    "Braft.Props.C38_conf_fields"
   ],
   "note": "Round trips for all IPv4 peers; also the undefined behaviour of parse on host parts of 64+ characters."
  },
  {
   "property": "C39",
   "status": "proved",
   "theorems": [
    "Braft.Props.C39_contains",
    "Braft.Props.C39_contains_all",
    "Braft.Props.C39_of_vector",
    "Braft.Props.C39_add",
    "Braft.Props.C39_add_existing",
    "Braft.Props.C39_remove",
    "Braft.Props.C39_equals",
    "Braft.Props.C39_equals_vector",
    "Braft.Props.C39_diffs",
    "Braft.Props.C39_new_from_old"
   ],
   "note": "For all configurations the API can build."
  },
  {
   "property": "C40",
   "status": "proved",
   "theorems": [
    "Braft.Props.C40_refused",
    "Braft.Props.C40_accepted",
    "Braft.Props.C40_closure_index",
    "Braft.Props.C40_each_closure_once",
    "Braft.Props.C40_batches",
    "Braft.Props.C40_stopped",
    "Braft.Props.C40_stopped_without_closure"
   ],
   "note": "Batch processing, interleaving with any other change between batches. A task without closure on a stopped node dereferences null (C40_stopped_without_closure)."
  },
  {
   "property": "C41",
   "status": "partial",
   "theorems": [
    "Braft.Props.C41_counted",
    "Braft.Props.C41_counted_any",
    "Braft.Props.C41_stale",
    "Braft.Props.C41_next_index",
    "Braft.Props.C41_in_flight",
    "Braft.Props.C41_advance",
    "Braft.Props.C41_no_check_partial"
   ],
   "note": "Replicator model, all runs. Counting only after success (also when readonly mode is switched off) and stale answers are proved in general; next_index in 1..last+1, the requests in flight being a chain, progress only with commit_at or an installed snapshot, and no failing CHECK are proved for peers that do not leave readonly mode. Witness readonly_breaks_check: leaving readonly mode while blocked makes a CHECK fail."
  },
  {
   "property": "C42",
   "status": "partial",
   "theorems": [
    "Braft.Props.follower_commit_bounded_partial",
    "Braft.Props.applied_bounded_partial",
    "Braft.Props.Cluster.commit_bounded_partial"
   ],
   "note": "Proved under Normal, with snapshots."
  },
  {
   "property": "C43",
   "status": "partial",
   "theorems": [
    "Braft.Props.C43_whole_log_partial",
    "Braft.Props.C43_timeout_now_partial",
    "Braft.Props.C43_stopped",
    "Braft.Props.C43_next_index_acked_partial",
    "Braft.Props.readonly_breaks_transfer"
   ],
   "note": "Proved for all runs in which the peer does not leave readonly mode; witness readonly_breaks_transfer: after leaving readonly mode, with several AppendEntries in flight, TimeoutNow is sent although the peer has not acknowledged the last entries. The TimeoutNow that a leader sends when it steps down is not meant by the claim. C43_whole_log_partial: in the whole node (with transfers, timers and appends) TimeoutNow of a transfer is sent only when the target has acknowledged the whole log of the leader as it is at that time."
  },
  {
   "property": "C44",
   "status": "partial",
   "theorems": [
    "Braft.Props.waiters_once_partial",
    "Braft.Props.wait_registers_or_runs",
    "Braft.Props.remove_waiter_exact",
    "Braft.Props.wakeup_runs_all",
    "Braft.Props.stopped_none_waits",
    "Braft.Props.waiter_lost_after_wrap"
   ],
   "note": "Proved for up to 2^32 - 2 calls of wait; the id is truncated to int, and waiter_lost_after_wrap shows a lost callback after 2^32 registrations."
  },
  {
   "property": "C45",
   "status": "partial",
   "theorems": [
    "Braft.Props.storage_is_jobs_done",
    "Braft.Props.stable_closures_partial",
    "Braft.Props.append_after_error",
    "Braft.Props.ok_without_durability",
    "Braft.Props.ok_before_disk"
   ],
   "note": "Proved for appends that add entries. ok_without_durability: a duplicated append whose entry could not be written is reported OK; ok_before_disk: entries at or below the applied index are reported OK before they are on disk."
  },
  {
   "property": "C46",
   "status": "proved",
   "theorems": [
    "Braft.Props.C46_stop",
    "Braft.Props.C46_stop_quiet",
    "Braft.Props.C46_destroy_quiet",
    "Braft.Props.C46_on_destroy_once",
    "Braft.Props.C46_no_overlap",
    "Braft.Props.C46_started_is_live"
   ],
   "note": "All interleavings of callers, timer expiry and callbacks."
  },
  {
   "property": "C47",
   "status": "proved",
   "theorems": [
    "Braft.Props.C47_select_leader",
    "Braft.Props.C47_remove_group",
    "Braft.Props.C47_groups_independent",
    "Braft.Props.C47_leader_outside_conf"
   ],
   "note": "Over every operation history."
  },
  {
   "property": "C48",
   "status": "proved",
   "theorems": [
    "Braft.Props.C48_get",
    "Braft.Props.C48_unique",
    "Braft.Props.C48_by_group",
    "Braft.Props.C48_add_refused",
    "Braft.Props.C48_remove_other"
   ],
   "note": "Over every add/remove history."
  },
  {
   "property": "C49",
   "status": "proved",
   "theorems": [
    "Braft.Props.C49_ok",
    "Braft.Props.C49_first_user_entry",
    "Braft.Props.C49_errors"
   ],
   "note": "The log may change between the reads of one call."
  },
  {
   "property": "C50",
   "status": "proved",
   "theorems": [
    "Braft.Props.C50_term_after_restart",
    "Braft.Props.C50_no_start_without_persisting"
   ],
   "note": ""
  },
  {
   "property": "C51",
   "status": "partial",
   "theorems": [
    "Braft.Props.start_without_gap_partial",
    "Braft.Props.start_with_gap"
   ],
   "note": "Proved if the snapshot reaches the log's first index; start_with_gap: an older snapshot moves the first index back and the check passes although entries are missing."
  },
  {
   "property": "C52",
   "status": "partial",
   "theorems": [
    "Braft.Props.last_log_id_partial",
    "Braft.Props.last_log_id_memory",
    "Braft.Props.last_log_id_stale"
   ],
   "note": "Proved for histories in which ids of appended entries increase; witness shows the answer is stale when a leader replaces an entry of a higher term by one of a lower term (set_disk_id compares terms first)."
  },
  {
   "property": "C53",
   "status": "proved",
   "theorems": [
    "Braft.Props.snapshot_id_exact"
   ],
   "note": ""
  },
  {
   "property": "C54",
   "status": "partial",
   "theorems": [
    "Braft.Props.C54_closed_exact_partial",
    "Braft.Props.C54_gap_before_open_segment"
   ],
   "note": "Proved for the closed segments, for every content of the directory; a gap before the open segment is only logged: witness."
  },
  {
   "property": "C55",
   "status": "partial",
   "theorems": [
    "Braft.Props.install_exact_partial",
    "Braft.Props.install_published",
    "Braft.Props.install_keeps_last_partial",
    "Braft.Props.copies_small",
    "Braft.Props.install_crash_wrong",
    "Braft.Props.install_crash_missing",
    "Braft.Props.install_crash_overwrites"
   ],
   "note": "Full for filter_before_copy_remote=false. With it on: proved if no crash hits filter_before_copy or the removal of a directory; three witnesses show that such a crash leads to a published snapshot with a wrong file, without a file, or to a damaged last snapshot."
  },
  {
   "property": "C56",
   "status": "partial",
   "theorems": [
    "Braft.Props.C56_caught_up_partial",
    "Braft.Props.C56_closure_once",
    "Braft.Props.readonly_breaks_transfer"
   ],
   "note": "The closure runs at most once, and has run when the replicator has stopped: all runs. Acknowledged up to the margin: all runs in which the peer does not leave readonly mode (witness readonly_breaks_transfer). send_timeout_now_and_stop is State.stop without a waiting closure: the peer chosen is in the configuration, and step_down has ended configuration changes before."
  },
  {
   "property": "C57",
   "status": "partial",
   "theorems": [
    "Braft.Props.state_machine_content_partial",
    "Braft.Props.state_machines_agree_partial",
    "Braft.Props.snapshots_agree_partial",
    "Braft.Props.state_machine_grows_partial",
    "Braft.Props.applied_not_in_leader_if_term_not_durable",
    "Braft.Props.Cluster.state_machines_agree_partial",
    "Braft.Props.Cluster.snapshots_agree_partial"
   ],
   "note": "Proved under Normal (see DESIGN.md). Without durOk a stored snapshot may contradict the log of the leader of the stored term (witness). Cluster: the same for the cluster of servers."
  },
  {
   "property": "C58",
   "status": "partial",
   "theorems": [
    "Braft.Props.buffered_read_exact",
    "Braft.Props.buffered_size_exact",
    "Braft.Props.buffered_eof_right",
    "Braft.Props.buffered_read_through_prefix",
    "Braft.Props.buffered_read_through_all",
    "Braft.Props.buffered_retry",
    "Braft.Props.buffered_error_sticks",
    "Braft.Props.buffered_error_set",
    "Braft.Props.buffered_write_exact_partial",
    "Braft.Props.buffered_write_prefix_partial",
    "Braft.Props.buffered_hole_moves_data"
   ],
   "note": "Reading: full, for every source that keeps the contract of do_read. Writing: proved if holes are only made while nothing is buffered; otherwise the buffered bytes are written behind the hole (witness buffered_hole_moves_data)."
  },
  {
   "property": "C59",
   "status": "proved",
   "theorems": [
    "Braft.Props.reader_ids_unique",
    "Braft.Props.get_file_serves_registered",
    "Braft.Props.get_file_refuses_unlisted",
    "Braft.Props.removed_reader_stays_away",
    "Braft.Props.reader_ids_across_restart"
   ],
   "note": "Fewer than 2^64 registrations; ids of two processes differ if the starts are apart, modulo 2^45 microseconds, by at least as many microseconds as ids were handed out."
  },
  {
   "property": "C60",
   "status": "partial",
   "theorems": [
    "Braft.Props.create_sub_directory_stays_inside",
    "Braft.Props.create_sub_directory_makes_all",
    "Braft.Props.copy_stays_inside_partial",
    "Braft.Props.copy_keeps_other_snapshots_partial",
    "Braft.Props.copy_leaves_directory",
    "Braft.Props.filter_leaves_directory",
    "Braft.Paths.createAll_there"
   ],
   "note": "Proved for file names without a component '..'. With one the code truncates or deletes files outside (witnesses): copy_file goes on after create_sub_directory has refused the path, and create_directory is not checked at all. Symbolic links are not modelled."
  },
  {
   "property": "C61",
   "status": "partial",
   "theorems": [
    "Braft.Props.cli_acts_on_named_node",
    "Braft.Props.cli_finds_node",
    "Braft.Props.cli_get_leader",
    "Braft.Props.cli_reports_change_partial",
    "Braft.Props.cli_search_last_answer",
    "Braft.Props.cli_reports_stale_peers",
    "Braft.Props.cli_search_stale_leader"
   ],
   "note": "The report is right if no other change is made between list_peers and the start of the change; otherwise stale (witness)."
  },
  {
   "property": "C62",
   "status": "proved",
   "theorems": [
    "Braft.Props.entries_survive_network",
    "Braft.Props.entries_to_witness",
    "Braft.Props.configuration_survives_storage",
    "Braft.Props.huge_entry_shifts_data",
    "Braft.Props.empty_old_peers_lost",
    "Braft.Props.bad_text_is_empty_peer",
    "Braft.Props.witness_leader_loses_data"
   ],
   "note": "For entries as they occur in logs (Sendable): below 2^31 bytes, configurations with IPv4 peers. Outside of that: three lemmas on what happens. Finding witness_leader_loses_data: under a leader that is a witness, peers get entries without their data."
  },
  {
   "property": "C63",
   "status": "proved",
   "theorems": [
    "Braft.Props.callbacks_fit",
    "Braft.Props.callbacks_tell_role",
    "Braft.Props.leader_start_after_applied",
    "Braft.Props.leader_start_then_stop",
    "Braft.Props.following_pairs",
    "Braft.Props.shutdown_last",
    "Braft.Props.leader_stop_without_start"
   ],
   "note": "Finding: on_leader_stop can come without on_leader_start (witness leader_stop_without_start), so a stop is accepted from an idle state machine."
  },
  {
   "property": "C64",
   "status": "proved",
   "theorems": [
    "Braft.Props.candidate_is_best",
    "Braft.Props.no_candidate",
    "Braft.Props.transfer_started_iff",
    "Braft.Props.transfer_codes",
    "Braft.Props.transfers_one_at_a_time",
    "Braft.Props.no_entries_while_transferring",
    "Braft.Props.transfer_to_witness_accepted"
   ],
   "note": "Finding: a witness that is named is accepted as target (transfer_to_witness_accepted)."
  },
  {
   "property": "C65",
   "status": "proved",
   "theorems": [
    "Braft.Props.stepdown_check",
    "Braft.Props.leader_in_contact",
    "Braft.Props.contact_keeps_leader",
    "Braft.Props.contact_is_latest"
   ],
   "note": "Times as naturals; the host has been up for longer than the election timeout (otherwise a peer without a replicator counts as alive)."
  },
  {
   "property": "C66",
   "status": "partial",
   "theorems": [
    "Braft.Props.C66_power_partial",
    "Braft.Props.C66_running_partial",
    "Braft.Props.C66_one_entry_batches",
    "Braft.Props.Power.closed_segment_not_synced",
    "Braft.Props.Power.one_entry_segment_skipped",
    "Braft.Props.Power.sync_failure_ignored",
    "Braft.Props.Power.by_bytes_loses_acknowledged",
    "Braft.Props.Power.restart_trusts_unsynced",
    "Braft.Props.Power.C66_sync_when_due"
   ],
   "note": "Proved for raft_sync with the policy 'immediately', every end-of-append fsync succeeding, no segment closed with unsynced bytes (holds for every one-entry append, C66_one_entry_batches), no kill leaving unsynced bytes. The code violates the full claim: an append that spans segments syncs only the last one, so a power failure can leave a closed segment short and init fails; close skips one-entry segments; append_entries ignores the result of the sync; BY_BYTES acknowledges unsynced entries; recovery does not sync what it found."
  },
  {
   "property": "C67",
   "status": "partial",
   "theorems": [
    "Braft.Props.C67_power_partial",
    "Braft.Props.C67_kill",
    "Braft.Props.C67_last_two",
    "Braft.Props.C67_twice",
    "Braft.Props.vote_forgotten",
    "Braft.Props.unsynced_save_empties"
   ],
   "note": "Proved: with synced saves every power failure leaves a loadable, untorn pair, that of the last successful set or the one before it; a pair stored twice survives; a kill alone never loses the last pair. The code violates the full claim: save does not sync the directory after the rename, so an acknowledged vote may be forgotten and a second vote cast in the same term (vote_forgotten); without sync the file may be empty (unsynced_save_empties)."
  },
  {
   "property": "C68",
   "status": "proved",
   "theorems": [
    "Braft.Props.C68_never_lost",
    "Braft.Props.C68_power",
    "Braft.Props.C68_no_false_conflict"
   ],
   "note": ""
  },
  {
   "property": "C69",
   "status": "partial",
   "theorems": [
    "Braft.Props.Cluster.C69_leader_id_partial",
    "Braft.Props.Cluster.C69_agree_partial",
    "Braft.Props.Cluster.C69_follow_agree_partial",
    "Braft.Props.Cluster.C69_no_conflict_partial",
    "Braft.Props.Cluster.one_leader_per_term_partial"
   ],
   "note": "Proved for the cluster of servers under COk (the environment assumptions of Normal; failed CHECKs end the process or, as by default, the leader lease is off; no step down while a replicator is between two accesses to the log or ballot box). It rests on election safety, which the code violates without them (C01)."
  },
  {
   "property": "C70",
   "status": "partial",
   "theorems": [
    "Braft.Props.Members.members_fed_partial",
    "Braft.Props.Members.only_members",
    "Braft.Props.Members.none_unless_leader",
    "Braft.Props.Members.idle_exactly_partial",
    "Braft.Props.Members.idle_leader_is_member",
    "Braft.Props.Members.member_without_replicator"
   ],
   "note": "Full, except for members for which add_replicator fails in become_leader, which ignores its result (TODO in the code): member_without_replicator is a leader that never replicates to a member. All other failures of add_replicator are covered."
  },
  {
   "property": "C71",
   "status": "proved",
   "theorems": [
    "Braft.Props.Heartbeat.one_under_way",
    "Braft.Props.Heartbeat.apart",
    "Braft.Props.Heartbeat.never_silent",
    "Braft.Props.Heartbeat.within_election_timeout",
    "Braft.Props.Heartbeat.stopped_is_silent",
    "Braft.Props.Heartbeat.stop_leaves_no_timer",
    "Braft.Props.Heartbeat.never_stuck",
    "Braft.Props.Heartbeat.short_timeout_witness"
   ],
   "note": "Clock assumed not to go backwards. The upper bound needs a bound on delays, the lower bound that timers can be added. Finding: below an election timeout of 20 ms a lost heartbeat costs more than an election timeout."
  },
  {
   "property": "C72",
   "status": "partial",
   "theorems": [
    "Braft.Props.Status.status_freed_once_partial",
    "Braft.Props.Status.node_referenced",
    "Braft.Props.Status.use_after_free",
    "Braft.Props.Status.double_free"
   ],
   "note": "The code violates the claim in two ways, both witnessed: the replicator can destroy itself between its start and its entry into the map (use after free), and a failing bthread_id_create leads to a second delete. Without these two it is proved."
  },
  {
   "property": "C73",
   "status": "partial",
   "theorems": [
    "Braft.Props.Uri.gc_success_removes_partial",
    "Braft.Props.Uri.gc_touches_only_its_instance",
    "Braft.Props.Uri.gc_dir_all_or_nothing",
    "Braft.Props.Uri.gc_dir_can_succeed",
    "Braft.Props.Uri.trailing_slash_never_collected",
    "Braft.Props.Uri.spaces_do_not_distinguish",
    "Braft.Props.Uri.uri_names_its_path",
    "Braft.Props.Uri.mixed_path_round_trip",
    "Braft.Props.Uri.group_keys_distinct",
    "Braft.Props.Uri.gc_leaves_vote_witness",
    "Braft.Props.Uri.space_collision_witness",
    "Braft.Props.Uri.tmp_collision",
    "Braft.Props.Uri.mixed_garbage_iff"
   ],
   "note": "Proved: destroy acts on what create opens, success removes all directories and the key of a loaded merged storage, frame for every outcome, all-or-nothing per directory, repeatability. The code violates the rest: gc_raft_data returns 0 while the vote stays in a merged storage that the process has not loaded; names with white space or .tmp collide; a trailing slash makes gc impossible; the destructor of a mixed storage with a bad URI uses an unwritten pointer."
  },
  {
   "property": "C74",
   "status": "partial",
   "theorems": [
    "Braft.Props.Timers.C74_role_has_timer",
    "Braft.Props.Timers.C74_witness_candidate_without_timer",
    "Braft.Props.Timers.C74_no_other_timer_partial",
    "Braft.Props.Timers.C74_calm_of_two_voters",
    "Braft.Props.Timers.C74_inactive_stays_partial",
    "Braft.Props.Timers.C74_check_holds_partial",
    "Braft.Props.Timers.C74_shut_down_node_leads",
    "Braft.Props.Timers.C74_failed_node_leads",
    "Braft.Props.Timers.C74_check_fails",
    "Braft.Props.Timers.C74_trigger_count",
    "Braft.Props.Timers.C74_lease_respected",
    "Braft.Props.Timers.C74_stale_trigger",
    "Braft.Props.Timers.C74_sum_kept",
    "Braft.Props.Timers.C74_lease_margin",
    "Braft.Props.Timers.C74_witness_refusal",
    "Braft.Props.Timers.C74_reset_refuses",
    "Braft.Props.Timers.C74_stepdown_period_stale",
    "Braft.Props.Timers.C74_negative_accepted",
    "Braft.Props.Timers.C74_two_argument_reset",
    "Braft.Props.Timers.C74_random_timeout",
    "Braft.Props.Timers.C74_shutdown_stops_timers"
   ],
   "note": "In every run short of shutdown() the timer of the role is started. No other timer, inactive stays inactive, and the CHECK of become_leader hold for calm runs, and every run is calm in groups where one vote is no quorum; for a node alone in its group they are false: pre_vote and elect_self compare only the term after their unlock, so a node that failed or was shut down meanwhile becomes leader (C74_shut_down_node_leads, C74_failed_node_leads, C74_check_fails). Further findings: witness candidate without vote timer, stale vote() trigger, step-down period not reset, negative timeouts, two-argument reset. After shutdown() no timer but a grant-self one is ever started again (C74_shutdown_stops_timers)."
  },
  {
   "property": "C75",
   "status": "partial",
   "theorems": [
    "Braft.Props.LeaseReads.C75_lease_read_is_current_partial"
   ],
   "note": "Proved on the joint timed and Raft model under the premises of C26 (which are necessary: see C26)."
  },
  {
   "property": "C76",
   "status": "partial",
   "theorems": [
    "Braft.Props.LogStack.C76_get_entry_partial",
    "Braft.Props.LogStack.C76_no_entry_partial",
    "Braft.Props.LogStack.C76_get_term_partial",
    "Braft.Props.LogStack.C76_last_log_id_partial",
    "Braft.Props.LogStack.C76_storage_partial",
    "Braft.Props.LogStack.C76_queue_partial",
    "Braft.Props.LogStack.C76_consistent_partial",
    "Braft.Props.LogStack.C76_restart_partial",
    "Braft.Props.LogStack.C76_apply_reads_partial",
    "Braft.Props.LogStack.C76_applied_reads_partial",
    "Braft.Props.LogStack.C76_leader_reads_partial",
    "Braft.Props.LogStack.C76_reads_match_partial",
    "Braft.Props.LogStack.C76_sent_reads_partial",
    "Braft.Props.LogStack.C76_delayed_request_corrupts_log",
    "Braft.Props.LogStack.C76_slow_disk_reads_replaced_entry"
   ],
   "note": "All executions of servers with log managers in lockstep, unbounded. Partial: set_applied_id after every entry instead of every batch; a server whose storage failed is frozen (but for actions that do not touch the log) until its restart; guards exclude the known defects of C16 (request from index 1 below a compaction) and C17 (removal from memory of an entry that waits for the disk); assumptions COk of C01-C05. The last two theorems show executions of the protocol in which the two defects happen when the guards are dropped."
  },
  {
   "property": "C77",
   "status": "partial",
   "theorems": [
    "Braft.Props.EndToEnd.C77_same_data_partial",
    "Braft.Props.EndToEnd.C77_closure_matches_partial",
    "Braft.Props.EndToEnd.C77_never_lost_partial",
    "Braft.Props.EndToEnd.C77_once_partial",
    "Braft.Props.EndToEnd.C77_never_twice_partial",
    "Braft.Props.EndToEnd.C77_all_answered_partial",
    "Braft.Props.EndToEnd.C77_content_partial",
    "Braft.Props.EndToEnd.C77_state_machines_partial",
    "Braft.Props.EndToEnd.C77_same_sequence_partial",
    "Braft.Props.EndToEnd.C77_enabled_partial"
   ],
   "note": "All executions of servers with the task path in lockstep, unbounded. Partial: assumptions COk of C01-C05 (a stalled replicator thread of an old term breaks safety, witnessed there); no storage error is reported to the node; closures of a process that ends are gone with it; closures are counted as long as the state machine does not roll back (C12 has the general case)."
  },
  {
   "property": "C78",
   "status": "partial",
   "theorems": [
    "Braft.Props.EndToEnd.C78_real_time_partial",
    "Braft.Props.EndToEnd.C78_unique_ack_partial",
    "Braft.Props.EndToEnd.C78_failed_but_applied"
   ],
   "note": "Partial for the reasons of C77. The last theorem shows that a closure run with an error says nothing about its task."
  },
  {
   "property": "C79",
   "status": "partial",
   "theorems": [
    "Braft.Props.Progress.C79_can_commit_partial",
    "Braft.Props.Progress.C79_static_group",
    "Braft.Props.Progress.C79_removed_leader_stuck"
   ],
   "note": "possibility of progress from every reachable state: in full for groups whose membership never changes; in general for every majority with a server that is not behind the others and is a member of the last configuration of its own log. The general claim is violated: C79_removed_leader_stuck proves that a group of two whose leader removes itself and restarts with the new configuration on its own disk only can never elect anybody again (elect_self/pre_vote refuse outside the last configuration, even an uncommitted one). Under the environment assumptions COk; possibility, not eventuality (no fairness)"
  },
  {
   "property": "C80",
   "status": "partial",
   "theorems": [
    "Braft.Props.SnapPower.C80_crash_leaves_no_gap_partial",
    "Braft.Props.SnapPower.C80_saves_leave_no_gap_partial",
    "Braft.Props.SnapPower.C80_install_two_filesystems",
    "Braft.Props.SnapPower.C80_clear_two_filesystems"
   ],
   "note": "one filesystem: all histories; two filesystems: snapshots the node takes itself. Missing: installed snapshots and clear_bufferred_logs on two filesystems (witnesses that a gap results which the start does not notice), and storage calls that fail half way"
  },
  {
   "property": "C81",
   "status": "partial",
   "theorems": [
    "Braft.Props.Shutdown.C81_no_use_after_free",
    "Braft.Props.Shutdown.C81_shutdown_closures_partial",
    "Braft.Props.Shutdown.C81_shutdown_ends",
    "Braft.Props.Shutdown.C81_on_shutdown_once_and_last",
    "Braft.Props.Shutdown.C81_join_is_the_end",
    "Braft.Props.Shutdown.C81_closure_lost_after_failed_init",
    "Braft.Props.Shutdown.C81_leak_after_failed_queue"
   ],
   "note": "Missing: after an init() that failed before the FSMCaller started, shutdown's closure never runs (closure_lost_after_failed_init); if its queue cannot start, the node leaks (leak_after_failed_queue). The components stopped by shutdown() are not followed further here."
  },
  {
   "property": "C82",
   "status": "partial",
   "theorems": [
    "Braft.Props.Bootstrap.C82_bootstrap_partial",
    "Braft.Props.Bootstrap.C82_crash_partial",
    "Braft.Props.Bootstrap.C82_again_partial",
    "Braft.Props.Bootstrap.C82_start_partial",
    "Braft.Props.Bootstrap.C82_refused",
    "Braft.Props.Bootstrap.C82_gap_violated",
    "Braft.Props.Bootstrap.C82_twice_violated",
    "Braft.Props.Bootstrap.C82_interrupted_violated",
    "Braft.Props.Bootstrap.C82_no_uri_violated",
    "Braft.Props.Bootstrap.C82_one_leader_partial",
    "Braft.Props.Bootstrap.C82_log_matching_partial",
    "Braft.Props.Bootstrap.C82_completeness_partial",
    "Braft.Props.Bootstrap.C82_applied_partial",
    "Braft.Props.Bootstrap.C82_machines_partial",
    "Braft.Props.Bootstrap.C82_leader_has_boot_partial",
    "Braft.Props.Bootstrap.C82_machine_has_boot_partial",
    "Braft.Props.Bootstrap.C82_no_quorum_violated",
    "Braft.Props.Bootstrap.C82_over_snapshot"
   ],
   "note": "Partial: the call on an unused disk or one a previous call left, with storages that do not fail; the assumptions of the cluster model; five violations."
  },
  {
   "property": "C83",
   "status": "partial",
   "theorems": [
    "Braft.Props.Witness.one_leader_partial",
    "Braft.Props.Witness.never_leads_partial",
    "Braft.Props.Witness.log_matching_partial",
    "Braft.Props.Witness.shapes_match_partial",
    "Braft.Props.Witness.leader_completeness_partial",
    "Braft.Props.Witness.applied_agree_partial",
    "Braft.Props.Witness.state_machines_agree_partial",
    "Braft.Props.Witness.transfer_to_witness_breaks_safety",
    "Braft.Props.Witness.flag_turned_on_breaks_safety",
    "Braft.Props.Witness.applied_was_submitted_partial",
    "Braft.Props.Witness.stored_was_submitted_partial"
   ],
   "note": "under the assumptions of C01-C04, for groups that do not hand the leadership to a witness or have raft_enable_witness_to_leader on from the start; otherwise violated"
  },
  {
   "property": "C84",
   "status": "partial",
   "theorems": [
    "Braft.Props.Origin.applied_was_submitted_partial",
    "Braft.Props.Origin.stored_was_submitted_partial",
    "Braft.Props.Origin.submitted_once_applied_once_partial",
    "Braft.Props.Origin.submission_order_partial",
    "Braft.Props.Origin.no_gap_partial",
    "Braft.Props.Origin.fifo_partial"
   ],
   "note": "for the cluster of servers under the assumptions COk (default flags meet them as far as flags are concerned, see C01): all data applied, stored or in snapshots was submitted at a leader of the entry's term and has the index it got there; submitted once implies applied at one index; order of acceptance within a term, without gaps. Missing: what COk excludes"
  },
  {
   "property": "C85",
   "status": "partial",
   "theorems": [
    "Braft.Props.ConfNode.C85_change_partial",
    "Braft.Props.ConfNode.C85_add_peer_partial",
    "Braft.Props.ConfNode.C85_remove_peer_partial",
    "Braft.Props.ConfNode.C85_caught_up_partial",
    "Braft.Props.ConfNode.C85_entry_done_partial",
    "Braft.Props.ConfNode.C85_others_partial",
    "Braft.Props.ConfNode.C85_agree_partial",
    "Braft.Props.ConfNode.C85_settled_partial",
    "Braft.Props.ConfNode.C85_ok_partial"
   ],
   "note": "Over the composition of ConfigurationCtx with the cluster of servers. Missing: reset_peers, errors of the log manager, a leader that goes on after the failed CHECK in become_leader (checkAborts = false), states beyond STATE_FOLLOWER."
  },
  {
   "property": "C86",
   "status": "proved",
   "theorems": [
    "Braft.Props.CliClient.C86_calls",
    "Braft.Props.CliClient.C86_ok",
    "Braft.Props.CliClient.C86_one_call",
    "Braft.Props.CliClient.C86_served",
    "Braft.Props.CliClient.C86_route",
    "Braft.Props.CliClient.C86_route_role",
    "Braft.Props.CliClient.C86_route_refused",
    "Braft.Props.CliClient.C86_route_text",
    "Braft.Props.CliClient.C86_transfer_violated",
    "Braft.Props.CliClient.C86_error_violated",
    "Braft.Props.CliClient.C86_role_violated",
    "Braft.Props.CliClient.C86_unlisted"
   ],
   "note": "Witnesses: transfer_leader says OK without calling anybody when the last member asked still names the target as leader; a command that returns an error may have taken effect; a change of the role of a member only is answered OK and does nothing."
  },
  {
   "property": "C87",
   "status": "partial",
   "theorems": [
    "Braft.Props.NodeStatus.C87_indexes_partial",
    "Braft.Props.NodeStatus.C87_on_disk_partial",
    "Braft.Props.NodeStatus.C87_pending_partial",
    "Braft.Props.NodeStatus.C87_committed_partial",
    "Braft.Props.NodeStatus.C87_monotone_partial",
    "Braft.Props.NodeStatus.C87_leader_partial",
    "Braft.Props.NodeStatus.C87_last_index_violated",
    "Braft.Props.NodeStatus.C87_committed_index_violated",
    "Braft.Props.NodeStatus.C87_disk_index_violated"
   ],
   "note": "Partial: the environment premises of C76; followers are in C90; applying_index, peer_id are not modelled. Witnesses: a leader reports committed and applied indexes beyond last_index (first_index and last_index look at the log storage only, not at entries in memory); a node started from a snapshot reports committed_index 0 below known_applied_index; disk_index keeps naming an entry that was truncated."
  },
  {
   "property": "C88",
   "status": "partial",
   "theorems": [
    "Braft.Props.MetaTable.C88_get",
    "Braft.Props.MetaTable.C88_result",
    "Braft.Props.MetaTable.C88_list",
    "Braft.Props.MetaTable.C88_meta",
    "Braft.Props.MetaTable.C88_saved",
    "Braft.Props.MetaTable.C88_remote",
    "Braft.Props.MetaTable.C88_remote_refused",
    "Braft.Props.MetaTable.C88_refused_keeps",
    "Braft.Props.MetaTable.C88_loaded",
    "Braft.Props.MetaTable.C88_damaged_violated",
    "Braft.Props.MetaTable.C88_large_violated"
   ],
   "note": "All calls, all bytes. Round trips for tables whose message has less than 2^31 bytes. The rest is false: ProtoBufFile::load ignores the result of the parser, so a damaged meta file is loaded without error, in part or as an empty table (C88_damaged_violated); ProtoBufFile::save ignores the result of the serializer, so a table of 2^31 bytes is saved as an empty one and reported saved (C88_large_violated)."
  },
  {
   "property": "C89",
   "status": "partial",
   "theorems": [
    "Braft.Props.Names.C89_round_trip",
    "Braft.Props.Names.C89_kinds",
    "Braft.Props.Names.C89_injective",
    "Braft.Props.Names.C89_log_dir",
    "Braft.Props.Names.C89_snapshot_dir",
    "Braft.Props.Names.C89_foreign",
    "Braft.Props.Names.C89_without_meta",
    "Braft.Props.Names.C89_aside_violated",
    "Braft.Props.Names.C89_segment_violated",
    "Braft.Props.Names.C89_order_violated"
   ],
   "note": "All int64 indexes, all directories, all orders. \"Left alone\" is false for names that only begin like one of braft's: sscanf does not look at what follows the last index, so a snapshot directory put aside as snapshot_<20 digits>.bad makes init delete the snapshot there is and keep one there is not (C89_aside_violated), a segment put aside hides the real one (C89_segment_violated), and which wins depends on the order of the directory (C89_order_violated)."
  },
  {
   "property": "C90",
   "status": "partial",
   "theorems": [
    "Braft.Props.Followers.C90_stable_partial",
    "Braft.Props.Followers.C90_stable",
    "Braft.Props.Followers.C90_unstable",
    "Braft.Props.Followers.C90_changing_partial",
    "Braft.Props.Followers.C90_not_leader",
    "Braft.Props.Followers.C90_leader_id",
    "Braft.Props.Followers.C90_valid",
    "Braft.Props.Followers.C90_entry_partial",
    "Braft.Props.Followers.C90_reused_violated",
    "Braft.Props.Followers.C90_no_replicator_violated",
    "Braft.Props.Followers.C90_guess_violated"
   ],
   "note": "Full if add_replicator does not fail in become_leader (which ignores its result: C90_no_replicator_violated lists no member) and peers do not leave readonly mode (as C41). Also false: get_status never clears its argument, so a NodeStatus used twice shows the followers of a node that stepped down, as valid, and the old leader_id (C90_reused_violated); next_index is a guess until the first answer, and the entry does not tell (C90_guess_violated)."
  },
  {
   "property": "C91",
   "status": "partial",
   "theorems": [
    "Braft.Props.ServiceAddr.C91_served",
    "Braft.Props.ServiceAddr.C91_add_service",
    "Braft.Props.ServiceAddr.C91_services",
    "Braft.Props.ServiceAddr.C91_look",
    "Braft.Props.ServiceAddr.C91_destroyed",
    "Braft.Props.ServiceAddr.C91_node",
    "Braft.Props.ServiceAddr.C91_second_server",
    "Braft.Props.ServiceAddr.C91_lost_address",
    "Braft.Props.ServiceAddr.C91_two_servers",
    "Braft.Props.ServiceAddr.C91_no_retry"
   ],
   "note": "Proved as stated. What a user would also expect and is false: a second server given a served address gets 0 and no services (C91_second_server); an address that a server serves can be taken out while it does, by destroying another server whose add_service failed half-way or ran at the same time (C91_lost_address, C91_two_servers); after a half-way failure add_service can not be tried again on that server (C91_no_retry). A server is its four services of braft; what brpc does besides is not modelled."
  },
  {
   "property": "C92",
   "status": "proved",
   "theorems": [
    "Braft.Props.MergedQueue.C92_not_older",
    "Braft.Props.MergedQueue.C92_stored",
    "Braft.Props.MergedQueue.C92_own",
    "Braft.Props.MergedQueue.C92_answers",
    "Braft.Props.MergedQueue.C92_batch",
    "Braft.Props.MergedQueue.C92_progress",
    "Braft.Props.MergedQueue.C92_get",
    "Braft.Props.MergedQueue.C92_get_overwrites",
    "Braft.Props.MergedQueue.C92_failed_but_stored",
    "Braft.Props.MergedQueue.C92_shared_key"
   ],
   "note": "Proved as stated; kills, not power failures (leveldb is assumed to keep what it wrote). Not stated and false: a get of a group without a record writes the initial pair, over a set on its way (C92_get_overwrites; one node makes its calls one at a time); a set reported as failed may be stored (C92_failed_but_stored); two peers of a group with one index share a key (C92_shared_key)."
  },
  {
   "property": "C93",
   "status": "partial",
   "theorems": [
    "Braft.Props.SnapTimer.C93_apart",
    "Braft.Props.SnapTimer.C93_goes_on",
    "Braft.Props.SnapTimer.C93_due",
    "Braft.Props.SnapTimer.C93_active",
    "Braft.Props.SnapTimer.C93_destroyed",
    "Braft.Props.SnapTimer.C93_fits",
    "Braft.Props.SnapTimer.C93_overflow",
    "Braft.Props.SnapTimer.C93_no_timer"
   ],
   "note": "Proved for intervals that fit (C93_fits: up to 2147483 s) as long as timers can be added. False beyond: snapshot_interval_s * 1000 overflows from 2147484 s on, and the node then makes snapshots without a pause (C93_overflow); if bthread_timer_add fails the callback is run at once, again and again (C93_no_timer)."
  }
 ]
}