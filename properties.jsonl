{"id": "C01", "title": "Election safety", "statement": "In one replication group, for any term T, at most one node ever reports itself leader of T (on_leader_start(T) / is_leader() with term T), whatever messages are lost, duplicated, reordered or delayed and whichever nodes crash and restart from their stable storage.", "quantifier": "all executions of a group of any size: every interleaving of elections, vote requests/responses, replication, message loss/duplication/reordering, and crash/restart points", "why_tests_cant": "tests run a few schedules of three nodes; two leaders in one term needs an adversarial schedule and crash between sending and persisting a vote", "anchors": ["src/braft/node.cpp:NodeImpl::elect_self", "src/braft/node.cpp:NodeImpl::handle_request_vote_request", "src/braft/node.cpp:NodeImpl::handle_request_vote_response", "src/braft/node.cpp:NodeImpl::become_leader", "src/braft/ballot.cpp"]}
{"id": "C02", "title": "Log matching", "statement": "If the logs of two nodes hold an entry with the same index and the same term, then the two logs hold identical entries at that index and at every smaller index.", "quantifier": "all executions, all pairs of nodes, all indexes", "why_tests_cant": "needs every interleaving of conflicting leaders, truncation and crash recovery", "anchors": ["src/braft/node.cpp:NodeImpl::handle_append_entries_request", "src/braft/log_manager.cpp:LogManager::check_and_resolve_conflict", "src/braft/replicator.cpp:Replicator::_fill_common_fields"]}
{"id": "C03", "title": "Leader completeness", "statement": "Once a task has been committed (its Closure ran with OK, or any node passed it to on_apply) every leader of a later term has that entry at the same index in its log.", "quantifier": "all executions, all committed entries, all later leaders", "why_tests_cant": "the losing schedules need a specific race between vote handling and log appending or a specific crash, which tests never hit", "anchors": ["src/braft/node.cpp:NodeImpl::handle_request_vote_request", "src/braft/node.cpp:NodeImpl::elect_self", "src/braft/ballot_box.cpp:BallotBox::commit_at"]}
{"id": "C04", "title": "State machine safety", "statement": "No two nodes ever pass different entries to StateMachine::on_apply for the same log index, at any two moments of an execution, including after crash and restart.", "quantifier": "all executions, all pairs of nodes and moments, all indexes", "why_tests_cant": "requires all schedules and crash points", "anchors": ["src/braft/fsm_caller.cpp:FSMCaller::do_committed", "src/braft/ballot_box.cpp:BallotBox::set_last_committed_index", "src/braft/node.cpp:FollowerStableClosure::run"]}
{"id": "C05", "title": "One vote per term, across restarts", "statement": "A node never answers granted=true in the same term to two different candidates, even if it crashes and restarts in between.", "quantifier": "all executions of the vote handlers interleaved with crashes at any point", "why_tests_cant": "crash points between in-memory update, persistence and reply are not enumerable by tests", "anchors": ["src/braft/node.cpp:NodeImpl::handle_request_vote_request", "src/braft/node.cpp:NodeImpl::step_down", "src/braft/node.cpp:NodeImpl::elect_self", "src/braft/raft_meta.cpp"]}
{"id": "C06", "title": "Terms never go backwards", "statement": "A node's current term never decreases while it runs, and after restart it is at least the last term it persisted and at least the term of its last log entry; every term change is triggered by a higher term or a local election.", "quantifier": "all sequences of handler invocations and restarts", "why_tests_cant": "all event histories", "anchors": ["src/braft/node.cpp:NodeImpl::step_down", "src/braft/node.cpp:NodeImpl::init_meta_storage", "src/braft/node.cpp:NodeImpl::increase_term_to"]}
{"id": "C07", "title": "Votes only go to candidates with an up-to-date log", "statement": "When a node grants a vote, the candidate's (last_log_term,last_log_index) is at least the voter's own last log id at the moment the vote is granted.", "quantifier": "all request contents, voter states and interleavings of vote handling with appends", "why_tests_cant": "the handler drops the node lock while reading the last log id; tests do not schedule an append in that window", "anchors": ["src/braft/node.cpp:NodeImpl::handle_request_vote_request", "src/braft/log_manager.cpp:LogManager::last_log_id"]}
{"id": "C08", "title": "PreVote has no side effects", "statement": "Handling a pre-vote request never changes the node's term, vote, role or log, and a pre-vote is granted only if the candidate's log is up-to-date, its term is not older, and the follower lease has expired.", "quantifier": "all requests and node states", "why_tests_cant": "all inputs and states", "anchors": ["src/braft/node.cpp:NodeImpl::handle_pre_vote_request"]}
{"id": "C09", "title": "A ballot is granted exactly by a quorum", "statement": "A Ballot initialised with a configuration (and an old configuration in joint mode) is granted if and only if a majority of distinct members of the configuration, and of the old one when present, have granted it; repeated or foreign grants do not count.", "quantifier": "all configurations, all sequences of grants in any order with repetitions and position hints", "why_tests_cant": "unbounded peer sets and grant sequences", "anchors": ["src/braft/ballot.cpp:Ballot::init", "src/braft/ballot.cpp:Ballot::grant", "src/braft/ballot.h:Ballot::granted"]}
{"id": "C10", "title": "Quorums intersect", "statement": "Any two granted ballots over the same configuration, or over two configurations differing by at most one peer, or over a joint configuration and either of its halves, share at least one peer that granted both.", "quantifier": "all pairs of configurations and grant histories", "why_tests_cant": "combinatorial over all configurations", "anchors": ["src/braft/ballot.cpp", "src/braft/node.cpp:NodeImpl::ConfigurationCtx::start"]}
{"id": "C11", "title": "Commit index only advances over quorum-acknowledged entries", "statement": "BallotBox reports an index as committed only if its ballot was granted by a quorum for that entry or a later one; the committed index never decreases, entries are committed in order without gaps, and acknowledgements arriving out of order or repeatedly do not change the outcome.", "quantifier": "all interleavings of appends and acknowledgements (ranges first..last from each peer)", "why_tests_cant": "unbounded ack interleavings", "anchors": ["src/braft/ballot_box.cpp:BallotBox::commit_at", "src/braft/ballot_box.cpp:BallotBox::append_pending_task", "src/braft/ballot_box.cpp:BallotBox::clear_pending_tasks"]}
{"id": "C12", "title": "Each task closure runs exactly once and in order", "statement": "Every Closure accepted by apply() is run exactly once: with OK after its entry is applied, or with an error (EPERM) if the leader steps down first; closures handed to the state machine match their own entries (with the term the task expected, if any) and come in index order.", "quantifier": "all interleavings of apply() calls, batches, elections, step downs, acknowledgements, commit indexes, received entries, configuration changes, snapshots, storage errors and rounds of the state machine thread; all user code in on_apply", "why_tests_cant": "all histories of commit and step-down", "anchors": ["src/braft/closure_queue.cpp:ClosureQueue::clear", "src/braft/closure_queue.cpp:ClosureQueue::append_pending_closure", "src/braft/closure_queue.cpp:ClosureQueue::pop_closure_until", "src/braft/node.cpp:NodeImpl::apply", "src/braft/node.cpp:NodeImpl::step_down", "src/braft/ballot_box.cpp:BallotBox", "src/braft/fsm_caller.cpp:FSMCaller::do_committed"]}
{"id": "C13", "title": "on_apply sees every committed entry once, in order, without gaps", "statement": "On one node the entries passed to on_apply between restarts (or after the last loaded snapshot) are exactly the data entries of the committed log in index order, each exactly once; configuration and no-op entries are skipped but still advance the applied index.", "quantifier": "all sequences of commit notifications, batch sizes, snapshot loads and errors", "why_tests_cant": "unbounded histories of commit notifications", "anchors": ["src/braft/fsm_caller.cpp:FSMCaller::do_committed", "src/braft/fsm_caller.cpp:IteratorImpl::next", "src/braft/fsm_caller.cpp:FSMCaller::run"]}
{"id": "C14", "title": "Nothing is applied after a state machine error", "statement": "After the state machine reports an error (set_error_and_rollback) or a storage error occurs, no further entry is passed to on_apply, on_error is called exactly once, rolled-back entries' closures run with an error, and the reported applied index does not cover rolled-back entries.", "quantifier": "all error positions, rollback lengths and later events", "why_tests_cant": "all interleavings of errors with later commits", "anchors": ["src/braft/fsm_caller.cpp:FSMCaller::set_error", "src/braft/fsm_caller.cpp:IteratorImpl::set_error_and_rollback", "src/braft/fsm_caller.cpp:IteratorImpl::run_the_rest_closure_with_error"]}
{"id": "C15", "title": "Configuration lookup returns the configuration in force", "statement": "After any sequence of configuration entries added, prefix/suffix truncations and snapshots, the configuration reported for an index is the last configuration entry at or below that index, or the snapshot's configuration if there is none.", "quantifier": "all operation histories and queried indexes", "why_tests_cant": "unbounded histories", "anchors": ["src/braft/configuration_manager.cpp"]}
{"id": "C16", "title": "Appending a leader's entries yields exactly the leader's log", "statement": "When a follower accepts entries after prev_log_index, its log afterwards holds the unchanged prefix up to prev_log_index followed by those entries; entries beyond them are kept only if no accepted entry conflicted, and no already-applied entry is ever removed or replaced.", "quantifier": "all follower logs, all accepted batches (overlapping, duplicated, stale, conflicting)", "why_tests_cant": "all log/batch pairs including stale ones after compaction", "anchors": ["src/braft/log_manager.cpp:LogManager::check_and_resolve_conflict", "src/braft/log_manager.cpp:LogManager::unsafe_truncate_suffix", "src/braft/log_manager.cpp:LogManager::append_entries"]}
{"id": "C17", "title": "Term lookup agrees with the log", "statement": "get_term(i) returns the term of the entry at i for every i in the log, the snapshot's term at the snapshot index, the term of the last compacted entry directly before the log's first index if that is known, and 0 otherwise, regardless of whether the entry is in memory or on disk.", "quantifier": "all log manager histories and indexes", "why_tests_cant": "unbounded histories of append, flush, truncation, snapshot", "anchors": ["src/braft/log_manager.cpp:LogManager::get_term", "src/braft/log_manager.cpp:LogManager::unsafe_get_term"]}
{"id": "C18", "title": "Compaction after a snapshot loses nothing that is not in a snapshot", "statement": "After a snapshot with last_included_index s is recorded, every entry above s that matched the snapshot's history is still readable and first_log_index is at most s+1; the log is replaced entirely only when its entry at s has a different term than the snapshot.", "quantifier": "all log states and snapshot metas", "why_tests_cant": "all states", "anchors": ["src/braft/log_manager.cpp:LogManager::set_snapshot", "src/braft/log_manager.cpp:LogManager::truncate_prefix", "src/braft/log_manager.cpp:LogManager::reset"]}
{"id": "C19", "title": "Log entries are stored and read back unchanged, corruption is detected", "statement": "An entry written to a segment is read back with the same term, type and data; a record whose header does not match its checksum is never returned as an entry.", "quantifier": "all terms, types, data lengths and byte contents; all byte strings as disk content", "why_tests_cant": "byte-level for all contents", "anchors": ["src/braft/log.cpp:Segment::append", "src/braft/log.cpp:Segment::_load_entry", "src/braft/log.cpp:Segment::EntryHeader"]}
{"id": "C20", "title": "Recovery after a crash during append", "statement": "If the process crashes while appending to the open segment so that only a prefix of the last write reached disk, reopening the segment recovers exactly the entries fully written before the crash, in order, and truncates the torn tail so that later appends are recovered too.", "quantifier": "all entry sequences and all crash byte positions", "why_tests_cant": "every byte offset of every entry sequence", "anchors": ["src/braft/log.cpp:Segment::load", "src/braft/log.cpp:Segment::append"]}
{"id": "C21", "title": "Segmented log storage behaves as one array of entries", "statement": "Through any sequence of append_entries, truncate_prefix, truncate_suffix, reset and reopen, first_log_index/last_log_index/get_entry/get_term of SegmentLogStorage agree with a simple array of entries indexed from first_log_index.", "quantifier": "all operation sequences, segment sizes and indexes", "why_tests_cant": "unbounded operation sequences and segment boundaries", "anchors": ["src/braft/log.cpp:SegmentLogStorage"]}
{"id": "C22", "title": "Crash during truncation leaves a usable log", "statement": "If the process crashes at any point inside truncate_prefix, truncate_suffix or reset, the reopened storage holds a contiguous log that agrees with the log before the call on every index it holds, contains every entry the call meant to keep (truncate_*), and contains no entry below the new first index once the call has recorded it.", "quantifier": "all crash points of all calls in all states", "why_tests_cant": "crash points inside multi-file updates", "anchors": ["src/braft/log.cpp:SegmentLogStorage::truncate_prefix", "src/braft/log.cpp:SegmentLogStorage::truncate_suffix", "src/braft/log.cpp:SegmentLogStorage::list_segments", "src/braft/log.cpp:SegmentLogStorage::load_segments"]}
{"id": "C23", "title": "In-memory log storage behaves as one array of entries", "statement": "MemoryLogStorage agrees with a simple array of entries under any sequence of append, truncate_prefix, truncate_suffix and reset.", "quantifier": "all operation sequences and indexes", "why_tests_cant": "unbounded operation sequences", "anchors": ["src/braft/memory_log.cpp"]}
{"id": "C24", "title": "Term and vote are persisted atomically", "statement": "After a crash at any point of set_term_and_votedfor, reopening the meta storage returns either the previously stored (term, votedfor) or the new one, never a mixture; after set_term_and_votedfor returned OK it returns the new one.", "quantifier": "all stored values and crash points", "why_tests_cant": "every crash point", "anchors": ["src/braft/raft_meta.cpp:FileBasedSingleMetaStorage", "src/braft/protobuf_file.cpp:ProtoBufFile::save"]}
{"id": "C25", "title": "Mixed meta storage never loses the newest vote", "statement": "With the mixed (single+merged) meta storage, get_term_and_votedfor returns the newest successfully stored pair even when one of the two stores missed updates, brings both stores to that pair, and fails with an error instead of choosing when the two stores hold different votes in the same term.", "quantifier": "all pairs of store states, all partial failures of set, upgrade and downgrade histories", "why_tests_cant": "all combinations of partial failures", "anchors": ["src/braft/raft_meta.cpp:MixedMetaStorage::get_term_and_votedfor", "src/braft/raft_meta.cpp:MixedMetaStorage::set_term_and_votedfor"]}
{"id": "C26", "title": "A valid leader lease excludes a newer leader", "statement": "While get_leader_lease_status reports LEASE_VALID on a node for term T, that node is leader of term T and no node has become leader of a higher term, by whatever election, leadership transfer or membership change, provided lease is enabled on all nodes and the clocks drift no more than max_clock_drift_ms allows.", "quantifier": "all timings within the clock drift, all schedules of heartbeats, votes, entries, snapshots, crashes, transfers and membership changes", "why_tests_cant": "timing schedules are uncountable", "anchors": ["src/braft/lease.cpp", "src/braft/node.cpp:NodeImpl::get_leader_lease_status", "src/braft/node.cpp:NodeImpl::last_leader_active_timestamp"]}
{"id": "C27", "title": "Quorum-active timestamp is really a quorum timestamp", "statement": "The timestamp used to renew the leader lease is not later than the last contact time of at least a majority of the configuration (of both configurations in joint mode).", "quantifier": "all configurations, all timestamps", "why_tests_cant": "all configurations and timestamp vectors", "anchors": ["src/braft/node.cpp:NodeImpl::last_leader_active_timestamp"]}
{"id": "C28", "title": "Readonly detection", "statement": "The leader rejects writes with EREADONLY because of readonly followers exactly when the writable members (the leader and the followers not marked readonly) no longer form a majority of the configuration or, in joint mode, of either configuration.", "quantifier": "all configurations and readonly sets", "why_tests_cant": "all subsets", "anchors": ["src/braft/node.cpp:NodeImpl::check_majority_nodes_readonly"]}
{"id": "C29", "title": "Out-of-order AppendEntries cache", "statement": "A follower parks an AppendEntries request only if it has entries and starts beyond the follower's log. Every parked request is handed over for processing exactly once. When the log grows up to the start of a parked request, that request and those that continue it without a gap are handed over together in index order, and no others. Parked requests that overlap a newer one, exceed the configured number, wait longer than the timeout or are left when the follower steps down are handed over to be checked again. The number of parked requests never exceeds the configured size, and while one is parked a timer is armed that will hand over the oldest one.", "quantifier": "all arrival orders and contents of requests, all interleavings with timers and all outcomes of timer calls", "why_tests_cant": "all arrival orders", "anchors": ["src/braft/node.cpp:NodeImpl::AppendEntriesCache", "src/braft/node.cpp:NodeImpl::handle_out_of_order_append_entries", "src/braft/node.cpp:NodeImpl::check_append_entries_cache"]}
{"id": "C30", "title": "One membership change at a time, reported once", "statement": "At most one membership change is in progress at a leader; add/remove/change_peers while one is in progress fail with EBUSY, on a non-leader with EPERM; each request's Closure runs exactly once, with OK only after the new configuration entry committed; changes of more than one peer go through a joint entry containing both configurations.", "quantifier": "all sequences of requests, catch-up results, commits and step-downs", "why_tests_cant": "all event orders", "anchors": ["src/braft/node.cpp:NodeImpl::ConfigurationCtx", "src/braft/node.cpp:NodeImpl::unsafe_register_conf_change"]}
{"id": "C31", "title": "Membership changes preserve safety", "statement": "Election safety, log matching, leader completeness and state machine safety also hold while the group's membership is changed through add_peer/remove_peer/change_peers.", "quantifier": "all executions including membership changes", "why_tests_cant": "requires all interleavings of reconfiguration, elections and crashes", "anchors": ["src/braft/node.cpp:NodeImpl::ConfigurationCtx::next_stage", "src/braft/node.cpp:NodeImpl::unsafe_apply_configuration", "src/braft/node.cpp:NodeImpl::become_leader"]}
{"id": "C32", "title": "Snapshot publication is atomic", "statement": "After a crash at any point of saving or downloading a snapshot, reopening the snapshot storage yields a complete snapshot: either the previous one or the new one, and never a partially written one; the snapshot index reported never goes backwards when new snapshots are newer.", "quantifier": "all crash points, all snapshot contents", "why_tests_cant": "every crash point", "anchors": ["src/braft/snapshot.cpp:LocalSnapshotStorage::close", "src/braft/snapshot.cpp:LocalSnapshotStorage::init", "src/braft/snapshot.cpp:LocalSnapshotStorage::create"]}
{"id": "C33", "title": "An open snapshot is never deleted", "statement": "As long as a SnapshotReader obtained from open() has not been closed, the directory of its snapshot is not deleted, and every superseded snapshot is deleted once its last reader is closed.", "quantifier": "all interleavings of open, close and publication", "why_tests_cant": "all interleavings", "anchors": ["src/braft/snapshot.cpp:LocalSnapshotStorage::ref", "src/braft/snapshot.cpp:LocalSnapshotStorage::unref", "src/braft/snapshot.cpp:LocalSnapshotStorage::open"]}
{"id": "C34", "title": "The log is compacted only behind a published snapshot", "statement": "Log entries are discarded because of a snapshot only after that snapshot has been published in the snapshot storage; if saving the snapshot fails at any step, the log is kept and the caller's Closure gets an error.", "quantifier": "all failure points of snapshot saving", "why_tests_cant": "every I/O failure point", "anchors": ["src/braft/snapshot_executor.cpp:SnapshotExecutor::on_snapshot_save_done", "src/braft/snapshot.cpp:LocalSnapshotStorage::close"]}
{"id": "C35", "title": "Saving, downloading and loading snapshots exclude each other", "statement": "At any time a node is saving at most one snapshot and installing at most one snapshot and never both; snapshot(), install requests that would violate this get EBUSY (or are superseded by a newer install), stale installs are refused, and the recorded last snapshot index never decreases.", "quantifier": "all interleavings of snapshot requests, install requests, completions and interrupts", "why_tests_cant": "all interleavings", "anchors": ["src/braft/snapshot_executor.cpp:SnapshotExecutor::do_snapshot", "src/braft/snapshot_executor.cpp:SnapshotExecutor::register_downloading_snapshot", "src/braft/snapshot_executor.cpp:SnapshotExecutor::interrupt_downloading_snapshot"]}
{"id": "C36", "title": "Remote file copy is exact", "statement": "A file copied from a remote snapshot is byte-for-byte equal to the source, whatever the chunk size, throttling, partial reads, failures and retries.", "quantifier": "all files, all chunkings, all retry schedules", "why_tests_cant": "all chunkings and retries", "anchors": ["src/braft/remote_file_copier.cpp:RemoteFileCopier::Session", "src/braft/file_service.cpp:FileServiceImpl::get_file", "src/braft/file_reader.cpp:LocalDirReader::read_file_with_meta", "src/braft/util.cpp:FileSegData"]}
{"id": "C37", "title": "Snapshot throttle bounds throughput and tasks", "statement": "ThroughputSnapshotThrottle never hands out more bytes in one cycle than the configured per-cycle limit, never more than was asked for, and never has more installing tasks at once than the configured maximum.", "quantifier": "all request sequences and clock readings", "why_tests_cant": "unbounded request sequences", "anchors": ["src/braft/snapshot_throttle.cpp"]}
{"id": "C38", "title": "Peer ids and configurations survive text conversion", "statement": "Parsing the string form of a PeerId or Configuration gives back the same peers; parsing never accepts a role out of range.", "quantifier": "all peer ids / all configurations", "why_tests_cant": "all values", "anchors": ["src/braft/configuration.h:PeerId", "src/braft/configuration.cpp:Configuration::parse_from"]}
{"id": "C39", "title": "Configuration set algebra", "statement": "equals/contains/diffs of Configuration implement set equality, membership and set difference of peers: new = (old minus removed) plus added.", "quantifier": "all configurations", "why_tests_cant": "all sets", "anchors": ["src/braft/configuration.h:Configuration::diffs", "src/braft/configuration.h:Configuration::equals"]}
{"id": "C40", "title": "apply() is refused by anything that is not a writable leader", "statement": "apply() on a node that is not leader, is readonly, or whose term differs from the task's expected_term never appends anything to the log and fails the Closure exactly once; otherwise the tasks are appended in order with consecutive indexes in the current term.", "quantifier": "all node states and task batches", "why_tests_cant": "all states and batches", "anchors": ["src/braft/node.cpp:NodeImpl::apply"]}
{"id": "C41", "title": "Replicator acknowledges only what the follower acknowledged", "statement": "The leader counts a peer towards committing index i only after that peer answered success, in the leader's term, to an AppendEntries ending at or after i; out-of-order, stale and duplicated responses never advance progress wrongly, and next_index stays within 1..last_log_index+1.", "quantifier": "all sequences of responses", "why_tests_cant": "all response orders", "anchors": ["src/braft/replicator.cpp:Replicator::_on_rpc_returned", "src/braft/replicator.cpp:Replicator::_reset_next_index", "src/braft/replicator.cpp:Replicator::_send_entries"]}
{"id": "C42", "title": "Followers never commit beyond what they verified", "statement": "A follower's committed index never exceeds the leader's committed index nor the last index it verified to match the leader in that term.", "quantifier": "all requests and follower states", "why_tests_cant": "all requests and states", "anchors": ["src/braft/node.cpp:FollowerStableClosure::run", "src/braft/node.cpp:NodeImpl::handle_append_entries_request", "src/braft/ballot_box.cpp:BallotBox::set_last_committed_index"]}
{"id": "C43", "title": "Leadership transfer waits for the target", "statement": "transfer_leadership_to(peer) makes the leader send TimeoutNow only after the peer has acknowledged the log up to the leader's last index at the time of the request.", "quantifier": "all progress states and timings", "why_tests_cant": "all interleavings", "anchors": ["src/braft/replicator.cpp:Replicator::_transfer_leadership", "src/braft/node.cpp:NodeImpl::transfer_leadership_to"]}
{"id": "C44", "title": "Log waiters are notified exactly once", "statement": "Every LogManager::wait registration is either refused-and-run immediately or later run exactly once: on new logs, on stop, or never after successful remove_waiter.", "quantifier": "all interleavings of wait, append, remove_waiter, stop", "why_tests_cant": "all interleavings", "anchors": ["src/braft/log_manager.cpp:LogManager::wait", "src/braft/log_manager.cpp:LogManager::notify_on_new_log", "src/braft/log_manager.cpp:LogManager::remove_waiter"]}
{"id": "C45", "title": "Stable closures run after durability, in order", "statement": "A closure passed to LogManager::append_entries runs with OK only after all its entries (and all earlier ones) are in the log storage; after a storage error no later append is reported OK.", "quantifier": "all queues of appends, truncations, resets and failures", "why_tests_cant": "all batchings and failure points", "anchors": ["src/braft/log_manager.cpp:LogManager::disk_thread", "src/braft/log_manager.cpp:AppendBatcher", "src/braft/log_manager.cpp:LogManager::append_to_storage"]}
{"id": "C46", "title": "Repeated timers stop and are destroyed once", "statement": "After RepeatedTimerTask::stop() (or destroy()) returns and any run in progress ends, run() is not invoked again until start(); on_destroy() is called exactly once and only when nothing is running.", "quantifier": "all interleavings of start/stop/reset/destroy/run_once_now with timer firings", "why_tests_cant": "all interleavings", "anchors": ["src/braft/repeated_timer_task.cpp"]}
{"id": "C47", "title": "Route table consistency", "statement": "select_leader returns only a leader that was registered by update_leader/refresh_leader for that group after which no update_conf excluded it; remove_group forgets the group.", "quantifier": "all operation sequences", "why_tests_cant": "unbounded sequences", "anchors": ["src/braft/route_table.cpp"]}
{"id": "C48", "title": "Node registry consistency", "statement": "NodeManager holds at most one node per (group, peer), its per-group index lists exactly the registered nodes of that group, and removing a node never removes a different node registered under the same id.", "quantifier": "all sequences of add/remove", "why_tests_cant": "unbounded sequences", "anchors": ["src/braft/node_manager.cpp"]}
{"id": "C49", "title": "read_committed_user_log returns committed user data only", "statement": "read_committed_user_log(index) returns the first user (data) entry at or after index that is already applied, or reports an error; it never returns an entry beyond the last applied index or a configuration entry.", "quantifier": "all log contents and indexes", "why_tests_cant": "all states", "anchors": ["src/braft/node.cpp:NodeImpl::read_committed_user_log"]}
{"id": "C50", "title": "Restart never reuses a term that has log entries", "statement": "After restart with any combination of persisted meta and log, the node's current term is greater than or equal to every term in its log, and if the meta was behind the log it starts with no vote in a fresh term.", "quantifier": "all stored (term, vote) and logs", "why_tests_cant": "all stored states", "anchors": ["src/braft/node.cpp:NodeImpl::init_meta_storage"]}
{"id": "C51", "title": "A node does not start with a gap between snapshot and log", "statement": "If init() succeeds, every index above the last snapshot (or from 1 without one) up to the last log index is readable: a log that starts too late is refused.", "quantifier": "all log storages and snapshot metas found at start", "why_tests_cant": "it must hold for every combination of log range and snapshot index, including ones that arise from lost directories", "anchors": ["src/braft/log_manager.cpp:set_snapshot, check_consistency, truncate_prefix", "src/braft/node.cpp:init"]}
{"id": "C52", "title": "last_log_id(flush) is the id of the last log entry", "statement": "The id with which a node stands for election and judges candidates (the log manager's last_log_id with is_flush) is the id of the last entry of its log at the time of the question, all of which is on disk when the answer is given; or that of the snapshot if the log ends there.", "quantifier": "all histories of appends, truncations, snapshots, flushes and questions", "why_tests_cant": "the answer comes from the disk thread, whose own notion of the last id depends on the order of all jobs and rounds before it", "anchors": ["src/braft/log_manager.cpp:last_log_id, disk_thread, set_disk_id", "src/braft/node.cpp:elect_self, handle_request_vote_request"]}
{"id": "C53", "title": "A snapshot's id says what it contains", "statement": "Whenever on_snapshot_save is called for a snapshot with id (index, term), the state machine has been given exactly the data entries of the committed log up to index (since the last snapshot it loaded), and term is the term of that entry.", "quantifier": "all histories of commits, snapshot requests, loads, errors and user behaviour", "why_tests_cant": "commit notifications are merged and interleaved with snapshot tasks in the execution queue in unboundedly many ways", "anchors": ["src/braft/fsm_caller.cpp:FSMCaller::run, do_snapshot_save, do_committed"]}
{"id": "C54", "title": "Opening a damaged log", "statement": "Whatever the log directory contains, opening the log either fails or yields a log in which every closed segment holds exactly the records its file name promises, closed segments follow each other without a gap and first_log_index lies in the first of them; the log that results has no index without an entry between its first and its last index.", "quantifier": "all contents of the log directory", "why_tests_cant": "unboundedly many ways in which files can be missing, cut off or overwritten", "anchors": ["src/braft/log.cpp:SegmentLogStorage::init, list_segments, load_segments", "src/braft/log.cpp:Segment::load"]}
{"id": "C55", "title": "An installed snapshot is the remote one", "statement": "When a snapshot install succeeds, the published snapshot has exactly the file table of the remote snapshot and every file in it has the remote content, also when files are reused from an earlier attempt or from the last snapshot; and the install never changes a file of the last snapshot.", "quantifier": "all remote snapshots, all earlier attempts and local snapshots, all failures and crash points", "why_tests_cant": "crash points and left-over files of earlier attempts combine without bound", "anchors": ["src/braft/snapshot.cpp:LocalSnapshotCopier::filter_before_copy", "src/braft/snapshot.cpp:LocalSnapshotCopier::copy_file", "src/braft/snapshot.cpp:LocalSnapshotWriter::init"]}
{"id": "C56", "title": "A new peer counts as caught up only when it is", "statement": "When a membership change adds a peer, the peer is reported as caught up (and the change goes on) only after it has acknowledged every entry up to catchup_margin before the leader's last index at that moment; each such wait ends exactly once, with success, timeout or an error, at the latest when the replicator stops.", "quantifier": "all logs, orders of responses, snapshots, timers and stops", "why_tests_cant": "all interleavings of answers, timers and stops", "anchors": ["src/braft/replicator.cpp:Replicator::wait_for_caught_up", "src/braft/replicator.cpp:Replicator::_notify_on_caught_up", "src/braft/replicator.h:Replicator::_is_catchup", "src/braft/replicator.cpp:Replicator::_on_catch_up_timedout"]}
{"id": "C57", "title": "Snapshots and logs tell the same history", "statement": "Whatever mix of applying entries, loading its own snapshot at start and installing snapshots of other nodes brought a state machine to its state, that state is the result of a prefix of the one committed history: at any two moments the states of two nodes are comparable, a stored, shipped or installed snapshot is a prefix of the log of every later leader, and loading a snapshot never takes a state machine back.", "quantifier": "all executions of any number of nodes, with message loss, duplication, delay, reordering, crashes, membership changes, compaction and snapshot transfers", "why_tests_cant": "requires all interleavings of snapshot transfer, replication, elections and crashes", "anchors": ["src/braft/snapshot_executor.cpp:SnapshotExecutor::install_snapshot", "src/braft/snapshot_executor.cpp:SnapshotExecutor::on_snapshot_load_done", "src/braft/fsm_caller.cpp:FSMCaller::do_snapshot_load", "src/braft/log_manager.cpp:LogManager::set_snapshot", "src/braft/node.cpp:NodeImpl::handle_install_snapshot_request"]}
{"id": "C58", "title": "Buffered file adaptors deliver exactly the bytes", "statement": "A file read through BufferedSequentialReadFileAdaptor is the file: every successful read returns the bytes at the asked offset, short only at the end of the file, and a retry returns the same; after a failure of do_read no read succeeds. When a BufferedSequentialWriteFileAdaptor closes successfully, the device holds every accepted piece at its offset.", "quantifier": "all files, offsets, sizes, piece sizes of do_read and partial writes of do_write, failures", "why_tests_cant": "the behaviour depends on every sequence of piece sizes, offsets and failures", "anchors": ["src/braft/file_system_adaptor.cpp:BufferedSequentialReadFileAdaptor::read", "src/braft/file_system_adaptor.cpp:BufferedSequentialWriteFileAdaptor::write", "src/braft/file_system_adaptor.h:BufferedSequentialReadFileAdaptor::size"]}
{"id": "C59", "title": "The file service serves only registered snapshots and their listed files", "statement": "get_file answers for a reader id with the directory that was registered under that id and only with files that the snapshot lists; an id is handed out once, a removed one answers ENOENT for ever, and ids of an earlier process are not reused.", "quantifier": "all histories of add_reader, remove_reader and get_file, all start times and pids", "why_tests_cant": "all histories; ids only collide after very long or rare histories", "anchors": ["src/braft/file_service.cpp:FileServiceImpl::get_file", "src/braft/file_service.cpp:FileServiceImpl::add_reader", "src/braft/file_service.cpp:FileServiceImpl::remove_reader", "src/braft/snapshot.cpp:SnapshotFileReader::read_file"]}
{"id": "C60", "title": "A snapshot copy stays in its directory", "statement": "Copying a snapshot from another node changes the file system only below the directory of the snapshot writer, whatever file names the other node lists; the snapshots that are already stored are not touched. create_sub_directory makes directories only below its parent.", "quantifier": "all lists of file names, decisions per file and failures of calls", "why_tests_cant": "file names are under the control of the other side", "anchors": ["src/braft/snapshot.cpp:LocalSnapshotCopier::copy_file", "src/braft/snapshot.cpp:LocalSnapshotCopier::filter_before_copy", "src/braft/file_system_adaptor.cpp:create_sub_directory", "src/braft/remote_file_copier.cpp:RemoteFileCopier::start_to_copy_to_file"]}
{"id": "C61", "title": "The command line service acts on the named node and reports the change", "statement": "A command is executed by the registered node that was named (or the only one of the group), if it allows the service. When a membership command succeeds, old_peers in the answer are the members before the change and new_peers those after it. The leader that the client tools use was named by a peer of the group.", "quantifier": "all registries, configurations, requests and concurrent changes", "why_tests_cant": "all registries and interleavings with other changes", "anchors": ["src/braft/cli_service.cpp:CliServiceImpl::get_node", "src/braft/cli_service.cpp:add_peer_returned", "src/braft/cli_service.cpp:remove_peer_returned", "src/braft/cli_service.cpp:change_peers_returned", "src/braft/cli_service.cpp:CliServiceImpl::get_leader", "src/braft/cli.cpp:get_leader"]}
{"id": "C62", "title": "Log entries survive network and storage encodings", "statement": "The entries that a follower hands to its log for an AppendEntries request are those that the leader read from its own log: same index, term, type, configuration and data (no data for a witness). A configuration entry that is loaded from disk has the peers and old peers with which it was stored.", "quantifier": "all lists of entries and configurations", "why_tests_cant": "all contents", "anchors": ["src/braft/replicator.cpp:Replicator::_prepare_entry", "src/braft/node.cpp:NodeImpl::handle_append_entries_request", "src/braft/log_entry.cpp:serialize_configuration_meta", "src/braft/log_entry.cpp:parse_configuration_meta"]}
{"id": "C63", "title": "The state machine is told the role of its node, in order", "statement": "The calls on_leader_start, on_leader_stop, on_start_following, on_stop_following and on_shutdown fit together in every history: between two on_leader_start comes an on_leader_stop, on_start_following is followed by on_stop_following with the same leader and term, a state machine never leads and follows at once, terms do not go back, nothing comes after on_shutdown; no call is lost (when the tasks are done they say what the node is); on_leader_start comes only after everything committed before the election has been given to on_apply.", "quantifier": "all interleavings of elections, step downs, transfers, errors, shutdown, commits and the execution of the FSMCaller's tasks", "why_tests_cant": "interleavings of the node's critical sections with the tasks of the FSMCaller", "anchors": ["src/braft/node.cpp:NodeImpl::step_down", "src/braft/node.cpp:NodeImpl::reset_leader_id", "src/braft/node.cpp:ConfigurationChangeDone", "src/braft/node.cpp:NodeImpl::transfer_leadership_to", "src/braft/node.cpp:NodeImpl::handle_transfer_timeout", "src/braft/fsm_caller.cpp:FSMCaller::run"]}
{"id": "C64", "title": "Leadership transfer", "statement": "transfer_leadership_to(peer): it is accepted only by a leader with no configuration change going on, for a peer of the configuration whose last RPC did not fail; otherwise an error code is returned and nothing changes. For ANY_PEER, and for the peer that is woken when a leader quits, the peer chosen is not a witness and no other such peer has acknowledged more. One transfer goes on at a time and no entries are accepted meanwhile; the timer of a transfer ends that transfer and no other.", "quantifier": "all configurations, replicator states and shuffles; all histories of transfers, timers, appends, step downs and replicator events", "why_tests_cant": "races of timers with step down and later transfers; all states of the replicators", "anchors": ["src/braft/node.cpp:NodeImpl::transfer_leadership_to", "src/braft/node.cpp:NodeImpl::handle_transfer_timeout", "src/braft/replicator.cpp:ReplicatorGroup::transfer_leadership_to", "src/braft/replicator.cpp:ReplicatorGroup::find_the_next_candidate"]}
{"id": "C65", "title": "A leader without a majority steps down", "statement": "At every step-down check a leader goes on to lead iff it is not a witness and a majority of its configuration (and of the old one during a joint change) is the leader itself or has answered an RPC that was sent at most the election timeout ago. So a leader that is cut off from a majority leads for at most the time between checks plus the election timeout, and a leader in contact is not disturbed.", "quantifier": "all configurations, all histories of answers, replicator starts and stops, configuration and timeout changes, all times", "why_tests_cant": "timings and combinations of silent peers", "anchors": ["src/braft/node.cpp:NodeImpl::handle_stepdown_timeout", "src/braft/node.cpp:NodeImpl::check_dead_nodes", "src/braft/node.cpp:NodeImpl::check_witness", "src/braft/replicator.h:Replicator::_update_last_rpc_send_timestamp"]}
{"id": "C66", "title": "Acknowledged entries survive power failures", "statement": "Once append_entries has acknowledged entries (with raft_sync on), a power failure at any later point - also during another operation or during recovery - does not lose them: the next init succeeds and shows every acknowledged entry at its index unless a later truncation or reset was meant to remove it, and the log shown is one the history of calls allows.", "quantifier": "all histories of appends, truncations, resets, kills and restarts; all points of failure, all lengths of the data that survives in each file, all lists of entries, segment sizes, checksums and sync flags", "why_tests_cant": "a test cannot cut the power at every instruction with every choice of surviving data", "anchors": ["src/braft/log.cpp:Segment::append", "src/braft/log.cpp:Segment::sync", "src/braft/log.cpp:Segment::close", "src/braft/log.cpp:SegmentLogStorage::append_entries", "src/braft/log.cpp:SegmentLogStorage::save_meta", "src/braft/protobuf_file.cpp:ProtoBufFile::save"]}
{"id": "C67", "title": "Term and vote survive power failures (file storage)", "statement": "With raft_sync or raft_sync_meta on, once set_term_and_votedfor of the file-based meta storage has returned OK, a power failure at any later point leaves a directory whose init succeeds and returns that pair (or that of a later set), never an older or a torn one.", "quantifier": "all histories of sets (succeeding, failing, killed at any call), restarts and power failures; all lengths of surviving data, all pairs", "why_tests_cant": "a test cannot cut the power at every point with every surviving state of the directory", "anchors": ["src/braft/protobuf_file.cpp:ProtoBufFile::save", "src/braft/protobuf_file.cpp:ProtoBufFile::load", "src/braft/raft_meta.cpp:FileBasedSingleMetaStorage::set_term_and_votedfor", "src/braft/file_system_adaptor.cpp:PosixFileSystemAdaptor::rename"]}
{"id": "C68", "title": "Term and vote survive power failures (mixed storage)", "statement": "With the mixed storage (file and leveldb) and synced writes, get_term_and_votedfor at a restart never returns anything older than the newest pair acknowledged by a set or get, even if a power failure takes the file back to an older pair, and never refuses because of a conflict that the two storages did not have at first.", "quantifier": "all initial contents of the two stores, all histories of sets and gets with failures of every inner write, kills and power failures", "why_tests_cant": "combinations of lost, kept and reverted writes in two stores", "anchors": ["src/braft/raft_meta.cpp:MixedMetaStorage::get_term_and_votedfor", "src/braft/raft_meta.cpp:MixedMetaStorage::set_term_and_votedfor", "src/braft/raft_meta.cpp:KVBasedMergedMetaStorageImpl::run_tasks"]}
{"id": "C69", "title": "A node never names a false leader", "statement": "The leader that leader_id() and on_start_following name for a term did become leader of that term; two nodes that name a leader for the same term, at whatever moments, name the same one; a leader names nobody but itself; and no node ever receives requests from two leaders of one term.", "quantifier": "all executions of a group: elections, vote handling, replication, membership changes, transfers, snapshots, message loss, duplication, delay and reordering, crashes", "why_tests_cant": "schedules, crash points and message orders of unbounded executions", "anchors": ["src/braft/node.cpp:NodeImpl::check_step_down", "src/braft/node.cpp:NodeImpl::reset_leader_id", "src/braft/node.cpp:NodeImpl::become_leader", "src/braft/node.cpp:NodeImpl::elect_self", "src/braft/node.cpp:NodeImpl::handle_append_entries_request", "src/braft/node.cpp:NodeImpl::handle_install_snapshot_request"]}
{"id": "C70", "title": "A leader replicates to all members and nobody else", "statement": "While a node leads, it replicates to every other member of the configuration in force (of both configurations during a change in two stages) and to every peer it is about to add; to itself and to any other peer it does not, except to a peer a change in progress removes. A node that does not lead replicates to nobody. A leader without a change in progress is a member of its configuration.", "quantifier": "all histories of a node: membership changes and their failures, elections, step-downs, transfers of leadership, reset_peers, shutdown, failures of replicators to start and of the log", "why_tests_cant": "histories of changes and failures are unbounded", "anchors": ["src/braft/node.cpp: become_leader, stop_replicator, ConfigurationCtx::start, reset, next_stage, step_down", "src/braft/replicator.cpp: ReplicatorGroup::add_replicator, stop_replicator, stop_all"]}
{"id": "C71", "title": "Heartbeats go on, one at a time", "statement": "For as long as a leader replicates to a peer, exactly one heartbeat is under way (waiting for its timer, being sent, or waiting for its answer), whatever becomes of the RPCs and timers; two heartbeats in a row are at least the heartbeat timeout apart, and at most half the election timeout plus the heartbeat timeout plus the delays of the system; after replication has been stopped no heartbeat is sent and no timer is left.", "quantifier": "all schedules of timers, bthreads, answers, failures and timeouts of RPCs, changes of the election timeout, and the end of the replicator at any moment", "why_tests_cant": "schedules and delays; runs without end", "anchors": ["src/braft/replicator.cpp: start, _start_heartbeat_timer, _on_timedout, _on_error, _send_heartbeat, _send_empty_entries, _on_heartbeat_returned", "src/braft/node.cpp: heartbeat_timeout, unsafe_reset_election_timeout_ms"]}
{"id": "C72", "title": "What replicators share is freed once and not used afterwards", "statement": "The status that a replicator shares with its group is never accessed after it was freed, is freed exactly once, and is freed as soon as neither needs it; a replicator holds a reference to its node exactly for as long as it lives.", "quantifier": "all interleavings of add_replicator, reads, stop_replicator and the life of the replicator, and all failures in starting it", "why_tests_cant": "the windows are a few instructions wide; failures of bthread_id_create", "anchors": ["src/braft/replicator.cpp: Replicator::start, ~Replicator, _destroy, ReplicatorGroup::add_replicator, stop_replicator", "src/braft/replicator.h: ReplicatorStatus, ReplicatorIdAndStatus"]}
{"id": "C73", "title": "A storage URI names one storage, and gc removes exactly the storages of its instance", "statement": "LogStorage/SnapshotStorage/RaftMetaStorage destroy(uri) acts on the storage that create(uri) opens and fails for URIs that create refuses. When gc_raft_data returns 0 nothing is left in the directories of the instance and its term and vote are gone; whatever it returns and wherever it is killed, files of other storages and the votes of other groups are untouched, and a directory is either complete or absent under its name, so a half deleted storage is never opened again, and gc can be repeated until it succeeds.", "quantifier": "all URIs, all registered types, all file trees and merged databases, all failing file operations and all points at which the process is killed", "why_tests_cant": "failures and kills inside rename and recursive deletion, and all texts of URIs", "anchors": ["src/braft/storage.h: parse_uri, gc_dir", "src/braft/storage.cpp: create, destroy", "src/braft/raft_meta.cpp: parse_mixed_path, MixedMetaStorage, gc_instance, remove_instance_from_meta_storage", "src/braft/raft.cpp: gc_raft_data"]}
{"id": "C74", "title": "A node always runs the timer of its role, and an inactive node stays inactive", "statement": "From NodeImpl::init on, under any interleaving of timer callbacks, requests, responses and API calls: a follower that has a configuration or knows a leader has its election timer running, a candidate its vote timer, a leader its step-down timer (so it campaigns, retries or notices a lost quorum without a message from outside), and neither of the other two; after on_error or shutdown the node never becomes follower, candidate or leader again and its term does not change; after shutdown no timer runs; the CHECK of become_leader never fails. A pre-vote ignores a valid follower lease only because of a call of vote(), at most once per call. vote(ms) and reset_election_timeout_ms(ms) refuse timeouts above election_timeout_ms + max_clock_drift_ms and keep this sum, so the lease of a leader never outlasts the refusal of a follower with the same options.", "quantifier": "all interleavings of critical sections, including everything that runs while pre_vote and elect_self have released the mutex; all sequences of timeouts", "why_tests_cant": "the windows without the mutex and the races of timers against requests cannot be enumerated", "anchors": ["src/braft/node.cpp: init, handle_election_timeout, handle_vote_timeout, pre_vote, elect_self, become_leader, step_down, grant_self, on_error, shutdown, vote, reset_election_timeout_ms", "src/braft/repeated_timer_task.cpp"]}
{"id": "C75", "title": "A read under a valid lease misses nothing", "statement": "When get_leader_lease_status reports LEASE_VALID on a node for term T, the node's log holds every entry that any leader has ever committed, the node knows that they are committed, and its state machine has applied every entry committed in an earlier term and everything that the state machine of any node still in an earlier term (such as a deposed leader that has not noticed) contains. So a read of the local state machine that first waits for the node's own commit index, or reads what the node itself has answered, is linearizable.", "quantifier": "all timings within the clock drift, all schedules of heartbeats, votes, entries, snapshots, crashes, transfers and membership changes", "why_tests_cant": "needs every timing of a deposed leader against a new one", "anchors": ["src/braft/lease.cpp", "src/braft/node.cpp:get_leader_lease_status, leader_lease_start, become_leader, ConfigurationChangeDone", "src/braft/fsm_caller.cpp:do_committed, do_leader_start", "src/braft/ballot_box.cpp:commit_at"]}
{"id": "C76", "title": "The log manager of every server answers and stores the protocol's log", "statement": "In every execution of a group of servers, as long as the log storage of a server has not failed: get_entry, get_term and last_log_id of its log manager answer with the entry, term and last id of the protocol's log (or nothing / 0 for indexes that its snapshot covers and that were compacted); the storage holds the protocol's durable log from its first index on; every storage call that waits for the disk thread is inside the storage's contract, and after all of them the storage is the log; check_consistency holds. The next entry to apply can always be read. Consequently state machine safety, leader completeness and log matching hold for what log managers answer. If a storage call fails or the process ends at any point of it, the server can be started again with what the storage then holds, and all this holds again.", "quantifier": "all interleavings of elections, requests, own appends, snapshots saved and installed, applied ids, removals from memory, rounds and batches of the disk thread, failures at any point of any storage call, restarts", "why_tests_cant": "the lag between memory, disk queue and storage, times every protocol schedule and crash point", "anchors": ["src/braft/log_manager.cpp: append_entries, check_and_resolve_conflict, unsafe_truncate_suffix, set_snapshot, truncate_prefix, reset, get_entry, get_term, last_log_id, disk_thread, set_disk_id, set_applied_id, clear_memory_logs, clear_bufferred_logs, check_consistency", "src/braft/node.cpp: handle_append_entries_request, become_leader, apply, init", "src/braft/fsm_caller.cpp: do_committed, do_snapshot_load", "src/braft/snapshot_executor.cpp: on_snapshot_save_done, on_snapshot_load_done, init"]}
{"id": "C77", "title": "A task, end to end: from apply() to every state machine", "statement": "In every execution of a group of servers: the closure on_apply gets with an entry is one given to apply() of that process, with that data and expected term; the index is committed; the entry is in the log of every later leader and of every node that counts the index as committed. For one index on_apply gets the same data on all nodes, at all times and after any restarts. What a state machine contains (its loaded snapshot plus what on_apply was given since) is exactly the data entries of the log up to an index, in order and each once; any two state machines, at any two moments, are one the beginning of the other. Every closure is run or handed out at most once while the state machine does not roll back, and all are answered once the queue is empty and the node has stepped down or applied its log.", "quantifier": "all interleavings of elections, votes, replication, acknowledgements, lost or delayed messages, disk threads, configuration changes, snapshots saved and installed, restarts, tasks given to any node, batches, rounds of the state machine threads with any user code and any failing reads", "why_tests_cant": "the histories of several nodes and their threads are combined; a test sees a few of them", "anchors": ["src/braft/node.cpp: apply, execute_applying_tasks, become_leader, step_down, handle_append_entries_request, handle_install_snapshot_request", "src/braft/ballot_box.cpp", "src/braft/closure_queue.cpp", "src/braft/fsm_caller.cpp: run, do_committed, do_snapshot_load, do_snapshot_save", "src/braft/snapshot_executor.cpp"]}
{"id": "C78", "title": "Tasks are linearizable: the order of indexes agrees with real time", "statement": "If an index has been handed to on_apply of some node, a task given to any node afterwards whose closure comes back with on_apply has a larger index. For one index at most one closure is ever handed to a state machine, on one node, over the whole execution. (A closure that is run with an error says nothing about its task: it may be committed later by another leader.)", "quantifier": "all executions of the group, all pairs of moments, nodes and tasks", "why_tests_cant": "a violation needs a stale leader and a particular schedule of its queue, its log and the other nodes", "anchors": ["src/braft/node.cpp: apply, execute_applying_tasks, become_leader, step_down", "src/braft/ballot_box.cpp", "src/braft/closure_queue.cpp", "src/braft/fsm_caller.cpp: do_committed"]}
{"id": "C79", "title": "A group never gets stuck", "statement": "In whatever state crashes, elections, lost messages, snapshots and partitions have left a group: once a majority of its servers is up and can talk to each other, a leader can be elected and a task can be applied on all of them without any further failure, and without an operator. For a group whose membership never changes this holds in every reachable state. In general it needs a majority in which a server whose log is not behind the others' is a member of the last configuration of its own log; a group of two whose leader removes itself and restarts at the wrong moment has none and can never elect a leader again (violation).", "quantifier": "all reachable states of the group, all majorities, all tasks", "why_tests_cant": "a test drives the group through a few histories; a dead end needs a particular history before it, and that there is no way out of it is a statement about all continuations", "anchors": ["src/braft/node.cpp: elect_self, pre_vote, handle_request_vote_request, handle_request_vote_response, become_leader, handle_append_entries_request", "src/braft/replicator.cpp: _send_entries, _on_rpc_returned", "src/braft/ballot_box.cpp: commit_at, set_last_committed_index", "src/braft/fsm_caller.cpp: do_committed"]}
{"id": "C80", "title": "A crash never leaves a gap between snapshot and log", "statement": "If the process is killed or the power fails at any moment while snapshots are saved, installed and recorded and the log is compacted, the node starts again and every index above the snapshot it finds, up to the end of its log, can be read: the log is not found shorter than the snapshot that is found requires. This holds if snapshots and log are on one filesystem that keeps the order of changes; on two filesystems it holds for snapshots the node takes itself (each published after the previous one's directory got to disk), but an installed snapshot, or a snapshot request soon after a snapshot, leaves a gap that start-up does not notice, because the directory is never fsynced (violation).", "quantifier": "all histories of appends, truncations, snapshots and crashes, all moments of failure, all earlier states the filesystems may show", "why_tests_cant": "a test cannot make the filesystem forget a rename it has acknowledged, nor enumerate the moments at which power may fail", "anchors": ["src/braft/snapshot.cpp: LocalSnapshotStorage::close, unref, init", "src/braft/snapshot_executor.cpp: on_snapshot_save_done, on_snapshot_load_done, do_snapshot", "src/braft/log_manager.cpp: set_snapshot, clear_bufferred_logs, check_consistency, disk_thread", "src/braft/node.cpp: NodeImpl::init"]}
{"id": "C81", "title": "Shutting a node down", "statement": "However shutdown(), join(), the destructor and the node's threads interleave: the node is not used after it is freed, it is freed only when the Node object, the state machine's queue and everybody else gave it up; a closure passed to shutdown() runs at most once and, once the state machine's queue was started, exactly once without further help; on_shutdown is called exactly once then, as the last callback; after shutdown() and join() returned the state machine is not called any more. If init() failed before the queue was started the closure is lost, and if the queue cannot be started the node is never freed (violations).", "quantifier": "all histories and interleavings of init, shutdown (any number of calls), queued tasks, join, destruction and references held by others", "why_tests_cant": "the races between after_shutdown, late shutdown() calls, join and the destructor depend on the schedule, and a use after free shows only under some of them", "anchors": ["src/braft/node.cpp: NodeImpl::shutdown, join, after_shutdown, init_fsm_caller", "src/braft/fsm_caller.cpp: FSMCaller::init, shutdown, do_shutdown, join", "src/braft/raft.cpp: Node::~Node, Node::shutdown"]}
{"id": "C82", "title": "Bootstrap", "statement": "bootstrap() on an unused node returns 0 and stores the state machine's data as a snapshot of the first last_log_index entries and the configuration as the entry behind it; wherever the process ends, the disk is unchanged, has the snapshot only, or is complete, and repeating the call completes it; a node started from it has that configuration, that data and log. When a majority of the members were bootstrapped with the same data, the group keeps the guarantees of one leader per term, log matching, leader completeness and state machine safety, every leader's log begins with the bootstrapped data, and no state machine applies anything else in its place. Violated: with a snapshot gap flag above last_log_index the call returns 0 without storing the data; a second call appends another configuration; a node started after an interrupted call has no configuration; an empty snapshot_uri dereferences NULL; a bootstrapped minority may be outvoted.", "quantifier": "all options, all crash points of the call, all numbers and contents of entries; all executions of the group afterwards, with crashes, message loss, reordering and duplication", "why_tests_cant": "what an interrupted bootstrap leaves depends on the crash point, and that no later election forgets the data holds for all schedules", "anchors": ["src/braft/node.cpp: NodeImpl::bootstrap, NodeImpl::init, init_meta_storage, init_snapshot_storage", "src/braft/snapshot_executor.cpp: SnapshotExecutor::do_snapshot, init", "src/braft/log_manager.cpp: set_snapshot, append_entries, check_consistency"]}
{"id": "C83", "title": "Witnesses", "statement": "In a group some of whose members are witnesses, which get entries without data and snapshots without files, there is one leader per term, nodes that are no witnesses have matching logs, later leaders hold what was committed, and no two nodes that are no witnesses apply different entries at an index; the entries of a witness agree with theirs in terms and configurations, so that it counts for quorums. The data that a node which is no witness applies or stores is what was submitted to the leader of that term, at the index it got there, never the empty data of a witness. With raft_enable_witness_to_leader off a witness never becomes leader; with it on it stores the data and replicates it as it is. Violated: transfer_leadership_to does not refuse a witness, whatever the flag; the witness then leads and replicates empty data, and nodes apply different entries; the same happens when the flag is turned on in a group that ran without it.", "quantifier": "all group sizes, sets of witnesses, executions, with crashes, message loss, reordering and duplication, at any two moments", "why_tests_cant": "that the missing data on a witness never reaches another node depends on all later elections and schedules", "anchors": ["src/braft/raft.h: NodeOptions::witness", "src/braft/node.cpp: NodeImpl::init, transfer_leadership_to, handle_timeout_now_request, check_witness", "src/braft/replicator.cpp: Replicator::_prepare_entry, _install_snapshot", "src/braft/snapshot.cpp: LocalSnapshotCopier::start"]}
{"id": "C84", "title": "Integrity and order of submissions", "statement": "Every data entry handed to on_apply, stored in a log or contained in a snapshot was a task of a Node::apply call at a node that led the entry's term at that moment, and has the index that leader gave it. A value submitted in one task only is applied at one index only, on all nodes and at all times. Tasks accepted in one term are applied in the order of acceptance, and a node that has one of them has all those accepted before it in that term.", "quantifier": "all histories of groups of any size, with any tasks, crashes, elections, snapshots, membership changes, message loss, reordering and duplication", "why_tests_cant": "duplication, invention or reordering of tasks would only show up under particular schedules of elections, truncations and snapshots", "anchors": ["src/braft/raft.h: Node::apply, StateMachine::on_apply", "src/braft/node.cpp: NodeImpl::apply, handle_append_entries_request", "src/braft/log_manager.cpp: append_entries, check_and_resolve_conflict", "src/braft/fsm_caller.cpp: do_committed"]}
{"id": "C85", "title": "A membership change, end to end", "statement": "A configuration entry is appended only by a leader whose configuration entries are all committed: after a configuration either one that differs by one peer or the joint one, after a joint configuration its new part; other steps of a leader append data only, and a new leader first repeats the configuration of its log. Whatever change_peers, add_peer, remove_peer, a catch-up or a closure does, the configuration the node reports is the last one of its log. A membership change answered with OK has its peers in a committed configuration, which every later leader has at the same index. A leader with no change under way has a committed configuration that is not joint.", "quantifier": "all histories of groups of any size, with any requests at any nodes, catch-up results, elections, step-downs, restarts, and closures run at any time after their entry's fate is decided", "why_tests_cant": "needs all interleavings of a change with elections, step-downs, late closures and late catch-up results on all nodes", "anchors": ["src/braft/node.cpp: NodeImpl::change_peers, ConfigurationCtx, ConfigurationChangeDone, unsafe_apply_configuration, on_caughtup, step_down, become_leader", "src/braft/raft.h: Node::add_peer, Node::remove_peer, Node::change_peers, Node::list_peers"]}
{"id": "C86", "title": "Requests reach the node they name, with what was asked", "statement": "An administration command (add_peer, remove_peer, change_peers, transfer_leader, reset_peer, snapshot) calls no node but the registered one of the named group whose address is that of the peer it names, or that a node of the group named as the leader, and only if that node allows the service; it asks it exactly for what the command says, in every attempt. If it returns OK, such a node ran the closure with OK, or the command transfers leadership to a peer that was named as the leader. A raft message reaches exactly the registered node that its sender names, or is refused.", "quantifier": "all commands, groups, configurations, peers, states of the processes at every remote call, lost answers and repeated attempts", "why_tests_cant": "needs all peers and configurations through printing and parsing, and all states of several processes between the calls of one command", "anchors": ["src/braft/cli.cpp: add_peer, remove_peer, change_peers, transfer_leader, reset_peer, snapshot, get_leader", "src/braft/cli_service.cpp: CliServiceImpl", "src/braft/raft_service.cpp: RaftServiceImpl", "src/braft/configuration.h: PeerId::parse, PeerId::to_string"]}
{"id": "C87", "title": "What get_status reports fits the log, the snapshot and the state machine", "statement": "However the three reads of get_status interleave with the node's work: first_index is at most last_index+1 and known_applied_index+1; the entries from first_index to last_index are on disk; known_applied_index counts the entries the state machine has, all of them committed or part of the snapshot; entries are pending at leaders only, after committed_index and to the end of the log; what is up to committed_index is permanent in the group; term, committed_index and known_applied_index never go back while the process runs; two reports of the same term do not name different leaders.", "quantifier": "all nodes, histories of the group with losses, crashes and restarts, and interleavings of the reads of one call with everything else", "why_tests_cant": "the reads are not atomic; needs all interleavings and all histories", "anchors": ["src/braft/node.cpp: NodeImpl::get_status", "src/braft/log_manager.cpp: LogManager::get_status", "src/braft/ballot_box.cpp: BallotBox::get_status", "src/braft/raft.h: NodeStatus"]}
{"id": "C88", "title": "A snapshot's readers are told what its writer was told", "statement": "After any calls of add_file, remove_file and save_meta, list_files names exactly the files added and not removed since, once each; get_file_meta gives the metadata of the add that succeeded; adding a listed file and removing an unlisted one fail and change nothing. After the table was written to disk and loaded, list_files, get_file_meta and load_meta answer the same; on a peer that fetched it they answer the same but for the source of a file. Bytes that are not a table are refused.", "quantifier": "all sequences of calls, file names, metadata and configurations (any bytes), all contents of the loading table and all bytes loaded", "why_tests_cant": "needs all names, metadata and call sequences through the encoding", "anchors": ["src/braft/snapshot.cpp: LocalSnapshotMetaTable, LocalSnapshotWriter::add_file, remove_file, save_meta, sync", "src/braft/snapshot.cpp: LocalSnapshotReader::load_meta, list_files, get_file_meta", "src/braft/protobuf_file.cpp: ProtoBufFile::save, load", "src/braft/local_storage.proto: LocalSnapshotPbMeta"]}
{"id": "C89", "title": "Indexes survive in the names of files", "statement": "A closed segment, an open segment and a snapshot are found again under exactly the indexes they were made with, none is taken for another kind, and different ones have different names. When a log directory holds only what braft made, listing it finds every closed segment once, ordered by index, and the open segment, and unlinks exactly the temporary files, in whatever order the directory lists them; it fails only when there are two open segments. At start the newest snapshot is kept and all older ones are deleted. Files with other names are left alone.", "quantifier": "all int64 indexes, all directories and all orders of their entries", "why_tests_cant": "tests use small positive indexes and the order of one file system; widths, signs and orders matter only in combinations a test does not meet", "anchors": ["src/braft/log.cpp: SegmentLogStorage::list_segments, BRAFT_SEGMENT_OPEN_PATTERN, BRAFT_SEGMENT_CLOSED_PATTERN", "src/braft/snapshot.cpp: LocalSnapshotStorage::init, LocalSnapshotReader::snapshot_index, BRAFT_SNAPSHOT_PATTERN"]}
{"id": "C90", "title": "get_status lists the followers of a leader and where they are", "statement": "With a new NodeStatus, a leader lists as stable followers exactly the other members of its configuration; as unstable followers only peers that a change in progress adds or removes, and all of those it is to add; never itself and nobody twice. A node that does not lead lists nobody. leader_id is the node itself if it leads, the leader it knows if it follows, and empty otherwise. An entry is valid exactly if a replicator is running for the peer. A valid entry's next_index is from 1 to one above the last index, the entries in flight are those just below it, none are in flight while it is blocking or installing a snapshot, and once the peer has answered it has acknowledged everything before them.", "quantifier": "all histories of elections, step-downs, transfers, membership changes and failures; all runs of the replicators; all moments at which replicators are asked after the node was", "why_tests_cant": "get_status looks at the node and at each replicator at different moments while changes go on", "anchors": ["src/braft/node.cpp: NodeImpl::get_status", "src/braft/replicator.cpp: Replicator::get_status, Replicator::_get_status, ReplicatorGroup::list_replicators", "src/braft/raft.h: NodeStatus, PeerStatus"]}
{"id": "C91", "title": "Nodes are registered only at addresses that are served", "statement": "An address counts as served only while there is a server that has all four services of braft, its raft service at that address or at that port on all interfaces. When add_service returns 0 the address is served; a server that add_service adds the services to has all of them, and a failed call changes no address. When the server that serves an address is destroyed the address is no longer served. A node is registered only at an address that is served.", "quantifier": "all histories of servers made, started and destroyed and of calls of add_service, at the same time too, whichever calls of AddService fail", "why_tests_cant": "depends on the order of creation and destruction of servers, on partial failures and on calls that overlap", "anchors": ["src/braft/node_manager.cpp: NodeManager::add_service, NodeManager::server_exists, NodeManager::remove_address, NodeManager::add", "src/braft/raft_service.cpp: RaftServiceImpl::~RaftServiceImpl", "src/braft/raft.cpp: add_service"]}
{"id": "C92", "title": "The merged meta storage keeps each group's last stored term and vote", "statement": "After set_term_and_votedfor of a group reported success, and until the next call for that group, the record of the group is exactly that pair, whatever other groups do, whichever batches fail and however often the process is killed. A record is never older than the last pair reported as stored, and always a pair some call for that very group put in. Every call is answered at most once, in the order of the calls; all calls in one batch get its result, no more than raft_meta_write_batch of them; without a kill every call is answered in the end.", "quantifier": "all histories of calls by any number of groups, all ways the queue is cut into batches, all failures of writes with or without effect, deletions and kills", "why_tests_cant": "calls of many groups are batched as timing has it, and a failed or interrupted write may have taken effect", "anchors": ["src/braft/raft_meta.cpp: KVBasedMergedMetaStorageImpl::run, run_tasks, set_term_and_votedfor, get_term_and_votedfor, delete_meta"]}
{"id": "C93", "title": "Periodic snapshots are tried at the interval", "statement": "With snapshot_interval_s > 0, from the start of the node to its shutdown the next try to make a snapshot is always due no later than the interval from now: the first one at a random moment within the interval after the start, each later one exactly the interval after the one before it ended. Two tries are never closer than the interval, an inactive node makes none, and a destroyed timer makes none.", "quantifier": "all moments at which timers fire late, all durations of tries, all moments of shutdown, all random numbers, all intervals that fit in an int of milliseconds", "why_tests_cant": "depends on timing and on how long snapshots take", "anchors": ["src/braft/node.cpp: SnapshotTimer::adjust_timeout_ms, NodeImpl::handle_snapshot_timeout, NodeImpl::init", "src/braft/repeated_timer_task.cpp: RepeatedTimerTask::schedule, on_timedout"]}
