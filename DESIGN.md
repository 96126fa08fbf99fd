# Formal model of baidu/braft in Lean 4

## Trusted base

* Lean 4.33.0's kernel. Each theorem listed in MANIFEST.json depends on no axioms other than
  (a subset of) `propext`, `Classical.choice`, `Quot.sound`. No axioms are added, no
  compiled-code reflection is used.
* The hand translation from the C++ in /repo to the Lean definitions. Each definition cites
  the file and lines it models and states its simplifications. Nothing is extracted
  automatically; the model is only as faithful as these translations.
* The small specifications the theorems are stated against (in the property files).

### Modelled / not modelled

| Code | Lean module | What is taken as given, and what is left out |
|------|-------------|------|
| ballot.{h,cpp} | Ballot | - |
| ballot_box.cpp | BallotBox | closure queue separate |
| closure_queue.cpp | ClosureQueue | - |
| configuration.{h,cpp} | Peer, PeerText | text level: printing and parsing on character lists |
| configuration_manager.cpp | ConfManager | - |
| repeated_timer_task.cpp | Timer | bthread timers: run at most once, deletion tells whether it will |
| snapshot_throttle.cpp | Throttle | wall clock as an argument |
| route_table.cpp, node_manager.cpp | Registry | maps; readers of DoublyBufferedData see a whole version |
| lease.cpp, node.cpp (last_leader_active_timestamp, lease paths) | Lease, LeaseNet, LeaseInv, LeaseSteps, LeaseSafe, Readonly | time as an integer argument, clocks drift within `skew`; logs abstracted by `Compat` |
| the same together with logs, votes, replication, commitment, snapshots and membership changes | LeaseRaft, LeaseRaftInv/Steps/Lead/Foll/Rest/Safe | product of LeaseNet and Raft/Model: one event of node.cpp is one action of both; `Compat` is derived; Raft side under all environment assumptions |
| node.cpp apply, read_committed_user_log, init_meta_storage | Apply, NodeLocal | - |
| node.cpp apply to fsm_caller.cpp, composed | Pipe, PipeInv, PipeRun | the log is one list (no compaction); a snapshot is loaded with no closure waiting and an index the log has; commit indexes, acknowledgements and the follower's log come from outside within C03, C16, C41, C42 |
| node.cpp pre_vote/elect_self | PreVote | two critical sections are two steps |
| node.cpp AppendEntriesCache | Node/AeCache | results of timer calls are step arguments; a failed CHECK sets `aborted` |
| node.cpp ConfigurationCtx | Node/ConfCtx | OnCaughtUp and ConfigurationChangeDone closures run at any time, in any order, once; every request has a closure; configurations are sets; `bad` = failed CHECK |
| fsm_caller.cpp | Fsm, FsmInv, FsmRun | the user's on_apply is an arbitrary list of next/rollback calls per index; pops from the closure queue are in range (C12); shutdown left out |
| log.cpp | Store/Record, Segment, SegLog* | file system calls are atomic and ordered, a crash is a crash of the process; checksums are a parameter; power failures only in Store/Power* (C66) and Store/MetaPower (C67, C68; leveldb: a synced write that returned OK is durable and DB::Open makes durable what it recovered): operations on the directory survive in order and any fsync commits them (ext4 or xfs with a journal, more than POSIX promises), appended data survives as a prefix at least as long as what was synced, the fsyncs of save_meta and close succeed; threads serialised |
| memory_log.cpp | Store/MemLog | - |
| raft_meta.cpp, protobuf_file.cpp | Store/Meta | leveldb is a map; rename is atomic; serialisation of the protobuf messages is a parameter |
| log_manager.cpp | Log/Manager*, Log/Wait | memory and disk queue; get_term/get_entry read the storage in the same step as the lock; the storage is an array (C21, C23) that can fail |
| snapshot.cpp LocalSnapshotStorage | Snap/Storage* | removal of a directory is not atomic, rename and the replacement of the meta file are; one writer; the directory holds nothing else |
| snapshot_executor.cpp | Snap/Executor* | closures of the FSM answer at any time; `_running_jobs`, join and shutdown not modelled; flags `weird`, `loadFail` for cases whose consequences are shown by witnesses |
| remote_file_copier.cpp, file_reader.cpp, file_service.cpp, FileSegData (util) | Snap/FileCopy* | the source file does not change; length below 2^64; flags for holes and for flags that change between two calls |
| snapshot.cpp LocalSnapshotCopier | Snap/Copier* | files are inodes with links; equal checksums mean equal contents; all files local; user_meta not modelled; deletions succeed |
| replicator.cpp | Repl/Replicator* | one replicator; answers at any time in any order; the flags and the number of entries that fit are step arguments; heartbeats only through a higher term; the log grows and is compacted |
| replicator.cpp (heartbeats), node.cpp heartbeat_timeout | Repl/Heartbeat* | one replicator in time: timer, error, bthread, RPC, callback; delays bounded or not; clock not going backwards |
| storage.h 70-120, storage.cpp, gc_instance functions, raft_meta.cpp 57-194, raft.cpp 109-133 | Store/Uri, Store/UriInv | file tree as a map of places; failing or killed deletions remove an arbitrary part |
| node.cpp: timers of a node against its role (init 505-660, 988-1022, 1065-1150, 1274-1392, 1394-1749, 1793-1976, 3478-3603) | Node/Timers, Node/TimersInv | ballots reduced to two bits; timers to started/stopped (Timer models them); environment answers are arguments |
| servers of the cluster with their log managers: calls of log_manager.cpp from node.cpp (1940-1984, 2024-2107, 2409-2573), fsm_caller.cpp (290-318, 390-406), snapshot_executor.cpp (195-288, 376-398) | Cluster/LogNode, Cluster/LogNode{Facts,Inv,Steps,Snap,Boot,Append,Disk,Run,Safe,Traces} | as Cluster/Server and Log/Manager; see the head of Cluster/LogNode |
| servers of the cluster with tasks, closures and state machine threads: node.cpp (669-706, 1793-1831, 1934-1984, 2001-2107, 2313-2573), snapshot_executor.cpp (247-288, 376-398) calling ballot_box.cpp, closure_queue.cpp, fsm_caller.cpp | Cluster/PipeNode, Cluster/PipeNode{Steps,Inv,Srv,Fsm,Run,Safe,Slots,Order,View,Traces} | as Cluster/Server and Pipe; see the head of Cluster/PipeNode |
| continuations of the cluster that make progress, and a group that is stuck (no new code, see Cluster/Server) | Cluster/Calm, Cluster/Calm{Ballot,Elect,Repl,Sync,All,Static,Stuck} | as Cluster/Server |
| snapshots and log when the power fails (snapshot.cpp:609-671, 534-549; snapshot_executor.cpp:189-262, 145-160; log_manager.cpp:622-688) | Store/SnapPower | a snapshot directory is a list of ids, complete when it is renamed; what each filesystem shows after the failure is an earlier state of it; segment and meta files are in Store/Power* |
| the node's end (raft.cpp:140-147; node.cpp:363-383, 987-1063, 2588-2603; fsm_caller.cpp:155-209, 546-551) | Node/Shutdown | FSM tasks are counted only; references of timers, RPCs, replicators are one number; components shut down by shutdown() are not followed further |
| bootstrap and the group after it (node.cpp:393-497, 547-606; snapshot_executor.cpp:113-262, 341-398) | Node/Bootstrap, Raft/Boot, Cluster/Boot | storages succeed; the fsm's data is a value; the group starts from what a finished or interrupted bootstrap stored, all members with the same data and configuration |
| witnesses (node.cpp:259-262, 508-519, 653-660, 835-853; replicator.cpp:633-636, 772-776; snapshot.cpp:758-776) | Cluster/Witness, WitnessRel, WitnessSim, WitnessTraces | data is an option: unknown when only a snapshot without files covers the entry; timeouts and check_witness only concern when things happen; a group whose only member is a witness is left out |
| where entries come from (node.cpp:2024-2079, all handlers of Cluster/Server) | Cluster/Origin | as Cluster/Server |
| membership changes end to end (node.cpp:94-125, 722-792, 902-919, 1793-1878, 1935-1975, 2081-2107, 3197-3400) | Cluster/ConfNode* over Node/ConfCtx and Cluster/Server | reset_peers, errors of the log manager, states beyond STATE_FOLLOWER |
| administration tools and the services they and raft messages go through (cli.cpp:27-273, cli_service.cpp:50-362, raft_service.cpp:31-167) | CliClient over Cli, Registry, PeerText | brpc itself: a call may be served several times and its answer may be lost; the node's work is its closure's code |
| get_status (node.cpp:2837-2896, log_manager.cpp:925-934, ballot_box.cpp:176-186, raft.h:367-432) | Cluster/Status over Cluster/LogNode | not: peer_id, readonly (C28), applying_index, the map of followers |
| table of the files of a snapshot (snapshot.cpp:39-173, 232-340, protobuf_file.cpp:38-120, local_storage.proto, local_file_meta.proto) | Snap/MetaTable | protobuf modelled at the level of bytes; groups are refused, unknown fields dropped; what a failed parse leaves is arbitrary; system calls of ProtoBufFile are in Store/Meta |
| names of segments and snapshots and their listing (log.cpp:36-39, 999-1051, snapshot.cpp:31-33, 318-324, 470-512) | Store/Names | `%020ld` of printf and sscanf with the glibc meaning (width counts the sign, nearest int64); names shorter than `.tmp` are compared as not ending in it; unlink failures are not modelled |
| followers in get_status (node.cpp:2837-2896, replicator.cpp:1313-1345, 1574-1582, raft.h:359-430) | Node/Followers | std::map is a function; readonly_index, the time of the last call and the number of errors are left out |
| served addresses (node_manager.cpp:29-80, 115-122, raft_service.cpp:27-29, node.cpp:503) | ServiceAddr | a brpc::Server is the four services braft may have added; AddService refuses a name twice and once the server runs, and may fail otherwise |
| merged meta storage, queue (raft_meta.cpp:680-866) | Store/MergedQueue | leveldb applies a batch wholly or not at all, and keeps what it wrote when the process is killed (no power failure); read errors and a queue that refuses a task change nothing and are left out |
| snapshot timer (node.cpp:83-92, 349-361, 521, 635-639, 1015, repeated_timer_task.cpp:38-178) | Node/SnapTimer | times are integers; only the calls of RepeatedTimerTask this timer gets; whether the node is active is an input |
| replicator.cpp, replicator.h (lifetimes) | Repl/Status | one add_replicator and one replicator, interleaved |
| file_system_adaptor.cpp Buffered*Adaptor | Snap/Buffered* | do_read / do_write are arbitrary within their contract |
| file_service.cpp FileServiceImpl | Snap/Service | ids are 64 bit words; clock and pid are arguments |
| file_system_adaptor.cpp create_sub_directory, snapshot.cpp (paths) | Snap/Paths | a path is a list of components; no symbolic links |
| log_entry.cpp, replicator.cpp _prepare_entry, node.cpp (unpacking of AppendEntries) | Node/EntryWire | protobuf wire format of ConfigurationPBMeta (fields 1, 2) and of lengths modelled; EntryMeta messages are records |
| cli_service.cpp, cli.cpp get_leader | Cli | RPCs are calls; authentication not modelled |
| node.cpp and fsm_caller.cpp: callbacks about the role | Node/Life* | reasons for steps are arguments; become_leader only from CANDIDATE |
| node.cpp (cluster) | Raft/* | see below |
| node.cpp handlers, VoteBallotCtx, with BallotBox and the replicator's accesses | Cluster/Server | see below |

Not modelled: brpc, bthread, the protobuf wire format (but see EntryWire), leveldb internals, bvar metrics, logging,
memory management (AddRef/Release), power failures in the parts other than the segment log and the meta storage, the command line tools and the examples,
builtin_service_impl.cpp, the Posix parts of file_system_adaptor.cpp.

Common simplifications:

* int64 indexes and terms are `Nat` or `Int` (no overflow) unless the module says otherwise.
* A critical section under one mutex (or one locked bthread_id) is one atomic step. Where the code drops the mutex in the
  middle (vote handling, elect_self, the block timer of the replicator) the model has two steps if the property depends on it.
* `CHECK` failures are a flag (`bad`, `aborted`), a distinct error outcome or a hypothesis. `LOG(FATAL)` does *not* abort
  in butil's default configuration and is modelled as falling through.
* Time is an integer argument.

## Layers

1. **Component models** (`Verif/<Component>.lean`): functional models of single classes, with
   the lemmas; **property files** (`Verif/Props/*.lean`) state the catalogued properties
   against small independent specifications, each with an `example` showing that a concrete
   non-trivial case meets its hypotheses.
2. **Cluster protocol model** (`Verif/Raft/*.lean`): any number of nodes, a network that may
   lose, duplicate, delay and reorder, crash/restart at any point, elections, votes,
   replication with an asynchronous disk queue, commit and apply. The handlers are
   transcriptions of node.cpp and reuse the component models where possible. Safety is an
   inductive invariant over all reachable states.

   Snapshots are in it: a node saves one at any applied index, a leader ships it, the receiver
   copies, loads and hands it to its log manager, and restarts begin with it. The log stays the
   full list from index 1; the compacted beginning is a ghost that no handler reads, except that a
   conflict below the snapshot, where the code runs into `LOG(FATAL)` or corrupts its memory (C16
   has the witness), is resolved against the ghost. `sm` is the ghost content of the user's state
   machine. Raft/Merge.lean has the lemmas about `set_snapshot`.

   Not in the cluster model: `reset_peers`; bootstrapping and witnesses are in Raft/Boot and Cluster/Boot (C82) and Cluster/Witness (C83). Five environment
   assumptions can be switched on (`Params`), and `Normal` has all of them:
   * `strict`: no AppendEntries of the same term changes a voter's log while its RequestVote
     handler waits for `last_log_id` outside the mutex (violated: `vote_race_breaks_safety`);
   * `metaOk`: the write of the new term in `elect_self` does not fail (violated:
     `two_leaders_if_meta_write_fails`, `log_matching_fails_if_meta_write_fails`);
   * `instOk`: `elect_self` does not start while a snapshot is being installed (violated:
     `two_leaders_if_electing_while_installing`);
   * `flushOk`: `last_log_id(true)` waits for the stable closures queued before (violated:
     `committed_entry_lost_by_early_ack`);
   * `durOk`: a snapshot becomes durable only while the current term is (i.e. the term write of
     `step_down` has not failed) (violated: `applied_not_in_leader_if_term_not_durable`; this is about
     C03 and the answers of followers, no violation of C04 without `durOk` is known).

3. **Cluster of servers** (`Verif/Cluster/Server.lean`): each node runs transcriptions of the
   handlers of `NodeImpl` function by function, with `VoteBallotCtx` (versions, grant-self timers,
   reserved and disrupted peers), the real `Ballot` and `BallotBox`, leader ids, the two critical
   sections of `elect_self`, `check_step_down`, and the separate accesses of replicators to log and
   ballot box. `Cluster/Rel.lean` relates its states to those of layer 2 and `Cluster/SimA-D.lean`
   prove a forward simulation (`sim_step`): layer 2's elections and commits by quorum are what the
   real counting does. Taken over from layer 2: log, disk queue, snapshots, restart. Left out:
   STATE_ERROR and shutdown; `pre_vote` is a guard; the AppendEntries cache is a delay; a
   follower's committed index is set in the step of its stable closure (the code has released the
   mutex by then). Two more assumptions (`COk`):
   * failed CHECKs end the process, or the leader lease is off; with the default flags the latter
     holds (`defaults_ok`); witness otherwise: `leader_without_vote`;
   * `replOk`: no step down between two accesses of one replicator (witness
     `stalled_replicator_breaks_safety`).

When the code violates a property as stated, the model follows the code, the violation is proved
by a concrete witness (theorem name `..._violated` or `not_...`), and what does hold is kept as a
`_partial` theorem.

## Plan per property

| Id | Model | Proof |
|----|-------|-------|
| C01 | Raft cluster transition system: elect_self, vote handler, vote response, become_leader, crash | inductive invariant: votes recorded persist; two quorums share a voter |
| C02 | same, with append/truncate/replicate | invariant: every log version is described by the log of the leader of its entries' terms |
| C03 | same; vote handler either atomic or split in two phases as in the code | invariant by induction on terms; the split handler gives a witness run that violates it |
| C04 | same, with commit index propagation and apply | from C03 and C02 |
| C05 | same; per-node vote history | invariant |
| C06 | step_down / elect_self / restart functions | case analysis, induction over event lists |
| C07 | two-phase vote handler | atomic case proved; interleaved witness |
| C08 | pre-vote handler function | direct from the function for all inputs |
| C09 | Ballot with both peer vectors, hints | induction over grant sequence, counting distinct members |
| C10 | Ballot | counting argument |
| C11 | BallotBox operations over queues of ballots | invariant over all operation sequences |
| C12 | ClosureQueue, Pipe, PipeInv, PipeRun | invariant: conservation and order of closures, first for the queue alone, then for the whole path from apply() to on_apply (Apply, BallotBox, ClosureQueue, the log and Fsm composed); witnesses: a rollback over a configuration entry runs its closure again, a snapshot loaded while closures wait loses them |
| C13 | FSMCaller.do_committed + IteratorImpl | induction over commit notifications |
| C14 | same, errors | induction; the applied index after an error is a violation witness |
| C15 | ConfigurationManager | invariant against the list of all added entries |
| C16 | LogManager check_and_resolve_conflict | for all logs; witness for stale request after compaction |
| C17 | LogManager get_term | refinement to a logical log |
| C18 | LogManager set_snapshot | case analysis |
| C19 | byte codec of Segment records, checksum abstract | round trip for all entries; 4 GiB witness |
| C20 | Segment load over a truncated byte string | induction over entries |
| C21 | SegmentLogStorage as list of segments | refinement to array, induction over operations |
| C22 | SegmentLogStorage disk image after every file operation prefix | invariant over crash points |
| C23 | MemoryLogStorage | refinement to array |
| C24 | ProtoBufFile::save as list of file operations, crash after any prefix | case analysis over prefixes |
| C25 | MixedMetaStorage | invariant over set/get with failures |
| C26 | timed model of leader lease and follower leases, with vote / reset_election_timeout_ms and witnesses, joined with the Raft model (logs, membership changes) | invariants of both models and a coupling invariant; quorum intersection of adjacent configurations; witnesses for each premise |
| C27 | last_leader_active_timestamp | counting argument; witness for leader outside configuration |
| C28 | check_majority_nodes_readonly | single configuration proved; joint witness |
| C29 | AppendEntriesCache | invariant over operations |
| C30 | ConfigurationCtx state machine | invariant over event lists |
| C31 | Raft cluster with configuration entries | inductive invariant |
| C32 | LocalSnapshotStorage directory operations, crash after any prefix | case analysis |
| C33 | LocalSnapshotStorage reference map | invariant over operations |
| C34 | on_snapshot_save_done with I/O results | case analysis; sync failure witness |
| C35 | SnapshotExecutor state machine | invariant over event lists |
| C36 | FileSegData + copier session | induction over responses; hole witness |
| C37 | ThroughputSnapshotThrottle | invariant over calls |
| C38 | PeerId/Configuration printing and parsing on character lists | round trip |
| C39 | Configuration as sorted set | extensional equality |
| C40 | NodeImpl::apply | case analysis |
| C41 | Replicator (queue of requests in flight, probes, waiters, block timer, snapshots) | invariant over all runs; witnesses for leaving readonly mode |
| C42 | follower commit rule | invariant |
| C43 | Replicator transfer | invariant; witness for leaving readonly mode |
| C44 | LogManager waiters | invariant over operations |
| C45 | LogManager disk queue / AppendBatcher | invariant over queue |
| C46 | RepeatedTimerTask state machine | invariant over interleavings |
| C47 | RouteTable | invariant over operations |
| C48 | NodeManager | invariant over operations |
| C49 | read_committed_user_log | case analysis + induction |
| C50 | init_meta_storage | direct |
| C51 | LogManager::check_consistency with SegmentLogStorage and snapshot at start | case analysis over the states a crash leaves |
| C52 | LogManager last_log_id with flush | invariant over runs |
| C53 | FSMCaller snapshot save | invariant over histories |
| C54 | Segment load and SegmentLogStorage::init over damaged bytes | direct for all byte strings |
| C55 | LocalSnapshotCopier with inodes, crash after any step | invariant over runs; witnesses for crashes |
| C56 | Replicator wait_for_caught_up | invariant over runs; witness for leaving readonly mode |
| C57 | Raft cluster with snapshots and ghost state machine content | from the inductive invariant |
| C58 | buffered file adaptors, over any source / sink that keeps the contract of do_read / do_write | invariant over calls; witness for holes |
| C59 | FileServiceImpl registry, ids as BitVec 64 | invariant over histories |
| C60 | paths touched by a snapshot copy (component lists) | direct for all names; witnesses for `..` |
| C61 | CliServiceImpl and the client's get_leader | direct; witness for stale report |
| C62 | entry encodings (AppendEntries meta + data, ConfigurationPBMeta) | round trips for all entries |
| C63 | role changes of a node and the task queue of the FSMCaller | invariant over histories, automaton as specification |
| C64 | transfer_leadership_to, its timer and the replicator of the target | direct for codes and choice; invariant over histories; finding: a named witness is accepted |
| C65 | handle_stepdown_timeout and the contact times of replicators | direct; invariant over histories |
| C66 | log.cpp with fsync: per file the number of bytes synced, the past states of the directory a power failure may bring back; the calls of C36-C39 with fsyncs put in | invariant over histories with failures: every state a failure can show represents an allowed log; partial: closed segments, failed syncs and restarts without sync lose acknowledged entries (witnesses) |
| C67 | ProtoBufFile::save with fsync, durable lengths and the journal of renames | invariant over histories; partial: the rename is not made durable, an acknowledged vote may be forgotten (witness) |
| C68 | the two stores of MixedMetaStorage with the values a power failure may bring back | invariant over histories |
| C69 | cluster of servers (Cluster/Server), simulated by the cluster model | forward simulation (Cluster/Rel, SimA-SimD), election safety |
| C70 | ConfigurationCtx with the set of replicators (Node/ConfCtx) | second invariant over all histories (Node/ConfCtxRepl) |
| C71 | heartbeats of one replicator in time (Repl/Heartbeat) | invariant: one heartbeat under way, with bounds on its time (Repl/HeartbeatInv) |
| C72 | reference counts of a ReplicatorStatus and of the node (Repl/Status) | invariant over all interleavings; two witnesses |
| C73 | URIs, paths, the file tree and merged databases; gc_dir with every failing call and kill (Store/Uri) | case analysis over all outcomes of the three calls; prefix arguments about places; witnesses: a merged storage that is not loaded keeps the vote although gc returns 0; URIs that differ in white space, and x and x.tmp, collide; a path with a trailing slash can never be collected; a mixed storage with a bad URI deletes an unwritten pointer |
| C74 | roles, four timers, the windows of pre_vote and elect_self, vote contexts with versions, grant-self timers; option and lease periods (Node/Timers) | one invariant for all runs (role has its timer), one for calm runs (no other timer, CHECK, inactive stays); calm is proved for every group where one vote is no quorum; partial because a node alone in its group that fails or is shut down inside a window becomes leader (witnesses); further findings: witness candidate without timer, stale vote() trigger, step-down period never reset, negative timeouts accepted |
| C75 | the joint model of C26 | from C26, leader completeness and the coupling invariant (a lease starts after an entry of the term is applied) |
| C76 | the cluster of servers (Cluster/Server) with a LogManager (Log/Manager) in every server, in lockstep: handlers call it where the code does, with arguments from requests and its own answers; disk rounds, batches, partial failures, restarts (Cluster/LogNode) | one joint invariant relating list, queue of steps, jobs, storage, snapshot, applied and virtual ids; the protocol facts it needs (what is applied is never replaced, snapshots are prefixes, terms grow) come from the safety invariant through the simulation; partial because set_applied_id is called per entry, a failed node does nothing that needs the log until its restart, and the guards of C16 and C17 |
| C77 | the cluster of servers with the task path of Pipe in every server, in lockstep: each handler of node.cpp makes the calls of ballot box, closure queue, log and FSMCaller it makes in the code; a batch of tasks is what makes a leader append, the entries a server applies are those of its FSMCaller (Cluster/PipeNode) | both sides agree (log, ballot box, state, term, configuration, applied index) and every call is within what Pipe requires, by a joint invariant; the protocol facts come from the safety invariant through the simulation; the content of the state machine by an invariant over the calls it sees; partial because of the assumptions of C01-C05 (stalled replicators) and no storage error reported to the node |
| C78 | as C77 | invariant: where every closure is (waiting for or taken for an index); a leader's own append is not in any log built before, a committed index is; one leader per term; witness: a task whose closure failed is applied by the next leader |
| C79 | the same cluster of servers; quiet continuations: no crash, no storage failure, no membership change (Cluster/Calm*) | a continuation is built from any reachable state: everybody finishes what is under way, a node that is not behind its quorum is elected in a new term, appends its configuration entry and the task, replicates twice (the second round carries the committed index), all state machines catch up; each stage keeps the invariants of the safety proofs. For groups without membership changes an invariant (every configuration anywhere is the first one) makes the hypotheses always true. Partial because it fails in general (witness with an inductive invariant over all continuations): a leader of a group of two that removes itself and restarts with the new configuration on its own disk only leaves a group that can never elect anybody, since `elect_self`/`pre_vote` refuse when the node is not in the last, possibly uncommitted, configuration of its log |
| C80 | LogManager (Log/Manager) joined with the directory of snapshots and the states of both that a loss of power can bring back (Store/SnapPower): as one ordered filesystem, or as two | invariant: every job of the disk thread discards only what the newest snapshot covers, and in every state that can come back the newest snapshot reaches the log's beginning; then C51's start. Two filesystems: the same with the oldest snapshot directory that can come back, for nodes that take snapshots themselves; partial: on two filesystems an installed snapshot, or clear_bufferred_logs, leaves a gap that the start does not notice (witnesses); storage calls that fail leave the array as it was |
| C81 | the node's end: shutdown(), do_shutdown and after_shutdown statement by statement, join(), ~Node, the reference count (Node/Shutdown) | invariant over all interleavings: the count is what its holders hold, the closures given are those run, saved by after_shutdown or still in _shutdown_continuations, on_shutdown is the last callback; partial: if init() failed before the FSMCaller started, a closure passed to shutdown() never runs, and if its queue cannot be started the node is never freed (witnesses) |
| C82 | bootstrap(): the disk after every storage call (Node/Bootstrap, over Log/Manager), and a group started from bootstrapped disks: the cluster models with another first state (Raft/Boot, Cluster/Boot) | evaluation of the call for all options; the cluster invariant holds in the first state, the bootstrap counting as an election of term 1, so that the simulation gives C01-C04, C57 and that nobody forgets the data; partial: a large raft_do_snapshot_min_index_gap loses the data, a second call is not refused, an interrupted bootstrap leaves a node without configuration, an empty snapshot_uri aborts, a bootstrapped minority may be outvoted (witnesses) |
| C83 | groups with witnesses (Cluster/Witness: the servers of Cluster/Server with what the code does differently for witnesses) | simulation: an execution is one of a group without witnesses, up to the data of entries on witnesses (Cluster/WitnessRel, WitnessSim: every handler looks at terms, configurations and numbers of entries only), so C01-C04 follow; partial: leadership transfer to a witness is not refused and breaks state machine safety, so does turning the flag on later (witnesses) |
| C84 | histories of the cluster of servers (Cluster/Server, runC) | invariant: a predicate of positions and entries that holds of what leaders append holds of everything in logs, on disk, in queues, snapshots, messages and state machines (Cluster/Origin), instantiated with "was submitted in this history"; order from leader append-only and log matching; partial: the assumptions of COk |
| C85 | histories of the cluster of servers in which configuration entries enter a log only through ConfigurationCtx (Cluster/ConfNode, FReach) | invariant tying the fields of ConfigurationCtx of every node (C30) to its log, term and role in Cluster/Server and every ConfigurationChangeDone to the fate of its entry; so the guard of Cluster/Server's changeConf (last configuration committed, confStepOk) is proved, not assumed; partial: COk with checkAborts, reset_peers and log-manager errors left out |
| C86 | commands of cli.cpp run against processes in any reachable state (CliClient) | case analysis with the round trip of peer texts (C38) and the registry (C48), induction over the peers asked for the leader; three witnesses for what does not hold |
| C87 | get_status over the cluster of servers with LogManagers: three reads (node, LogManager, BallotBox) at three moments of one process (Cluster/Status) | the log-stack facts of C76 and the simulation by Core relate the fields to log, snapshot and state machine; monotonicity by induction over executions without restart of the node; three witnesses. Partial: the environment premises of C76, and followers, applying_index are not modelled |
| C88 | the table of files, its protobuf bytes, files and messages with them (Snap/MetaTable) | round trip of wire format and messages by induction; the table after any calls compared with a specification over the call history; sorted-map lemmas; two witnesses |
| C89 | printf and sscanf of the name patterns, list_segments, LocalSnapshotStorage::init (Store/Names) | round trip of padded numbers by induction on digits; the listing by induction over the directory in any order; three witnesses |
| C90 | the loops of get_status over the configuration and the replicators (Node/Followers), on the node of C70 and the replicator of C41 | closed form of both loops by induction; membership from the invariants of C70, meaning of the entries from the invariant of C41; three witnesses |
| C91 | add_service, the set of served addresses, servers and their destruction, registration of nodes (ServiceAddr) | an invariant over all histories (every address in the set is served by a server that exists); step characterisations; four witnesses |
| C92 | the queue of writes of the merged meta storage, its batches, failures and kills, over one leveldb for all groups (Store/MergedQueue) | an invariant over all histories (what waits is newer than every record and every success; a record comes from its own group); closed form of a batch by induction; three witnesses |
| C93 | the snapshot timer of a node with its times (Node/SnapTimer) | an invariant over all timed histories (distance of runs, due time within the interval); closed form of the due time; two witnesses |
