import Verif.Ballot
/-
Cluster model: any number of nodes running `NodeImpl` (src/braft/node.cpp) over an asynchronous
network, with the asynchronous disk queue of `LogManager` and crash/restart.

Everything a node does under its mutex is one action (`Act`); the places where node.cpp drops the
mutex (`elect_self`, `handle_request_vote_request`) are two actions.
Messages are never removed from `Sys.g.msgs`, so every message can be lost (never handled),
duplicated, delayed and reordered.

Simplifications (all of them stated once, here):
* a log is the full list of entries from index 1 (index = position + 1), also after a snapshot
  has replaced its beginning: the compacted entries stay as ghosts that the code can no longer
  read. Reading one is modelled where it matters: `recvAE` refuses a request whose previous
  entry is compacted, and `set_snapshot` compares terms only at the snapshot's last index. The
  concrete LogManager, LogStorage, snapshot storage and copier have models of their own
  (Verif/Log, Verif/Store, Verif/Snap);
* a snapshot is the prefix of the log it stands for. Its transfer is the actions `recvIS`,
  `copied` (durable) and `loaded` (loaded by the state machine), or `dlDrop`;
* `LOG(FATAL)` of `unsafe_truncate_suffix` (log_manager.cpp:307-313: a conflict at or below the
  applied index) ends the process: it is a `crash`;
* integer widths are not modelled;
* `reset_peers` is not modelled; groups that were bootstrapped are in Raft/Boot.lean, witnesses in
  Cluster/Witness.lean;
* ballots are modelled by their specification (a quorum of recorded grants), which
  `Verif/Props/Ballot.lean` and `Verif/Props/BallotBox.lean` prove of the ballot code;
* the ghost part of `Glob` is not read by the effect of an action on the real part; a guard reads
  it only to pick the log id `last_log_id` reports (`electSend`), see there.
-/
set_option linter.unusedVariables false
set_option linter.unusedSimpArgs false
set_option linter.unusedSectionVars false

namespace Braft.Raft

/-- configuration.h:248-275 `ConfigurationEntry`: `old = []` is `old_conf.empty()`, i.e. stable.
`Configuration` (configuration.h:122-246) is a `std::set`, so nothing occurs twice. -/
structure Conf (N : Type) where
  peers : List N
  old : List N := []
  nd : peers.Nodup := by decide
  ndo : old.Nodup := by decide
deriving DecidableEq, Repr

/-- enum.proto EntryType: data entries and configuration entries (ENTRY_TYPE_NO_OP is never
written by node.cpp). -/
inductive Payload (N D : Type) where
  | data (d : D)
  | conf (c : Conf N)
deriving DecidableEq, Repr

/-- log_entry.h:36-50 `LogEntry`; the index is the position in the log. -/
structure Entry (N D : Type) where
  term : Nat
  payload : Payload N D
deriving DecidableEq, Repr

abbrev Log (N D : Type) := List (Entry N D)

section Logs
variable {N D : Type}

/-- Term of the last entry, 0 for an empty log (`LogId()` is (0,0), log_entry.h:30). -/
def lastTerm (l : Log N D) : Nat :=
  match l.getLast? with
  | none => 0
  | some e => e.term

/-- `LogManager::last_log_id`: (term, index) of the last entry. -/
def lastId (l : Log N D) : Nat × Nat := (lastTerm l, l.length)

/-- log_entry.h:64-90: `a <= b` on LogIds, terms first. -/
def idLe (a b : Nat × Nat) : Bool := if a.1 = b.1 then decide (a.2 ≤ b.2) else decide (a.1 < b.1)

/-- log_manager.cpp `get_term`: 0 when there is no such entry. Index 0 has term 0. -/
def termAt (l : Log N D) (i : Nat) : Nat :=
  if i = 0 then 0 else
    match l[i - 1]? with
    | none => 0
    | some e => e.term

/-- The configuration carried by an entry, if any. -/
def Entry.conf? (e : Entry N D) : Option (Conf N) :=
  match e.payload with
  | .conf c => some c
  | .data _ => none

/-- configuration_manager.cpp `last_configuration` / node.cpp `_conf`: the last configuration
entry of the log, else the initial configuration. A freshly added peer starts with an empty
configuration; here it starts with `c0`, which does not contain it: neither can elect itself. -/
def confOf (c0 : Conf N) (l : Log N D) : Conf N := l.foldl (fun c e => (e.conf?).getD c) c0

/-- 1-based index of the last configuration entry, 0 if there is none. -/
def lastConfIdx (l : Log N D) : Nat :=
  l.length - (l.reverse.takeWhile (fun e => e.conf?.isNone)).length

/-- log_manager.cpp:375-384: number of leading entries whose term equals the local entry's. -/
def matchLen : Log N D → List (Entry N D) → Nat
  | e :: l, e' :: es => if e.term = e'.term then matchLen l es + 1 else 0
  | _, _ => 0

end Logs

/-- Quorum of a configuration: majority of `peers`, and of `old` too when joint
(ballot.cpp:24-46, node.cpp:3480, 2063-2065, 2100). -/
def Conf.Quorum {N : Type} (c : Conf N) (S : N → Bool) : Prop :=
  Majority c.peers S ∧ (c.old ≠ [] → Majority c.old S)

instance {N : Type} (c : Conf N) (S : N → Bool) [DecidableEq N] : Decidable (c.Quorum S) := by
  unfold Conf.Quorum Majority; infer_instance

/-- Steps of the disk queue (`LogManager::disk_thread`, log_manager.cpp:541-620).
A batch append is a sequence of `push`, `truncate_suffix` a sequence of `pop` (so a crash may
leave any prefix of either), and a stable closure is a marker behind its entries. The log
carried by a marker is ghost: its length is what the real closure knows. -/
inductive Op (N D : Type) where
  | push (e : Entry N D)
  | pop
  | ackF (t : Nat) (m : Log N D) (c : Nat)   -- node.cpp:2291-2385 FollowerStableClosure
  | ackL (m : Log N D)                       -- node.cpp:1985-2022 LeaderStableClosure
  | snap (K : Log N D)                       -- log_manager.cpp:251-305 truncate_prefix or reset
deriving DecidableEq, Repr

/-- log_manager.cpp:622-679 `set_snapshot` for a snapshot that stands for the entries `K`: the log
is kept when its entry at the snapshot's last index has the snapshot's term (662-673), else it is
dropped and starts after the snapshot (`truncate_prefix` behind its end, or `reset`). The dropped
beginning is the ghost prefix `K`. -/
def snapMerge {N D : Type} (K l : Log N D) : Log N D :=
  if termAt l K.length = lastTerm K then l else K

/-- Effect of one disk queue step on the stored log. -/
def applyOp {N D : Type} (l : Log N D) : Op N D → Log N D
  | .push e => l ++ [e]
  | .pop => l.dropLast
  | .ackF _ _ _ => l
  | .ackL _ => l
  | .snap K => snapMerge K l

/-- The log after the given queue has drained. -/
def drain {N D : Type} (d : Log N D) (q : List (Op N D)) : Log N D := q.foldl applyOp d

/-- node.h `State`: STATE_LEADER/TRANSFERRING, STATE_CANDIDATE, STATE_FOLLOWER. -/
inductive Role where
  | follower | candidate | leader
deriving DecidableEq, Repr

/-- A vote handler that has released the node mutex (node.cpp:2231-2233). -/
structure VFrame (N : Type) where
  reqTerm : Nat
  cand : N
  claim : Nat × Nat
  savedTerm : Nat
  lastId : Nat × Nat
deriving DecidableEq, Repr

structure NodeSt (N D : Type) where
  term : Nat            -- _current_term
  vote : Option N       -- _voted_id
  role : Role           -- _state
  pterm : Nat           -- stored by RaftMetaStorage
  pvote : Option N
  log : Log N D         -- LogManager's view: memory and storage
  disk : Log N D        -- what the LogStorage holds
  queue : List (Op N D) -- _disk_queue
  commit : Nat          -- BallotBox::_last_committed_index
  applied : Nat         -- FSMCaller::_last_applied_index
  snap : Log N D        -- LogManager::_last_snapshot_id, with the entries it stands for
  psnap : Log N D       -- the snapshot in the snapshot storage ([]: none)
  dl : Option (Log N D) -- SnapshotExecutor::_downloading_snapshot
  sm : Log N D          -- ghost: what the user's state machine contains, as a list of entries
  elect : Option Nat    -- an elect_self call between its two critical sections, with its term
  ready : Bool          -- this candidacy sent its requests (responses carry its ctx_version)
  bconf : Conf N        -- the configuration _vote_ctx was initialised with
  vframes : List (VFrame N)  -- RequestVote handlers that wait for `last_log_id`

inductive Msg (N D : Type) where
  /-- RequestVoteRequest (raft.proto): term, candidate, last_log_term, last_log_index. -/
  | rv (term : Nat) (cand : N) (claim : Nat × Nat)
  /-- RequestVoteResponse with granted = true. -/
  | vr (term : Nat) (voter cand : N)
  /-- AppendEntriesRequest. -/
  | ae (term : Nat) (prev prevTerm : Nat) (es : List (Entry N D)) (commit : Nat)
  /-- AppendEntriesResponse with success = true to a request ending at index `upTo`. Also the
  leader's own LeaderStableClosure. -/
  | ar (term : Nat) (who : N) (upTo : Nat)
  /-- InstallSnapshotRequest for the snapshot that stands for `K`: term, last_included_index and
  last_included_term, and the files behind its uri. -/
  | is (term : Nat) (K : Log N D)
deriving DecidableEq, Repr

/-- An election won: the term, the winner and its log at that moment. -/
structure Elec (N D : Type) where
  term : Nat
  node : N
  log : Log N D
deriving DecidableEq, Repr

/-- A vote cast: term, voter, candidate, and how many elections had been won before. -/
structure VoteRec (N : Type) where
  term : Nat
  voter : N
  cand : N
  before : Nat
deriving DecidableEq, Repr

structure AckRec (N D : Type) where
  term : Nat
  who : N
  log : Log N D
deriving DecidableEq, Repr

/-- The network and the history of the execution. Only `msgs` is real; the rest is ghost. -/
structure Glob (N D : Type) where
  msgs : List (Msg N D)
  -- ghost
  hist : N → List (Log N D)      -- every log the node's storage ever held
  created : List (Log N D)       -- every log a leader built by appending an own entry
  elections : List (Elec N D)    -- elections won, in order
  votes : List (VoteRec N)       -- votes persisted
  acks : List (AckRec N D)       -- acknowledgements of durable entries
  commits : List (Log N D)       -- prefixes committed by a leader
  applies : List (N × Nat × Entry N D)  -- entries handed to the state machine, by node and index

structure Sys (N D : Type) where
  node : N → NodeSt N D
  g : Glob N D

/-- Environment assumptions a theorem can switch on. `strict`: no AppendEntries of the same term
changes a voter's log while its RequestVote handler waits for `last_log_id` outside the mutex.
`metaOk`: `set_term_and_votedfor` does not fail in `elect_self`. `instOk`: `elect_self` does not
start while a snapshot is being installed (only `pre_vote` checks this, node.cpp:1619-1625; a
TimeoutNow request or `vote` does not). `durOk`: a snapshot becomes durable only while the
current term is (it is not after a failed `set_term_and_votedfor` in `step_down`). `flushOk`:
when `last_log_id(true)` answers from the snapshot id without asking the disk thread
(log_manager.cpp:198-201), no stable closure of this node's own leadership is queued. -/
structure Params where
  strict : Bool
  metaOk : Bool
  instOk : Bool := true
  durOk : Bool := true
  flushOk : Bool := true
deriving DecidableEq, Repr

section Model
variable {N D : Type} [DecidableEq N] [DecidableEq D]

def updF {β : Type} (f : N → β) (i : N) (v : β) : N → β := fun j => if j = i then v else f j

/-- A node before its first start (raft_meta.cpp:433-460: term 1 and no vote when there is no
meta file). -/
def freshNode (c0 : Conf N) : NodeSt N D :=
  { term := 1, vote := none, role := .follower, pterm := 1, pvote := none, log := [], disk := [],
    queue := [], commit := 0, applied := 0, snap := [], psnap := [], dl := none, sm := [],
    elect := none, ready := false, bconf := c0, vframes := [] }

def initGlob : Glob N D :=
  { msgs := [], hist := fun _ => [[]], created := [], elections := [], votes := [], acks := [],
    commits := [], applies := [] }

def initSys (c0 : Conf N) : Sys N D := { node := fun _ => freshNode c0, g := initGlob }

/-- node.cpp:1793-1875 `step_down(term)`. `ok` is the result of set_term_and_votedfor, whose
failure is only logged (1845-1851). -/
def stepDown (n : NodeSt N D) (t : Nat) (ok : Bool) : NodeSt N D :=
  if n.term < t then
    { n with role := .follower, ready := false, term := t, vote := none,
             pterm := if ok then t else n.pterm, pvote := if ok then none else n.pvote }
  else { n with role := .follower, ready := false }

/-- node.cpp:1681-1716, first critical section of `elect_self`. -/
def electStart (c0 : Conf N) (i : N) (n : NodeSt N D) : NodeSt N D :=
  { n with role := .candidate, term := n.term + 1, vote := some i, elect := some (n.term + 1),
           ready := false, bconf := confOf c0 n.log }

/-- What `SnapshotExecutor::init` (snapshot_executor.cpp:341-398) makes the log manager queue. -/
def loadOps (P : Log N D) : List (Op N D) := if P = [] then [] else [.snap P]

/-- Process restart: storage survives, memory does not. The snapshot is loaded first
(node.cpp:573-580), then node.cpp:324-345 `init_meta_storage` raises a term that is behind the
log. -/
def restart (n : NodeSt N D) : NodeSt N D :=
  let l := snapMerge n.psnap n.disk
  let behind := decide (n.pterm < lastTerm l)
  let t := if behind then lastTerm l + 1 else n.pterm
  let v := if behind then none else n.pvote
  { n with term := t, vote := v, role := .follower, pterm := t, pvote := v, log := l,
           queue := loadOps n.psnap, commit := 0, applied := n.psnap.length, snap := n.psnap,
           dl := none, sm := n.psnap, elect := none, ready := false, vframes := [] }

/-- Leader appends own entries with one LeaderStableClosure: node.cpp:2024-2079 `apply`,
2081-2107 `unsafe_apply_configuration`, log_manager.cpp:338-345 and 407-445. -/
def appendOwn (n : NodeSt N D) (es : List (Entry N D)) : NodeSt N D :=
  { n with log := n.log ++ es,
           queue := n.queue ++ es.map .push ++ [.ackL (n.log ++ es)] }

/-- The logs `log ++ take 1 es, ..., log ++ es`. -/
def newLogs (l : Log N D) (es : List (Entry N D)) : List (Log N D) :=
  (List.range es.length).map (fun k => l ++ es.take (k + 1))

/-- node.cpp:2423-2424 and 1897-1920: term and role part of `handle_append_entries_request`. -/
def aeStepDown (n : NodeSt N D) (t : Nat) (ok : Bool) : NodeSt N D :=
  if n.term < t ∨ n.role ≠ .follower then stepDown n t ok else n

/-- log_manager.cpp:365-404: pops of the conflicting tail, then the entries not yet held. -/
def resolveOps (l : Log N D) (prev : Nat) (es : List (Entry N D)) : List (Op N D) :=
  let k := matchLen (l.drop prev) es
  (if k < es.length ∧ prev + k < l.length then List.replicate (l.length - (prev + k)) .pop else [])
    ++ (es.drop k).map .push

/-- node.cpp:2524-2573 and log_manager.cpp:407-445: append the entries of a leader. -/
def aeAppend (n : NodeSt N D) (t prev : Nat) (es : List (Entry N D)) (c : Nat) : NodeSt N D :=
  let ops := resolveOps n.log prev es
  { n with log := drain n.log ops,
           queue := n.queue ++ ops ++ [.ackF t ((drain n.log ops).take (prev + es.length)) c] }

/-- node.cpp:2454-2456: does the request's previous entry match? (A previous index beyond the
log has term 0 locally.) -/
def prevOk (n : NodeSt N D) (prev prevTerm : Nat) : Bool :=
  decide (prev ≤ n.log.length) && decide (termAt n.log prev = prevTerm)

/-- node.cpp:2387-2573 `handle_append_entries_request` for a request that is not stale. The
branch `server_id != _leader_id` (two leaders in one term) is the action `raiseTerm`. Entries are
refused while a snapshot is being installed (2459-2466). `gone`: the entry at `prev` has been
compacted, so its local term is 0 (`get_term`), which no request with `prev > 0` carries. The
branch `back <= applied` is log_manager.cpp:357-364. Second component: was success answered at
once. -/
def handleAE (n : NodeSt N D) (t prev prevTerm : Nat) (es : List (Entry N D)) (c : Nat)
    (ok gone : Bool) : NodeSt N D × Bool :=
  let n1 := aeStepDown n t ok
  if gone || (n1.dl.isSome && !es.isEmpty) || !prevOk n1 prev prevTerm then (n1, false)
  else if es = [] then ({ n1 with commit := max n1.commit (min c prev) }, false)
  else if prev + es.length ≤ n1.applied then
    ({ n1 with commit := max n1.commit (min c (prev + es.length)) }, true)
  else (aeAppend n1 t prev es c, false)

/-- node.cpp:3202-3361 `ConfigurationCtx`: the configuration entries a leader may append after
the previous one has committed: from a stable configuration either a configuration with one peer
more or less (as sets: the order of the peers is free), or the joint configuration; from a joint
configuration the new one. -/
def confStepOk (c c' : Conf N) : Bool :=
  if c.old = [] then
    (decide (c'.old = []) &&
       (c.peers.any (fun x => decide (c'.peers.Perm (c.peers.erase x))) ||
        decide (∃ x ∈ c'.peers, x ∉ c.peers ∧ (c'.peers.erase x).Perm c.peers)))
    || (decide (c'.old = c.peers) && decide (c'.old ≠ []))
  else decide (c'.old = [] ∧ c'.peers = c.peers)

/-- node.cpp:2605-2672 `handle_install_snapshot_request` and snapshot_executor.cpp:402-450
`install_snapshot` up to the start of the copy: the node steps down like for AppendEntries; a
snapshot that is not newer than the last one is dropped, as is one that arrives while another is
being installed (`register_downloading_snapshot`, 509-598; replacing the running one is `dlDrop`
first). -/
def handleIS (n : NodeSt N D) (t : Nat) (K : Log N D) (ok : Bool) : NodeSt N D :=
  let n1 := aeStepDown n t ok
  if n1.dl = none ∧ n1.snap.length < K.length then { n1 with dl := some K } else n1

/-- fsm_caller.cpp:367-429 `do_snapshot_load` and snapshot_executor.cpp:247-288
`on_snapshot_load_done`: a snapshot older than what is applied is dropped (ESTALE), else the state
machine loads it and the log manager takes it over (`set_snapshot`). -/
def handleLoaded (n : NodeSt N D) (K : Log N D) : NodeSt N D :=
  if idLe (termAt n.log n.applied, n.applied) (lastId K) then
    if n.snap.length < K.length then
      { n with
        dl := none, applied := K.length, sm := K, snap := K, log := snapMerge K n.log,
        queue := n.queue ++ [.snap K] }
    else { n with dl := none, applied := K.length, sm := K }
  else { n with dl := none }

/-- Does the queue hold a leader's stable closure? -/
def noAckL (q : List (Op N D)) : Bool :=
  q.all (fun o => match o with | .ackL _ => false | _ => true)

inductive Act (N D : Type) where
  | raiseTerm (i : N) (t : Nat) (ok : Bool)
  | electStart (i : N)
  | electSend (i : N) (o : Log N D)
  | electCrash (i : N) (o : Log N D)
  | electFail (i : N) (o : Log N D)
  | becomeLeader (i : N) (q : List N)
  | voteBegin (i : N) (t : Nat) (cand : N) (claim : Nat × Nat)
  | voteEnd (i : N) (f : VFrame N) (ok grantOk : Bool)
  | voteDrop (i : N) (f : VFrame N)
  | voteAgain (i : N) (t : Nat) (cand : N)
  | propose (i : N) (ds : List D)
  | changeConf (i : N) (c : Conf N)
  | sendAE (i : N) (prev cnt commit : Nat)
  | recvAE (i : N) (t prev prevTerm : Nat) (es : List (Entry N D)) (c : Nat) (ok gone : Bool)
  | disk (i : N)
  | commit (i : N) (k : Nat) (q : List N)
  | apply (i : N)
  | crash (i : N)
  | saveSnap (i : N) (k : Nat)
  | sendIS (i : N)
  | recvIS (i : N) (t : Nat) (K : Log N D) (ok : Bool)
  | copied (i : N)
  | loaded (i : N)
  | dlDrop (i : N)

/-- What `last_log_id(true)` may report (log_manager.cpp:190-208): the id of a log the storage
held, every closure queued before having run; or, when the log ends at the last snapshot, that
snapshot's id at once. -/
def lastIdOk (p : Params) (s : Sys N D) (i : N) (o : Log N D) : Prop :=
  (o ∈ s.g.hist i ∧ noAckL (s.node i).queue = true) ∨
  (p.flushOk = false ∧ o = (s.node i).snap ∧ (s.node i).log.length = (s.node i).snap.length)

/-- When is an action possible? Each case cites the code whose checks it reflects. -/
def pre (p : Params) (c0 : Conf N) (s : Sys N D) : Act N D → Prop
  -- any step_down to a higher term: node.cpp:1425-1431, 1535-1543, 2263-2269, 2432-2443,
  -- 2575-2590 increase_term_to, 2109-2174; or in the current term: the step-down timer and the
  -- lease (876-921, 3462-3468), the vote timer (1380-1387), errors (1362-1366)
  | .raiseTerm i t _ => (s.node i).term ≤ t
  -- node.cpp:1681-1689; pre_vote and the timers only restrict when this happens
  | .electStart i => (s.node i).role ≠ .leader ∧ (p.instOk = true → (s.node i).dl = none) ∧
      (i ∈ (confOf c0 (s.node i).log).peers ∨ i ∈ (confOf c0 (s.node i).log).old)
  -- node.cpp:1717-1749: `last_log_id(true)` has returned
  | .electSend i o => (s.node i).elect = some (s.node i).term ∧ lastIdOk p s i o
  | .electCrash i o => (s.node i).elect = some (s.node i).term ∧ lastIdOk p s i o
  | .electFail i o => p.metaOk = false ∧ (s.node i).elect = some (s.node i).term ∧
      lastIdOk p s i o
  -- node.cpp:1394-1457 handle_request_vote_response, 3551-3569 grant_self, 1940. The own vote
  -- counts once it is persisted (grant_self), or, persisted or not, when the last leader grants
  -- its vote (1446-1449); which node was the last leader is not modelled.
  | .becomeLeader i q => (s.node i).role = .candidate ∧ (s.node i).ready = true ∧
      (s.node i).bconf.Quorum (fun v => decide (v ∈ q)) ∧
      ∀ v ∈ q, if v = i then (p.metaOk = false ∨
          ((s.node i).pterm = (s.node i).term ∧ (s.node i).pvote = some i))
        else Msg.vr (s.node i).term v i ∈ s.g.msgs
  -- node.cpp:2176-2233
  | .voteBegin i t cand claim => Msg.rv t cand claim ∈ s.g.msgs ∧ (s.node i).term ≤ t ∧ cand ≠ i
  -- node.cpp:2235-2288
  | .voteEnd i f _ _ => f ∈ (s.node i).vframes ∧ f.savedTerm = (s.node i).term ∧
      (p.strict = true → f.lastId = lastId (s.node i).log)
  | .voteDrop i f => f ∈ (s.node i).vframes
  -- node.cpp:2285: granted when already voted for this candidate in this term
  | .voteAgain i t cand => (∃ m ∈ s.g.msgs, ∃ cl, m = Msg.rv t cand cl) ∧ cand ≠ i ∧
      (s.node i).term = t ∧ (s.node i).vote = some cand
  -- node.cpp:2024-2079
  | .propose i ds => (s.node i).role = .leader ∧ ds ≠ []
  -- node.cpp:855-891, 708-720, 3202-3361
  | .changeConf i c => (s.node i).role = .leader ∧ lastConfIdx (s.node i).log ≤ (s.node i).commit ∧
      confStepOk (confOf c0 (s.node i).log) c = true
  -- replicator.cpp `_fill_common_fields`, `_send_entries`, `_send_empty_entries`
  | .sendAE i prev _ c => (s.node i).role = .leader ∧ prev ≤ (s.node i).log.length ∧
      c ≤ (s.node i).commit
  -- node.cpp:2409-2421
  | .recvAE i t prev pt es c _ gone => Msg.ae t prev pt es c ∈ s.g.msgs ∧ (s.node i).term ≤ t ∧
      (gone = true → 0 < prev ∧ prev < (s.node i).snap.length)
  | .disk i => (s.node i).queue ≠ []
  -- ballot_box.cpp:60-117 commit_at, with the entries since become_leader pending
  | .commit i k q => (s.node i).role = .leader ∧ (s.node i).commit < k ∧
      k ≤ (s.node i).log.length ∧ termAt (s.node i).log k = (s.node i).term ∧
      (confOf c0 ((s.node i).log.take k)).Quorum (fun v => decide (v ∈ q)) ∧
      ∀ v ∈ q, ∃ m ∈ s.g.msgs, ∃ u, m = Msg.ar (s.node i).term v u ∧ k ≤ u
  -- fsm_caller.cpp:263-319 do_committed
  | .apply i => (s.node i).applied < (s.node i).commit
  | .crash _ => True
  -- snapshot_executor.cpp:113-245 do_snapshot_save, on_snapshot_save_done; fsm_caller.cpp:328-358:
  -- the state machine saves what it contained at some applied index
  | .saveSnap i k => (s.node i).dl = none ∧ (s.node i).psnap.length < k ∧ k ≤ (s.node i).applied ∧
      (p.durOk = true → (s.node i).pterm = (s.node i).term)
  -- replicator.cpp:772-867 _install_snapshot
  | .sendIS i => (s.node i).role = .leader ∧ (s.node i).psnap ≠ []
  -- node.cpp:2634-2661
  | .recvIS i t K _ => Msg.is t K ∈ s.g.msgs ∧ (s.node i).term ≤ t
  -- snapshot_executor.cpp:452-507 load_downloading_snapshot: the copy is in the snapshot storage
  | .copied i => (s.node i).dl ≠ none ∧ (p.durOk = true → (s.node i).pterm = (s.node i).term)
  | .loaded i => (s.node i).dl = some (s.node i).psnap
  -- the copy failed or was interrupted
  | .dlDrop i => (s.node i).dl ≠ none ∧ (s.node i).dl ≠ some (s.node i).psnap

def setNode (s : Sys N D) (i : N) (n : NodeSt N D) : Sys N D := { s with node := updF s.node i n }

/-- Append own entries and note the logs built. -/
def sysAppend (s : Sys N D) (i : N) (es : List (Entry N D)) : Sys N D :=
  { node := updF s.node i (appendOwn (s.node i) es),
    g := { s.g with created := newLogs (s.node i).log es ++ s.g.created } }

/-- node.cpp:1940-1984 `become_leader` up to `_conf_ctx.flush`. -/
def lead (s : Sys N D) (i : N) : Sys N D :=
  { node := updF s.node i { s.node i with role := .leader, ready := false },
    g := { s.g with elections := s.g.elections ++ [⟨(s.node i).term, i, (s.node i).log⟩] } }

/-- node.cpp:2263-2283: state after the second half of the vote handler; `true` when the vote
was newly cast and persisted. -/
def voteFinish (n : NodeSt N D) (f : VFrame N) (ok grantOk : Bool) : NodeSt N D × Bool :=
  let n1 := if n.term < f.reqTerm then stepDown n f.reqTerm ok else n
  let n1 := { n1 with vframes := n.vframes.erase f }
  if idLe f.lastId f.claim ∧ n1.vote = none then
    let n2 := stepDown n1 f.reqTerm ok
    if grantOk then
      ({ n2 with vote := some f.cand, pterm := n2.term, pvote := some f.cand }, true)
    else (n2, false)
  else (n1, false)

/-- Storage of node `i` holds the log `l` from now on. -/
def Glob.held (g : Glob N D) (i : N) (l : Log N D) : Glob N D :=
  { g with hist := updF g.hist i (l :: g.hist i) }

/-- A success answer for the durable log `m`. -/
def Glob.ack (g : Glob N D) (t : Nat) (i : N) (m : Log N D) : Glob N D :=
  { g with msgs := .ar t i m.length :: g.msgs, acks := ⟨t, i, m⟩ :: g.acks }

/-- Run the first step of a node's disk queue. -/
def diskStep (s : Sys N D) (i : N) : Sys N D :=
  let n := s.node i
  match n.queue with
  | [] => s
  | op :: q =>
    let n1 := { n with disk := applyOp n.disk op, queue := q }
    let g1 := s.g.held i (applyOp n.disk op)
    match op with
    | .push _ => { node := updF s.node i n1, g := g1 }
    | .pop => { node := updF s.node i n1, g := g1 }
    | .snap _ => { node := updF s.node i n1, g := g1 }
    -- node.cpp:2313-2372: the term must still be the request's; ballot_box.cpp:137-147: a leader
    -- does not take over the commit index
    | .ackF t m c =>
      if t = n.term then
        { node := updF s.node i { n1 with
            commit := if n.role = .leader then n.commit else max n.commit (min c m.length) },
          g := g1.ack t i m }
      else { node := updF s.node i n1, g := g1 }
    -- node.cpp:2001-2011: commit_at is ignored unless this node is leader; no term check
    | .ackL m =>
      if n.role = .leader then { node := updF s.node i n1, g := g1.ack n.term i m }
      else { node := updF s.node i n1, g := g1 }

/-- A message is sent. -/
def Glob.send (g : Glob N D) (m : Msg N D) : Glob N D := { g with msgs := m :: g.msgs }

/-- A vote has been persisted. -/
def Glob.voted (g : Glob N D) (t : Nat) (i c : N) : Glob N D :=
  { g with votes := ⟨t, i, c, g.elections.length⟩ :: g.votes }

/-- What an action does. -/
def eff (c0 : Conf N) (s : Sys N D) : Act N D → Sys N D
  | .raiseTerm i t ok => setNode s i (stepDown (s.node i) t ok)
  | .electStart i => setNode s i (electStart c0 i (s.node i))
  | .electSend i o =>
    { node := updF s.node i { s.node i with elect := none, ready := true,
                                            pterm := (s.node i).term, pvote := some i },
      g := (s.g.voted (s.node i).term i i).send (.rv (s.node i).term i (lastId o)) }
  | .electCrash i o =>
    { node := updF s.node i (restart (s.node i)),
      g := (s.g.held i (s.node i).psnap).send (.rv (s.node i).term i (lastId o)) }
  | .electFail i o =>
    { node := updF s.node i { s.node i with elect := none, ready := true, vote := none },
      g := s.g.send (.rv (s.node i).term i (lastId o)) }
  | .becomeLeader i _ =>
    sysAppend (lead s i) i [⟨(s.node i).term, .conf (confOf c0 (s.node i).log)⟩]
  | .voteBegin i t cand claim =>
    setNode s i { s.node i with
      vframes := ⟨t, cand, claim, (s.node i).term, lastId (s.node i).log⟩ :: (s.node i).vframes }
  | .voteEnd i f ok grantOk =>
    let r := voteFinish (s.node i) f ok grantOk
    if r.2 then
      { node := updF s.node i r.1,
        g := (s.g.voted f.reqTerm i f.cand).send (.vr f.reqTerm i f.cand) }
    else setNode s i r.1
  | .voteDrop i f => setNode s i { s.node i with vframes := (s.node i).vframes.erase f }
  | .voteAgain i t cand => { s with g := s.g.send (.vr t i cand) }
  | .propose i ds => sysAppend s i (ds.map (fun d => ⟨(s.node i).term, .data d⟩))
  | .changeConf i c => sysAppend s i [⟨(s.node i).term, .conf c⟩]
  | .sendAE i prev cnt c =>
    { s with g := s.g.send (.ae (s.node i).term prev (termAt (s.node i).log prev)
                              (((s.node i).log.drop prev).take cnt) c) }
  | .recvAE i t prev pt es c ok gone =>
    let r := handleAE (s.node i) t prev pt es c ok gone
    if r.2 then { node := updF s.node i r.1, g := s.g.send (.ar t i (prev + es.length)) }
    else setNode s i r.1
  | .disk i => diskStep s i
  | .commit i k _ =>
    { node := updF s.node i { s.node i with commit := k },
      g := { s.g with commits := (s.node i).log.take k :: s.g.commits } }
  | .apply i =>
    { node := updF s.node i { s.node i with
        applied := (s.node i).applied + 1,
        sm := (s.node i).sm ++ ((s.node i).log.drop (s.node i).applied).take 1 },
      g := { s.g with applies := match (s.node i).log[(s.node i).applied]? with
        | none => s.g.applies
        | some e => (i, (s.node i).applied + 1, e) :: s.g.applies } }
  | .crash i =>
    { node := updF s.node i (restart (s.node i)), g := s.g.held i (s.node i).psnap }
  | .saveSnap i k =>
    { node := updF s.node i { s.node i with
        snap := (s.node i).sm.take k, psnap := (s.node i).sm.take k },
      g := s.g.held i ((s.node i).sm.take k) }
  | .sendIS i => { s with g := s.g.send (.is (s.node i).term (s.node i).psnap) }
  | .recvIS i t K ok => setNode s i (handleIS (s.node i) t K ok)
  | .copied i => setNode s i { s.node i with psnap := ((s.node i).dl).getD (s.node i).psnap }
  | .loaded i =>
    { node := updF s.node i (handleLoaded (s.node i) (s.node i).psnap),
      g := s.g.held i (handleLoaded (s.node i) (s.node i).psnap).snap }
  | .dlDrop i => setNode s i { s.node i with dl := none }

/-- One action of the cluster. -/
def Step (p : Params) (c0 : Conf N) (s s' : Sys N D) : Prop :=
  ∃ a, pre p c0 s a ∧ s' = eff c0 s a

/-- Executions: `Steps s s'` when `s'` follows from `s` by any number of actions. -/
inductive Steps (p : Params) (c0 : Conf N) (s : Sys N D) : Sys N D → Prop where
  | refl : Steps p c0 s s
  | tail {s' s''} : Steps p c0 s s' → Step p c0 s' s'' → Steps p c0 s s''

/-- States of some execution that starts with fresh nodes. -/
def Reachable (p : Params) (c0 : Conf N) (s : Sys N D) : Prop := Steps p c0 (initSys c0) s

end Model
end Braft.Raft
