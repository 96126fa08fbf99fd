import Verif.BallotBox
import Verif.Raft.Model
/-
A cluster of servers, each a transcription of the handlers of `NodeImpl` (src/braft/node.cpp) with
the real `VoteBallotCtx`/`Ballot` and `BallotBox`, over the same asynchronous network as
`Verif/Raft/Model.lean`. `Verif/Cluster/Sim*.lean` proves that every execution of this cluster is
an execution of `Verif/Raft/Model.lean`, whose ballots, elections and commits are specifications.

What is a parameter of an action because it comes from outside: the lease (`free`: is
`_follower_lease.votable_time_from_now()` 0), the result of the meta storage (`ok`, `grantOk`),
when timers fire, and which messages arrive.

Simplifications beyond those of `Verif/Raft/Model.lean` that concern the log, snapshots, disk and
restart (they are shared):
* STATE_ERROR, STATE_SHUTTING and the other inactive states are left out;
* `pre_vote` only restricts when `elect_self` is called, so it is the guard of the action `elect`;
  a TimeoutNow request may arrive at any time, with any term;
* the append entries cache (a request put aside and handled later) is a delayed request;
* `FollowerStableClosure` and the heartbeat branch of `handle_append_entries_request` set the
  committed index after they have released the mutex; here in the same step;
* a configuration change starts from a committed configuration entry (`ConfigurationCtx` has its
  own model, Verif/Node/ConfCtx).
-/
set_option linter.unusedVariables false
set_option linter.unusedSimpArgs false
set_option linter.unusedSectionVars false

namespace Braft.Cl
open Braft.Raft

/-- raft.h:271-283 `State`, the active states. -/
inductive St where
  | leader | transferring | candidate | follower
deriving DecidableEq, Repr

/-- `_state <= STATE_TRANSFERRING`. -/
def St.leads : St → Bool
  | .leader => true
  | .transferring => true
  | _ => false

/-- node.h `VoteBallotCtx`. `disrupted = none` is a `DisruptedLeader` with term -1. The grant-self
timer is in `Srv.timers`. -/
structure VoteCtx (N : Type) where
  version : Nat := 0
  ballot : Ballot N := ⟨[], 0, [], 0⟩
  lastId : Nat × Nat := (0, 0)
  reserved : List N := []
  disrupted : Option (Option N × Nat) := none
deriving DecidableEq, Repr

/-- An `elect_self` call between its two critical sections (node.cpp:1717-1720): its `old_term`,
what `last_log_id(true)` will answer, and how many disk queue steps are before it. -/
structure EFrame where
  term : Nat
  claim : Nat × Nat
  rest : Nat
deriving DecidableEq, Repr

/-- An RPC `OnRequestVoteRPCDone` that waits for its response: peer, term, ctx_version. -/
structure Rpc (N : Type) where
  peer : N
  term : Nat
  version : Nat
deriving DecidableEq, Repr

/-- A replicator between two accesses to the log or the ballot box (replicator.cpp): it has built
the common fields of a request (`_fill_common_fields`, 521-552) and will read the entries
(`_prepare_entry`), or it will call `commit_at` for a success response (486-489). -/
inductive RFrame (N : Type) where
  | send (term : Nat) (peer : N) (prev prevTerm commit : Nat)
  | ack (term : Nat) (peer : N) (first last : Nat)
deriving DecidableEq, Repr

/-- Steps of the disk queue, without ghosts (compare `Raft.Op`): `follower` is a
FollowerStableClosure for a request of term `t` from `leader` with `n` entries ending at `upTo` and
committed index `c`; `leader` a LeaderStableClosure for `n` entries starting at `first`. -/
inductive Job (N D : Type) where
  | push (e : Entry N D)
  | pop
  | follower (t upTo n c : Nat) (leader : N)
  | leader (first n : Nat)
  | snap (K : Log N D)
deriving DecidableEq, Repr

/-- Effect of a disk queue step on the storage (log_manager.cpp:541-620). -/
def applyJob {N D : Type} (l : Log N D) : Job N D → Log N D
  | .push e => l ++ [e]
  | .pop => l.dropLast
  | .follower _ _ _ _ _ => l
  | .leader _ _ => l
  | .snap K => snapMerge K l

def drainJobs {N D : Type} (d : Log N D) (q : List (Job N D)) : Log N D := q.foldl applyJob d

/-- No LeaderStableClosure queued. -/
def noLeaderJob {N D : Type} (q : List (Job N D)) : Bool :=
  q.all (fun j => match j with | .leader _ _ => false | _ => true)

/-- node.h:495-560, the members of `NodeImpl` modelled, with those of its LogManager, BallotBox,
SnapshotExecutor and RaftMetaStorage. `_conf` is the last configuration of the log
(`check_and_set_configuration`). -/
structure Srv (N D : Type) where
  state : St
  term : Nat
  vote : Option N
  leaderId : Option N
  lastLeader : Option N          -- FollowerLease::_last_leader
  ctx : VoteCtx N                -- _vote_ctx
  timers : List Nat              -- grant-self timers of _vote_ctx, with their version
  rpcs : List (Rpc N)
  elects : List EFrame
  vcalls : List (VFrame N)
  repl : List (RFrame N)
  bb : BallotBox N Unit
  pterm : Nat
  pvote : Option N
  log : Log N D
  disk : Log N D
  queue : List (Job N D)
  snap : Log N D
  psnap : Log N D
  dl : Option (Log N D)
  applied : Nat
  sm : Log N D

/-- raft.proto messages, with sender and receiver. -/
inductive CMsg (N D : Type) where
  | rvReq (term : Nat) (cand to : N) (claim : Nat × Nat) (disrupted : Option (N × Nat))
  | rvRes (reqTerm : Nat) (voter cand : N) (granted rejected disrupted : Bool) (term prevTerm : Nat)
  | aeReq (term : Nat) (leader to : N) (prev prevTerm : Nat) (es : List (Entry N D)) (commit : Nat)
  | aeRes (reqTerm : Nat) (leader who : N) (success : Bool) (term upTo n : Nat)
  | isReq (term : Nat) (leader to : N) (K : Log N D)
deriving DecidableEq, Repr

/-- What users see: a node becomes leader of a term; a node starts following a leader
(`on_start_following`, also what `leader_id` returns from then on); an entry reaches the state
machine of a node. -/
inductive Ev (N D : Type) where
  | lead (i : N) (t : Nat)
  | follow (i l : N) (t : Nat)
  | applied (i : N) (idx : Nat) (e : Entry N D)
deriving DecidableEq, Repr

/-- `Params` with two more assumptions and a flag. `checkAborts`: a failed CHECK ends the process
(butil's `crash_on_fatal_log`, off by default). `replOk`: a node does not step down while one of
its replicators is between two accesses to the log manager or the ballot box. `lease`: is
`raft_enable_leader_lease` on (off by default)? If not, `votable_time_from_now` is always 0
(lease.cpp:111-114). -/
structure CParams where
  base : Params
  checkAborts : Bool
  replOk : Bool
  lease : Bool
deriving DecidableEq, Repr

structure CSys (N D : Type) where
  node : N → Srv N D
  msgs : List (CMsg N D)
  ev : List (Ev N D)

/-- Result of a handler: the new node, messages sent, events. -/
abbrev Res (N D : Type) := Srv N D × List (CMsg N D) × List (Ev N D)

section Server
variable {N D : Type} [DecidableEq N] [DecidableEq D]

/-- configuration.h:262 `stable()`: the pointer handed to `Ballot::init` (node.cpp:3480,
2063-2065). -/
def oldOf (c : Conf N) : Option (List N) := if c.old = [] then none else some c.old

/-- configuration.h:264-267 `ConfigurationEntry::list_peers`: the union. -/
def members (c : Conf N) : List N := c.peers ++ c.old.filter (fun x => decide (x ∉ c.peers))

/-- node.cpp:3505-3512 `VoteBallotCtx::reset`; the ballot stays. (A timer that could not be
deleted is stopped by its version.) -/
def VoteCtx.reset (x : VoteCtx N) : VoteCtx N :=
  { version := x.version + 1, ballot := x.ballot }

/-- node.cpp:3478-3482 `VoteBallotCtx::init`. -/
def VoteCtx.init (x : VoteCtx N) (c : Conf N) : VoteCtx N :=
  { x.reset with ballot := Ballot.init c.peers (oldOf c) }

/-- A node before its first start. -/
def freshSrv : Srv N D :=
  { state := .follower, term := 1, vote := none, leaderId := none, lastLeader := none, ctx := {},
    timers := [], rpcs := [], elects := [], vcalls := [], repl := [], bb := {},
    pterm := 1, pvote := none, log := [], disk := [], queue := [], snap := [], psnap := [],
    dl := none, applied := 0, sm := [] }

/-- What the log manager queues when a snapshot is loaded at start. -/
def loadJobs (P : Log N D) : List (Job N D) := if P = [] then [] else [.snap P]

/-- Process restart, see `Raft.restart`. -/
def restartSrv (c : Srv N D) : Srv N D :=
  let l := snapMerge c.psnap c.disk
  let behind := decide (c.pterm < lastTerm l)
  let t := if behind then lastTerm l + 1 else c.pterm
  let v := if behind then none else c.pvote
  { freshSrv with
    term := t, vote := v, pterm := t, pvote := v, log := l, disk := c.disk,
    queue := loadJobs c.psnap, snap := c.psnap, psnap := c.psnap,
    applied := c.psnap.length, sm := c.psnap }

/-- node.cpp:1793-1875 `step_down`. -/
def sStepDown (c : Srv N D) (t : Nat) (ok : Bool) : Srv N D :=
  let up := decide (c.term < t)
  { c with
    ctx := if c.state = .candidate then c.ctx.reset else c.ctx,
    bb := if c.state.leads then c.bb.clearPendingTasks.1 else c.bb,
    leaderId := none,
    state := .follower,
    term := if up then t else c.term,
    vote := if up then none else c.vote,
    pterm := if up && ok then t else c.pterm,
    pvote := if up && ok then none else c.pvote }

/-- node.cpp:1897-1920 `check_step_down`, with `reset_leader_id` (1877-1895). -/
def sCheckStepDown (i : N) (c : Srv N D) (t : Nat) (srv : N) (ok : Bool) :
    Srv N D × List (Ev N D) :=
  let c1 := if c.term < t ∨ c.state ≠ .follower ∨ c.leaderId = none then sStepDown c t ok else c
  if c1.leaderId = none then ({ c1 with leaderId := some srv }, [.follow i srv c1.term])
  else (c1, [])

/-- log_manager.cpp:190-208 `last_log_id(true)`: what it will answer. -/
def askId (c : Srv N D) : Nat × Nat :=
  if c.log.length = c.snap.length then lastId c.snap else lastId (drainJobs c.disk c.queue)

/-- The disk queue steps before the answer. -/
def askRest (c : Srv N D) : Nat := if c.log.length = c.snap.length then 0 else c.queue.length

/-- node.cpp:1681-1716, the first critical section of `elect_self(lck, old_leader_stepped_down)`. -/
def sElectA (c0 : Conf N) (i : N) (c : Srv N D) (stepped : Bool) : Srv N D :=
  if i ∉ (confOf c0 c.log).peers ∧ i ∉ (confOf c0 c.log).old then c
  else
    { c with
      leaderId := none,
      state := .candidate,
      term := c.term + 1,
      vote := some i,
      ctx := { c.ctx.init (confOf c0 c.log) with
        disrupted := if stepped then some (c.leaderId, c.term) else none },
      elects := { term := c.term + 1, claim := askId c, rest := askRest c } :: c.elects }

/-- node.cpp:1770-1774: the disrupted leader as put into a request. -/
def disruptedField (x : VoteCtx N) : Option (N × Nat) :=
  match x.disrupted with
  | some (some l, t) => some (l, t)
  | _ => none

/-- node.cpp:1752-1790 `request_peers_to_vote`. -/
def sRequestPeers (i : N) (c : Srv N D) (ps : List N) : Srv N D × List (CMsg N D) :=
  let qs := ps.filter (fun x => decide (x ≠ i))
  ({ c with rpcs := qs.map (fun x => ⟨x, c.term, c.ctx.version⟩) ++ c.rpcs },
   qs.map (fun x => .rvReq c.term i x c.ctx.lastId (disruptedField c.ctx)))

/-- Leader appends own entries: node.cpp:2055-2078 / 2096-2106; each gets a ballot of the
configuration `cf` (for a configuration entry the new one, 2099-2100). -/
def sAppendOwn (c : Srv N D) (cf : Conf N) (es : List (Entry N D)) : Srv N D :=
  { c with
    bb := es.foldl (fun b _ => b.appendPendingTask cf.peers (oldOf cf) none) c.bb,
    log := c.log ++ es,
    queue := c.queue ++ es.map .push ++ [.leader (c.log.length + 1) es.length] }

/-- node.cpp:1940-1984 `become_leader`. -/
def sBecomeLeader (p : CParams) (c0 : Conf N) (i : N) (c : Srv N D) : Res N D :=
  if c.state ≠ .candidate ∧ p.checkAborts = true then (restartSrv c, [], [])
  else
    let cf := confOf c0 c.log
    let c1 : Srv N D := { c with
      ctx := c.ctx.reset,
      state := .leader,
      leaderId := some i,
      lastLeader := none,
      bb := c.bb.resetPendingIndex (c.log.length + 1) }
    (sAppendOwn c1 cf [⟨c.term, .conf cf⟩], [], [.lead i c.term])

/-- node.cpp:3551-3569 `grant_self(&_vote_ctx)`. -/
def sGrantSelf (p : CParams) (c0 : Conf N) (i : N) (c : Srv N D) (free : Bool) : Res N D :=
  if free then
    let c1 : Srv N D := { c with ctx := { c.ctx with ballot := c.ctx.ballot.grant i } }
    if c1.ctx.ballot.granted then sBecomeLeader p c0 i c1 else (c1, [], [])
  else ({ c with timers := c.ctx.version :: c.timers }, [], [])

/-- node.cpp:1720-1733, the second critical section of `elect_self` up to the requests. -/
def sElectAsk (c0 : Conf N) (i : N) (c : Srv N D) (f : EFrame) : Srv N D × List (CMsg N D) :=
  sRequestPeers i { c with elects := c.elects.erase f, ctx := { c.ctx with lastId := f.claim } }
    (members (confOf c0 c.log))

/-- node.cpp:1720-1749, the second critical section of `elect_self`. `ok`: the result of
`set_term_and_votedfor`. -/
def sElectB (p : CParams) (c0 : Conf N) (i : N) (c : Srv N D) (f : EFrame) (ok free : Bool) :
    Res N D :=
  if f.term ≠ c.term then ({ c with elects := c.elects.erase f }, [], [])
  else
    let r := sElectAsk c0 i c f
    if ok then
      let r2 := sGrantSelf p c0 i { r.1 with pterm := r.1.term, pvote := some i } free
      (r2.1, r2.2.1 ++ r.2, r2.2.2)
    else ({ r.1 with vote := none }, r.2, [])

/-- node.cpp:3582-3603 `handle_grant_self_timedout` for `_vote_ctx`. -/
def sTimer (p : CParams) (c0 : Conf N) (i : N) (c : Srv N D) (v : Nat) (free : Bool) : Res N D :=
  let c1 : Srv N D := { c with timers := c.timers.erase v }
  if c.ctx.version ≠ v then (c1, [], []) else sGrantSelf p c0 i c1 free

/-- node.cpp:1394-1450 `handle_request_vote_response`, and 1452-1460
`retry_vote_on_reserved_peers`. -/
def sVoteRes (p : CParams) (c0 : Conf N) (i : N) (c : Srv N D) (r : Rpc N)
    (granted rejected disrupted : Bool) (rterm prevTerm : Nat) (ok : Bool) : Res N D :=
  let c0' : Srv N D := { c with rpcs := c.rpcs.erase r }
  if r.version ≠ c.ctx.version then (c0', [], [])
  else if c.state ≠ .candidate then (c0', [], [])
  else if r.term ≠ c.term then (c0', [], [])
  else if c.term < rterm then (sStepDown c0' rterm ok, [], [])
  else if ¬ granted ∧ ¬ rejected then (c0', [], [])
  else
    let x1 : VoteCtx N :=
      if disrupted then { c.ctx with disrupted := some (some r.peer, prevTerm) } else c.ctx
    let b1 := if granted then x1.ballot.grant r.peer else x1.ballot
    let b2 := if granted ∧ some r.peer = c.lastLeader then b1.grant i else b1
    let rs := if granted then x1.reserved else r.peer :: x1.reserved
    let c1 : Srv N D := { c0' with ctx := { x1 with ballot := b2, reserved := rs } }
    if granted ∧ b2.granted then sBecomeLeader p c0 i c1
    else if x1.disrupted = none then (c1, [], [])
    else
      let r2 := sRequestPeers i { c1 with ctx := { c1.ctx with reserved := [] } } rs
      (r2.1, r2.2, [])

/-- node.cpp:2176-2233, first critical section of `handle_request_vote_request`. -/
def sVoteReqA (i : N) (c : Srv N D) (t : Nat) (cand : N) (claim : Nat × Nat) : Res N D :=
  if t < c.term then (c, [.rvRes t i cand false false false c.term c.term], [])
  else ({ c with vcalls := ⟨t, cand, claim, c.term, askId c⟩ :: c.vcalls }, [], [])

/-- node.cpp:2282-2287: the response. -/
def voteAnswer (i : N) (c : Srv N D) (f : VFrame N) (rejected disrupted : Bool) : CMsg N D :=
  .rvRes f.reqTerm i f.cand (decide (f.reqTerm = c.term ∧ c.vote = some f.cand)) rejected disrupted
    c.term f.savedTerm

/-- node.cpp:2263-2280: raise the term and cast the vote. -/
def sVoteCast (c : Srv N D) (f : VFrame N) (ok grantOk : Bool) : Srv N D :=
  let c1 := if c.term < f.reqTerm then sStepDown c f.reqTerm ok else c
  if idLe f.lastId f.claim ∧ c1.vote = none then
    let c2 := sStepDown c1 f.reqTerm ok
    if grantOk then { c2 with vote := some f.cand, pterm := c2.term, pvote := some f.cand }
    else { c2 with vote := none }
  else c1

/-- node.cpp:2235-2288, second critical section of `handle_request_vote_request`. -/
def sVoteReqB (i : N) (c : Srv N D) (f : VFrame N) (free ok grantOk : Bool) : Res N D :=
  let c1 : Srv N D := { c with vcalls := c.vcalls.erase f }
  if f.savedTerm ≠ c.term then (c1, [voteAnswer i c1 f false false], [])
  else if ¬ free then (c1, [voteAnswer i c1 f (idLe f.lastId f.claim) false], [])
  else
    let c2 := sVoteCast c1 f ok grantOk
    (c2, [voteAnswer i c2 f false (decide (c.term < f.reqTerm) && c.state.leads)], [])

/-- log_manager.cpp:365-404, see `Raft.resolveOps`. -/
def resolveJobs (l : Log N D) (prev : Nat) (es : List (Entry N D)) : List (Job N D) :=
  let k := matchLen (l.drop prev) es
  (if k < es.length ∧ prev + k < l.length then List.replicate (l.length - (prev + k)) .pop else [])
    ++ (es.drop k).map .push

/-- `set_last_committed_index` on the ballot box. -/
def sSetCommitted (c : Srv N D) (k : Nat) : Srv N D := { c with bb := (c.bb.setLastCommittedIndex k).1 }

/-- node.cpp:2387-2573 `handle_append_entries_request`; `gone`: the entry at `prev` is compacted,
so `get_term` answers 0. log_manager.cpp:353-364: when all entries are applied already, the
closure runs at once. -/
def sAppend (i : N) (c : Srv N D) (t : Nat) (srv : N) (prev prevTerm : Nat)
    (es : List (Entry N D)) (cm : Nat) (ok gone : Bool) : Res N D :=
  if t < c.term then (c, [.aeRes t srv i false c.term (prev + es.length) es.length], [])
  else
    let r := sCheckStepDown i c t srv ok
    let c1 := r.1
    if c1.leaderId ≠ some srv then
      (sStepDown c1 (t + 1) ok, [.aeRes t srv i false (t + 1) (prev + es.length) es.length], r.2)
    else
      let c2 : Srv N D := { c1 with lastLeader := some srv }
      if es ≠ [] ∧ c2.dl.isSome then (c2, [], r.2)
      else if (if gone then 0 else termAt c2.log prev) ≠ prevTerm then
        (c2, [.aeRes t srv i false c2.term (prev + es.length) es.length], r.2)
      else if es = [] then
        (sSetCommitted c2 (min cm prev), [.aeRes t srv i true c2.term prev 0], r.2)
      else if prev + es.length ≤ c2.applied then
        (sSetCommitted c2 (min cm (prev + es.length)),
          [.aeRes t srv i true c2.term (prev + es.length) es.length], r.2)
      else
        let js := resolveJobs c2.log prev es
        ({ c2 with
            log := drainJobs c2.log js,
            queue := c2.queue ++ js ++
              [.follower c2.term (prev + es.length) es.length cm srv] }, [], r.2)

/-- node.cpp:2605-2672 `handle_install_snapshot_request`, snapshot_executor.cpp:402-450. -/
def sInstall (i : N) (c : Srv N D) (t : Nat) (srv : N) (K : Log N D) (ok : Bool) : Res N D :=
  if t < c.term then (c, [], [])
  else
    let r := sCheckStepDown i c t srv ok
    let c1 := r.1
    if c1.leaderId ≠ some srv then (sStepDown c1 (t + 1) ok, [], r.2)
    else if c1.dl = none ∧ c1.snap.length < K.length then ({ c1 with dl := some K }, [], r.2)
    else (c1, [], r.2)

/-- snapshot_executor.cpp:247-288, fsm_caller.cpp:367-429, log_manager.cpp:622-679; see
`Raft.handleLoaded`. -/
def sLoaded (c : Srv N D) : Srv N D :=
  let K := c.psnap
  if idLe (termAt c.log c.applied, c.applied) (lastId K) then
    if c.snap.length < K.length then
      { c with
        dl := none, applied := K.length, sm := K, snap := K, log := snapMerge K c.log,
        queue := c.queue ++ [.snap K] }
    else { c with dl := none, applied := K.length, sm := K }
  else { c with dl := none }

/-- One step of the disk queue. node.cpp:2313-2372 `FollowerStableClosure::run`, 2001-2011
`LeaderStableClosure::Run`. -/
def sDisk (i : N) (c : Srv N D) : Res N D :=
  match c.queue with
  | [] => (c, [], [])
  | j :: q =>
    let c1 : Srv N D := { c with
      disk := applyJob c.disk j, queue := q,
      elects := c.elects.map (fun f => { f with rest := f.rest - 1 }) }
    match j with
    | .push _ => (c1, [], [])
    | .pop => (c1, [], [])
    | .snap _ => (c1, [], [])
    | .follower t upTo n cm l =>
      if t ≠ c.term then (c1, [.aeRes t l i false c.term upTo n], [])
      else (sSetCommitted c1 (min cm upTo), [.aeRes t l i true t upTo n], [])
    | .leader first n => ({ c1 with bb := (c1.bb.commitAt first (first + n - 1) i).1 }, [], [])

/-- fsm_caller.cpp:263-319 `do_committed`, one entry. -/
def sApply (i : N) (c : Srv N D) : Res N D :=
  ({ c with applied := c.applied + 1, sm := c.sm ++ (c.log.drop c.applied).take 1 }, [],
    match c.log[c.applied]? with
    | none => []
    | some e => [.applied i (c.applied + 1) e])

/-- What can happen at node `i`. -/
inductive CAct (N D : Type) where
  /-- pre_vote succeeded, node.cpp:3559-3560; or the vote timer with
  `raft_step_down_when_vote_timedout` off, 1388-1392 -/
  | elect (i : N)
  /-- node.cpp:1092-1150 `handle_timeout_now_request` -/
  | timeoutNow (i : N) (t : Nat) (stepped ok : Bool)
  | electB (i : N) (f : EFrame) (ok free : Bool)
  /-- the process ends between the requests and the vote being stored -/
  | electDie (i : N) (f : EFrame)
  | timer (i : N) (v : Nat) (free : Bool)
  | voteRes (i : N) (r : Rpc N) (granted rejected disrupted : Bool) (rterm prevTerm : Nat) (ok : Bool)
  | voteReq (i : N) (t : Nat) (cand : N) (claim : Nat × Nat) (dis : Option (N × Nat))
  | voteReqB (i : N) (f : VFrame N) (free ok grantOk : Bool)
  /-- any other step_down: a response with a higher term (replicator.cpp:420-440 and others),
  the step-down timer, the lease, the vote timer -/
  | stepDown (i : N) (t : Nat) (ok : Bool)
  | transfer (i : N)
  | transferTimeout (i : N)
  | apply (i : N) (ds : List D)
  | changeConf (i : N) (cf : Conf N)
  | replSend (i to : N) (prev : Nat)
  | replRead (i : N) (f : RFrame N) (cnt : Nat)
  | replRes (i : N) (who : N) (first upTo n : Nat)
  | replAck (i : N) (f : RFrame N)
  | append (i : N) (t : Nat) (srv : N) (prev prevTerm : Nat) (es : List (Entry N D)) (cm : Nat)
      (ok gone : Bool)
  | sendIS (i to : N)
  | install (i : N) (t : Nat) (srv : N) (K : Log N D) (ok : Bool)
  | disk (i : N)
  | fsm (i : N)
  | saveSnap (i : N) (k : Nat)
  | copied (i : N)
  | loaded (i : N)
  | dlDrop (i : N)
  | crash (i : N)

/-- The node an action happens at. -/
def CAct.at : CAct N D → N
  | .elect i => i
  | .timeoutNow i _ _ _ => i
  | .electB i _ _ _ => i
  | .electDie i _ => i
  | .timer i _ _ => i
  | .voteRes i _ _ _ _ _ _ _ => i
  | .voteReq i _ _ _ _ => i
  | .voteReqB i _ _ _ _ => i
  | .stepDown i _ _ => i
  | .transfer i => i
  | .transferTimeout i => i
  | .apply i _ => i
  | .changeConf i _ => i
  | .replSend i _ _ => i
  | .replRead i _ _ => i
  | .replRes i _ _ _ _ => i
  | .replAck i _ => i
  | .append i _ _ _ _ _ _ _ _ => i
  | .sendIS i _ => i
  | .install i _ _ _ _ => i
  | .disk i => i
  | .fsm i => i
  | .saveSnap i _ => i
  | .copied i => i
  | .loaded i => i
  | .dlDrop i => i
  | .crash i => i

/-- Is `elect_self` called under the assumptions of `p`? -/
def electOk (p : CParams) (c : Srv N D) : Bool :=
  (!p.base.instOk || decide (c.dl = none)) &&
  (!p.base.flushOk || decide (c.log.length ≠ c.snap.length) || noLeaderJob c.queue)

/-- When is an action possible? -/
def cpre (p : CParams) (c0 : Conf N) (s : CSys N D) : CAct N D → Bool
  | .elect i => !(s.node i).state.leads && electOk p (s.node i)
  | .timeoutNow i t _ _ => decide (t ≠ (s.node i).term) || decide ((s.node i).state ≠ .follower) ||
      electOk p (s.node i)
  | .electB i f ok free => decide (f ∈ (s.node i).elects) && decide (f.rest = 0) &&
      (ok || !p.base.metaOk) && (free || p.lease)
  | .electDie i f => decide (f ∈ (s.node i).elects) && decide (f.rest = 0) &&
      decide (f.term = (s.node i).term)
  | .timer i v free => decide (v ∈ (s.node i).timers) && (free || p.lease)
  | .voteRes i r g rj d rt pt _ => decide (r ∈ (s.node i).rpcs) &&
      decide (CMsg.rvRes r.term r.peer i g rj d rt pt ∈ s.msgs)
  | .voteReq i t cand claim dis => decide (CMsg.rvReq t cand i claim dis ∈ s.msgs)
  | .voteReqB i f free _ _ => decide (f ∈ (s.node i).vcalls) && (free || p.lease) &&
      (!p.base.strict || decide (f.savedTerm ≠ (s.node i).term) ||
        decide (f.lastId = lastId (s.node i).log))
  | .stepDown i t _ => decide ((s.node i).term ≤ t)
  | .transfer i => decide ((s.node i).state = .leader)
  | .transferTimeout i => decide ((s.node i).state = .transferring)
  | .apply i ds => decide ((s.node i).state = .leader) && decide (ds ≠ [])
  | .changeConf i cf => (s.node i).state.leads &&
      decide (lastConfIdx (s.node i).log ≤ (s.node i).bb.lastCommitted) &&
      confStepOk (confOf c0 (s.node i).log) cf
  | .replSend i to prev => (s.node i).state.leads && decide (to ≠ i) &&
      decide (prev ≤ (s.node i).log.length)
  | .replRead i f _ => decide (f ∈ (s.node i).repl) &&
      match f with
      | .send t _ _ _ _ => !p.replOk || ((s.node i).state.leads && decide ((s.node i).term = t))
      | _ => false
  | .replRes i who _ upTo n => (s.node i).state.leads && decide (0 < n) &&
      decide (CMsg.aeRes (s.node i).term i who true (s.node i).term upTo n ∈ s.msgs)
  | .replAck i f => decide (f ∈ (s.node i).repl) &&
      match f with
      | .ack t _ _ _ => !p.replOk || ((s.node i).state.leads && decide ((s.node i).term = t))
      | _ => false
  | .append i t srv prev pt es cm _ gone =>
      decide (CMsg.aeReq t srv i prev pt es cm ∈ s.msgs) &&
      (!gone || (decide (0 < prev) && decide (prev < (s.node i).snap.length)))
  | .sendIS i to => (s.node i).state.leads && decide (to ≠ i) && decide ((s.node i).psnap ≠ [])
  | .install i t srv K _ => decide (CMsg.isReq t srv i K ∈ s.msgs)
  | .disk i => decide ((s.node i).queue ≠ [])
  | .fsm i => decide ((s.node i).applied < (s.node i).bb.lastCommitted)
  | .saveSnap i k => decide ((s.node i).dl = none) && decide ((s.node i).psnap.length < k) &&
      decide (k ≤ (s.node i).applied) &&
      (!p.base.durOk || decide ((s.node i).pterm = (s.node i).term))
  | .copied i => decide ((s.node i).dl ≠ none) &&
      (!p.base.durOk || decide ((s.node i).pterm = (s.node i).term))
  | .loaded i => decide ((s.node i).dl = some (s.node i).psnap)
  | .dlDrop i => decide ((s.node i).dl ≠ none) && decide ((s.node i).dl ≠ some (s.node i).psnap)
  | .crash _ => true

/-- node.cpp:1092-1150 `handle_timeout_now_request`. -/
def sTimeoutNow (c0 : Conf N) (i : N) (c : Srv N D) (t : Nat) (stepped ok : Bool) : Srv N D :=
  if t ≠ c.term then (if c.term < t then sStepDown c t ok else c)
  else if c.state ≠ .follower then c
  else sElectA c0 i c stepped

/-- replicator.cpp:521-552 `_fill_common_fields`. -/
def sReplSend (c : Srv N D) (to : N) (prev : Nat) : Srv N D :=
  { c with
    repl := .send c.term to prev (termAt c.log prev) c.bb.lastCommitted :: c.repl }

/-- replicator.cpp:636-720 `_send_entries`: the entries are read and the request is sent. -/
def sReplRead (i : N) (c : Srv N D) (f : RFrame N) (cnt : Nat) : Res N D :=
  match f with
  | .send t to prev pt cm =>
    ({ c with repl := c.repl.erase f },
      [.aeReq t i to prev pt ((c.log.drop prev).take cnt) cm], [])
  | _ => (c, [], [])

/-- replicator.cpp:365-489 `_on_rpc_returned` for a success response, up to `commit_at`. The first
index is `_min_flying_index`, at most that of this request; here it is arbitrary. -/
def sReplRes (c : Srv N D) (who : N) (first upTo : Nat) : Srv N D :=
  { c with repl := .ack c.term who first upTo :: c.repl }

/-- replicator.cpp:486-489. -/
def sReplAck (c : Srv N D) (f : RFrame N) : Srv N D :=
  match f with
  | .ack _ who first upTo =>
    { c with repl := c.repl.erase f, bb := (c.bb.commitAt first upTo who).1 }
  | _ => c

/-- What an action does at its node. -/
def ceff (p : CParams) (c0 : Conf N) (c : Srv N D) : CAct N D → Res N D
  | .elect i => (sElectA c0 i c false, [], [])
  | .timeoutNow i t stepped ok => (sTimeoutNow c0 i c t stepped ok, [], [])
  | .electB i f ok free => sElectB p c0 i c f ok free
  | .electDie i f => (restartSrv c, (sElectAsk c0 i c f).2, [])
  | .timer i v free => sTimer p c0 i c v free
  | .voteRes i r g rj d rt pt ok => sVoteRes p c0 i c r g rj d rt pt ok
  | .voteReq i t cand claim _ => sVoteReqA i c t cand claim
  | .voteReqB i f free ok grantOk => sVoteReqB i c f free ok grantOk
  | .stepDown _ t ok => (sStepDown c t ok, [], [])
  -- node.cpp:1189-1262
  | .transfer _ => ({ c with state := .transferring }, [], [])
  -- node.cpp:1152-1187
  | .transferTimeout _ => ({ c with state := .leader }, [], [])
  | .apply _ ds => (sAppendOwn c (confOf c0 c.log) (ds.map (fun d => ⟨c.term, .data d⟩)), [], [])
  | .changeConf _ cf => (sAppendOwn c cf [⟨c.term, .conf cf⟩], [], [])
  | .replSend _ to prev => (sReplSend c to prev, [], [])
  | .replRead i f cnt => sReplRead i c f cnt
  | .replRes _ who first upTo _ => (sReplRes c who first upTo, [], [])
  | .replAck _ f => (sReplAck c f, [], [])
  | .append i t srv prev pt es cm ok gone => sAppend i c t srv prev pt es cm ok gone
  -- replicator.cpp:772-867
  | .sendIS i to => (c, [.isReq c.term i to c.psnap], [])
  | .install i t srv K ok => sInstall i c t srv K ok
  | .disk i => sDisk i c
  | .fsm i => sApply i c
  -- snapshot_executor.cpp:113-245
  | .saveSnap _ k => ({ c with snap := c.sm.take k, psnap := c.sm.take k }, [], [])
  -- snapshot_executor.cpp:452-507
  | .copied _ => ({ c with psnap := c.dl.getD c.psnap }, [], [])
  | .loaded _ => (sLoaded c, [], [])
  | .dlDrop _ => ({ c with dl := none }, [], [])
  | .crash _ => (restartSrv c, [], [])

/-- One step of the cluster, if it is possible. -/
def cstep (p : CParams) (c0 : Conf N) (s : CSys N D) (a : CAct N D) : Option (CSys N D) :=
  if cpre p c0 s a then
    let r := ceff p c0 (s.node a.at) a
    some { node := updF s.node a.at r.1, msgs := r.2.1 ++ s.msgs, ev := r.2.2 ++ s.ev }
  else none

def initC : CSys N D := { node := fun _ => freshSrv, msgs := [], ev := [] }

/-- Executions from `s`. -/
inductive CSteps (p : CParams) (c0 : Conf N) (s : CSys N D) : CSys N D → Prop where
  | refl : CSteps p c0 s s
  | tail {s' s''} (a : CAct N D) : CSteps p c0 s s' → cstep p c0 s' a = some s'' → CSteps p c0 s s''

/-- States of executions that start with fresh nodes. -/
def CReachable (p : CParams) (c0 : Conf N) (s : CSys N D) : Prop := CSteps p c0 initC s

end Server
end Braft.Cl
