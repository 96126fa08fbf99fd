import Verif.Lease
import Verif.Raft.Model
/-
Timed model of elections with leader leases: any number of nodes (src/braft/node.cpp), each with
a `LeaderLease` and a `FollowerLease` (Verif/Lease.lean), local clocks, an asynchronous network,
crashes, leadership transfer and the "disrupted leader" extension of RequestVote.

The flag `raft_enable_leader_lease` is on. Simplifications:
* all nodes start with the same election timeout and clock drift;
  `reset_election_timeout_ms` and `vote` may change them on any node at any time (not to a negative
  number of milliseconds);
* logs are abstracted: a voter may find the candidate's log good or not; a candidate is elected by a
  quorum of some configuration, and a configuration entry of a leader may commit once a quorum has answered
  an AppendEntries sent after it was appended. What ties the configurations of different leaders together
  is `Compat`, which every state of an execution satisfies: Verif/LeaseRaft.lean derives it from the Raft model;
* the meta storage never fails;
* `vote_ctx` is modelled by the granted responses of the current term (its ballot is the subject
  of Verif/Props/Ballot.lean).
Ghost components: `won`, `wconf`, `votes`, `recv`, `hist`, `Nd.t0`, `Nd.st`, `Nd.cuAt`, `Nd.flT`.
-/
set_option linter.unusedVariables false
set_option linter.unusedSimpArgs false
set_option linter.unusedSectionVars false

namespace Braft.LeaseNet
open Braft.Lease
open Braft.Raft (Conf confStepOk)

/-- node.h `State`. -/
inductive Role where
  | follower | candidate | leader | transferring
deriving DecidableEq, Repr

structure Nd (N : Type) where
  term : Nat              -- _current_term
  vote : Option N         -- _voted_id
  pterm : Nat             -- stored by RaftMetaStorage
  pvote : Option N
  role : Role             -- _state
  leader : Option N       -- _leader_id
  fl : Follower N         -- _follower_lease
  ll : Leader             -- _leader_lease
  elect : Option Nat      -- an elect_self call between its critical sections, with its term
  sent : Bool             -- this candidacy is persisted and its requests are out
  self : Bool             -- own vote granted in _vote_ctx
  dis : Option (Option N × Nat)  -- _vote_ctx._disrupted_leader
  et : Nat                -- _options.election_timeout_ms
  dr : Nat                -- _options.max_clock_drift_ms
  rts : N → Nat           -- ReplicatorGroup::last_rpc_send_timestamp
  acked : List N          -- peers that answered an AppendEntries of this leadership
  ready : Bool            -- the first entry of this leadership has committed
  pend : List Nat         -- LEADER_START tasks queued at the FSMCaller: lease epochs
  cc : Conf N             -- leader: the configuration it was elected with, later the last one it has committed
  cu : Option (Conf N)    -- leader: the configuration it has appended and not yet committed
  cuAt : Nat              -- ghost: clock when it appended `cu`
  st : N → Nat            -- ghost: clock when the replicator for this peer was started
  t0 : Nat                -- ghost: clock when it last became leader
  flT : Nat               -- ghost: term of the AppendEntries that last renewed `fl`

inductive Msg (N : Type) where
  /-- RequestVoteRequest: term, candidate, disrupted leader and its term (raft.proto). -/
  | rv (t : Nat) (cand : N) (dis : Option (Option N × Nat))
  /-- RequestVoteResponse with granted = true; `dt` is previous_term when disrupted. -/
  | vr (t : Nat) (voter cand : N) (dt : Option Nat)
  /-- AppendEntriesRequest or heartbeat sent by `x` at its time `at_`. -/
  | ae (t : Nat) (x : N) (at_ : Nat)
  /-- Its response in the same term. -/
  | ack (t : Nat) (p x : N) (at_ : Nat)
  /-- TimeoutNowRequest with old_leader_stepped_down = true. -/
  | tn (t : Nat)
deriving DecidableEq

/-- Ghost: `p` handled an AppendEntries of `x`, leader of term `t`, sent at `at_` (clock of `x`),
when the clocks showed `vec`. -/
structure Rec (N : Type) where
  t : Nat
  p : N
  x : N
  at_ : Nat
  vec : N → Nat

structure St (N : Type) where
  nd : N → Nd N
  clk : N → Nat               -- butil::monotonic_time_ms() of each node
  msgs : List (Msg N)
  won : List (Nat × N)        -- ghost: elections won: term, node
  wconf : Nat → Conf N        -- ghost: configuration the leader of a term was elected with
  votes : List (Nat × N × N)  -- ghost: votes persisted: term, voter, candidate
  recv : List (Rec N)         -- ghost
  hist : List (N → Nat)       -- ghost: clock values so far

/-- `timeout`, `drift`: NodeOptions election_timeout_ms and max_clock_drift_ms at the start. `strict`: a
node handles no AppendEntries of its own term while an `elect_self` call of that term waits outside
the mutex (it has not persisted the term yet). `skew`: by how much two clocks may differ over any
interval. `memb`: only a leader that is a member of its configuration (in a joint one: of both) computes its lease.
`probe`: a peer that is added has answered an AppendEntries of its replicator. `top`: the largest election timeout that is ever set by `vote` or `reset_election_timeout_ms`. `wit`: NodeOptions
witness; `witLead`: FLAGS_raft_enable_witness_to_leader. -/
structure Params (N : Type) where
  timeout : Nat
  drift : Nat
  strict : Bool
  memb : Bool
  probe : Bool
  skew : Nat
  top : Nat
  wit : N → Bool
  witLead : Bool

/-- What the clocks and the callers of `vote` and `reset_election_timeout_ms` must respect: an election timeout
together with the real clock skew stays within the time for which followers refuse to vote. -/
def Params.Ok {N : Type} (P : Params N) : Prop := P.timeout ≤ P.top ∧ P.top + P.skew ≤ P.timeout + P.drift

section Model
variable {N : Type} [DecidableEq N]

def updF {β : Type} (f : N → β) (i : N) (v : β) : N → β := fun j => if j = i then v else f j

/-- No configuration. -/
def noConf : Conf N := ⟨[], [], List.nodup_nil, List.nodup_nil⟩

/-- node.h `_conf`: the configuration a leader uses, committed or not. -/
def Nd.cur (n : Nd N) : Conf N := n.cu.getD n.cc

/-- Is `i` a member of the configuration, of both in joint mode? -/
def Mem (c : Conf N) (i : N) : Prop := i ∈ c.peers ∧ (c.old ≠ [] → i ∈ c.old)

instance (c : Conf N) (i : N) : Decidable (Mem c i) := by unfold Mem; infer_instance

/-- node.cpp:542-546, 605-608: a starting node; its lease is taken to be renewed now unless this
is its first start (term 1, no vote). -/
def boot (P : Params N) (i : N) (term : Nat) (vote : Option N) (now : Nat) : Nd N :=
  { term := term, vote := vote, pterm := term, pvote := vote, role := .follower, leader := none,
    fl := if term = 1 ∧ vote = none then (Follower.init (if P.wit i then P.timeout * 2 else P.timeout) P.drift now).reset
          else Follower.init (if P.wit i then P.timeout * 2 else P.timeout) P.drift now,
    ll := ⟨0, 0, 0, P.timeout⟩, elect := none, sent := false, self := false, dis := none,
    et := P.timeout, dr := P.drift, rts := fun _ => 0, acked := [], ready := false, pend := [], cc := noConf, cu := none, cuAt := 0, st := fun _ => 0,
    t0 := 0, flT := 0 }

def init (P : Params N) (c : N → Nat) : St N :=
  { nd := fun i => boot P i 1 none (c i), clk := c, msgs := [], won := [], wconf := fun _ => noConf, votes := [], recv := [],
    hist := [c] }

/-- node.cpp:1793-1875 `step_down`. -/
def stepDown (n : Nd N) (t : Nat) : Nd N :=
  let n1 := { n with role := .follower, leader := none,
                     ll := if n.role = .leader then n.ll.onLeaderStop else n.ll }
  if n.term < t then { n1 with term := t, vote := none, pterm := t, pvote := none } else n1

/-- Is this node leader of term `t`, possibly transferring? -/
def leads (n : Nd N) (t : Nat) : Bool :=
  (decide (n.role = .leader) || decide (n.role = .transferring)) && decide (n.term = t)

/-- node.cpp:1681-1716, first critical section of `elect_self(lck, old_leader_stepped_down)`. -/
def electStart (i : N) (n : Nd N) (stepped : Bool) : Nd N :=
  { n with role := .candidate, leader := none, term := n.term + 1, vote := some i,
           elect := some (n.term + 1), sent := false, self := false,
           dis := if stepped then some (n.leader, n.term) else none,
           fl := if stepped then n.fl.expire else n.fl }

/-- node.cpp:2263-2283: newly granted vote. -/
def grant (n : Nd N) (t : Nat) (c : N) : Nd N :=
  { stepDown n t with vote := some c, pterm := t, pvote := some c }

/-- node.cpp:1940-1975 `become_leader`, replicator.cpp:147. -/
def becomeLeader (i : N) (c : Conf N) (n : Nd N) (now : Nat) : Nd N :=
  { n with role := .leader, leader := some i, fl := n.fl.reset, ll := n.ll.onLeaderStart n.term,
           rts := fun _ => now, acked := [], ready := false, cc := c, cu := none, cuAt := now, st := fun _ => now,
           t0 := now, sent := false, self := false }

/-- node.cpp:2423-2457: `check_step_down` and the renewal of the follower lease. -/
def handleAE (n : Nd N) (t : Nat) (x : N) (now : Nat) : Nd N :=
  let n1 := if n.term < t ∨ n.role ≠ .follower then stepDown n t else n
  { n1 with leader := some x, fl := n1.fl.renew x now, flT := t }

/-- node.cpp:1333-1346 `unsafe_reset_election_timeout_ms`. -/
def retime (P : Params N) (i : N) (n : Nd N) (t d : Nat) : Nd N :=
  if P.wit i = true ∧ P.witLead = true then { n with et := t, dr := d, fl := { n.fl with timeout := t * 2, drift := d } }
  else { n with et := t, dr := d, ll := { n.ll with timeout := t }, fl := { n.fl with timeout := t, drift := d } }

inductive Act (N : Type) where
  | tick (v : N → Nat)
  | raise (i : N) (t : Nat)
  | resign (i : N) (wake : Bool)
  | setLeader (i : N) (y : Option N)
  | electStart (i : N) (stepped : Bool)
  | electSend (i : N)
  | electCrash (i : N)
  | grantSelf (i : N)
  | grantSelfByLeader (i : N) (y : N) (dt : Option Nat)
  | retry (i : N) (y : N) (dt : Nat)
  | voteExpire (i : N) (t : Nat) (c : N) (d : Option N) (dt : Nat)
  | voteGrant (i : N) (t : Nat) (c : N) (d : Option (Option N × Nat))
  | voteAgain (i : N) (t : Nat) (c : N) (d : Option (Option N × Nat))
  | becomeLeader (i : N) (c : Conf N) (q : List (N × Option Nat))
  | sendAE (i : N)
  | recvAE (i : N) (t : Nat) (x : N) (at_ : Nat)
  | ackAE (i : N) (t : Nat) (x : N) (at_ : Nat)
  | recvAck (i : N) (p : N) (at_ : Nat)
  | commitFirst (i : N)
  | startRepl (i : N) (p : N)
  | changeConf (i : N) (c : Conf N)
  | commitConf (i : N)
  | leaseStart (i : N) (e : Nat)
  | renew (i : N)
  | transfer (i : N)
  | transferTimeout (i : N)
  | crash (i : N)
  | retime (i : N) (t : Nat)
  | retime2 (i : N) (t d : Nat)

/-- `v` is node `i`, leader of term `t`, or has handled an AppendEntries that `i` sent in that term at `ts` or later. -/
def contact (s : St N) (i : N) (t ts : Nat) (v : N) : Bool :=
  decide (v = i) || s.recv.any (fun r => decide (r.t = t ∧ r.p = v ∧ r.x = i ∧ ts ≤ r.at_))

def pre (P : Params N) (s : St N) : Act N → Prop
  -- Time passes. Clocks run forward, and over any interval no two of them differ by more than
  -- `skew`.
  | .tick v => (∀ i, s.clk i ≤ v i) ∧
      ∀ h ∈ s.hist, ∀ i j, v i + h j ≤ v j + h i + P.skew
  -- any step_down to a higher term
  | .raise i t => (s.nd i).term < t
  -- step_down in the same term: node.cpp:803-830, 1016, 3457-3461, ...
  | .resign i wake => wake = true → leads (s.nd i) (s.nd i).term = true
  -- node.cpp:1081-1086: the leader is unknown after the election timeout; 1897-1920, 2650: it is learnt from an
  -- InstallSnapshot request, which does not renew the lease
  | .setLeader i y => (s.nd i).role = .follower
  -- node.cpp:1065-1092, 1094-1138: the vote is triggered by the election timer after a pre-vote
  -- round, by the vote timer, or by TimeoutNow; 1686-1690, not if the node is not in its configuration, is left out
  | .electStart i stepped => ((s.nd i).role = .follower ∨ (s.nd i).role = .candidate) ∧
      (stepped = true → (s.nd i).role = .follower ∧ Msg.tn (s.nd i).term ∈ s.msgs)
  -- node.cpp:1718-1749
  | .electSend i => (s.nd i).elect = some (s.nd i).term
  -- the process dies after the requests are out and before the term is stored
  | .electCrash i => (s.nd i).elect = some (s.nd i).term
  -- node.cpp:3551-3569
  | .grantSelf i => (s.nd i).role = .candidate ∧ (s.nd i).sent = true ∧
      (s.nd i).fl.votable true (s.clk i) = 0
  -- node.cpp:1446-1449
  | .grantSelfByLeader i y dt => (s.nd i).role = .candidate ∧ (s.nd i).sent = true ∧
      Msg.vr (s.nd i).term y i dt ∈ s.msgs ∧ (s.nd i).fl.lastLeader = some y
  -- node.cpp:1442-1444, 1455-1469
  | .retry i y dt => (s.nd i).role = .candidate ∧ Msg.vr (s.nd i).term y i (some dt) ∈ s.msgs
  -- node.cpp:2199-2208
  | .voteExpire i t c d dt => Msg.rv t c (some (d, dt)) ∈ s.msgs ∧ (s.nd i).role = .follower ∧
      (s.nd i).term = dt ∧ (s.nd i).leader = d
  -- node.cpp:2214-2283
  | .voteGrant i t c d => Msg.rv t c d ∈ s.msgs ∧ c ≠ i ∧ (s.nd i).term ≤ t ∧
      (s.nd i).fl.votable true (s.clk i) = 0 ∧ ((s.nd i).term < t ∨ (s.nd i).vote = none)
  -- node.cpp:2287: already voted for this candidate
  | .voteAgain i t c d => Msg.rv t c d ∈ s.msgs ∧ c ≠ i ∧ (s.nd i).term = t ∧
      (s.nd i).vote = some c
  -- node.cpp:1445-1453, 3551-3569
  | .becomeLeader i c q => (s.nd i).role = .candidate ∧ (s.nd i).sent = true ∧
      c.Quorum (fun v => decide (v ∈ q.map Prod.fst)) ∧
      ∀ v ∈ q, if v.1 = i then (s.nd i).self = true
        else Msg.vr (s.nd i).term v.1 i v.2 ∈ s.msgs
  | .sendAE i => leads (s.nd i) (s.nd i).term = true
  -- node.cpp:2409-2457
  | .recvAE i t x a => Msg.ae t x a ∈ s.msgs ∧ (s.nd i).term ≤ t ∧ x ≠ i ∧
      (P.strict = true → (s.nd i).term = t → (s.nd i).pterm = t)
  -- node.cpp:2313-2345 and the direct answers: only while the term is the request's
  | .ackAE i t x a => t = (s.nd i).term ∧
      ∃ r ∈ s.recv, r.p = i ∧ r.t = t ∧ r.x = x ∧ r.at_ = a
  -- replicator.cpp:338, 441, 480
  | .recvAck i p a => leads (s.nd i) (s.nd i).term = true ∧ (s.nd i).st p ≤ a ∧ Msg.ack (s.nd i).term p i a ∈ s.msgs
  -- node.cpp:94-105: ConfigurationChangeDone of the first entry
  | .commitFirst i => (s.nd i).role = .leader ∧ (s.nd i).ready = false ∧
      (s.nd i).cc.Quorum (contact s i (s.nd i).term (s.nd i).t0)
  -- node.cpp:3202-3236, 820-853, replicator.cpp:122-151: a peer to be added
  | .startRepl i p => leads (s.nd i) (s.nd i).term = true ∧ p ∉ (s.nd i).cur.peers ∧ p ∉ (s.nd i).cur.old
  -- node.cpp:855-891, 3202-3361 (Verif/Node/ConfCtx.lean): one configuration entry at a time, after the first entry of
  -- the leadership has committed; a peer that is added has caught up
  | .changeConf i c => leads (s.nd i) (s.nd i).term = true ∧ (s.nd i).ready = true ∧ (s.nd i).cu = none ∧
      confStepOk (s.nd i).cc c = true ∧
      (P.probe = true → ∀ p ∈ c.peers, p ∈ (s.nd i).cc.peers ∨ p ∈ (s.nd i).cc.old ∨ p = i ∨ p ∈ (s.nd i).acked)
  -- ballot_box.cpp:60-117: the pending configuration entry has a quorum of its configuration
  | .commitConf i => leads (s.nd i) (s.nd i).term = true ∧ (s.nd i).cu ≠ none ∧
      (s.nd i).cur.Quorum (contact s i (s.nd i).term (s.nd i).cuAt)
  -- fsm_caller.cpp:460-463, node.cpp:3602-3608
  | .leaseStart i e => (s.nd i).role = .leader ∧ e ∈ (s.nd i).pend ∧
      (P.memb = true → Mem (s.nd i).cur i)
  -- node.cpp:3446-3456
  | .renew i => (s.nd i).role = .leader ∧ (s.nd i).ll.info true (s.clk i) = .suspect ∧
      (P.memb = true → Mem (s.nd i).cur i)
  -- node.cpp:1189-1262, refused before the first entry has committed (1196)
  | .transfer i => (s.nd i).role = .leader ∧ (s.nd i).ready = true
  -- node.cpp:1173-1187
  | .transferTimeout i => (s.nd i).role = .transferring
  | .crash _ => True
  -- node.cpp:1274-1297 `vote(int)`, 1299-1317 `reset_election_timeout_ms(int)`: refused if larger than the sum of election
  -- timeout and clock drift. `top` bounds what is asked for.
  | .retime i t => t ≤ (s.nd i).et + (s.nd i).dr ∧ t ≤ P.top
  -- node.cpp:1319-1331 `reset_election_timeout_ms(int, int)`: no check at all. The caller must not make the sum smaller.
  | .retime2 i t d => P.timeout + P.drift ≤ t + d ∧ t ≤ P.top

def setNd (s : St N) (i : N) (n : Nd N) : St N := { s with nd := updF s.nd i n }

def eff (P : Params N) (s : St N) : Act N → St N
  | .tick v => { s with clk := v, hist := v :: s.hist }
  | .raise i t => setNd s i (stepDown (s.nd i) t)
  | .resign i wake =>
    { setNd s i (stepDown (s.nd i) (s.nd i).term) with
      msgs := if wake then .tn (s.nd i).term :: s.msgs else s.msgs }
  | .setLeader i y => setNd s i { s.nd i with leader := y }
  | .electStart i stepped => setNd s i (electStart i (s.nd i) stepped)
  | .electSend i =>
    { setNd s i { s.nd i with elect := none, sent := true, pterm := (s.nd i).term,
                              pvote := some i } with
      msgs := .rv (s.nd i).term i (s.nd i).dis :: s.msgs
      votes := ((s.nd i).term, i, i) :: s.votes }
  | .electCrash i =>
    { setNd s i (boot P i (s.nd i).pterm (s.nd i).pvote (s.clk i)) with
      msgs := .rv (s.nd i).term i (s.nd i).dis :: s.msgs }
  | .grantSelf i => setNd s i { s.nd i with self := true }
  | .grantSelfByLeader i _ _ => setNd s i { s.nd i with self := true }
  | .retry i y dt =>
    { setNd s i { s.nd i with dis := some (some y, dt) } with
      msgs := .rv (s.nd i).term i (some (some y, dt)) :: s.msgs }
  | .voteExpire i _ _ _ _ => setNd s i { s.nd i with fl := (s.nd i).fl.expire }
  | .voteGrant i t c _ =>
    { setNd s i (grant (s.nd i) t c) with
      msgs := .vr t i c (if leads (s.nd i) (s.nd i).term && decide ((s.nd i).term < t)
                         then some (s.nd i).term else none) :: s.msgs
      votes := (t, i, c) :: s.votes }
  | .voteAgain i t c _ => { s with msgs := .vr t i c none :: s.msgs }
  | .becomeLeader i c _ =>
    { setNd s i (becomeLeader i c (s.nd i) (s.clk i)) with
      won := ((s.nd i).term, i) :: s.won
      wconf := fun t => if t = (s.nd i).term then c else s.wconf t }
  | .sendAE i => { s with msgs := .ae (s.nd i).term i (s.clk i) :: s.msgs }
  | .recvAE i t x a =>
    { setNd s i (handleAE (s.nd i) t x (s.clk i)) with recv := ⟨t, i, x, a, s.clk⟩ :: s.recv }
  | .ackAE i t x a => { s with msgs := .ack t i x a :: s.msgs }
  | .recvAck i p a =>
    setNd s i { s.nd i with rts := updF (s.nd i).rts p (max ((s.nd i).rts p) a),
                            acked := p :: (s.nd i).acked }
  | .commitFirst i =>
    setNd s i { s.nd i with ready := true, pend := (s.nd i).ll.epoch :: (s.nd i).pend }
  | .startRepl i p =>
    setNd s i { s.nd i with
      rts := updF (s.nd i).rts p (s.clk i), st := updF (s.nd i).st p (s.clk i),
      acked := (s.nd i).acked.filter (fun q => decide (q ≠ p)) }
  | .changeConf i c => setNd s i { s.nd i with cu := some c, cuAt := s.clk i }
  | .commitConf i => setNd s i { s.nd i with cc := (s.nd i).cur, cu := none }
  | .leaseStart i e =>
    setNd s i { s.nd i with
      ll := (s.nd i).ll.onLeaseStart e (lastActive (s.nd i).cur.peers (s.nd i).cur.old i (s.nd i).rts (s.clk i)) }
  | .renew i =>
    setNd s i { s.nd i with
      ll := (s.nd i).ll.renew (lastActive (s.nd i).cur.peers (s.nd i).cur.old i (s.nd i).rts (s.clk i)) }
  | .transfer i =>
    setNd s i { s.nd i with role := .transferring, ll := (s.nd i).ll.onLeaderStop }
  | .transferTimeout i =>
    setNd s i { s.nd i with
      role := .leader, ll := (s.nd i).ll.onLeaderStart (s.nd i).term,
      pend := ((s.nd i).ll.onLeaderStart (s.nd i).term).epoch :: (s.nd i).pend }
  | .retime i t => setNd s i (retime P i (s.nd i) t ((s.nd i).et + (s.nd i).dr - t))
  | .retime2 i t d => setNd s i (retime P i (s.nd i) t d)
  | .crash i => setNd s i (boot P i (s.nd i).pterm (s.nd i).pvote (s.clk i))

/-- What Raft guarantees about elections and configurations (C01, C03, C31; derived in Verif/LeaseRaft.lean): a term is won
once, and the first later leader was elected with a configuration of a leader that has committed its first
entry: the last one that leader has committed or the one it is committing. -/
def Compat (s : St N) : Prop :=
  (∀ w ∈ s.won, ∀ w' ∈ s.won, w.1 = w'.1 → w = w') ∧
  ∀ w ∈ s.won, leads (s.nd w.2) w.1 = true → (s.nd w.2).ready = true →
    ∀ w' ∈ s.won, w.1 < w'.1 → (∀ w'' ∈ s.won, w.1 < w''.1 → w'.1 ≤ w''.1) →
      s.wconf w'.1 = (s.nd w.2).cc ∨ some (s.wconf w'.1) = (s.nd w.2).cu

inductive Reach (P : Params N) : St N → Prop where
  | init (c : N → Nat) : Reach P (init P c)
  | step {s} (a : Act N) : Reach P s → pre P s a → Compat (eff P s a) → Reach P (eff P s a)

/-- node.cpp:3432-3474 `get_leader_lease_status`: the term reported if the state is LEASE_VALID.
A suspect lease is renewed first (action `renew`). -/
def leaseStatus (P : Params N) (s : St N) (i : N) : Option Nat :=
  match (s.nd i).ll.info true (s.clk i) with
  | .valid => some (s.nd i).ll.term
  | .suspect =>
    if (s.nd i).role = .leader then
      let s' := eff P s (.renew i)
      if (s'.nd i).ll.info true (s'.clk i) = .valid then some (s'.nd i).ll.term else none
    else none
  | _ => none

/-! ### Derived notions -/

/-- The lease time granted by this contact is over at the leader. -/
def Exp (P : Params N) (s : St N) (r : Rec N) : Prop := r.at_ + P.top ≤ s.clk r.x

/-- `x` does not lead term `t` (any more). -/
def Left (s : St N) (t : Nat) (x : N) : Prop := leads (s.nd x) t = false

/-- The leadership this contact belongs to has ended, or a later term, at most `t`, has been won. -/
def Past (s : St N) (t : Nat) (r : Rec N) : Prop := Left s r.t r.x ∨ ∃ w ∈ s.won, r.t < w.1 ∧ w.1 ≤ t

/-- The vote of `p` in term `t` respects all leases `p` contributed to. -/
def VOk (P : Params N) (s : St N) (t : Nat) (p : N) : Prop :=
  ∀ r ∈ s.recv, r.p = p → r.t < t → Exp P s r ∨ Past s t r

/-- The same of a vote that was counted in the election of term `t`. -/
def WOk (P : Params N) (s : St N) (t : Nat) (p : N) : Prop :=
  ∀ r ∈ s.recv, r.p = p → r.t < t → Exp P s r ∨ Past s (t - 1) r

/-- The lease of `x`, leader of term `t`, is over for good. -/
def Dead (P : Params N) (s : St N) (t : Nat) (x : N) : Prop :=
  Left s t x ∨ ∃ B : N → Bool, ∃ c : Conf N, c.Quorum B ∧ (c = (s.nd x).cc ∨ some c = (s.nd x).cu) ∧
    ∀ p, B p = true → t < (s.nd p).pterm ∧ ∀ r ∈ s.recv, r.t = t → r.p = p → r.x = x → Exp P s r

/-- A leadership that has ended. -/
def Over (s : St N) (t : Nat) : Prop := ∃ y, (t, y) ∈ s.won ∧ Left s t y

end Model
end Braft.LeaseNet
