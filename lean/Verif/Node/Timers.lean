import Verif.Node.Life
/-
Model of the timers of a node against its role: node.cpp init 505-522 and 628-660, handle_election_timeout 1065-1090,
handle_timeout_now_request 1092-1150, vote 1274-1295, reset_election_timeout_ms 1297-1346, on_error 1348-1367,
handle_vote_timeout 1369-1392, handle_request_vote_response 1394-1470, handle_pre_vote_response 1503-1582, pre_vote 1616-1677,
elect_self 1680-1749, step_down 1793-1875, check_step_down 1898-1917, become_leader 1940-1976, shutdown 988-1035,
VoteBallotCtx and grant_self 3478-3603.

* A critical section of the node mutex is one step. pre_vote and elect_self release the mutex while they read the log; the rest
  of the function is another step (`resumePre`, `resumeElect`).
* What the environment answers (is the node a member of its configuration, has the lease expired, did the disk write, do the
  votes suffice) is a record of arguments of each step.
* A ballot is reduced to two bits: does the vote of this node alone suffice (fixed when the ballot is initialised), and has an
  answer been counted. It can be full only if one of them holds.
* A timer is reduced to "started and not stopped since" (Timer.lean models the timer; C46_started_is_live: such a timer is
  armed or its callback is running and will be scheduled again).
* `CHECK(_state == STATE_CANDIDATE)` in become_leader: with glog a failed CHECK aborts the process, with butil logging and its
  defaults it does not. `fatal` selects.
-/
set_option linter.unusedVariables false
set_option linter.unusedSimpArgs false

namespace Braft.Timers
open Life (Role)

/-- VoteBallotCtx (node.h:270-330): version; the two bits of its ballot. -/
structure Ctx where
  ver : Nat := 0
  solo : Bool := false
  ans : Bool := false
deriving DecidableEq, Repr

/-- VoteBallotCtx::reset (node.cpp:3516-3523): the ballot is kept. -/
def Ctx.reset (c : Ctx) : Ctx := { c with ver := c.ver + 1 }

/-- VoteBallotCtx::init (node.cpp:3478-3482). -/
def Ctx.init (c : Ctx) (solo : Bool) : Ctx := ⟨c.ver + 1, solo, false⟩

/-- `granted()` after the node granted itself. -/
def Ctx.full (c : Ctx) (enough : Bool) : Bool := c.solo || (c.ans && enough)

/-- The answers of the environment to one critical section. -/
structure Arg where
  /-- `_conf.contains(_server_id)` -/
  member : Bool := true
  /-- The vote of this node alone is a quorum of `_conf`. -/
  solo : Bool := false
  /-- The follower lease has expired. -/
  expired : Bool := true
  /-- A snapshot is being installed. -/
  installing : Bool := false
  /-- set_term_and_votedfor succeeds. -/
  stored : Bool := true
  /-- The counted answers with the vote of this node are a quorum. -/
  enough : Bool := false
deriving DecidableEq, Repr

/-- The fields involved. -/
structure State where
  role : Role
  term : Nat
  /-- `_leader_id` -/
  lid : Option Nat
  /-- `_conf` is not empty. -/
  conf : Bool
  /-- The election and the vote timer were initialised (node.cpp:508-519). -/
  can : Bool
  /-- The election, vote, step-down and snapshot timers are started. -/
  elec : Bool
  vote : Bool
  down : Bool
  snap : Bool
  /-- The timers are destroyed. -/
  dead : Bool
  /-- `_vote_triggered` -/
  trig : Bool
  pctx : Ctx
  vctx : Ctx
  /-- pre_vote calls that released the mutex: the term, `triggered`. -/
  pfr : List (Nat × Bool)
  /-- elect_self calls that released the mutex: the term. -/
  efr : List Nat
  /-- Requests in flight: version of the context, term. -/
  psent : List (Nat × Nat)
  vsent : List (Nat × Nat)
  /-- Grant-self timers: for `_vote_ctx`?, version. A deleted timer may stay in the list: its version is old. -/
  gts : List (Bool × Nat)
  /-- init has not yet reached its last critical section. -/
  boot : Bool
  /-- The process was aborted. -/
  aborted : Bool
  /-- Ghost: pre-votes started with `triggered`; successful calls of vote(). -/
  trigs : Nat
  calls : Nat
deriving DecidableEq, Repr

/-- `_election_timer.start()`: nothing happens on a timer that is destroyed or was never initialised
(repeated_timer_task.cpp:27-32, 80-92). -/
def State.startElec (s : State) : State := { s with elec := s.elec || (s.can && !s.dead) }

/-- `_vote_timer.start()`. -/
def State.startVote (s : State) : State := { s with vote := s.vote || (s.can && !s.dead) }

/-- `_stepdown_timer.start()`. -/
def State.startDown (s : State) : State := { s with down := s.down || !s.dead }

/-- The first part of step_down (node.cpp:1803-1813): what is stopped depends on the role. -/
def State.stopOld (s : State) : State :=
  if s.role = .candidate then { s with vote := false, vctx := s.vctx.reset }
  else if s.role = .follower then { s with pctx := s.pctx.reset }
  else { s with down := false }

/-- step_down (node.cpp:1793-1875). -/
def State.stepDown (s : State) (t : Nat) : State :=
  if s.role.active then
    let s1 := s.stopOld
    State.startElec { s1 with role := .follower, lid := none, term := if t > s1.term then t else s1.term }
  else s

/-- NodeImpl::init up to the registration (node.cpp:505-522, 628-645). `can = false`: a witness without
raft_enable_witness_to_leader. -/
def State.init (can conf snap : Bool) (term : Nat) : State :=
  let s : State :=
    { role := .follower, term := term, lid := none, conf := conf, can := can, elec := false, vote := false, down := false,
      snap := snap, dead := false, trig := false, pctx := {}, vctx := {}, pfr := [], efr := [], psent := [], vsent := [],
      gts := [], boot := true, aborted := false, trigs := 0, calls := 0 }
  if conf then s.stepDown term else s

/-- elect_self up to the unlock (node.cpp:1680-1717). -/
def State.electSelf (s : State) (a : Arg) : State :=
  if a.member && s.conf then
    let s1 : State := if s.role = .follower then { s with elec := false } else s
    let s2 := s1.startVote
    { s2 with role := .candidate, lid := none, term := s2.term + 1, pctx := s2.pctx.reset, vctx := s2.vctx.init a.solo,
              efr := (s2.term + 1) :: s2.efr }
  else s

/-- become_leader (node.cpp:1940-1976). -/
def State.becomeLeader (fatal : Bool) (s : State) : State :=
  if s.role ≠ .candidate ∧ fatal = true then { s with aborted := true }
  else State.startDown { s with vote := false, vctx := s.vctx.reset, role := .leader, lid := some 0 }

/-- grant_self(&_pre_vote_ctx) (node.cpp:3551-3569). -/
def State.grantPre (s : State) (a : Arg) : State :=
  if a.expired then
    if s.pctx.full a.enough then s.electSelf a else s
  else { s with gts := (false, s.pctx.ver) :: s.gts }

/-- grant_self(&_vote_ctx) (node.cpp:3551-3569). -/
def State.grantVote (fatal : Bool) (s : State) (a : Arg) : State :=
  if a.expired then
    if s.vctx.full a.enough then s.becomeLeader fatal else s
  else { s with gts := (true, s.vctx.ver) :: s.gts }

/-- pre_vote up to the unlock (node.cpp:1616-1636). -/
def State.preVote (s : State) (a : Arg) (triggered : Bool) : State :=
  if a.installing then s
  else if a.member && s.conf then { s with pfr := (s.term, triggered) :: s.pfr }
  else s

/-- pre_vote after the mutex is taken again (node.cpp:1637-1677): only the term is compared. -/
def State.resumePre (s : State) (i : Nat) (a : Arg) : State :=
  match s.pfr[i]? with
  | none => s
  | some (t, trg) =>
    let s1 : State := { s with pfr := s.pfr.eraseIdx i }
    if t ≠ s1.term then s1
    else
      let s2 : State := { s1 with pctx := s1.pctx.init a.solo }
      let s3 : State := { s2 with psent := (s2.pctx.ver, s2.term) :: s2.psent }
      s3.grantPre a

/-- elect_self after the mutex is taken again (node.cpp:1718-1749): only the term is compared. -/
def State.resumeElect (fatal : Bool) (s : State) (i : Nat) (a : Arg) : State :=
  match s.efr[i]? with
  | none => s
  | some t =>
    let s1 : State := { s with efr := s.efr.eraseIdx i }
    if t ≠ s1.term then s1
    else
      let s2 : State := { s1 with vsent := (s1.vctx.ver, s1.term) :: s1.vsent }
      if a.stored then s2.grantVote fatal a else s2

/-- handle_election_timeout (node.cpp:1065-1090). -/
def State.electionTimeout (s : State) (a : Arg) : State :=
  if s.role ≠ .follower then s
  else if !s.trig && !a.expired then s
  else
    let trg := s.trig
    State.preVote { s with trig := false, lid := none, trigs := s.trigs + (if trg then 1 else 0) } a trg

/-- handle_vote_timeout (node.cpp:1369-1392); `back` is raft_step_down_when_vote_timedout. -/
def State.voteTimeout (s : State) (back : Bool) (a : Arg) : State :=
  if s.role ≠ .candidate then s
  else if back then (s.stepDown s.term).preVote a false
  else s.electSelf a

/-- handle_pre_vote_response (node.cpp:1503-1582) to request `i`: response term, whether the answer is counted. -/
def State.preAnswer (s : State) (i rterm : Nat) (counted : Bool) (a : Arg) : State :=
  match s.psent[i]? with
  | none => s
  | some (v, t) =>
    if v ≠ s.pctx.ver then s
    else if s.role ≠ .follower then s
    else if t ≠ s.term then s
    else if rterm > s.term then s.stepDown rterm
    else if !counted then s
    else
      let s1 : State := { s with pctx := { s.pctx with ans := true } }
      if a.enough then s1.electSelf a else s1

/-- handle_request_vote_response (node.cpp:1394-1470) to request `i`. -/
def State.voteAnswer (fatal : Bool) (s : State) (i rterm : Nat) (counted : Bool) (a : Arg) : State :=
  match s.vsent[i]? with
  | none => s
  | some (v, t) =>
    if v ≠ s.vctx.ver then s
    else if s.role ≠ .candidate then s
    else if t ≠ s.term then s
    else if rterm > s.term then s.stepDown rterm
    else if !counted then s
    else
      let s1 : State := { s with vctx := { s.vctx with ans := true } }
      if a.enough then s1.becomeLeader fatal else s1

/-- handle_grant_self_timedout (node.cpp:3581-3603) of timer `i`. -/
def State.grantFire (fatal : Bool) (s : State) (i : Nat) (a : Arg) : State :=
  match s.gts[i]? with
  | none => s
  | some (isVote, v) =>
    let s1 : State := { s with gts := s.gts.eraseIdx i }
    if s1.role.active = false then s1
    else if isVote then (if v ≠ s1.vctx.ver then s1 else s1.grantVote fatal a)
    else (if v ≠ s1.pctx.ver then s1 else s1.grantPre a)

/-- handle_timeout_now_request (node.cpp:1092-1150). -/
def State.timeoutNow (s : State) (t : Nat) (a : Arg) : State :=
  if t ≠ s.term then (if t > s.term then s.stepDown t else s)
  else if s.role ≠ .follower then s
  else s.electSelf a

/-- check_step_down (node.cpp:1898-1917); reset_leader_id resets `_pre_vote_ctx` (1889). -/
def State.checkStepDown (s : State) (t l : Nat) : State :=
  let s1 := if t > s.term then s.stepDown t
    else if s.role ≠ .follower then s.stepDown t
    else if s.lid = none then s.stepDown t else s
  if s1.lid = none then { s1 with lid := some l, pctx := s1.pctx.reset } else s1

/-- An append_entries or install_snapshot request (node.cpp:2413-2452, 2620-2660); `conf` is whether `_conf` is non-empty after
check_and_set_configuration. -/
def State.heard (s : State) (t l : Nat) (conf : Bool) : State :=
  if s.role.active = false then s
  else if t < s.term then s
  else
    let s1 := s.checkStepDown t l
    if s1.lid = some l then { s1 with conf := conf } else s1.stepDown (t + 1)

/-- reset_peers with a non-empty list (node.cpp:921-968), when it changes the configuration. -/
def State.resetPeers (s : State) : State :=
  if s.role.active = false then s
  else State.stepDown { s with conf := true } (s.term + 1)

/-- vote() (node.cpp:1274-1295), its effect on these fields when the timeout is accepted. -/
def State.voteApi (s : State) : State :=
  if s.role ≠ .follower then s else { s with trig := true, calls := s.calls + 1 }

/-- transfer_leadership_to when accepted (node.cpp:1189-1262). -/
def State.transfer (s : State) : State :=
  if s.role ≠ .leader then s else { s with role := .transferring }

/-- handle_transfer_timeout (node.cpp:1173-1187). -/
def State.transferTimeout (s : State) (t : Nat) : State :=
  if t = s.term ∧ s.role = .transferring then { s with role := .leader } else s

/-- on_error (node.cpp:1348-1367). -/
def State.onError (s : State) : State :=
  let s1 := if s.role.active then s.stepDown s.term else s
  if s1.role = .shutting then s1 else { s1 with role := .error }

/-- shutdown (node.cpp:988-1022). -/
def State.shutdown (s : State) : State :=
  if s.role = .shutting then s
  else
    let s1 := if s.role.active then s.stepDown s.term else s
    { s1 with role := .shutting, elec := false, vote := false, down := false, snap := false, dead := true }

/-- The critical sections. `stepDownTo` stands for every other caller of step_down: handle_stepdown_timeout 825-841,
get_leader_lease_status 3440-3470, increase_term_to 2570-2580, handle_request_vote_request 2252-2268, ConfigurationCtx::next_stage
3316; `bootElect` is the last critical section of init (652-660). -/
inductive Ev where
  | bootElect (a : Arg)
  | electionTimeout (a : Arg)
  | resumePre (i : Nat) (a : Arg)
  | preAnswer (i rterm : Nat) (counted : Bool) (a : Arg)
  | resumeElect (i : Nat) (a : Arg)
  | voteAnswer (i rterm : Nat) (counted : Bool) (a : Arg)
  | grantFire (i : Nat) (a : Arg)
  | voteTimeout (back : Bool) (a : Arg)
  | timeoutNow (t : Nat) (a : Arg)
  | heard (t l : Nat) (conf : Bool)
  | stepDownTo (t : Nat)
  | resetPeers
  | voteApi
  | transfer
  | transferTimeout (t : Nat)
  | onError
  | shutdown
deriving DecidableEq, Repr

/-- One critical section. -/
def State.step (fatal : Bool) (s : State) (e : Ev) : State :=
  if s.aborted then s else
  match e with
  | .bootElect a => if s.boot then (if a.solo then ({ s with boot := false } : State).electSelf a else { s with boot := false }) else s
  | .electionTimeout a => s.electionTimeout a
  | .resumePre i a => s.resumePre i a
  | .preAnswer i r c a => s.preAnswer i r c a
  | .resumeElect i a => s.resumeElect fatal i a
  | .voteAnswer i r c a => s.voteAnswer fatal i r c a
  | .grantFire i a => s.grantFire fatal i a
  | .voteTimeout b a => s.voteTimeout b a
  | .timeoutNow t a => s.timeoutNow t a
  | .heard t l c => s.heard t l c
  | .stepDownTo t => s.stepDown t
  | .resetPeers => s.resetPeers
  | .voteApi => s.voteApi
  | .transfer => s.transfer
  | .transferTimeout t => s.transferTimeout t
  | .onError => s.onError
  | .shutdown => s.shutdown

/-- A sequence of critical sections. -/
def run (fatal : Bool) : State → List Ev → State
  | s, [] => s
  | s, e :: es => run fatal (s.step fatal e) es

/-- The assumption under which a node alone in its group behaves: the parts of pre_vote and elect_self behind their unlock, and
the last critical section of init, find the role they left. Only needed where the vote of the node alone is a quorum. -/
def Calm (s : State) : Ev → Prop
  | .bootElect a => a.solo = true → s.role = .follower ∨ s.role = .candidate
  | .resumePre _ a => a.solo = true → s.role = .follower
  | .resumeElect _ _ => s.vctx.solo = true → s.role = .candidate
  | .grantFire i _ => ∀ v, s.gts[i]? = some (true, v) → v = s.vctx.ver → s.vctx.solo = true → s.role.active = true →
      s.role = .candidate
  | _ => True

/-- Every critical section of the run is calm. -/
def CalmRun (fatal : Bool) : State → List Ev → Prop
  | _, [] => True
  | s, e :: es => Calm s e ∧ CalmRun fatal (s.step fatal e) es

/-- The environment's answer of an event, if it has one. -/
def Ev.arg? : Ev → Option Arg
  | .bootElect a => some a
  | .electionTimeout a => some a
  | .resumePre _ a => some a
  | .preAnswer _ _ _ a => some a
  | .resumeElect _ a => some a
  | .voteAnswer _ _ _ a => some a
  | .grantFire _ a => some a
  | .voteTimeout _ a => some a
  | .timeoutNow _ a => some a
  | _ => none

/-! ### The periods of the timers -/

/-- The options, the periods given to the timers, and the leases. -/
structure Times where
  witness : Bool
  /-- `_options.election_timeout_ms`, `_options.max_clock_drift_ms`; ints that may be negative. -/
  et : Int
  drift : Int
  /-- Periods of the election, vote and step-down timers. -/
  elecT : Int
  voteT : Int
  downT : Int
  /-- LeaderLease and FollowerLease: timeout and drift. -/
  leaderT : Int
  followT : Int
  followD : Int
deriving DecidableEq, Repr

/-- NodeImpl::init (node.cpp:508-521, 541-547); `wl` is raft_enable_witness_to_leader. Without it the timers of a witness are not
initialised; their `_timeout_ms` is 0 (repeated_timer_task.cpp:24). -/
def Times.init (witness wl : Bool) (et drift : Int) : Times where
  witness := witness
  et := et
  drift := drift
  elecT := if witness then (if wl then et * 2 else 0) else et
  voteT := if witness then (if wl then et * 2 + drift else 0) else et + drift
  downT := et
  leaderT := et
  followT := if witness then et * 2 else et
  followD := drift

/-- unsafe_reset_election_timeout_ms (node.cpp:1331-1346); the heartbeat interval of the replicators is left out. -/
def Times.unsafeReset (wl : Bool) (m : Times) (et drift : Int) : Times :=
  if m.witness && wl then
    { m with et := et, drift := drift, elecT := et * 2, followT := et * 2, followD := drift }
  else
    { m with et := et, drift := drift, elecT := et, leaderT := et, followT := et, followD := drift }

/-- reset_election_timeout_ms(int) (node.cpp:1297-1305), and the part of vote (1279-1286) behind the check of the state:
whether it was accepted. -/
def Times.reset (wl : Bool) (m : Times) (ms : Int) : Times × Bool :=
  let mx := m.drift + m.et
  if ms > mx then (m, false)
  else
    let ms' := min ms mx
    (m.unsafeReset wl ms' (mx - ms'), true)

/-- random_timeout (node.cpp:127-130): the least and the greatest value; `delay` is raft_max_election_delay_ms. -/
def randomTimeout (timeout delay : Int) : Int × Int := (timeout, timeout + min timeout delay)

end Braft.Timers
