/-
Model of the callbacks by which a node tells its state machine about its role: on_leader_start, on_leader_stop,
on_start_following, on_stop_following and on_shutdown.

The node (node.cpp: step_down 1793-1875, reset_leader_id 1876-1895, check_step_down 1898-1917, elect_self 1680-1746,
become_leader 1932-1976, transfer_leadership_to 1189-1262, handle_transfer_timeout 1173-1187, handle_election_timeout
1066-1090, on_error 1348-1368, shutdown 987-1040) puts tasks into the queue of the FSMCaller; the FSMCaller
(fsm_caller.cpp:57-135, 265-315, 431-500) executes them one after the other. on_leader_start of a new leader has no task: it is
called by the closure of the first configuration entry (ConfigurationChangeDone::Run, node.cpp:94-108) while the FSMCaller
executes the task COMMITTED that reaches the entry.

* A critical section of the node is a step; a task of the FSMCaller is one step, except for the one that runs the closure
  above, which is three (taken out of the closure queue, on_configuration_change_done, on_leader_start), since the node can
  step down between them.
* Why the node steps down, and with which term, is an argument of the step.
* The tasks SNAPSHOT_SAVE, SNAPSHOT_LOAD and ERROR call other functions of the state machine and are left out. After an error
  a task COMMITTED does nothing (fsm_caller.cpp:266-268), or its closure gets an error status: arguments of the step.
-/
set_option linter.unusedVariables false

namespace Braft.Life

/-- The states of a node (node.h / raft.h State, in this order); SHUTDOWN and END are as SHUTTING. -/
inductive Role where
  | leader
  | transferring
  | candidate
  | follower
  | error
  | shutting
deriving DecidableEq, Repr

/-- `_state <= STATE_TRANSFERRING`. -/
def Role.leads : Role → Bool
  | .leader => true
  | .transferring => true
  | _ => false

/-- is_active_state: `_state < STATE_ERROR`. -/
def Role.active : Role → Bool
  | .error => false
  | .shutting => false
  | _ => true

/-- The tasks of the FSMCaller (fsm_caller.h ApplyTask). -/
inductive Task (L : Type) where
  | committed (k : Nat)
  | leaderStop
  | leaderStart (t : Nat)
  | startFollowing (l : L) (t : Nat)
  | stopFollowing (l : L) (t : Nat)
  /-- execution_queue_stop. -/
  | stop
deriving DecidableEq, Repr

/-- The calls that the state machine sees. -/
inductive Ev (L : Type) where
  | leaderStart (t : Nat)
  | leaderStop
  | startFollowing (l : L) (t : Nat)
  | stopFollowing (l : L) (t : Nat)
  | shutdown
deriving DecidableEq, Repr

/-- The node and its FSMCaller. -/
structure State (L : Type) where
  role : Role
  term : Nat
  /-- `_leader_id`. -/
  lid : Option L
  /-- The configuration context waits for the first configuration entry of this leader. -/
  first : Bool
  /-- last_committed_index of the ballot box. -/
  committed : Nat
  /-- The closure of the first configuration entry in the closure queue: its term, the index of the entry. -/
  pend : Option (Nat × Nat)
  queue : List (Task L)
  /-- The closure that the FSMCaller runs: its term; whether on_configuration_change_done has been called. -/
  run : Option (Nat × Bool)
  /-- The queue takes no more tasks. -/
  stopped : Bool
  /-- Ghost: the calls so far. -/
  out : List (Ev L)
  /-- Ghost: entries up to here have been given to the state machine (at least). -/
  applied : Nat
  /-- Ghost: the terms in which the node was elected, with the committed index at that moment. -/
  elected : List (Nat × Nat)
  /-- Ghost: the closure of the present term got an error. -/
  lost : Bool

/-- NodeImpl::init (node.cpp:604-650): a follower without a leader. -/
def State.init {L : Type} (term committed : Nat) : State L :=
  ⟨.follower, term, none, false, committed, none, [], none, false, [], 0, [], false⟩

/-- execution_queue_execute: refused after the stop. -/
def State.enq {L : Type} (s : State L) (t : Task L) : State L :=
  if s.stopped then s else { s with queue := s.queue ++ [t] }

/-- reset_leader_id with an empty id (node.cpp:1878-1884). -/
def State.clearLeader {L : Type} (s : State L) : State L :=
  match s.lid with
  | none => s
  | some l =>
    let s' := if s.role.leads then s else s.enq (.stopFollowing l s.term)
    { s' with lid := none }

/-- reset_leader_id with an id (node.cpp:1885-1893). -/
def State.setLeader {L : Type} (s : State L) (l : L) : State L :=
  match s.lid with
  | none => { s.enq (.startFollowing l s.term) with lid := some l }
  | some _ => { s with lid := some l }

/-- The branch of step_down for a leader (node.cpp:1809-1820): clear_pending_tasks gives the closures in the queue an error,
then on_leader_stop. -/
def State.dropLead {L : Type} (s : State L) : State L :=
  if s.role.leads then
    let s1 : State L := { s with pend := none }
    if s.role = .leader then s1.enq .leaderStop else s1
  else s

/-- step_down (node.cpp:1793-1875). -/
def State.stepDown {L : Type} (s : State L) (t : Nat) : State L :=
  if s.role.active then
    let s2 := s.dropLead.clearLeader
    { s2 with role := .follower, first := false, term := if t > s2.term then t else s2.term }
  else s

/-- check_step_down (node.cpp:1898-1917). -/
def State.checkStepDown {L : Type} (s : State L) (t : Nat) (l : L) : State L :=
  let s1 :=
    if t > s.term then s.stepDown t
    else if s.role ≠ .follower then s.stepDown t
    else if s.lid = none then s.stepDown t
    else s
  if s1.lid.isNone then s1.setLeader l else s1

/-- A message of a leader (node.cpp:2413-2452, 2620-2660): stale ones are ignored; if another leader is known both are made
to step down. -/
def State.recvLeader {L : Type} [DecidableEq L] (s : State L) (t : Nat) (l : L) : State L :=
  if s.role.active = false then s
  else if t < s.term then s
  else
    let s1 := s.checkStepDown t l
    if s1.lid = some l then s1 else s1.stepDown (t + 1)

/-- handle_election_timeout (node.cpp:1066-1090) up to pre_vote. -/
def State.electionTimeout {L : Type} (s : State L) : State L :=
  if s.role = .follower then s.clearLeader else s

/-- elect_self (node.cpp:1680-1713); called for followers and candidates (node.cpp:659, 1139, 1390, 1580, 3562). In a group of
one node a call from a window of pre_vote may find an inactive node: that is not in this model, see Timers.lean (C74). -/
def State.electSelf {L : Type} (s : State L) : State L :=
  if s.role = .follower ∨ s.role = .candidate then
    let s1 := s.clearLeader
    { s1 with role := .candidate, term := s1.term + 1 }
  else s

/-- become_leader (node.cpp:1932-1976) with the entry of ConfigurationCtx::flush (node.cpp:3249-3262) at `idx`, behind the
last entry of the log. The CHECK on the state is a guard (PreVote.lean has the window of elect_self); that the log reaches at
least to the committed index is a guard as well (C03, C04). -/
def State.becomeLeader {L : Type} (self : L) (s : State L) (idx : Nat) : State L :=
  if s.role = .candidate ∧ s.committed < idx then
    { s with role := .leader, lid := some self, first := true, pend := some (s.term, idx),
             elected := s.elected ++ [(s.term, s.committed)], lost := false }
  else s

/-- The ballot box commits and tells the FSMCaller (ballot_box.cpp:63-95, 140-165). -/
def State.commit {L : Type} (s : State L) (k : Nat) : State L :=
  if s.committed < k then { s with committed := k }.enq (.committed k) else s

/-- transfer_leadership_to when it is accepted (node.cpp:1189-1262): the configuration context is not busy. -/
def State.transfer {L : Type} (s : State L) : State L :=
  if s.role = .leader ∧ s.first = false then { s with role := .transferring }.enq .leaderStop else s

/-- handle_transfer_timeout (node.cpp:1173-1187). -/
def State.transferTimeout {L : Type} (s : State L) (t : Nat) : State L :=
  if t = s.term ∧ s.role = .transferring then { s with role := .leader }.enq (.leaderStart t) else s

/-- on_error (node.cpp:1348-1368). -/
def State.onError {L : Type} (s : State L) : State L :=
  let s1 := if s.role.active then s.stepDown s.term else s
  if s1.role = .shutting then s1 else { s1 with role := .error }

/-- shutdown (node.cpp:987-1025). -/
def State.shutdown {L : Type} (s : State L) : State L :=
  if s.role = .shutting then s
  else
    let s1 := if s.role.active then s.stepDown s.term else s
    { (s1.enq .stop) with role := .shutting, stopped := true }

/-- What happens to a COMMITTED task: it does nothing (the FSMCaller is in error); the closures it pops get an error; it runs
the closures it pops. -/
inductive Mode where
  | skip
  | fail
  | ok
deriving DecidableEq, Repr

/-- do_committed (fsm_caller.cpp:265-315), as far as the closure of the first configuration entry is concerned. -/
def State.doCommitted {L : Type} (s : State L) (k : Nat) (m : Mode) : State L :=
  match s.pend with
  | none => s
  | some (t, i) =>
    if k < i then s
    else match m with
      | .skip => s
      | .fail => { s with pend := none, lost := true }
      | .ok => { s with pend := none, run := some (t, false), applied := max s.applied i }

/-- The FSMCaller takes its next task (fsm_caller.cpp:57-135). -/
def State.take {L : Type} (s : State L) (m : Mode) : State L :=
  if s.run.isSome then s
  else match s.queue with
    | [] => s
    | .committed k :: q => { s with queue := q }.doCommitted k m
    | .leaderStop :: q => { s with queue := q, out := s.out ++ [.leaderStop] }
    | .leaderStart t :: q => { s with queue := q, out := s.out ++ [.leaderStart t] }
    | .startFollowing l t :: q => { s with queue := q, out := s.out ++ [.startFollowing l t] }
    | .stopFollowing l t :: q => { s with queue := q, out := s.out ++ [.stopFollowing l t] }
    | .stop :: q => { s with queue := q, out := s.out ++ [.shutdown] }

/-- ConfigurationChangeDone::Run, first line (node.cpp:97-98, on_configuration_change_done node.cpp:708-722). -/
def State.confDone {L : Type} (s : State L) : State L :=
  match s.run with
  | some (t, false) =>
    { s with run := some (t, true), first := if s.role.leads ∧ t = s.term then false else s.first }
  | _ => s

/-- ConfigurationChangeDone::Run, on_leader_start (node.cpp:99-102). -/
def State.callStart {L : Type} (s : State L) : State L :=
  match s.run with
  | some (t, true) => { s with run := none, out := s.out ++ [.leaderStart t] }
  | _ => s

/-- All histories of a node. -/
inductive Run {L : Type} [DecidableEq L] (self : L) : State L → Prop where
  | init (term committed : Nat) : Run self (State.init term committed)
  | stepDown {s} (h : Run self s) (t : Nat) : Run self (s.stepDown t)
  | recvLeader {s} (h : Run self s) (t : Nat) (l : L) : Run self (s.recvLeader t l)
  | electionTimeout {s} (h : Run self s) : Run self s.electionTimeout
  | electSelf {s} (h : Run self s) : Run self s.electSelf
  | becomeLeader {s} (h : Run self s) (idx : Nat) : Run self (s.becomeLeader self idx)
  | commit {s} (h : Run self s) (k : Nat) : Run self (s.commit k)
  | transfer {s} (h : Run self s) : Run self s.transfer
  | transferTimeout {s} (h : Run self s) (t : Nat) : Run self (s.transferTimeout t)
  | onError {s} (h : Run self s) : Run self s.onError
  | shutdown {s} (h : Run self s) : Run self s.shutdown
  | take {s} (h : Run self s) (m : Mode) : Run self (s.take m)
  | confDone {s} (h : Run self s) : Run self s.confDone
  | callStart {s} (h : Run self s) : Run self s.callStart

end Braft.Life
