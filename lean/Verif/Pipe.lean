import Verif.Apply
import Verif.FsmRun
/-
The life of a user's task on one node, from NodeImpl::apply to its closure: the task queue, the leader's batches
(Apply.lean), the ballot box with its closure queue (BallotBox.lean, ClosureQueue.lean), the log, and the thread
that runs the state machine (Fsm.lean), all interleaved. Elections, step downs, the entries a follower receives,
the acknowledgements and the commit indexes come from outside and are arbitrary within `Ok`.

Simplifications: the log is one list from index 1 on (compaction is the subject of C18); a do_committed is one step
(only its first call, pop_closure_until, touches anything other threads change); a snapshot is loaded when the log
already reaches its index (an installation is `follow` to the leader's log and then the load: no election happens
in between, node.cpp:1625-1632), with no closure waiting.
-/
set_option linter.unusedSectionVars false
set_option linter.unusedSimpArgs false
set_option linter.unusedVariables false

namespace Braft.Pipe
open Readonly (Role)
open Apply (Task)

/-- The node. `given`, `confs` and `popped` are a record for the specification: the tasks given to apply(), the
closures of configuration entries, and what do_committed took from the closure queue, with the indexes. `errs` are
the closures run with an error by apply() or by a step down. -/
structure State (P D C : Type) where
  stopped : Bool
  queued : List (Task D C)
  n : Apply.Node P D C
  log : List (Fsm.Entry D)
  f : Fsm.State D C
  errs : List C
  given : List (Task D C)
  confs : List C
  popped : List (Nat × C)

variable {P D C : Type} [DecidableEq P]

/-- A node after NodeImpl::init with an empty log (node.cpp:463-600): a follower. -/
def State.init (conf : List P) : State P D C :=
  { stopped := false, queued := [], log := [], f := Fsm.State.init 0 0, errs := [], given := [], confs := [], popped := []
    n := { role := .other, term := 0, nodeRo := false, majRo := false, conf := conf, old := [], logErr := false
           lastIndex := 0, log := [], bb := {} } }

/-- Steps. `submit`: a call of apply(const Task&). `batch k`: the queue's consumer hands `k` tasks over. `elect`:
become_leader up to reset_pending_index. `confEntry`: unsafe_apply_configuration. `ack`: commit_at by a replicator or
by the leader's own disk. `follow`: the log manager's part of append_entries from a leader. `setCommitted`: a
follower's commit index. `fsm`, `fsmEnd`: one round of the loop of FSMCaller::run. `env`: everything else that changes
the node's role, term, modes, configuration or the log manager's error. -/
inductive Op (P D C : Type)
  | submit (t : Task D C)
  | stop
  | batch (k : Nat)
  | elect (term : Nat)
  | confEntry (c : C) (conf : List P) (old : Option (List P))
  | stepDown
  | ack (first last : Nat) (peer : P)
  | follow (log : List (Fsm.Entry D))
  | setCommitted (i : Nat)
  | fsm (size : Nat) (e : Fsm.Env D) (t : Fsm.Task)
  | fsmEnd (e : Fsm.Env D)
  | env (role : Role) (term : Nat) (nodeRo majRo : Bool) (conf old : List P) (logErr : Bool)

/-- NodeImpl::apply(const Task&) (node.cpp:693-706): refused only by a stopped queue. -/
def submit (s : State P D C) (t : Task D C) : State P D C :=
  if s.stopped then { s with given := s.given ++ [t], errs := s.errs ++ t.done.toList }
  else { s with given := s.given ++ [t], queued := s.queued ++ [t] }

/-- A data entry of the leader's log as the state machine's thread sees it (log_entry.h). -/
def dataEntry (x : Apply.Entry D) : Fsm.Entry D := ⟨x.term, .data x.data⟩

/-- NodeImpl::execute_applying_tasks, one batch (node.cpp:669-690, 2024-2079). -/
def batch (s : State P D C) (k : Nat) : State P D C :=
  let r := Apply.applyBatch s.n (s.queued.take k)
  { s with queued := s.queued.drop k
           n := r.1
           log := s.log ++ (r.1.log.drop s.n.log.length).map dataEntry
           errs := s.errs ++ r.2.map Prod.fst }

/-- NodeImpl::become_leader (node.cpp:1934-1966); the configuration entry that follows is `confEntry`. -/
def elect (s : State P D C) (term : Nat) : State P D C :=
  { s with n := { s.n with role := .leader, term := term, bb := s.n.bb.resetPendingIndex (s.log.length + 1) } }

/-- NodeImpl::unsafe_apply_configuration (node.cpp:2081-2107) with log_manager.cpp:407-417 (nothing is appended
after a storage error). -/
def confEntry (s : State P D C) (c : C) (conf : List P) (old : Option (List P)) : State P D C :=
  let n' : Apply.Node P D C := { s.n with bb := s.n.bb.appendPendingTask conf old (some c) }
  if s.n.logErr then { s with n := n', confs := s.confs ++ [c] }
  else { s with n := { n' with lastIndex := s.n.lastIndex + 1 }
                log := s.log ++ [⟨s.n.term, .conf old.isSome⟩]
                confs := s.confs ++ [c] }

/-- NodeImpl::step_down of a leader (node.cpp:1793-1831): the closures still waiting fail. -/
def stepDown (s : State P D C) : State P D C :=
  { s with n := { s.n with role := .other, bb := s.n.bb.clearPendingTasks.1 }
           errs := s.errs ++ s.n.bb.clearPendingTasks.2 }

/-- What do_committed took: the closures `q` has and `q'` has not any more, with their indexes. -/
def taken (q q' : ClosureQueue C) : List (Nat × C) :=
  (ClosureQueue.numberFrom q.first (q.queue.take (q.queue.length - q'.queue.length))).filterMap
    fun p => p.2.map fun c => (p.1, c)

/-- The state machine's thread with the node's closure queue (node.cpp:365-374, 566: FSMCaller and BallotBox share `_closure_queue`). -/
def fsmOf (s : State P D C) : Fsm.State D C := { s.f with cq := s.n.bb.closures }

/-- After a step of the state machine's thread. -/
def putFsm (s : State P D C) (g : Fsm.State D C) : State P D C :=
  { s with f := g
           n := { s.n with bb := { s.n.bb with closures := g.cq } }
           popped := s.popped ++ taken s.n.bb.closures g.cq }

def step (s : State P D C) : Op P D C → State P D C
  | .submit t => submit s t
  | .stop => { s with stopped := true }
  | .batch k => batch s k
  | .elect term => elect s term
  | .confEntry c conf old => confEntry s c conf old
  | .stepDown => stepDown s
  | .ack first last peer => { s with n := { s.n with bb := (s.n.bb.commitAt first last peer).1 } }
  | .follow log => { s with log := log, n := { s.n with lastIndex := log.length } }
  | .setCommitted i => { s with n := { s.n with bb := (s.n.bb.setLastCommittedIndex i).1 } }
  | .fsm size e t => putFsm s ((fsmOf s).task size e t)
  | .fsmEnd e => putFsm s ((fsmOf s).flush e)
  | .env role term nodeRo majRo conf old logErr =>
    { s with n := { s.n with role := role, term := term, nodeRo := nodeRo, majRo := majRo, conf := conf, old := old
                             logErr := logErr } }

/-- The entry of index `i`. -/
def entryAt (log : List (Fsm.Entry D)) (i : Nat) : Fsm.Entry D := (log[i - 1]?).getD ⟨0, .noop⟩

/-- What the state machine's thread reads is the log, or nothing if the read fails; terms are those of the log. -/
def Reads (s : State P D C) (e : Fsm.Env D) : Prop :=
  ∀ i, 1 ≤ i → i ≤ s.log.length → (e.log i = s.log[i - 1]? ∨ e.log i = none) ∧ e.term i = (entryAt s.log i).term

/-- What is required of the outside.
`submit`: a task without closure is not given to a stopped queue (C40: that dereferences a null pointer).
`elect`: by a node that is not leader (node.cpp:1935 CHECK). `confEntry`: by a leader, sets of peers.
`ack`: after a storage error, for entries that exist (C41, C45; before, the ballot box knows how many there are). `follow`: not leader; committed and applied entries are not changed (C03, C16).
`setCommitted`: not beyond the log (C42), unless the ballot box refuses because it is a leader's. `fsm`: a commit notification comes from the ballot box; snapshots are of the log. -/
def Ok (s : State P D C) : Op P D C → Prop
  | .submit t => s.stopped = true → t.done ≠ none
  | .stop => True
  | .batch _ => True
  | .elect _ => s.n.bb.pending = 0
  | .confEntry _ conf old => s.n.bb.pending ≠ 0 ∧ conf.Nodup ∧ ∀ o ∈ old, o.Nodup
  | .stepDown => True
  | .ack _ last _ => s.n.logErr = true → last ≤ s.log.length
  | .follow log => s.n.bb.pending = 0 ∧ s.n.bb.lastCommitted ≤ log.length ∧ s.f.applied ≤ log.length ∧
      log.take s.n.bb.lastCommitted = s.log.take s.n.bb.lastCommitted
  | .setCommitted i => s.n.bb.pending = 0 → i ≤ s.log.length
  | .fsm _ e t => Reads s e ∧ match t with
      | .committed i => i ≤ s.n.bb.lastCommitted
      | .load (.snap i _ _ ok) => ok = true → s.n.bb.closures.queue = [] ∧ i ≤ s.log.length
      | _ => True
  | .fsmEnd e => Reads s e
  | .env role _ _ _ conf old logErr => (role = .leader → s.n.bb.pending ≠ 0) ∧ conf.Nodup ∧ old.Nodup ∧
      (s.n.logErr = true → logErr = true)

/-- The histories of a node. -/
inductive Run (conf : List P) : State P D C → Prop
  | init : Run conf (State.init conf)
  | step {s} (op : Op P D C) (h : Run conf s) (ok : Ok s op) : Run conf (step s op)

/-! ### What the user sees -/

/-- The closures given to the user with their entries in on_apply, or run with OK. -/
def shown : List (Fsm.Ev D C) → List C
  | [] => []
  | .apply _ _ (some c) :: r => c :: shown r
  | .ran c :: r => c :: shown r
  | _ :: r => shown r

/-- The closures run with an error after a state machine or storage error. -/
def failed : List (Fsm.Ev D C) → List C
  | [] => []
  | .failed c :: r => c :: failed r
  | _ :: r => failed r

/-- The closures of tasks. -/
def dones (ts : List (Task D C)) : List C := ts.filterMap (·.done)

end Braft.Pipe
