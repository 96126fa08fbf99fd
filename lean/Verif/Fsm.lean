import Verif.ClosureQueue
/-
Model of src/braft/fsm_caller.{h,cpp}: the thread that hands committed entries to the user's state machine.

What the state machine does inside on_apply is arbitrary: a list of calls of Iterator::next and
Iterator::set_error_and_rollback, given as a function of the index at which on_apply is called (within one
do_committed on_apply is never called twice at the same index, so this covers all behaviours). What the log
manager answers is part of each step.

Simplifications: indexes are natural numbers, so a rollback below index 0 stops at 0; a task that is refused
because the queue is stopped, shutdown and describe are left out. The execution queue is the list of
tasks the loop takes; urgent tasks only change their order, and all orders are covered.
-/
set_option linter.unusedSectionVars false
set_option linter.unusedSimpArgs false
set_option linter.unusedVariables false

namespace Braft.Fsm

/-- raft.pb `EntryType` with what the loop looks at (fsm_caller.cpp:282-300). -/
inductive Kind (D : Type) where
  | data (d : D)
  | conf (joint : Bool)
  | noop
deriving DecidableEq, Repr

structure Entry (D : Type) where
  term : Nat
  kind : Kind D
deriving DecidableEq, Repr

/-- What the user can observe, in order. `apply`: inside on_apply the iterator is valid at this entry.
`rollback`: the user's call. `ran`: a closure is run with OK by the FSMCaller, `failed`: with the error. -/
inductive Ev (D C : Type) where
  | apply (i : Nat) (d : D) (done : Option C)
  | rollback (n : Nat)
  | confCommitted (i : Nat)
  | ran (c : C)
  | failed (c : C)
  | onError
  | load (i : Nat) (ok : Bool)
  | save (i t : Nat)
  | leader
deriving DecidableEq, Repr

/-- The user's calls inside on_apply. -/
inductive UOp where
  | next
  | rollback (n : Nat)
deriving DecidableEq, Repr

/-- What the log manager answers and what the user does during one do_committed. -/
structure Env (D : Type) where
  log : Nat → Option (Entry D)
  term : Nat → Nat
  user : Nat → List UOp

/-- fsm_caller.h:42-73 IteratorImpl. -/
structure It (D C : Type) where
  dones : List (Option C)
  first : Nat
  cur : Nat
  committed : Nat
  entry : Option (Entry D)
  err : Bool

variable {D C : Type}

/-- IteratorImpl::next (fsm_caller.cpp:569-588). -/
def It.next (log : Nat → Option (Entry D)) (it : It D C) : It D C :=
  if it.cur ≤ it.committed then
    if it.cur + 1 ≤ it.committed then
      { it with cur := it.cur + 1, entry := log (it.cur + 1), err := it.err || (log (it.cur + 1)).isNone }
    else { it with cur := it.cur + 1, entry := none }
  else { it with entry := none }

/-- IteratorImpl::IteratorImpl (fsm_caller.cpp:553-567). -/
def It.start (log : Nat → Option (Entry D)) (dones : List (Option C)) (first applied committed : Nat) : It D C :=
  It.next log { dones := dones, first := first, cur := applied, committed := committed, entry := none, err := false }

/-- IteratorImpl::is_good (fsm_caller.h:48). -/
def It.good (it : It D C) : Bool := decide (it.cur ≤ it.committed) && !it.err

/-- The data of the current entry, if Iterator::valid (raft.cpp:252-254). -/
def It.data? (it : It D C) : Option D :=
  if it.good then match it.entry with
    | some ⟨_, .data d⟩ => some d
    | _ => none
  else none

/-- The closure of index `i` among the popped ones (fsm_caller.cpp:590-595). -/
def It.doneAt (it : It D C) (i : Nat) : Option C :=
  if i < it.first then none else (it.dones[i - it.first]?).join

/-- IteratorImpl::set_error_and_rollback (fsm_caller.cpp:597-617). -/
def It.rollback (it : It D C) (n : Nat) : It D C :=
  if n = 0 then it
  else
    let back := match it.entry with
      | some ⟨_, .data _⟩ => n - 1
      | _ => n
    { it with cur := it.cur - back, entry := none, err := true }

/-- The entry the iterator shows to the user, as an event. -/
def It.shows (it : It D C) : List (Ev D C) :=
  match it.data? with
  | some d => [.apply it.cur d (it.doneAt it.cur)]
  | none => []

/-- The user's calls inside one on_apply (raft.cpp:246-270). -/
def user (log : Nat → Option (Entry D)) (it : It D C) : List UOp → It D C × List (Ev D C)
  | [] => (it, [])
  | .next :: us =>
    match it.data? with
    | some _ => let it1 := it.next log
                let r := user log it1 us
                (r.1, it1.shows ++ r.2)
    | none => user log it us
  | .rollback n :: us =>
    let r := user log (it.rollback n) us
    (r.1, .rollback n :: r.2)

/-- One round of the loop of do_committed (fsm_caller.cpp:281-308), the iterator being good. -/
def body (e : Env D) (it : It D C) : It D C × List (Ev D C) :=
  match it.entry with
  | some ⟨_, .data _⟩ =>
    let r := user e.log it (e.user it.cur)
    let it1 := match r.1.data? with | some _ => r.1.next e.log | none => r.1
    (it1, it.shows ++ r.2)
  | x =>
    let ev1 : List (Ev D C) := match x with | some ⟨_, .conf false⟩ => [.confCommitted it.cur] | _ => []
    let ev2 : List (Ev D C) := match it.doneAt it.cur with | some c => [.ran c] | none => []
    (it.next e.log, ev1 ++ ev2)

/-- The loop (fsm_caller.cpp:281-308). The index grows in every round that does not end in an error, so
`committed + 1 - applied` rounds are enough (`loop_spec` in FsmInv.lean). -/
def loop (e : Env D) : Nat → It D C → It D C × List (Ev D C)
  | 0, it => (it, [])
  | n + 1, it =>
    if it.good then
      let r := body e it
      let r2 := loop e n r.1
      (r2.1, r.2 ++ r2.2)
    else (it, [])

/-- IteratorImpl::run_the_rest_closure_with_error (fsm_caller.cpp:619-628): the closures of the indexes
from `max cur first` to `committed`. -/
def It.rest (it : It D C) : List C :=
  (List.range' (max it.cur it.first) (it.committed + 1 - max it.cur it.first)).filterMap it.doneAt

/-- The fields of FSMCaller, the closure queue, and the history: the user's view and the calls of
LogManager::set_applied_id. `pend` and `counter` are the local variables of FSMCaller::run. -/
structure State (D C : Type) where
  applied : Nat
  term : Nat
  err : Bool
  cq : ClosureQueue C
  pend : Option Nat
  counter : Nat
  ev : List (Ev D C)
  setApplied : List (Nat × Nat)

/-- FSMCaller::init (fsm_caller.cpp:157-169). -/
def State.init (i t : Nat) : State D C :=
  { applied := i, term := t, err := false, cq := {}, pend := none, counter := 0, ev := [], setApplied := [] }

/-- FSMCaller::set_error (fsm_caller.cpp:249-261). -/
def State.setError (s : State D C) : State D C :=
  if s.err then s else { s with err := true, ev := s.ev ++ [.onError] }

/-- FSMCaller::do_committed (fsm_caller.cpp:263-319). -/
def State.doCommitted (e : Env D) (s : State D C) (c : Nat) : State D C :=
  if s.err then s
  else if s.applied ≥ c then s
  else
    let p := s.cq.popUntil c
    let r := loop e (c + 1 - s.applied) (It.start e.log p.2.out p.2.outFirst s.applied c)
    let s1 := { s with cq := p.1, ev := s.ev ++ r.2 }
    let s2 := if r.1.err then { s1.setError with ev := s1.setError.ev ++ r.1.rest.map .failed } else s1
    let last := r.1.cur - 1
    { s2 with applied := c, term := e.term last, setApplied := s2.setApplied ++ [(last, e.term last)] }

/-- What SnapshotReader and on_snapshot_load answer (fsm_caller.cpp:367-429): no reader; load_meta fails (with
EIO or not); a snapshot with this id and, if it is tried, on_snapshot_load's success. -/
inductive Load where
  | noReader
  | badMeta (eio : Bool)
  | snap (i t : Nat) (joint : Bool) (ok : Bool)
deriving DecidableEq, Repr

/-- `LogId::operator>` (log_entry.h:71-76). -/
def idGt (a b : Nat × Nat) : Bool := if a.2 = b.2 then decide (a.1 > b.1) else decide (a.2 > b.2)

/-- FSMCaller::do_snapshot_load behind pass_by_status (fsm_caller.cpp:143-155, 367-429). -/
def State.doLoad (s : State D C) (l : Load) : State D C :=
  if s.err then s
  else match l with
    | .noReader => s
    | .badMeta eio => if eio then s.setError else s
    | .snap i t joint ok =>
      if idGt (s.applied, s.term) (i, t) then s
      else if ok then
        { s with ev := s.ev ++ (Ev.load i true :: if joint then [] else [.confCommitted i]), applied := i, term := t }
      else ({ s with ev := s.ev ++ [Ev.load i false] }).setError

/-- FSMCaller::do_snapshot_save behind pass_by_status (fsm_caller.cpp:143-155, 328-358); `w`: the writer
could be created. -/
def State.doSave (s : State D C) (w : Bool) : State D C :=
  if s.err then s
  else if w then { s with ev := s.ev ++ [.save s.applied s.term] } else s

/-- ApplyTask (fsm_caller.h:130-168). -/
inductive Task where
  | committed (i : Nat)
  | save (w : Bool)
  | load (l : Load)
  | leader
  | error
deriving DecidableEq, Repr

/-- Lines 75-82 and 133-138 of fsm_caller.cpp: the accumulated commit is done. -/
def State.flush (e : Env D) (s : State D C) : State D C :=
  match s.pend with
  | some c => { s.doCommitted e c with pend := none, counter := 0 }
  | none => s

/-- Lines 69-73 and 84-89 of fsm_caller.cpp. -/
def State.take (s : State D C) (i : Nat) : State D C :=
  match s.pend with
  | some m => if i > m then { s with pend := some i, counter := s.counter + 1 } else s
  | none => { s with pend := some i, counter := s.counter + 1 }

/-- One round of the loop of FSMCaller::run (fsm_caller.cpp:59-141), `batch` = raft_fsm_caller_commit_batch. -/
def State.task (batch : Nat) (e : Env D) (s : State D C) : Task → State D C
  | .committed i => if s.counter < batch then s.take i else (s.flush e).take i
  | .save w => (s.flush e).doSave w
  | .load l => (s.flush e).doLoad l
  | .leader => { s.flush e with ev := (s.flush e).ev ++ [.leader] }
  | .error => (s.flush e).setError

end Braft.Fsm
