/-
Model of Replicator (replicator.cpp:100-1240), the part of a leader that sends its log to one peer.

* Every function runs with the bthread_id of the replicator locked, so it is one step.
* A request is answered at most once (brpc runs `done` once), at any time and in any order, by any response. A cancelled
  call answers too (with an error); nothing depends on when.
* The log of the leader: indexes `first` to `last`, and `snap`, the index of its last snapshot. It grows at the end and is
  compacted at the front; a leader does not truncate its end.
* How many entries fit in a request, the flags raft_max_entries_size and raft_max_parallel_append_entries_rpc_num (they can
  change at run time) and the outcome of calls to other parts are arguments of the steps.
* A waiter in the LogManager may already have been woken when it is removed, so the number of callbacks to come does not go
  down then. Adding a timer succeeds.
* Heartbeats change nothing here but for a higher term in the answer.
-/
set_option linter.unusedSectionVars false
set_option linter.unusedSimpArgs false
set_option linter.unusedVariables false

namespace Braft.Repl

/-- An AppendEntries request (not a heartbeat): its call, prev_log_index and number of entries. -/
structure Req where
  call : Nat
  prev : Nat
  n : Nat
deriving DecidableEq, Repr

/-- FlyingAppendEntriesRpc (replicator.h:253-259). -/
structure Fly where
  first : Nat
  size : Nat
  call : Nat
deriving DecidableEq, Repr

/-- Replicator::St (replicator.h:117-122). -/
inductive St | idle | blocking | appending | installing
deriving DecidableEq, Repr

/-- _catchup_closure: max_margin, and what _error_was_set stands for: the peer was found caught up when the last index was
this. -/
structure Catch where
  id : Nat
  margin : Nat
  okAt : Option Nat
deriving DecidableEq, Repr

/-- How a closure of wait_for_caught_up ended. `ok last`: caught up, when the last index was `last`. -/
inductive Caught | ok (last : Nat) | timedout | perm | inval
deriving DecidableEq, Repr

structure State where
  next : Nat
  flying : Nat
  fly : List Fly
  hasSucc : Bool
  /-- _timeout_now_index. -/
  tni : Nat
  st : St
  /-- _wait_id is not 0; _is_waiter_canceled; callbacks of waiters to come. -/
  waitId : Bool
  cancelled : Bool
  waits : Nat
  /-- Block timers to come, and calls of _continue_sending(ETIMEDOUT) to come. -/
  timers : Nat
  conts : Nat
  reader : Bool
  catching : Option Catch
  alive : Bool
  calls : Nat
  /-- Requests that were not answered yet; for InstallSnapshot, last_included_index. -/
  out : List Req
  installs : List Nat
  /-- The log of the leader. -/
  first : Nat
  last : Nat
  snap : Nat
  /-- History: requests and snapshots the peer has acknowledged in the term of the leader; calls of commit_at; TimeoutNow
  requests sent for transfer_leadership_to, with the last index at that call; closures of wait_for_caught_up that ran. -/
  acks : List Req
  snaps : List Nat
  counted : List (Nat × Nat)
  tnow : List Nat
  ran : List (Nat × Nat × Caught)
  nwait : Nat
  /-- The last indexes at the calls of transfer_leadership_to. -/
  asked : List Nat
  /-- A CHECK has failed. -/
  bad : Bool

/-- _min_flying_index (replicator.h:168-170). -/
def State.min (s : State) : Nat := s.next - s.flying

/-- LogManager::get_term is not 0 (log_manager.cpp:730-757). -/
def State.known (s : State) (i : Nat) : Bool := (decide (s.first ≤ i) && decide (i ≤ s.last)) || (i == s.snap)

/-- _fill_common_fields succeeds (replicator.cpp:527-555). -/
def State.fill (s : State) (prev : Nat) : Bool := prev == 0 || s.known prev

/-- The CHECK_LT in _fill_common_fields (replicator.cpp:533). -/
def State.unfilled (s : State) (prev : Nat) : State := { s with bad := s.bad || !(decide (prev < s.first)) }

/-- What the environment decides in a step: the flags, the number of entries that fit, whether the peer is readonly; the
throttle refuses or there is no uri (`block`), the snapshot cannot be opened (`fail`), its meta cannot be loaded
(`metaFail`). -/
inductive IOut | block | fail | metaFail | sent
deriving DecidableEq, Repr

structure Env where
  maxSize : Nat
  maxPar : Nat
  n : Nat
  ro : Bool
  io : IOut
  /-- bthread_timer_del of the catch-up timer returns 1: its callback runs. -/
  timerRuns : Bool

/-- _block (replicator.cpp:242-277). -/
def State.block (s : State) : State :=
  if s.st = .blocking then s else { s with st := .blocking, timers := s.timers + 1 }

/-- _install_snapshot (replicator.cpp:772-867). `w`: the leader is a witness. -/
def State.install (s : State) (w : Bool) (io : IOut) : State :=
  if w then s.block
  else if s.reader then s
  else
    match io with
    | .block => ({ s with st := .installing } : State).block
    | .fail => { s with st := .installing }
    | .metaFail => { s with st := .installing, reader := true }
    | .sent => { s with st := .installing, reader := true, installs := s.snap :: s.installs }

/-- _reset_next_index (replicator.cpp:1086-1095). -/
def State.reset (s : State) : State :=
  { s with next := s.next - s.flying, flying := 0, fly := [], cancelled := true, waitId := false }

/-- _send_empty_entries(false) (replicator.cpp:556-595). -/
def State.sendEmpty (s : State) (w : Bool) (io : IOut) : State :=
  if s.fill (s.next - 1) then
    { s with st := .appending, fly := s.fly ++ [⟨s.next, 0, s.calls⟩], out := ⟨s.calls, s.next - 1, 0⟩ :: s.out, calls := s.calls + 1,
             bad := s.bad || !s.fly.isEmpty || !(s.flying == 0) }
  else (s.unfilled (s.next - 1)).install w io

/-- _wait_more_entries (replicator.cpp:757-770). -/
def State.waitMore (s : State) (maxSize maxPar : Nat) : State :=
  let s1 : State :=
    if !s.waitId ∧ s.flying < maxSize ∧ s.fly.length < maxPar then { s with waitId := true, waits := s.waits + 1, cancelled := false } else s
  if s1.flying = 0 then { s1 with st := .idle } else s1

/-- How many entries can be read from _next_index on. -/
def State.avail (s : State) : Nat := if s.first ≤ s.next then s.last + 1 - s.next else 0

/-- _send_entries (replicator.cpp:641-714). -/
def State.sendEntries (s : State) (w : Bool) (e : Env) : State :=
  if e.maxSize ≤ s.flying ∨ e.maxPar ≤ s.fly.length ∨ s.st = .blocking then s
  else if !s.fill (s.next - 1) then (s.unfilled (s.next - 1)).reset.install w e.io
  else
    let k := Nat.min e.n (Nat.min s.avail (e.maxSize - s.flying))
    if k = 0 then
      if s.next < s.first then s.reset.install w e.io
      else if e.ro then (if s.flying = 0 then { s with st := .idle } else s)
      else s.waitMore e.maxSize e.maxPar
    else
      ({ s with fly := s.fly ++ [⟨s.next, k, s.calls⟩], out := ⟨s.calls, s.next - 1, k⟩ :: s.out, calls := s.calls + 1,
                next := s.next + k, flying := s.flying + k, st := .appending } : State).waitMore e.maxSize e.maxPar

/-- _is_catchup (replicator.h:207-218). -/
def State.isCatchup (s : State) (margin : Nat) : Bool := !(decide (s.next < s.first)) && !(decide (s.min - 1 + margin < s.last))

/-- _notify_on_caught_up(0, false) (replicator.cpp:934-964). -/
def State.notifyOk (s : State) (timerRuns : Bool) : State :=
  match s.catching with
  | none => s
  | some c =>
    if !s.isCatchup c.margin ∨ c.okAt.isSome then s
    else if timerRuns then { s with catching := some { c with okAt := some s.last } }
    else { s with catching := none, ran := (c.id, c.margin, .ok s.last) :: s.ran }

/-- _notify_on_caught_up(ETIMEDOUT or EPERM) (replicator.cpp:954-964). -/
def State.notifyErr (s : State) (r : Caught) : State :=
  match s.catching with
  | none => s
  | some c => { s with catching := none, ran := (c.id, c.margin, (match c.okAt with | some l => .ok l | none => r)) :: s.ran }

/-- _send_timeout_now(_, false) (replicator.cpp:1097-1124). -/
def State.timeoutNow (s : State) (i : Nat) : State := { s with tnow := i :: s.tnow, tni := 0 }

/-- Replicator::start (replicator.cpp:109-152). -/
def State.start (first last snap : Nat) (w : Bool) (io : IOut) : State :=
  (State.mk (last + 1) 0 [] false 0 .idle false false 0 0 0 false none true 0 [] [] first last snap [] [] [] [] [] 0 [] false).sendEmpty w io

/-- What the answer to AppendEntries is. -/
inductive Resp where
  | failed
  | resp (success : Bool) (term last : Nat)
deriving DecidableEq, Repr

/-- History: the peer has acknowledged `q` in term `T`. -/
def Resp.acks (T : Nat) (q : Req) (l : List Req) : Resp → List Req
  | .resp true t _ => if t = T then q :: l else l
  | _ => l

/-- The loop that looks for the call (replicator.cpp:385-395). -/
def valid : List Fly → Nat → Nat → Bool
  | [], _, _ => false
  | r :: l, first, call => if first < r.first then false else if r.call = call then true else valid l first call

/-- The front of the queue is removed (replicator.cpp:511-515). -/
def popped (fly : List Fly) (first : Nat) : List Fly := fly.dropWhile (fun r => decide (r.first ≤ first))
def poppedSize (fly : List Fly) (first : Nat) : Nat := ((fly.takeWhile (fun r => decide (r.first ≤ first))).map Fly.size).sum

/-- Success in the term of the leader: to the caught-up closure and TimeoutNow (replicator.cpp:511-523). -/
def State.succeeded (s : State) (q : Req) (timerRuns : Bool) : State :=
  let s1 : State := if 0 < q.n then { s with counted := (s.min, q.prev + q.n) :: s.counted } else s
  let s2 : State := { s1 with flying := s1.flying - poppedSize s1.fly (q.prev + 1), fly := popped s1.fly (q.prev + 1), hasSucc := true }
  let s3 := s2.notifyOk timerRuns
  if 0 < s3.tni ∧ s3.tni < s3.min then s3.timeoutNow s3.tni else s3

/-- The next index to try after a mismatch (replicator.cpp:449-470). -/
def State.backoff (s : State) (last : Nat) : State :=
  let s1 := s.reset
  if last + 1 < s1.next then { s1 with next := last + 1 }
  else if 1 < s1.next then { s1 with next := s1.next - 1 } else s1

/-- _on_rpc_returned (replicator.cpp:359-525). `T`: the term of the leader. -/
def State.returned (s : State) (T : Nat) (w : Bool) (q : Req) (r : Resp) (e : Env) : State :=
  let s0 : State := { s with out := s.out.erase q, acks := r.acks T q s.acks }
  if !s0.alive then s0
  else
    let s1 : State := { s0 with bad := s0.bad || !(decide (0 < s0.min)) }
    if !valid s1.fly (q.prev + 1) q.call then s1
    else
      match r with
      | .failed => s1.reset.block
      | .resp false t l => if T < t then { s1.reset.notifyErr .perm with alive := false } else (s1.backoff l).sendEmpty w e.io
      | .resp true t _ => if t ≠ T then s1.reset else (s1.succeeded q e.timerRuns).sendEntries w e

/-- _on_install_snapshot_returned (replicator.cpp:869-932). -/
def State.installed (s : State) (w : Bool) (i : Nat) (ok : Bool) (e : Env) : State :=
  let s0 : State := { s with installs := s.installs.erase i, snaps := if ok then i :: s.snaps else s.snaps }
  if !s0.alive then s0
  else
    let s1 : State := { s0 with reader := false }
    if !ok then s1.block
    else
      let s2 := ({ s1 with next := i + 1, hasSucc := true } : State).notifyOk e.timerRuns
      (if 0 < s2.tni ∧ s2.tni < s2.min then s2.timeoutNow s2.tni else s2).sendEntries w e

/-- _continue_sending by a waiter (replicator.cpp:716-754). `code`: not ESTOP. -/
def State.wake (s : State) (w : Bool) (e : Env) : State :=
  if s.waits = 0 then s
  else
    let s0 : State := { s with waits := s.waits - 1 }
    if !s0.alive ∨ s0.cancelled then s0 else ({ s0 with waitId := false } : State).sendEntries w e

/-- _on_block_timedout_in_new_thread, first part (replicator.cpp:221-229). A timer of a replicator that was destroyed does
nothing. -/
def State.unblock (s : State) : State :=
  if s.timers = 0 ∨ s.alive = false then s else { s with timers := s.timers - 1, st := .idle, conts := s.conts + 1 }

/-- _continue_sending(ETIMEDOUT) (replicator.cpp:716-737). -/
def State.resume (s : State) (w : Bool) (io : IOut) : State :=
  if s.conts = 0 ∨ s.alive = false then s
  else
    let s0 : State := { s with conts := s.conts - 1 }
    if s0.waitId then s0 else s0.sendEmpty w io

/-- wait_for_caught_up (replicator.cpp:172-219). -/
def State.waitCaughtUp (s : State) (margin : Nat) : State :=
  let id := s.nwait
  let s0 : State := { s with nwait := id + 1 }
  if !s0.alive then { s0 with ran := (id, margin, .inval) :: s0.ran }
  else if s0.catching.isSome then { s0 with ran := (id, margin, .inval) :: s0.ran }
  else if s0.hasSucc ∧ s0.isCatchup margin then { s0 with ran := (id, margin, .ok s0.last) :: s0.ran }
  else { s0 with catching := some ⟨id, margin, none⟩ }

/-- _transfer_leadership (replicator.cpp:1064-1075), called with the last index of the log (node.cpp:1229-1230). -/
def State.transfer (s : State) : State :=
  if !s.alive then s
  else
    let s0 : State := { s with asked := s.last :: s.asked }
    if s0.hasSucc ∧ s0.last < s0.min then s0.timeoutNow s0.last else { s0 with tni := s0.last }

/-- get_next_index (replicator.cpp:1193-1205). -/
def State.nextIndex (s : State) : Nat := if s.alive ∧ s.hasSucc then s.min else 0

/-- stop_transfer_leadership (replicator.cpp:1051-1062). -/
def State.stopTransfer (s : State) : State := { s with tni := 0 }

/-- Replicator::stop (replicator.cpp:154-165), a higher term in an answer to a heartbeat or to TimeoutNow. -/
def State.stop (s : State) : State := if s.alive then { s.notifyErr .perm with alive := false } else s

/-- _on_catch_up_timedout (replicator.cpp:1028-1038). -/
def State.catchTimeout (s : State) : State := if s.alive then s.notifyErr .timedout else s

/-- _change_readonly_config(false) (replicator.cpp:1243-1249). -/
def State.readonlyOff (s : State) (maxSize maxPar : Nat) : State := if s.alive then s.waitMore maxSize maxPar else s

/-- The log grows. -/
def State.append (s : State) (k : Nat) : State := { s with last := s.last + k }

/-- A snapshot is taken and the log compacted. -/
def State.compact (s : State) (snap first : Nat) : State :=
  if s.snap ≤ snap ∧ snap ≤ s.last ∧ s.first ≤ first ∧ first ≤ snap + 1 then { s with snap, first } else s

/-- One step. `ro`: readonly mode of the peer may be switched off. -/
inductive Step (T : Nat) (w ro : Bool) : State → State → Prop where
  | returned (s q r e) (h : q ∈ s.out) : Step T w ro s (s.returned T w q r e)
  | installed (s i ok e) (h : i ∈ s.installs) : Step T w ro s (s.installed w i ok e)
  | wake (s e) : Step T w ro s (s.wake w e)
  | unblock (s) : Step T w ro s s.unblock
  | resume (s io) : Step T w ro s (s.resume w io)
  | waitCaughtUp (s m) : Step T w ro s (s.waitCaughtUp m)
  | transfer (s) : Step T w ro s s.transfer
  | stopTransfer (s) : Step T w ro s s.stopTransfer
  | stop (s) : Step T w ro s s.stop
  | catchTimeout (s) : Step T w ro s s.catchTimeout
  | readonlyOff (s a b) (h : ro = true) : Step T w ro s (s.readonlyOff a b)
  | append (s k) : Step T w ro s (s.append k)
  | compact (s snap first) : Step T w ro s (s.compact snap first)

/-- All runs of a replicator that was started with some log. -/
inductive Run (T : Nat) (w ro : Bool) : State → Prop where
  | start (first last snap io) (h : 0 < first) (h2 : first ≤ snap + 1) (h3 : snap ≤ last) : Run T w ro (State.start first last snap w io)
  | step {s t} (h : Run T w ro s) (hs : Step T w ro s t) : Run T w ro t

end Braft.Repl
