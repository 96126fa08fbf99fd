/-
Model of the heartbeats of one Replicator (replicator.cpp:109-153, 279-357, 556-598, 966-1026) in time, in milliseconds.

* A heartbeat goes through a timer, the error ETIMEDOUT on the bthread_id of the replicator, a bthread that runs
  _send_heartbeat, an RPC, and its callback, which starts the timer again. Each of these is kept with the time it began, and
  takes its step at any later time. Functions that need the bthread_id run under its lock and are one step; the wait for the
  lock is part of the time before the step. A pending error is dropped when the id is destroyed.
* The RPC is answered, fails, or times out (brpc runs the callback once in each case).
* With `Par.delta = some d`, no step comes later than `d` after it could: timers and bthreads run, locks are got, and RPC
  timeouts expire within `d`. With `none` any delay is possible.
* The clock does not go backwards. bthread timers use the wall clock (_start_heartbeat_timer takes gettimeofday_us), which
  can; this is not modelled.
* Everything else that destroys the replicator (stop, a higher term in another answer, the end of TimeoutNow) is `stop`/`die`.
-/
set_option linter.unusedSectionVars false
set_option linter.unusedSimpArgs false
set_option linter.unusedVariables false

namespace Braft.Repl.Hb

/-- A bthread timer (its id and due time) and a heartbeat RPC (call id, when it was sent, when it times out). -/
structure Timer where
  id : Nat
  due : Nat
deriving DecidableEq, Repr

structure Call where
  id : Nat
  sent : Nat
  dead : Nat
deriving DecidableEq, Repr

structure State where
  now : Nat
  alive : Bool
  /-- *_options.election_timeout_ms and *_options.dynamic_heartbeat_timeout_ms. -/
  et : Nat
  hb : Nat
  timers : List Timer
  errs : List Nat
  bths : List Nat
  rpcs : List Call
  rets : List Nat
  /-- _heartbeat_timer and _heartbeat_in_fly, and the next fresh id. -/
  timer : Nat
  call : Nat
  fresh : Nat
  /-- History: when heartbeats were sent, newest first; when the replicator was started. -/
  sent : List Nat
  start : Nat

/-- heartbeat_timeout (node.cpp:133-141); `f` is the flag raft_election_heartbeat_factor. -/
def hbTimeout (f et : Nat) : Nat := max (et / (if f = 0 then 10 else f)) 10

/-- _start_heartbeat_timer (replicator.cpp:971-979), from time `a`; if the timer cannot be added, the error is raised at once
(the id is locked, so it is pending). -/
def State.arm (s : State) (a : Nat) (addOk : Bool) : State :=
  if addOk then { s with timers := s.timers ++ [⟨s.fresh, a + s.hb⟩], timer := s.fresh, fresh := s.fresh + 1 }
  else { s with errs := s.errs ++ [s.now] }

/-- Replicator::start (replicator.cpp:109-153), its part in heartbeats. -/
def State.init (now f et : Nat) (addOk : Bool) : State :=
  ({ now := now, alive := true, et := et, hb := hbTimeout f et, timers := [], errs := [], bths := [], rpcs := [], rets := [],
     timer := 0, call := 0, fresh := 1, sent := [], start := now } : State).arm now addOk

/-- A timer runs _on_timedout (replicator.cpp:966-969): bthread_id_error, which fails on a destroyed id. -/
def State.fire (s : State) (i : Nat) : State :=
  match s.timers[i]? with
  | none => s
  | some t =>
    if t.due ≤ s.now then { s with timers := s.timers.eraseIdx i, errs := if s.alive then s.errs ++ [s.now] else s.errs } else s

/-- _on_error with ETIMEDOUT (replicator.cpp:1008-1020). -/
def State.onError (s : State) (i : Nat) : State :=
  match s.errs[i]? with
  | none => s
  | some _ => { s with errs := s.errs.eraseIdx i, bths := if s.alive then s.bths ++ [s.now] else s.bths }

/-- _send_heartbeat (replicator.cpp:981-991) with _send_empty_entries(true) (556-598). -/
def State.beat (s : State) (i : Nat) : State :=
  match s.bths[i]? with
  | none => s
  | some _ =>
    let s1 : State := { s with bths := s.bths.eraseIdx i }
    if s.alive then
      { s1 with rpcs := s.rpcs ++ [⟨s.fresh, s.now, s.now + s.et / 2⟩], call := s.fresh, fresh := s.fresh + 1, sent := s.now :: s.sent }
    else s1

/-- The RPC ends; its callback begins. -/
def State.reply (s : State) (i : Nat) : State :=
  match s.rpcs[i]? with
  | none => s
  | some _ => { s with rpcs := s.rpcs.eraseIdx i, rets := s.rets ++ [s.now] }

/-- _on_heartbeat_returned (replicator.cpp:279-357) once it has the lock; start_time_us was taken before. `higher`: the answer
has a higher term; otherwise it failed, or is an answer of this term. -/
def State.returned (s : State) (i : Nat) (higher addOk : Bool) : State :=
  match s.rets[i]? with
  | none => s
  | some a =>
    let s1 : State := { s with rets := s.rets.eraseIdx i }
    if s.alive then
      if higher then { s1 with alive := false } else s1.arm a addOk
    else s1

/-- _on_error with ESTOP (replicator.cpp:995-1007): the timer is deleted, unless it runs already, the RPC cancelled (it ends,
at any time), and the id destroyed. -/
def State.stop (s : State) : State :=
  if s.alive then { s with alive := false, timers := s.timers.filter (fun t => decide (t.id ≠ s.timer)) } else s

/-- _destroy elsewhere (replicator.cpp:432, 1151, 1169, 1176). -/
def State.die (s : State) : State := { s with alive := false }

/-- reset_election_timeout_ms (node.cpp:1331-1346). -/
def State.reset (s : State) (f et : Nat) : State := { s with et := et, hb := hbTimeout f et }

/-- All that is waiting takes its step at most `d` after it could, should the clock show `t`. -/
def State.onTime (s : State) (d t : Nat) : Prop :=
  (∀ x ∈ s.timers, t ≤ x.due + d) ∧ (∀ x ∈ s.errs, t ≤ x + d) ∧ (∀ x ∈ s.bths, t ≤ x + d) ∧ (∀ x ∈ s.rpcs, t ≤ x.dead + d) ∧
  (∀ x ∈ s.rets, t ≤ x + d)

/-- The flag, bounds of the election timeouts in use, whether adding a timer can fail, and the bound on delays. -/
structure Par where
  f : Nat
  lo : Nat
  hi : Nat
  timerFails : Bool
  delta : Option Nat

inductive Step (p : Par) : State → State → Prop where
  | fire (s : State) (i : Nat) : Step p s (s.fire i)
  | onError (s : State) (i : Nat) : Step p s (s.onError i)
  | beat (s : State) (i : Nat) : Step p s (s.beat i)
  | reply (s : State) (i : Nat) : Step p s (s.reply i)
  | returned (s : State) (i : Nat) (higher addOk : Bool) (ha : addOk = true ∨ p.timerFails = true) : Step p s (s.returned i higher addOk)
  | stop (s : State) : Step p s s.stop
  | die (s : State) : Step p s s.die
  | reset (s : State) (et : Nat) (h1 : p.lo ≤ et) (h2 : et ≤ p.hi) : Step p s (s.reset p.f et)
  | tick (s : State) (t : Nat) (h : s.now ≤ t) (hd : ∀ d, p.delta = some d → s.onTime d t) : Step p s { s with now := t }

inductive Run (p : Par) : State → Prop where
  | init (now et : Nat) (h1 : p.lo ≤ et) (h2 : et ≤ p.hi) (addOk : Bool) (ha : addOk = true ∨ p.timerFails = true) :
      Run p (State.init now p.f et addOk)
  | step {s t : State} (h : Run p s) (hs : Step p s t) : Run p t

end Braft.Repl.Hb
