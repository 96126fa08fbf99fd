/-!
# RepeatedTimerTask

Model of src/braft/repeated_timer_task.cpp. Each event below is one critical section of the code
(or the expiry of a timer, or the two ends of the user's `run()`); the results of
`bthread_timer_add` are parameters of the events, so every interleaving of callers, timer thread
and running callbacks is a list of events.

`bthread_timer_del(_timer)` returns 0 exactly when the timer named by `_timer` is registered and
has not fired, as documented in bthread/unstable.h. Timeout values are not modelled. Nothing in
the state says that there is only one timer or one callback at a time: `schedule` while another
timer is registered leaves that one orphaned, and callbacks are counted.
-/
set_option linter.unusedVariables false
set_option linter.unusedSimpArgs false
namespace Braft.Timer

/-- repeated_timer_task.h:76-83 flags, and the environment: `armed` = the timer named by `_timer` is
registered and has not fired; `orphans` = other registered timers; `fired` = callbacks that entered
on_timedout but have not called run(); `inRun` = callbacks inside run(); `runs`, `destroys` count
the invocations of run() and on_destroy(). -/
structure State where
  stopped : Bool := true
  running : Bool := false
  destroyed : Bool := false
  armed : Bool := false
  orphans : Nat := 0
  fired : Nat := 0
  inRun : Nat := 0
  runs : Nat := 0
  destroys : Nat := 0
deriving DecidableEq, Repr

/-- repeated_timer_task.cpp:126-134 `schedule`: registers the timer, or when that fails goes on to
`on_timedout(void*)` at once. -/
def schedule (s : State) (addOk : Bool) : State :=
  let s := if s.armed then { s with armed := false, orphans := s.orphans + 1 } else s
  if addOk then { s with armed := true } else { s with fired := s.fired + 1 }

/-- repeated_timer_task.cpp:47-56 `stop`. -/
def stop (s : State) : State :=
  if s.stopped then s
  else
    let s := { s with stopped := true }
    if s.armed then { s with armed := false, running := false } else s

/-- repeated_timer_task.cpp:80-99 `start`. -/
def start (s : State) (addOk : Bool) : State :=
  if s.destroyed then s
  else if !s.stopped then s
  else
    let s := { s with stopped := false }
    if s.running then s
    else schedule { s with running := true } addOk

/-- repeated_timer_task.cpp:101-107 `run_once_now`. -/
def runOnceNow (s : State) : State :=
  if s.armed then { s with armed := false, fired := s.fired + 1 } else s

/-- repeated_timer_task.cpp:136-157 `reset` (both overloads). -/
def reset (s : State) (addOk : Bool) : State :=
  if s.stopped then s
  else if s.armed then schedule { s with armed := false } addOk else s

/-- repeated_timer_task.cpp:159-178 `destroy`. -/
def destroy (s : State) : State :=
  if s.destroyed then s
  else
    let s := { s with destroyed := true }
    if !s.running then { s with destroys := s.destroys + 1 }
    else if s.stopped then s
    else
      let s := { s with stopped := true }
      if s.armed then { s with armed := false, running := false, destroys := s.destroys + 1 }
      else s

/-- repeated_timer_task.cpp:59-62: the timer thread or new bthread reaches `run()`. There is no
check of `_stopped` here. -/
def beginRun (s : State) : State :=
  if 0 < s.fired then { s with fired := s.fired - 1, inRun := s.inRun + 1, runs := s.runs + 1 } else s

/-- repeated_timer_task.cpp:63-77: after `run()` returned. -/
def endRun (s : State) (addOk : Bool) : State :=
  if 0 < s.inRun then
    let s := { s with inRun := s.inRun - 1 }
    if s.stopped then
      let s := { s with running := false }
      if s.destroyed then { s with destroys := s.destroys + 1 } else s
    else schedule s addOk
  else s

/-- The timer expires. -/
def fire (s : State) : State := if s.armed then { s with armed := false, fired := s.fired + 1 } else s

/-- An orphaned timer expires. -/
def fireOrphan (s : State) : State :=
  if 0 < s.orphans then { s with orphans := s.orphans - 1, fired := s.fired + 1 } else s

inductive Ev
  | start (addOk : Bool) | stop | reset (addOk : Bool) | destroy | runOnceNow
  | fire | fireOrphan | beginRun | endRun (addOk : Bool)
deriving DecidableEq, Repr

def step (s : State) : Ev → State
  | .start b => start s b
  | .stop => stop s
  | .reset b => reset s b
  | .destroy => destroy s
  | .runOnceNow => runOnceNow s
  | .fire => fire s
  | .fireOrphan => fireOrphan s
  | .beginRun => beginRun s
  | .endRun b => endRun s b

/-- repeated_timer_task.cpp:38-45 `init`. -/
def init : State := {}

def run (s : State) (evs : List Ev) : State := evs.foldl step s

structure Inv (s : State) : Prop where
  orphans : s.orphans = 0
  chain : s.armed.toNat + s.fired + s.inRun = s.running.toNat
  live : s.stopped = false → s.running = true
  destroyed_stopped : s.destroyed = true → s.stopped = true
  count : s.destroys = (s.destroyed && !s.running).toNat
  disarmed : s.stopped = true → s.armed = false

theorem inv_init : Inv init := by constructor <;> simp [init]

theorem inv_step {s : State} (h : Inv s) (e : Ev) : Inv (step s e) := by
  obtain ⟨h1, h2, h3, h4, h5, h6⟩ := h
  obtain ⟨st, ru, de, ar, op, fi, ir, rs, ds⟩ := s
  simp only at h1 h2 h3 h4 h5 h6
  cases e <;> cases st <;> cases ru <;> cases de <;> cases ar <;>
    first
    | (exfalso; simp at h2 h3 h4 h6; done)
    | (rename_i b; cases b <;>
        (simp only [step, start, stop, reset, destroy, runOnceNow, fire, fireOrphan, beginRun, endRun, schedule]
         repeat' split
         all_goals (constructor <;> first | (simp; done) | (simp at *; omega) | (simp at *; done))))
    | (simp only [step, start, stop, reset, destroy, runOnceNow, fire, fireOrphan, beginRun, endRun, schedule]
       repeat' split
       all_goals (constructor <;> first | (simp; done) | (simp at *; omega) | (simp at *; done)))

theorem inv_run {s : State} (h : Inv s) (evs : List Ev) : Inv (run s evs) := by
  induction evs generalizing s with
  | nil => exact h
  | cons e es ih => exact ih (inv_step h e)

/-- In a stopped state, events other than `start` keep it so and use up the pending
invocation. -/
theorem quiet_step {s : State} (h : Inv s) (hs : s.stopped = true) (e : Ev)
    (he : ∀ b, e ≠ .start b) :
    (step s e).stopped = true ∧ (step s e).runs + (step s e).fired = s.runs + s.fired := by
  obtain ⟨h1, h2, h3, h4, h5, h6⟩ := h
  obtain ⟨st, ru, de, ar, op, fi, ir, rs, ds⟩ := s
  simp only at hs h1 h2 h3 h4 h5 h6 ⊢
  subst hs
  have := h6 rfl
  subst this; subst h1
  cases e with
  | start b => exact absurd rfl (he b)
  | _ =>
    simp only [step, start, stop, reset, destroy, runOnceNow, fire, fireOrphan, beginRun, endRun, schedule]
    repeat' split
    all_goals first | (simp; done) | (simp at *; done) | (simp at *; omega)

theorem quiet_run {s : State} (h : Inv s) (hs : s.stopped = true)
    (evs : List Ev) (he : ∀ b, Ev.start b ∉ evs) :
    (run s evs).stopped = true ∧ (run s evs).runs + (run s evs).fired = s.runs + s.fired := by
  induction evs generalizing s with
  | nil => exact ⟨hs, rfl⟩
  | cons e es ih =>
    obtain ⟨a, c⟩ := quiet_step h hs e (fun b hb => he b (by simp [hb]))
    obtain ⟨a', c'⟩ := ih (inv_step h e) a (fun b hb => he b (by simp [hb]))
    exact ⟨a', Nat.le_antisymm (Nat.le_trans (Nat.le_of_eq c') (Nat.le_of_eq c))
      (Nat.le_of_eq (c'.trans c).symm)⟩

theorem mono_step (s : State) (e : Ev) :
    s.runs ≤ (step s e).runs ∧ s.destroys ≤ (step s e).destroys ∧
    (s.destroyed = true → (step s e).destroyed = true) := by
  obtain ⟨st, ru, de, ar, op, fi, ir, rs, ds⟩ := s
  cases e <;>
    simp only [step, start, stop, reset, destroy, runOnceNow, fire, fireOrphan, beginRun, endRun, schedule] <;>
    repeat' split
  all_goals simp_all

theorem mono (s : State) (evs : List Ev) :
    s.runs ≤ (run s evs).runs ∧ s.destroys ≤ (run s evs).destroys ∧
    (s.destroyed = true → (run s evs).destroyed = true) := by
  induction evs generalizing s with
  | nil => exact ⟨Nat.le_refl _, Nat.le_refl _, id⟩
  | cons e es ih =>
    have h1 := mono_step s e
    have h2 := ih (step s e)
    exact ⟨Nat.le_trans h1.1 h2.1, Nat.le_trans h1.2.1 h2.2.1, fun h => h2.2.2 (h1.2.2 h)⟩

theorem run_append (s : State) (a b : List Ev) : run s (a ++ b) = run (run s a) b := by
  simp [run]

/-- `start` does nothing on a destroyed timer. -/
theorem start_destroyed {s : State} (h : s.destroyed = true) (b : Bool) : step s (.start b) = s := by
  simp [step, start, h]

end Braft.Timer
