import Verif.Timer
/-!
# C46: Repeated timers stop and are destroyed once

Observables: `runs` counts invocations of the user's `run()`, `destroys` those of `on_destroy()`;
`inRun` callbacks are inside `run()`; `fired` callbacks have left the timer but not reached `run()`
(the code calls it unconditionally, so such a callback counts as a run in progress).
`Timer.run Timer.init evs` is the state after any interleaving `evs`.
-/
namespace Braft.Props
open Braft Braft.Timer

/-- After `stop()` returns, whatever happens except `start()`: every further invocation of run() is
one that had already fired when stop() was called, and there is at most one of those. -/
theorem C46_stop (pre post : List Ev) (h : ∀ b, Ev.start b ∉ post) :
    let s := Timer.run init (pre ++ [.stop])
    let s' := Timer.run init (pre ++ [.stop] ++ post)
    s'.runs + s'.fired = s.runs + s.fired ∧ s.fired + s.inRun ≤ 1 := by
  intro s s'
  have hi : Inv s := inv_run inv_init _
  have hst : s.stopped = true := by
    show (Timer.run init (pre ++ [.stop])).stopped = true
    rw [run_append]
    show (stop (Timer.run init pre)).stopped = true
    unfold stop
    split
    · assumption
    · simp only; split <;> rfl
  have : s' = Timer.run s post := run_append _ _ _
  rw [this]
  refine ⟨(quiet_run hi hst post h).2, ?_⟩
  have := hi.chain
  cases hr : s.running <;> simp [hr] at this <;> omega

/-- ... so once no callback is in progress, run() is not invoked again until start(). -/
theorem C46_stop_quiet (pre mid post : List Ev) (hm : ∀ b, Ev.start b ∉ mid)
    (hp : ∀ b, Ev.start b ∉ post)
    (hidle : (Timer.run init (pre ++ [.stop] ++ mid)).fired = 0) :
    (Timer.run init (pre ++ [.stop] ++ mid ++ post)).runs =
      (Timer.run init (pre ++ [.stop] ++ mid)).runs := by
  have h1 := (C46_stop pre mid hm).1
  have h2 := (C46_stop pre (mid ++ post) (by
    intro b hb; rcases List.mem_append.mp hb with hb | hb
    · exact hm b hb
    · exact hp b hb)).1
  rw [← List.append_assoc] at h2
  have h3 := (mono (Timer.run init (pre ++ [.stop] ++ mid)) post).1
  rw [← run_append] at h3
  omega

/-- The same for `destroy()`, and for good: `start()` after `destroy()` does not revive it. -/
theorem C46_destroy_quiet (pre post : List Ev)
    (hd : (Timer.run init pre).destroyed = true) (hidle : (Timer.run init pre).fired = 0) :
    (Timer.run init (pre ++ post)).runs = (Timer.run init pre).runs := by
  rw [run_append]
  have hi : Inv (Timer.run init pre) := inv_run inv_init _
  generalize Timer.run init pre = s at *
  suffices ∀ s, Timer.Inv s → s.destroyed = true → (Timer.run s post).runs + (Timer.run s post).fired = s.runs + s.fired by
    have h1 := this s hi hd
    have h2 := (mono s post).1
    omega
  clear hi hd hidle s
  intro s hi hd
  induction post generalizing s with
  | nil => rfl
  | cons e es ih =>
    have hde : (step s e).destroyed = true := (mono_step s e).2.2 hd
    have h1 := ih (step s e) (inv_step hi e) hde
    have h2 : (step s e).runs + (step s e).fired = s.runs + s.fired := by
      by_cases he : ∃ b, e = .start b
      · obtain ⟨b, rfl⟩ := he
        rw [start_destroyed hd]
      · exact (quiet_step hi (hi.destroyed_stopped hd) e (fun b hb => he ⟨b, hb⟩)).2
    show (Timer.run (step s e) es).runs + _ = _
    exact h1.trans h2

/-- `on_destroy()` is called at most once; it has been called exactly when destroy() was called and
nothing is armed, fired or running any more. -/
theorem C46_on_destroy_once (evs : List Ev) :
    let s := Timer.run init evs
    s.destroys ≤ 1 ∧
    (s.destroys = 1 ↔ s.destroyed = true ∧ s.armed = false ∧ s.orphans = 0 ∧ s.fired = 0 ∧ s.inRun = 0) := by
  intro s
  have hi : Inv s := inv_run inv_init _
  obtain ⟨h1, h2, h3, h4, h5, h6⟩ := hi
  cases hr : s.running <;> cases hd : s.destroyed <;> cases ha : s.armed <;>
    simp [hr, hd, ha] at h2 h5 ⊢ <;> omega

/-- No two callbacks ever overlap: at most one invocation of run() is active, and none is pending
beside it. -/
theorem C46_no_overlap (evs : List Ev) :
    let s := Timer.run init evs
    s.armed.toNat + s.orphans + s.fired + s.inRun ≤ 1 := by
  intro s
  have hi : Inv s := inv_run inv_init _
  obtain ⟨h1, h2, h3, h4, h5, h6⟩ := hi
  have := Bool.toNat_le s.running
  omega

/-- A started timer never dies silently: while not stopped, exactly one of "timer registered",
"callback fired", "in run()" holds. -/
theorem C46_started_is_live (evs : List Ev) (h : (Timer.run init evs).stopped = false) :
    let s := Timer.run init evs
    s.armed.toNat + s.fired + s.inRun = 1 := by
  intro s
  have hi : Inv s := inv_run inv_init _
  have := hi.chain
  rw [hi.live h] at this
  exact this

/-- Start, fire, stop while the callback is on its way, start again before it runs, it runs and is
rescheduled; destroy while in run(): on_destroy once, after run() ended. -/
example :
    let pre : List Ev := [.start true, .fire]
    let s1 := Timer.run init (pre ++ [.stop])
    let s2 := Timer.run init (pre ++ [.stop] ++ [.beginRun, .endRun true])
    let s3 := Timer.run init [.start true, .fire, .stop, .start true, .beginRun, .endRun true, .fire,
      .beginRun, .destroy]
    let s4 := Timer.step s3 (.endRun true)
    s1.fired = 1 ∧ s2.runs = 1 ∧ s2.fired = 0 ∧ s3.runs = 2 ∧ s3.destroys = 0 ∧ s4.destroys = 1 := by
  decide

end Braft.Props
