import Verif.Node.SnapTimer
/-!
# C93: periodic snapshots

`SnapTimer.Reach I fail` ranges over every history of a node's snapshot timer whose timeout is I milliseconds; timers can fail to
be added only if `fail`. `runs` are the times at which the timer's callback ran, `calls` those at which it called do_snapshot,
newest first.
-/
set_option linter.unusedVariables false
namespace Braft.Props.SnapTimer
open Braft.SnapTimer

/-- C93. Two tries to make a snapshot are at least the interval apart, whichever two; none comes before the node is initialised or
from the future. -/
theorem C93_apart {I : Int} (hI : 0 < I) {s : State} (h : Reach I false s) :
    s.runs.Pairwise (fun b a => a + I ≤ b) ∧ s.calls.Sublist s.runs ∧ s.calls.Pairwise (fun b a => a + I ≤ b) ∧
    ∀ a ∈ s.calls, s.start < a ∧ a ≤ s.now := by
  have hi := inv hI h
  refine ⟨hi.pair, hi.calls, hi.pair.sublist hi.calls, ?_⟩
  intro a ha
  have hm := hi.calls.subset ha
  exact ⟨(hi.after a hm).1, hi.past a hm⟩

/-- C93. Once started the timer goes on until it is destroyed: it is registered for a time no further away than the interval — the
first time at most the interval after the start — or its callback is about to run, or runs. -/
theorem C93_goes_on {I : Int} (hI : 0 < I) {s : State} (h : Reach I false s) (hs : s.ph ≠ .off) (hn : s.stopped = false) :
    (∃ due, s.ph = .wait due ∧ due ≤ s.now + I ∧ (s.runs = [] → due ≤ s.start + I)) ∨ s.ph = .fired ∨ s.ph = .run := by
  have hi := inv hI h
  cases hp : s.ph with
  | off => exact absurd hp hs
  | wait due =>
    obtain ⟨a, _, _, _, e, _⟩ := hi.wait due hp
    exact Or.inl ⟨due, rfl, a, e⟩
  | fired => exact Or.inr (Or.inl rfl)
  | run => exact Or.inr (Or.inr rfl)
  | dead => have := hi.dead hp; rw [hn] at this; cases this

/-- C93. After a try that ended at `t` the next is due exactly the interval later; after the start at some moment within the
interval. -/
theorem C93_due (I : Int) (hI : 0 < I) (s s' : State) (r : Nat) :
    (s.ph = .run → s.stopped = false → s.first = false → step I s (.leave r true) = some s' → s'.ph = .wait (s.now + I)) ∧
    (s.ph = .off → s.first = true → step I s (.start r true) = some s' →
      ∃ d, 0 < d ∧ d ≤ I ∧ s'.ph = .wait (s.now + d)) ∧
    (∀ d, 0 < d → d ≤ I → s.ph = .off → s.first = true → ∃ r s'', step I s (.start r true) = some s'' ∧ s''.ph = .wait (s.now + d)) := by
  refine ⟨?_, ?_, ?_⟩
  · intro hp hst hf hs
    unfold step at hs; dsimp only at hs
    rw [hp] at hs; dsimp only at hs
    rw [if_neg (by simp [hst])] at hs
    cases hs
    unfold sched adjust
    rw [hf]; rfl
  · intro hp hf hs
    unfold step at hs; dsimp only at hs
    rw [if_pos hp] at hs
    cases hs
    have hm1 := Int.emod_nonneg (r : Int) (by omega : I ≠ 0)
    have hm2 := Int.emod_lt_of_pos (r : Int) hI
    refine ⟨(r : Int) % I + 1, by omega, by omega, ?_⟩
    unfold sched adjust
    simp [hf, hI]
  · intro d hd hdI hp hf
    refine ⟨(d - 1).toNat, sched I { s with start := s.now } (d - 1).toNat true, ?_, ?_⟩
    · unfold step; dsimp only; rw [if_pos hp]
    · have e : (((d - 1).toNat : Nat) : Int) % I + 1 = d := by
        rw [Int.toNat_of_nonneg (by omega), Int.emod_eq_of_lt (by omega) (by omega)]; omega
      show (sched I { s with start := s.now } (d - 1).toNat true).ph = _
      unfold sched adjust
      rw [hf]
      simp only [Bool.not_true, Bool.false_eq_true, if_false, if_pos hI, if_true]
      rw [e]

/-- C93. A callback of a node that is not active makes no snapshot; of an active one exactly one call. -/
theorem C93_active (I : Int) (s s' : State) (active : Bool) (hs : step I s (.enter active) = some s') :
    s'.calls = (if active then s.now :: s.calls else s.calls) ∧ s'.runs = s.now :: s.runs := by
  unfold step at hs; dsimp only at hs
  split at hs
  · cases hs; exact ⟨rfl, rfl⟩
  · cases hs

/-- C93. Once destroyed the timer runs at most one callback more, the one that had fired, and none after. -/
theorem C93_destroyed (I : Int) (s : State) (hd : s.ph = .dead) (a : Act) (s' : State) (hs : step I s a = some s') :
    s'.ph = .dead ∧ s'.runs = s.runs := by
  cases a <;> unfold step at hs <;> dsimp only at hs <;> rw [hd] at hs
  · cases hs; exact ⟨rfl, rfl⟩
  · rw [if_neg (by decide)] at hs; cases hs
  all_goals cases hs

/-- Actions one after another. -/
def go (I : Int) (s : State) : List Act → Option State
  | [] => some s
  | a :: l => match step I s a with | some t => go I t l | none => none

theorem go_reach {I : Int} {fail : Bool} {s s' : State} (h : Reach I fail s) (l : List Act)
    (hf : ∀ a ∈ l, a.ok = true ∨ fail = true) (hg : go I s l = some s') : Reach I fail s' := by
  induction l generalizing s with
  | nil => cases hg; exact h
  | cons a l ih =>
    unfold go at hg
    cases hs : step I s a with
    | none => rw [hs] at hg; cases hg
    | some t =>
      rw [hs] at hg
      exact ih (.step a h (hf a List.mem_cons_self) hs) (fun x hx => hf x (List.mem_cons_of_mem _ hx)) hg

private def twice : List Act :=
  [.tick 10, .start 5 true, .expire, .enter true, .leave 0 true, .expire, .enter true]

/-- VIOLATED: "tries are the interval apart" for an interval that does not fit: snapshot_interval_s * 1000 is an int, so from
2147484 s (25 days) on the timeout is negative, every timer is due at once, and the node makes snapshots without a pause. -/
theorem C93_overflow : 0 < (2147484 : Int) ∧ intervalMs 2147484 < 0 ∧
    ∃ s, Reach (intervalMs 2147484) false s ∧ s.calls = [10, 10] := by
  refine ⟨by decide, by decide, ?_⟩
  have h : ∃ s, go (intervalMs 2147484) .init twice = some s ∧ s.calls = [10, 10] := ⟨_, rfl, by decide⟩
  obtain ⟨s, hg, h1⟩ := h
  exact ⟨s, go_reach .init twice (by decide) hg, h1⟩

/-- C93. Intervals up to 2147483 s are kept. -/
theorem C93_fits (s : Int) (h : 0 < s) (hs : s ≤ 2147483) : intervalMs s = s * 1000 ∧ 0 < intervalMs s := by
  have e : intervalMs s = s * 1000 := by
    unfold intervalMs toInt
    rw [Int.emod_eq_of_lt (by omega) (by omega)]; omega
  rw [e]
  exact ⟨rfl, by omega⟩

private def noTimer : List Act := [.tick 10, .start 5 false, .enter true, .leave 0 false, .enter true]

/-- VIOLATED: the same if timers cannot be added: the callback is run at once instead, again and again. -/
theorem C93_no_timer : ∃ s, Reach 1000 true s ∧ s.calls = [10, 10] := by
  have h : ∃ s, go 1000 .init noTimer = some s ∧ s.calls = [10, 10] := ⟨_, rfl, by decide⟩
  obtain ⟨s, hg, h1⟩ := h
  exact ⟨s, go_reach .init noTimer (fun _ _ => Or.inr rfl) hg, h1⟩

/-! ## The hypotheses are met -/

private def good : List Act :=
  [.tick 10, .start 5 true, .tick 6, .expire, .enter true, .tick 3, .leave 0 true, .tick 1000, .expire, .enter true]

example : ∃ s, go 1000 .init good = some s ∧ Reach 1000 false s ∧ s.calls = [1019, 16] ∧ s.start = 10 ∧ s.ph ≠ .off ∧
    s.stopped = false := ⟨_, rfl, go_reach .init good (by decide) rfl, by decide, by decide, by decide, by decide⟩
example : go 1000 .init [.tick 10, .start 5 true, .tick 5, .expire] = none := rfl
example : ∃ s s', go 1000 .init (good.take 6) = some s ∧ s.ph = .run ∧ s.first = false ∧ s.stopped = false ∧
    step 1000 s (.leave 0 true) = some s' ∧ s'.ph = .wait 1019 :=
  ⟨_, _, rfl, by decide, by decide, by decide, rfl, by decide⟩
example : (State.init.ph = .off ∧ State.init.first = true) ∧ ∃ s', step 1000 State.init (.start 7 true) = some s' :=
  ⟨by decide, _, rfl⟩
example : ∃ s s', go 1000 .init [.tick 10, .start 5 true, .destroy] = some s ∧ s.ph = .dead ∧ step 1000 s (.tick 4) = some s' :=
  ⟨_, _, rfl, by decide, rfl⟩

end Braft.Props.SnapTimer
