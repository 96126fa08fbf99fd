import Verif.Throttle
/-!
# C37: Snapshot throttle bounds throughput and tasks

A *cycle* of the throttle is the time between two changes of `_last_throughput_check_time_us`; an
*aligned window* is a wall-clock interval `[k*L, (k+1)*L)`.
-/
set_option linter.unusedVariables false
namespace Braft.Props
open Braft Braft.Throttle

/-- C37. Never more than was asked for. -/
theorem C37_not_more_than_asked (L limit : Nat) (t : Throttle) (now bytes : Nat) :
    (acquire L limit t now bytes).2 ≤ bytes := acquire_le_bytes L limit t now bytes

inductive ThOp
  | acquire (now bytes : Nat)
  | giveBack (start acquired consumed : Nat)
deriving DecidableEq, Repr

/-- Ledger of the current cycle: bytes handed out, and bytes handed back. -/
structure Ledger where
  out : Nat := 0
  back : Nat := 0
deriving DecidableEq, Repr

def ThOp.run (L limit : Nat) (s : Throttle × Ledger) : ThOp → Throttle × Ledger
  | .acquire now b =>
    let r := Throttle.acquire L limit s.1 now b
    (r.1, if r.1.last = s.1.last then { s.2 with out := s.2.out + r.2 } else { out := r.2 })
  | .giveBack start a c => (Throttle.giveBack s.1 start a c, { s.2 with back := s.2.back + (a - c) })

/-- C37. Over every history of requests and returns, the bytes handed out in the current cycle
minus those handed back in it never exceed the per-cycle limit. -/
theorem C37_cycle_bound (L limit : Nat) (hL : 0 < L) (t0 : Nat) (ops : List ThOp) :
    (ops.foldl (ThOp.run L limit) (mk0 L t0, {})).2.out ≤
      limit + (ops.foldl (ThOp.run L limit) (mk0 L t0, {})).2.back := by
  suffices ∀ s : Throttle × Ledger, s.1.cur ≤ limit → s.2.out ≤ s.1.cur + s.2.back →
      (ops.foldl (ThOp.run L limit) s).1.cur ≤ limit ∧
      (ops.foldl (ThOp.run L limit) s).2.out ≤
        (ops.foldl (ThOp.run L limit) s).1.cur + (ops.foldl (ThOp.run L limit) s).2.back by
    have := this (mk0 L t0, {}) (by simp [mk0]) (by simp [mk0])
    omega
  induction ops with
  | nil => intro s h1 h2; exact ⟨h1, h2⟩
  | cons op ops ih =>
    intro s h1 h2
    apply ih
    · cases op with
      | acquire now b =>
        rcases acquire_cases L limit s.1 now b h1 with ⟨c', _, h, he⟩ | ⟨a, h, _, he⟩ <;>
          simp [ThOp.run, he, h]
      | giveBack st a c =>
        simp only [ThOp.run, Throttle.giveBack]
        split
        · exact h1
        · simp only; omega
    · cases op with
      | acquire now b =>
        rcases acquire_cases L limit s.1 now b h1 with ⟨c', h3, h, he⟩ | ⟨a, h, hlt, he⟩
        · simp only [ThOp.run, he, if_true]; omega
        · simp only [ThOp.run, he]
          have hne : ¬ align L now = s.1.last := by
            have h4 := Nat.lt_div_mul_add (a := now) hL
            unfold align; omega
          rw [if_neg hne]; simp
      | giveBack st a c =>
        simp only [ThOp.run, Throttle.giveBack]
        split <;> (try simp only) <;> omega

/-- C37, wall-clock form, what holds: without returns, any aligned window of one cycle length gets
at most twice the per-cycle limit (not once: see `C37_window_exceeds_limit`). Missing: the single
limit, which the code does not guarantee. -/
theorem C37_window_bound_partial (L limit : Nat) (hL : 0 < L) (t0 k : Nat) (calls : List (Nat × Nat))
    (htime : ∀ c ∈ calls, t0 ≤ c.1) (hsort : calls.Pairwise (fun a b => a.1 ≤ b.1)) :
    inWindow L k (runAcquire L limit (mk0 L t0) calls).1 ≤ 2 * limit := by
  refine window_bound L limit hL k calls (mk0 L t0) (by simp [mk0]) ⟨t0 / L, rfl⟩ ?_ hsort
  intro c hc
  exact Nat.le_trans (Nat.div_mul_le_self t0 L) (htime c hc)

/-- C37, wall-clock form, violation: requests at 150 and 151 ms with a 100 ms cycle both get a full
limit, because the old cycle is closed only when it overflows. -/
theorem C37_window_exceeds_limit : ∃ (L limit t0 k : Nat) (calls : List (Nat × Nat)),
    0 < L ∧ (∀ c ∈ calls, t0 ≤ c.1) ∧ calls.Pairwise (fun a b => a.1 ≤ b.1) ∧
    inWindow L k (runAcquire L limit (mk0 L t0) calls).1 = 2 * limit ∧ 0 < limit :=
  ⟨100, 1000, 0, 1, [(150, 1000), (151, 1000), (152, 7)], by decide⟩

/-- C37, violation with returns: bytes acquired before a cycle switch but after the (rounded down)
start of the new cycle are credited to the new cycle when handed back, so a cycle hands out more
than its limit although nothing acquired in it was returned. -/
theorem C37_return_credits_wrong_cycle : ∃ (L limit : Nat),
    let t1 := acquire L limit (mk0 L 0) 120 400     -- acquired in the first cycle
    let t2 := acquire L limit t1.1 150 1000          -- opens the second cycle, gets the limit
    let t3 := giveBack t2.1 120 400 0                -- the first request returns its bytes
    let t4 := acquire L limit t3 160 1000            -- second cycle hands out more
    t2.1.last ≠ t1.1.last ∧ t4.1.last = t2.1.last ∧ limit < t2.2 + t4.2 :=
  ⟨100, 1000, by decide⟩

/-! ## Tasks -/

inductive TaskOp | add (isLeader : Bool) | finish (isLeader : Bool)
deriving DecidableEq, Repr

/-- Number of follower tasks accepted and not finished yet. -/
def TaskOp.run (maxTasks : Nat) (s : Throttle × Nat) : TaskOp → Throttle × Nat
  | .add l =>
    let r := addTask maxTasks s.1 l
    (r.1, if r.2 && !l then s.2 + 1 else s.2)
  | .finish l => (finishTask s.1 l, if l then s.2 else s.2 - 1)

/-- C37. Over every history the number of follower tasks in progress never exceeds the maximum. -/
theorem C37_task_bound (maxTasks L t0 : Nat) (ops : List TaskOp) :
    (ops.foldl (TaskOp.run maxTasks) (mk0 L t0, 0)).2 ≤ maxTasks := by
  suffices ∀ s : Throttle × Nat, s.1.tasks = s.2 → s.2 ≤ maxTasks →
      (ops.foldl (TaskOp.run maxTasks) s).2 ≤ maxTasks from this _ rfl (Nat.zero_le _)
  induction ops with
  | nil => intro s _ h; exact h
  | cons op ops ih =>
    intro s h1 h2
    apply ih
    · cases op with
      | add l => cases l <;> simp [TaskOp.run, addTask] <;> (try split) <;> simp [h1]
      | finish l => cases l <;> simp [TaskOp.run, finishTask, h1]
    · cases op with
      | add l => cases l <;> simp [TaskOp.run, addTask] <;> (try split) <;> (try simp) <;> omega
      | finish l => cases l <;> simp [TaskOp.run] <;> omega

/-- C37. A follower task is refused only when the maximum is reached (and a leader's never). -/
theorem C37_task_accepted (maxTasks : Nat) (t : Throttle) (l : Bool) :
    (addTask maxTasks t l).2 = false ↔ l = false ∧ maxTasks ≤ t.tasks := by
  cases l <;> simp [addTask]
  split <;> simp <;> omega

example : let ops : List ThOp := [.acquire 10 600, .acquire 20 600, .giveBack 15 400 100, .acquire 30 500]
    (ops.foldl (ThOp.run 100 1000) (mk0 100 0, {})) = (⟨1000, 0, 0⟩, ⟨1300, 300⟩) := by decide

example : (([.add false, .add false, .add false, .finish false, .add true] : List TaskOp).foldl
    (TaskOp.run 2) (mk0 100 0, 0)) = (⟨0, 0, 1⟩, 1) := by decide

end Braft.Props
