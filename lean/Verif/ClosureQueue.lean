/-
Model of src/braft/closure_queue.{h,cpp}. A closure is an identifier of type `C`; a null
`Closure*` is `none`. Running a closure in a new bthread is an output event; the order in which
the bthreads are scheduled is not modelled.
-/
set_option linter.unusedSectionVars false
set_option linter.unusedSimpArgs false
set_option linter.unusedVariables false

namespace Braft
universe u

/-- closure_queue.h:50-53, members `_first_index` and `_queue`. -/
structure ClosureQueue (C : Type u) where
  first : Nat := 0
  queue : List (Option C) := []
deriving DecidableEq, Repr

namespace ClosureQueue
variable {C : Type u}

/-- closure_queue.cpp:32-51 `clear`: returns the closures run with EPERM, in order. -/
def clear (q : ClosureQueue C) : ClosureQueue C × List C :=
  ({ first := 0, queue := [] }, q.queue.filterMap id)

/-- closure_queue.cpp:53-57 `reset_first_index`. The `CHECK(_queue.empty())` is not fatal in
butil's default configuration, so the assignment happens anyway. -/
def resetFirstIndex (q : ClosureQueue C) (i : Nat) : ClosureQueue C := { q with first := i }

/-- closure_queue.cpp:59-62 `append_pending_closure`. -/
def append (q : ClosureQueue C) (c : Option C) : ClosureQueue C := { q with queue := q.queue ++ [c] }

/-- Result of `pop_closure_until`: return code, `out`, `out_first_index` (only set on success). -/
structure PopResult (C : Type u) where
  rc : Int
  out : List (Option C)
  outFirst : Nat
deriving DecidableEq, Repr

/-- closure_queue.cpp:64-85 `pop_closure_until`. On the failing branch `*out_first_index` is not
written; the model returns 0 for it. `index > _first_index + size - 1` is written without the
subtraction. -/
def popUntil (q : ClosureQueue C) (index : Nat) : ClosureQueue C × PopResult C :=
  if q.queue.isEmpty || decide (index < q.first) then
    (q, { rc := 0, out := [], outFirst := index + 1 })
  else if q.first + q.queue.length ≤ index then
    (q, { rc := -1, out := [], outFirst := 0 })
  else
    let n := index + 1 - q.first
    ({ first := index + 1, queue := q.queue.drop n },
     { rc := 0, out := q.queue.take n, outFirst := q.first })

/-! ## Call histories -/

inductive Op (C : Type u)
  | reset (i : Nat)
  | append (c : Option C)
  | pop (i : Nat)
  | clear

/-- Bookkeeping used to state properties: closures appended with the log index each belongs to,
closures handed out by `pop_closure_until` with the index the caller assigns to them
(`out_first_index + position`), closures failed with EPERM. -/
structure Hist (C : Type u) where
  appended : List (Nat × Option C) := []
  handed : List (Nat × Option C) := []
  failed : List C := []

/-- Number the closures of `out` from `i` on, as FSMCaller does (fsm_caller.cpp:275-290). -/
def numberFrom (i : Nat) : List (Option C) → List (Nat × Option C)
  | [] => []
  | c :: rest => (i, c) :: numberFrom (i + 1) rest

/-- One call; `none` if it violates the CHECK in `reset_first_index`. -/
def step (s : ClosureQueue C × Hist C) (op : Op C) : Option (ClosureQueue C × Hist C) :=
  let (q, h) := s
  match op with
  | .reset i => if q.queue.isEmpty then some (q.resetFirstIndex i, h) else none
  | .append c =>
    some (q.append c, { h with appended := h.appended ++ [(q.first + q.queue.length, c)] })
  | .pop i =>
    let (q', r) := q.popUntil i
    some (q', { h with handed := h.handed ++ numberFrom r.outFirst r.out })
  | .clear => let (q', f) := q.clear; some (q', { h with failed := h.failed ++ f })

inductive Reach : ClosureQueue C × Hist C → Prop
  | init : Reach ({}, {})
  | step {s s' op} : Reach s → step s op = some s' → Reach s'

theorem numberFrom_append (i : Nat) (a b : List (Option C)) :
    numberFrom i (a ++ b) = numberFrom i a ++ numberFrom (i + a.length) b := by
  induction a generalizing i with
  | nil => simp [numberFrom]
  | cons x a ih => simp [numberFrom, ih, Nat.add_assoc, Nat.add_comm 1]

theorem numberFrom_map_snd (i : Nat) (a : List (Option C)) : (numberFrom i a).map Prod.snd = a := by
  induction a generalizing i with
  | nil => rfl
  | cons x a ih => simp [numberFrom, ih]

structure SysInv (s : ClosureQueue C × Hist C) : Prop where
  cons : (s.2.appended.filterMap Prod.snd).Perm
    (s.2.handed.filterMap Prod.snd ++ s.2.failed ++ s.1.queue.filterMap id)
  order : List.Sublist (s.2.handed ++ numberFrom s.1.first s.1.queue) s.2.appended

theorem sysInv_step {s s' : ClosureQueue C × Hist C} (hi : SysInv s) (op : Op C)
    (hs : step s op = some s') : SysInv s' := by
  obtain ⟨q, h⟩ := s
  obtain ⟨hc, ho⟩ := hi
  simp only at hc ho
  cases op with
  | reset i =>
    simp only [step] at hs
    split at hs
    · rename_i he
      cases hs
      have he' : q.queue = [] := by simpa using he
      constructor
      · simpa [resetFirstIndex] using hc
      · simp only [resetFirstIndex, he', numberFrom, List.append_nil] at ho ⊢
        exact ho
    · cases hs
  | append c =>
    simp only [step] at hs
    cases hs
    constructor
    · simp only [append, List.filterMap_append]
      rw [← List.append_assoc]
      refine List.Perm.append hc ?_
      cases c <;> simp
    · simp only [append, numberFrom_append]
      rw [← List.append_assoc]
      refine List.Sublist.append ho ?_
      simp [numberFrom]
  | pop i =>
    simp only [step] at hs
    cases hs
    unfold popUntil
    split
    · exact ⟨by simpa [numberFrom] using hc, by simpa [numberFrom] using ho⟩
    · split
      · exact ⟨by simpa [numberFrom] using hc, by simpa [numberFrom] using ho⟩
      · rename_i hne hle
        simp only [Bool.or_eq_true, decide_eq_true_eq, not_or] at hne
        have hsplit : q.queue = q.queue.take (i + 1 - q.first) ++ q.queue.drop (i + 1 - q.first) :=
          (List.take_append_drop _ _).symm
        constructor
        · simp only [List.filterMap_append]
          have e : (numberFrom q.first (q.queue.take (i + 1 - q.first))).filterMap Prod.snd
              = (q.queue.take (i + 1 - q.first)).filterMap id := by
            conv => rhs; rw [← numberFrom_map_snd q.first (q.queue.take (i + 1 - q.first))]
            rw [List.filterMap_map]; rfl
          rw [e]
          rw [hsplit, List.filterMap_append] at hc
          refine hc.trans ?_
          generalize List.filterMap Prod.snd h.handed = A
          generalize List.filterMap id (List.take _ _) = B
          generalize List.filterMap id (List.drop _ _) = D
          simp only [List.append_assoc]
          refine List.Perm.append_left A ?_
          rw [← List.append_assoc, ← List.append_assoc]
          exact List.Perm.append_right D List.perm_append_comm
        · rw [hsplit, numberFrom_append] at ho
          have hlen : (q.queue.take (i + 1 - q.first)).length = i + 1 - q.first := by
            simp; omega
          rw [hlen, show q.first + (i + 1 - q.first) = i + 1 by omega] at ho
          simpa [List.append_assoc] using ho
  | clear =>
    simp only [step] at hs
    cases hs
    constructor
    · simp only [clear, List.filterMap_nil, List.append_nil]
      rw [← List.append_assoc]; exact hc
    · simp only [clear, numberFrom, List.append_nil]
      exact (List.sublist_append_left _ _).trans ho

theorem reach_inv {s : ClosureQueue C × Hist C} (h : Reach s) : SysInv s := by
  induction h with
  | init => exact ⟨by simp, by simp [numberFrom]⟩
  | step _ hs ih => exact sysInv_step ih _ hs

end ClosureQueue
end Braft
