import Verif.BallotBox
import Verif.Readonly
/-
User tasks: node.cpp:669-706 (`execute_applying_tasks`, `apply(const Task&)`), node.cpp:2024-2079
(`apply(tasks, size)`), with the leader branch of log_manager.cpp:337-345 (index assignment) and
log_manager.cpp:407-417 (rejection after a storage error).

Simplifications: the log is the list of entries appended through the log manager since it held
`lastIndex0` entries; writing to disk is the subject of C45. Entry reference counting, metrics and
`check_and_set_configuration` after the append are left out.
-/
set_option linter.unusedSectionVars false
set_option linter.unusedSimpArgs false
set_option linter.unusedVariables false

namespace Braft
namespace Apply
open Readonly (Role)
universe u v w

/-- raft.h `Task`: data, closure (may be null) and `expected_term` (-1: any). -/
structure Task (D : Type u) (C : Type v) where
  data : D
  done : Option C
  expected : Int := -1
deriving DecidableEq, Repr

/-- A log entry as the leader appends it. -/
structure Entry (D : Type u) where
  index : Nat
  term : Nat
  data : D
deriving DecidableEq, Repr

/-- error codes of `apply`. -/
inductive Err | eperm | ereadonly | ebusy
deriving DecidableEq, Repr

/-- The fields `apply` reads or changes. -/
structure Node (P : Type w) (D : Type u) (C : Type v) where
  role : Role
  term : Nat
  nodeRo : Bool
  majRo : Bool
  conf : List P
  old : List P
  logErr : Bool
  lastIndex : Nat
  log : List (Entry D)
  bb : BallotBox P C

variable {P : Type w} [DecidableEq P] {D : Type u} {C : Type v}

/-- log_manager.cpp:337-345: each entry gets the next index. -/
def assign (last term : Nat) : List D → List (Entry D)
  | [] => []
  | d :: ds => ⟨last + 1, term, d⟩ :: assign (last + 1) term ds

/-- node.cpp:2047-2070: the loop over the tasks. Accumulates the failed closures, the data of the
entries to append and the ballot box. -/
def loop (term : Nat) (conf old : List P) (bb : BallotBox P C) :
    List (Task D C) → List (C × Err) × List D × BallotBox P C
  | [] => ([], [], bb)
  | t :: ts =>
    if t.expected ≠ -1 ∧ t.expected ≠ (term : Int) then
      let (f, es, bb') := loop term conf old bb ts
      (match t.done with | some c => (c, .eperm) :: f | none => f, es, bb')
    else
      let bb1 := bb.appendPendingTask conf (if old.isEmpty then none else some old) t.done
      let (f, es, bb') := loop term conf old bb1 ts
      (f, t.data :: es, bb')

/-- node.cpp:2024-2079 `apply(tasks, size)`: new state and the closures run with an error. -/
def applyBatch (n : Node P D C) (tasks : List (Task D C)) : Node P D C × List (C × Err) :=
  let reject := n.nodeRo || n.majRo
  if n.role ≠ .leader ∨ reject = true then
    let e : Err := if n.role = .leader ∧ reject = true then .ereadonly
      else if n.role ≠ .transferring then .eperm else .ebusy
    (n, tasks.filterMap (fun t => t.done.map (fun c => (c, e))))
  else
    let (f, es, bb') := loop n.term n.conf n.old n.bb tasks
    if n.logErr then ({ n with bb := bb' }, f)
    else ({ n with bb := bb', lastIndex := n.lastIndex + es.length,
                   log := n.log ++ assign n.lastIndex n.term es }, f)

/-- node.cpp:669-690 `execute_applying_tasks`: splits what the queue hands over into batches of at
most `raft_apply_batch`. `k` is the room left in the current batch. -/
def batches (size : Nat) : (room : Nat) → (cur : List (Task D C)) → List (Task D C) →
    List (List (Task D C))
  | _, cur, [] => if cur.isEmpty then [] else [cur]
  | 0, cur, t :: ts => cur :: batches size (size - 1) [t] ts
  | room + 1, cur, t :: ts => batches size room (cur ++ [t]) ts

/-- Processing the batches; `env i` is whatever other threads do to the node (under its mutex)
before batch `i` takes the mutex. The last component is a record kept for the specification: the
closures each batch put at the end of the ballot box's closure queue. -/
def runBatches (env : Nat → Node P D C → Node P D C) :
    Nat → Node P D C → List (List (Task D C)) → Node P D C × List (C × Err) × List (Option C)
  | _, n, [] => (n, [], [])
  | i, n, b :: bs =>
    let n0 := env i n
    let (n1, f) := applyBatch n0 b
    let put := n1.bb.closures.queue.drop n0.bb.closures.queue.length
    let (n2, f', put') := runBatches env (i + 1) n1 bs
    (n2, f ++ f', put ++ put')

/-- node.cpp:693-706 `apply(const Task&)`: the outcome of one call. `queued` when the execution
queue accepts it; on a stopped queue the closure fails with EPERM, and a task without closure
dereferences a null pointer (line 702). -/
inductive Submit (C : Type v) | queued | failed (c : C) | nullDeref
deriving DecidableEq, Repr

def submit (stopped : Bool) (t : Task D C) : Submit C :=
  if stopped then match t.done with
    | some c => .failed c
    | none => .nullDeref
  else .queued

/-! ### Lemmas -/

/-- A task is acceptable in `term` (raft.h: expected_term). -/
def Accepts (term : Nat) (t : Task D C) : Bool := decide (t.expected = -1 ∨ t.expected = (term : Int))

theorem loop_spec (term : Nat) (conf old : List P) (ts : List (Task D C)) (bb : BallotBox P C) :
    (loop term conf old bb ts).1 =
        (ts.filter (fun t => !Accepts term t)).filterMap (fun t => t.done.map (fun c => (c, Err.eperm))) ∧
    (loop term conf old bb ts).2.1 = (ts.filter (Accepts term)).map (·.data) ∧
    (loop term conf old bb ts).2.2 =
      ((ts.filter (Accepts term)).map (·.done)).foldl
        (fun b d => b.appendPendingTask conf (if old.isEmpty then none else some old) d) bb := by
  induction ts generalizing bb with
  | nil => simp [loop]
  | cons t ts ih =>
    unfold loop
    by_cases h : t.expected ≠ -1 ∧ t.expected ≠ (term : Int)
    · rw [if_pos h]
      have ha : Accepts term t = false := by unfold Accepts; simp; omega
      obtain ⟨i1, i2, i3⟩ := ih bb
      simp only [List.filter_cons, ha]
      refine ⟨?_, i2, i3⟩
      cases hd : t.done <;> simp [i1, hd]
    · rw [if_neg h]
      have ha : Accepts term t = true := by unfold Accepts; simp; omega
      obtain ⟨i1, i2, i3⟩ := ih (bb.appendPendingTask conf (if old.isEmpty then none else some old) t.done)
      simp only [List.filter_cons, ha]
      refine ⟨?_, ?_, ?_⟩
      · simpa using i1
      · exact congrArg (t.data :: ·) i2
      · exact i3

theorem appendPending_fold (conf : List P) (old : Option (List P)) (ds : List (Option C))
    (bb : BallotBox P C) :
    (ds.foldl (fun b d => b.appendPendingTask conf old d) bb).closures.queue = bb.closures.queue ++ ds ∧
    (ds.foldl (fun b d => b.appendPendingTask conf old d) bb).closures.first = bb.closures.first ∧
    (ds.foldl (fun b d => b.appendPendingTask conf old d) bb).queue =
      bb.queue ++ ds.map (fun _ => Ballot.init conf old) ∧
    (ds.foldl (fun b d => b.appendPendingTask conf old d) bb).pending = bb.pending := by
  induction ds generalizing bb with
  | nil => simp
  | cons d ds ih =>
    rw [List.foldl_cons]
    obtain ⟨a, b, c, e⟩ := ih (bb.appendPendingTask conf old d)
    rw [a, b, c, e]
    simp [BallotBox.appendPendingTask, ClosureQueue.append]

theorem assign_length (last term : Nat) (ds : List D) : (assign last term ds).length = ds.length := by
  induction ds generalizing last with
  | nil => rfl
  | cons d ds ih => simp [assign, ih]

theorem assign_get (last term : Nat) (ds : List D) (i : Nat) (h : i < ds.length) :
    (assign last term ds)[i]? = some ⟨last + 1 + i, term, ds[i]⟩ := by
  induction ds generalizing last i with
  | nil => simp at h
  | cons d ds ih =>
    cases i with
    | zero => simp [assign]
    | succ i =>
      simp only [assign, List.getElem?_cons_succ, List.getElem_cons_succ]
      rw [ih (last + 1) i (by simpa using h)]
      congr 2; omega

theorem batches_flatten (size : Nat) (ts cur : List (Task D C)) (room : Nat) :
    (batches size room cur ts).flatten = cur ++ ts := by
  induction ts generalizing room cur with
  | nil =>
    unfold batches
    cases h : cur.isEmpty with
    | true => simp [List.isEmpty_iff.mp h]
    | false => simp
  | cons t ts ih =>
    cases room with
    | zero => simp [batches, ih]
    | succ r => simp [batches, ih]

theorem batches_bound (size : Nat) (hs : 0 < size) (ts cur : List (Task D C)) (room : Nat)
    (hc : cur.length + room = size) : ∀ b ∈ batches size room cur ts, b.length ≤ size := by
  induction ts generalizing room cur with
  | nil =>
    unfold batches
    intro b hb
    cases h : cur.isEmpty with
    | true => rw [h] at hb; simp at hb
    | false => rw [h] at hb; simp at hb; subst hb; omega
  | cons t ts ih =>
    cases room with
    | zero =>
      intro b hb
      simp only [batches, List.mem_cons] at hb
      rcases hb with rfl | hb
      · omega
      · exact ih [t] (size - 1) (by simp; omega) b hb
    | succ r =>
      intro b hb
      exact ih (cur ++ [t]) r (by simp; omega) b hb

/-- What one batch does, in one statement. -/
theorem applyBatch_spec (n : Node P D C) (ts : List (Task D C)) :
    (n.role ≠ .leader ∨ (n.nodeRo || n.majRo) = true ∧ True →
      (applyBatch n ts).1 = n ∧ ∃ e, (applyBatch n ts).2 =
        ts.filterMap (fun t => t.done.map (fun c => (c, e)))) ∧
    (n.role = .leader ∧ (n.nodeRo || n.majRo) = false →
      (applyBatch n ts).2 = (ts.filter (fun t => !Accepts n.term t)).filterMap
          (fun t => t.done.map (fun c => (c, Err.eperm))) ∧
      (applyBatch n ts).1.bb.closures.queue =
        n.bb.closures.queue ++ (ts.filter (Accepts n.term)).map (·.done) ∧
      (applyBatch n ts).1.bb.closures.first = n.bb.closures.first ∧
      (applyBatch n ts).1.bb.pending = n.bb.pending ∧
      (applyBatch n ts).1.bb.queue = n.bb.queue ++ (ts.filter (Accepts n.term)).map
        (fun _ => Ballot.init n.conf (if n.old.isEmpty then none else some n.old)) ∧
      (n.logErr = false →
        (applyBatch n ts).1.log =
          n.log ++ assign n.lastIndex n.term ((ts.filter (Accepts n.term)).map (·.data)) ∧
        (applyBatch n ts).1.lastIndex = n.lastIndex + (ts.filter (Accepts n.term)).length)) := by
  constructor
  · intro h
    have h' : n.role ≠ .leader ∨ (n.nodeRo || n.majRo) = true := by
      rcases h with h | h
      · exact Or.inl h
      · exact Or.inr h.1
    unfold applyBatch
    simp only [if_pos h']
    exact ⟨trivial, _, rfl⟩
  · intro ⟨h1, h2⟩
    have h' : ¬ (n.role ≠ .leader ∨ (n.nodeRo || n.majRo) = true) := by simp [h1, h2]
    unfold applyBatch
    simp only [if_neg h']
    obtain ⟨l1, l2, l3⟩ := loop_spec n.term n.conf n.old ts n.bb
    obtain ⟨a1, a2, a3, a4⟩ := appendPending_fold n.conf (if n.old.isEmpty then none else some n.old)
      ((ts.filter (Accepts n.term)).map (·.done)) n.bb
    rw [← l3] at a1 a2 a3 a4
    cases hl : n.logErr with
    | true =>
      simp only [if_true]
      refine ⟨l1, a1, a2, a4, ?_, ?_⟩
      · rw [a3]; simp
      · intro hc; cases hc
    | false =>
      simp only [Bool.false_eq_true, if_false]
      refine ⟨l1, a1, a2, a4, ?_, ?_⟩
      · rw [a3]; simp
      · intro _
        rw [l2]
        exact ⟨rfl, by simp⟩

theorem count_split (acc : Task D C → Bool) (ts : List (Task D C)) (p : C → Bool) (e : Err) :
    (((ts.filter (fun t => !acc t)).filterMap (fun t => t.done.map (fun c => (c, e)))).map
        Prod.fst).countP p + (((ts.filter acc).map (·.done)).filterMap id).countP p =
      (ts.filterMap (·.done)).countP p := by
  induction ts with
  | nil => rfl
  | cons t ts ih =>
    cases ha : acc t <;> cases hd : t.done <;>
      simp [List.filter_cons, ha, hd, List.countP_cons] at ih ⊢ <;> omega

end Apply
end Braft
