import Verif.PipeRun
/-
C12, end to end: a task from apply() to its closure.

`Pipe.Run conf s`: `s` is reached by any interleaving of calls of apply(), batches, elections, step downs,
acknowledgements, commit indexes, entries from other leaders, configuration changes, snapshots, storage errors and
rounds of the state machine's thread (Pipe.lean). In a state: `s.given` are the tasks given to apply(), `s.confs` the
closures of the configuration entries this node appended as leader, `s.queued` the tasks no batch has taken yet,
`s.n.bb.closures.queue` the closures waiting for a commit, `s.errs` the closures run with an error by apply() or by a
step down; `shown` and `failed` of the user's view `s.f.ev` are the closures handed to on_apply (or run with OK, for
configuration entries) and those run with the state machine's error.
-/
set_option linter.unusedSectionVars false
set_option linter.unusedSimpArgs false
set_option linter.unusedVariables false

namespace Braft.Props
open Braft.Pipe
variable {P D C : Type} [DecidableEq P]

/-- Nothing is both kept and left out by a threshold. -/
theorem split_filter (l : List (Nat × C)) (m : Nat) :
    (l.map Prod.snd).Perm ((l.filter (fun p => decide (p.1 ≤ m))).map Prod.snd ++
      (l.filter (fun p => decide (m + 1 ≤ p.1))).map Prod.snd) := by
  induction l with
  | nil => exact List.Perm.refl _
  | cons a l ih =>
    rw [List.filter_cons, List.filter_cons]
    by_cases h : a.1 ≤ m
    · rw [if_pos (by simpa using h), if_neg (by simp; omega)]
      exact List.Perm.cons _ ih
    · rw [if_neg (by simpa using h), if_pos (by simp; omega)]
      exact (List.Perm.cons _ ih).trans List.perm_middle.symm

/-- **C12 (exactly once, end to end).** As long as the state machine asks for no rollback: the closures given to
apply() and those of configuration entries are, as a multiset, exactly those still queued, those waiting for a
commit, those run with an error by apply() or a step down, those handed to the state machine with their entries,
and those run with the error of the storage or the state machine. -/
theorem task_closures_once {conf : List P} (hc : conf.Nodup) {s : State P D C} (h : Run conf s)
    (hroll : Fsm.rolled s.f.ev = 0) :
    (dones s.given ++ s.confs).Perm
      (dones s.queued ++ (s.n.bb.closures.queue.filterMap id ++ (s.errs ++ (shown s.f.ev ++ failed s.f.ev)))) := by
  have hi := h.inv hc
  obtain ⟨k, m, h1, h2, h3, h4, _⟩ := hi.out
  have hk : k = m + 1 := by omega
  subst hk
  rw [h3, h4]
  exact hi.cons.trans (List.Perm.append_left _ (List.Perm.append_left _ (List.Perm.append_left _ (split_filter _ _))))

/-- **C12 (never twice).** With distinct closures and no rollback, no closure is run or handed out twice, and one
that was is neither queued nor waiting. -/
theorem task_closure_never_twice {conf : List P} (hc : conf.Nodup) {s : State P D C} (h : Run conf s)
    (hroll : Fsm.rolled s.f.ev = 0) (hd : (dones s.given ++ s.confs).Nodup) :
    (s.errs ++ (shown s.f.ev ++ failed s.f.ev)).Nodup ∧
    ∀ c ∈ s.errs ++ (shown s.f.ev ++ failed s.f.ev), c ∉ dones s.queued ∧ some c ∉ s.n.bb.closures.queue := by
  have hn := (task_closures_once hc h hroll).nodup_iff.mp hd
  rw [List.nodup_append] at hn
  obtain ⟨_, h2, h3⟩ := hn
  rw [List.nodup_append] at h2
  obtain ⟨_, h5, h6⟩ := h2
  refine ⟨h5, ?_⟩
  intro c hcm
  refine ⟨fun hq => h3 c hq c (List.mem_append_right _ hcm) rfl, fun hq => ?_⟩
  exact h6 c (List.mem_filterMap.mpr ⟨some c, hq, rfl⟩) c hcm rfl

/-- **C12 (with rollbacks, and the order).** In every history: the closures that left the closure queue for the
state machine's thread did so in the order of their indexes, each once (`ps`); those up to an index `m` were handed
out, in that order, those from an index `k` on were run with the error, in that order; all were one or the other,
and both happened only to the closures of at most as many indexes `k ≤ i ≤ m` as the state machine rolled back. -/
theorem task_closure_rollback {conf : List P} (hc : conf.Nodup) {s : State P D C} (h : Run conf s) :
    ∃ (ps : List (Nat × C)) (k m : Nat),
      (dones s.given ++ s.confs).Perm
        (dones s.queued ++ (s.n.bb.closures.queue.filterMap id ++ (s.errs ++ ps.map Prod.snd))) ∧
      ps.Pairwise (fun x y => x.1 < y.1) ∧
      shown s.f.ev = (ps.filter (fun p => decide (p.1 ≤ m))).map Prod.snd ∧
      failed s.f.ev = (ps.filter (fun p => decide (k ≤ p.1))).map Prod.snd ∧
      k ≤ m + 1 ∧ m + 1 ≤ k + Fsm.rolled s.f.ev ∧
      (s.f.err = false → failed s.f.ev = []) := by
  have hi := h.inv hc
  obtain ⟨k, m, h1, h2, h3, h4, h5⟩ := hi.out
  refine ⟨s.popped, k, m, hi.cons, hi.ord, h3, h4, h1, h2, fun he => ?_⟩
  obtain ⟨h6, h7⟩ := h5 he
  rw [h4, List.filter_eq_nil_iff.mpr]
  · rfl
  · intro p hp
    have := h7 p hp
    simp; omega

/-- **C12 (the right closure, after the commit).** A closure that on_apply gets with an entry is the one given to
apply() together with that entry's data; the entry is in the log at that index, and the index is committed. A
closure the FSMCaller runs with OK by itself is that of a configuration entry. If the task had an expected term, the
entry has that term. -/
theorem task_closure_matches {conf : List P} (hc : conf.Nodup) {s : State P D C} (h : Run conf s) :
    (∀ i d c, Fsm.Ev.apply i d (some c) ∈ s.f.ev → 1 ≤ i ∧ i ≤ s.n.bb.lastCommitted ∧
      ∃ term, s.log[i - 1]? = some ⟨term, .data d⟩ ∧
        ∃ t ∈ s.given, t.done = some c ∧ t.data = d ∧ (t.expected = -1 ∨ t.expected = (term : Int))) ∧
    (∀ c, Fsm.Ev.ran c ∈ s.f.ev → c ∈ s.confs) := by
  have hi := h.inv hc
  constructor
  · intro i d c hm
    obtain ⟨h1, h2, ⟨t, h3⟩, h4⟩ := hi.evA i d (some c) hm
    refine ⟨h1, h2, t, h3, ?_⟩
    obtain ⟨_, e, he, hx⟩ := hi.pm _ (h4 c rfl)
    rw [h3] at he
    cases he
    rcases hx with ⟨t', ht, h5, h6, h7⟩ | ⟨_, j, h6⟩
    · exact ⟨t', ht, h5, (by cases h6; rfl), h7⟩
    · cases h6
  · intro c hm
    obtain ⟨i, h1, h2⟩ := hi.evR c hm
    obtain ⟨_, e, he, hx⟩ := hi.pm _ h1
    rcases hx with ⟨t', ht, h5, h6, _⟩ | ⟨h5, _⟩
    · exfalso
      apply h2 e.term t'.data
      rw [show (i, c).1 = i from rfl] at he
      rw [he, ← h6]
    · exact h5

/-- **C12 (none is forgotten).** When all tasks are out of the queue and the node is not leader any more, or it is
leader with a working log of which everything is applied, every closure given to apply() was run with an error or
handed to the state machine. -/
theorem task_closures_all_answered {conf : List P} (hc : conf.Nodup) {s : State P D C} (h : Run conf s)
    (hq : s.queued = []) (hl : s.n.bb.pending = 0 ∨ s.n.logErr = false ∧ s.f.applied = s.log.length) :
    ∀ t ∈ s.given, ∀ c, t.done = some c → c ∈ s.errs ∨ c ∈ shown s.f.ev ∨ c ∈ failed s.f.ev := by
  have hi := h.inv hc
  obtain ⟨hh, hr⟩ := hi.box
  have hinv := BallotBox.reach_inv hr
  have hempty : s.n.bb.closures.queue = [] := by
    by_cases h0 : s.n.bb.pending = 0
    · exact (hinv.follower h0).2
    · rcases hl with hl | ⟨hl1, hl2⟩
      · exact absurd hl h0
      · apply Classical.byContradiction
        intro hne
        have h1 := hi.ap hne
        obtain ⟨_, _, a3⟩ := hi.al h0
        have := a3 hl1
        have : 0 < s.n.bb.closures.queue.length := List.length_pos_iff.mpr hne
        omega
  intro t ht c hd
  have hm : c ∈ dones s.given ++ s.confs :=
    List.mem_append_left _ (List.mem_filterMap.mpr ⟨t, ht, hd⟩)
  have hm2 := hi.cons.mem_iff.mp hm
  rw [hq, hempty] at hm2
  simp only [dones, List.filterMap_nil, List.nil_append, List.mem_append] at hm2
  rcases hm2 with hm2 | hm2
  · exact Or.inl hm2
  · obtain ⟨k, m, h1, h2, h3, h4, _⟩ := hi.out
    obtain ⟨p, hp, rfl⟩ := List.mem_map.mp hm2
    by_cases hle : p.1 ≤ m
    · refine Or.inr (Or.inl ?_)
      rw [h3]
      exact List.mem_map.mpr ⟨p, List.mem_filter.mpr ⟨hp, by simpa using hle⟩, rfl⟩
    · refine Or.inr (Or.inr ?_)
      rw [h4]
      exact List.mem_map.mpr ⟨p, List.mem_filter.mpr ⟨hp, by simp; omega⟩, rfl⟩

/-! ### Examples -/

namespace PipeEx

/-- A log manager that answers from this log, and what the user does. -/
def env (log : List (Fsm.Entry Nat)) (us : Nat → List Fsm.UOp) : Fsm.Env Nat :=
  { log := fun i => log[i - 1]?, term := fun i => (entryAt log i).term, user := us }

theorem env_reads (s : State Nat Nat Nat) (us) : Reads s (env s.log us) := fun i _ _ => ⟨Or.inl rfl, rfl⟩

abbrev S := State Nat Nat Nat

/-- Elected in term 1; its configuration entry (closure 100), then tasks 7 and 8 with closures 1 and 2; task 9 with
closure 3 wants term 5 and is refused. -/
def ops1 : List (Op Nat Nat Nat) :=
  [.elect 1, .confEntry 100 [1] none, .submit ⟨7, some 1, -1⟩, .submit ⟨9, some 3, 5⟩, .submit ⟨8, some 2, -1⟩, .batch 3]

/-- The node acknowledges its own entries, up to 2. -/
def s1 : S := (ops1 ++ [Op.ack 1 2 1]).foldl step (State.init [1])

def log1 : List (Fsm.Entry Nat) := [⟨1, .conf false⟩, ⟨1, .data 7⟩, ⟨1, .data 8⟩]

/-- The commit is applied, then the leader steps down: closure 2 fails. -/
def s2 : S := [Op.fsm 512 (env log1 fun _ => [.next]) (.committed 2), .fsmEnd (env log1 fun _ => [.next]), .stepDown].foldl step s1

/-- The same, but the state machine rolls back two tasks at index 2. -/
def s3 : S := [Op.fsm 512 (env log1 fun _ => [.rollback 2]) (.committed 2), .fsmEnd (env log1 fun _ => [.rollback 2])].foldl step s1

theorem run1 : Run [1] s1 := by
  have r0 : Run [1] (State.init [1] : S) := .init
  have r1 := Run.step (.elect 1) r0 rfl
  have r2 := Run.step (.confEntry 100 [1] none) r1 ⟨by decide, by decide, by intro o ho; cases ho⟩
  have r3 := Run.step (.submit ⟨7, some 1, -1⟩) r2 (by intro h; cases h)
  have r4 := Run.step (.submit ⟨9, some 3, 5⟩) r3 (by intro h; cases h)
  have r5 := Run.step (.submit ⟨8, some 2, -1⟩) r4 (by intro h; cases h)
  have r6 := Run.step (.batch 3) r5 trivial
  exact Run.step (.ack 1 2 1) r6 (by
    intro _
    show 2 ≤ (ops1.foldl step (State.init [1])).log.length
    decide)

theorem log_s1 : s1.log = log1 := by decide

theorem run2 : Run [1] s2 := by
  have h1 : s1.n.bb.lastCommitted = 2 := by decide
  have r1 := Run.step (.fsm 512 (env log1 fun _ => [.next]) (.committed 2)) run1
    ⟨by rw [← log_s1]; exact env_reads _ _, by show 2 ≤ s1.n.bb.lastCommitted; rw [h1]; exact Nat.le_refl 2⟩
  have r2 := Run.step (.fsmEnd (env log1 fun _ => [.next])) r1 (by
    have := env_reads (step s1 (.fsm 512 (env log1 fun _ => [.next]) (.committed 2))) (fun _ => [.next])
    rw [show (step s1 (.fsm 512 (env log1 fun _ => [.next]) (.committed 2))).log = log1 from log_s1] at this
    exact this)
  exact Run.step .stepDown r2 trivial

theorem run3 : Run [1] s3 := by
  have h1 : s1.n.bb.lastCommitted = 2 := by decide
  have r1 := Run.step (.fsm 512 (env log1 fun _ => [.rollback 2]) (.committed 2)) run1
    ⟨by rw [← log_s1]; exact env_reads _ _, by show 2 ≤ s1.n.bb.lastCommitted; rw [h1]; exact Nat.le_refl 2⟩
  exact Run.step (.fsmEnd (env log1 fun _ => [.rollback 2])) r1 (by
    have := env_reads (step s1 (.fsm 512 (env log1 fun _ => [.rollback 2]) (.committed 2))) (fun _ => [.rollback 2])
    rw [show (step s1 (.fsm 512 (env log1 fun _ => [.rollback 2]) (.committed 2))).log = log1 from log_s1] at this
    exact this)

/-- Before the commit is applied: closures 100, 1 and 2 wait, 3 failed. -/
example : s1.n.bb.closures.queue = [some 100, some 1, some 2] ∧ s1.errs = [3] ∧ s1.n.bb.lastCommitted = 2 := by decide

/-- Closure 1 came with its entry, closure 2 failed in the step down; the hypotheses of the theorems above hold. -/
example : Run [1] s2 ∧ s2.f.ev = [.confCommitted 1, .ran 100, .apply 2 7 (some 1)] ∧ s2.errs = [3, 2] ∧
    Fsm.rolled s2.f.ev = 0 ∧ (dones s2.given ++ s2.confs).Nodup ∧ s2.queued = [] ∧ s2.n.bb.pending = 0 ∧
    shown s2.f.ev = [100, 1] :=
  ⟨run2, by decide, by decide, by decide, by decide, by decide, by decide, by decide⟩

end PipeEx

/-- **Finding.** IteratorImpl counts log entries when it rolls back, not tasks (raft.h promises tasks), and the
closure of a configuration entry among them was already run (and deleted itself, node.cpp:94-105) when
run_the_rest_closure_with_error runs it again: closure 100 is run with OK and then with the error. -/
theorem rollback_reruns_configuration_closure :
    ∃ s : State Nat Nat Nat, Run [1] s ∧ (dones s.given ++ s.confs).Nodup ∧
      s.f.ev = [.confCommitted 1, .ran 100, .apply 2 7 (some 1), .rollback 2, .onError, .failed 100, .failed 1] :=
  ⟨PipeEx.s3, PipeEx.run3, by decide, by decide⟩

namespace PipeEx

/-- A snapshot up to index 2 is loaded while the closures of a leader wait (see `two_leaders_if_electing_while_installing`
for how a node is elected during an installation), then everything is committed and applied. -/
def s4 : S :=
  [Op.fsm 512 (env log1 fun _ => [.next]) (.load (.snap 2 1 false true)), .ack 1 3 1,
   .fsm 512 (env log1 fun _ => [.next]) (.committed 3), .fsmEnd (env log1 fun _ => [.next])].foldl step s1

end PipeEx

/-- **Finding.** The assumption that no closure waits when a snapshot is loaded is needed, and nothing in FSMCaller
checks it: closures of indexes the snapshot covers are popped with the next commit and never run. Here closures 100
and 1 are gone: not waiting, not run, not failed, not handed to on_apply. -/
theorem closures_lost_if_loading_while_leading :
    PipeEx.s4.n.bb.closures.queue = [] ∧ PipeEx.s4.queued = [] ∧ PipeEx.s4.errs = [3] ∧
    PipeEx.s4.f.ev = [.load 2 true, .confCommitted 2, .apply 3 8 (some 2)] ∧ PipeEx.s4.f.applied = 3 ∧
    dones PipeEx.s4.given ++ PipeEx.s4.confs = [1, 3, 2, 100] := by decide

end Braft.Props
