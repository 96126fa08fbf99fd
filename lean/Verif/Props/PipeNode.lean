import Verif.Cluster.PipeNodeView
import Verif.Cluster.PipeNodeTraces
import Verif.Props.Cluster
import Verif.Props.Fsm
import Verif.Props.Pipe
/-
Theorems about a group of servers to which users give tasks (Verif/Cluster/PipeNode.lean): C77 and C78.

Specification vocabulary:
* `PReachable p c0 s`: `s` is a state of some execution of a group of servers with the initial configuration `c0`,
  each with the queue behind apply(), its ballot box and closure queue and the thread that calls the user's state
  machine; `PSteps p c0 s s'`: `s'` is a later state.
* `(s.pn i).f.ev`: the calls of the user's state machine by the current process of node `i`, in order;
  `(s.pn i).given`: the tasks given to apply() of that process; `(s.pn i).errs`: the closures it ran with an error.
* `(s.cl.node i).log`: the log, entry number `k` (from 0) has index `k + 1`.
-/
set_option linter.unusedVariables false
set_option linter.unusedSimpArgs false
set_option linter.unusedSectionVars false

namespace Braft.Props.EndToEnd
open Braft.Raft Braft.Cl Braft.Cl.PTraces
open Braft.Cl.Traces (c3 ce da)

section Spec
variable {N D C : Type} [DecidableEq N] [DecidableEq D]

/-- on_apply of node `i` was given the data `d` with index `k` and the closure `o` (or none). -/
def OnApply (s : PSys N D C) (i : N) (k : Nat) (d : D) (o : Option C) : Prop := Fsm.Ev.apply k d o ∈ (s.pn i).f.ev

/-- No task with the closure `c` was given to apply() of the process of node `j`, and no configuration entry of it has it. -/
def Fresh (s : PSys N D C) (j : N) (c : C) : Prop := (∀ t ∈ (s.pn j).given, t.done ≠ some c) ∧ c ∉ (s.pn j).confs

/-- The data entries of a log, with their indexes. -/
def numbered (l : Log N D) : List (Nat × D) :=
  (l.zipIdx 1).filterMap fun x => match x.1.payload with
    | .data d => some (x.2, d)
    | .conf _ => none

/-- The index of the snapshot the state machine of node `i` has loaded last, 0 if it has not loaded any. -/
def base (s : PSys N D C) (i : N) : Nat := (FsmSpec.sinceLoad 0 (s.pn i).f.ev).1

/-- What on_apply was given since. -/
def since (s : PSys N D C) (i : N) : List (Nat × D) := FsmSpec.applied (FsmSpec.sinceLoad 0 (s.pn i).f.ev).2

/-- What is in the state machine of node `i`: what the snapshot covers, and what on_apply was given since. -/
def content (s : PSys N D C) (i : N) : List (Nat × D) := numbered ((s.cl.node i).log.take (base s i)) ++ since s i

/-- A state machine that has not loaded a snapshot. -/
def NoLoad (s : PSys N D C) (i : N) : Prop := ∀ k, Fsm.Ev.load k true ∉ (s.pn i).f.ev
end Spec

variable {N D C : Type} [DecidableEq N] [DecidableEq D] {c0 : Conf N} {p : CParams}

/-! ### Examples -/

abbrev Dflt : CParams := Cluster.Defaults
def s1 : PS := afterP Dflt c3 (initP c3) one
def s2 : PS := afterP Dflt c3 s1 two
def s3 : PS := afterP Dflt c3 s2 three
def s4 : PS := afterP Dflt c3 s3 four

theorem s1_ok : PReachable Dflt c3 s1 := afterP_ok (by decide +kernel)
theorem s12 : PSteps Dflt c3 s1 s2 := afterP_ok (by decide +kernel)
theorem s23 : PSteps Dflt c3 s2 s3 := afterP_ok (by decide +kernel)
theorem s34 : PSteps Dflt c3 s3 s4 := afterP_ok (by decide +kernel)
theorem s2_ok : PReachable Dflt c3 s2 := psteps_append s1_ok s12
theorem s3_ok : PReachable Dflt c3 s3 := psteps_append s2_ok s23
theorem s4_ok : PReachable Dflt c3 s4 := psteps_append s3_ok s34

instance (s : PSys Nat Nat Nat) (i k d : Nat) (o : Option Nat) : Decidable (OnApply s i k d o) := inferInstanceAs (Decidable (_ ∈ _))

/-! ### C77: one task, from apply() to all state machines -/

/-- C77: on_apply gets the same data for one index, at whatever nodes and moments. -/
theorem C77_same_data_partial (hp : COk p) {s s' : PSys N D C} (h : PReachable p c0 s) (h' : PSteps p c0 s s') {i j : N} {k : Nat}
    {d d' : D} {o o' : Option C} (h1 : OnApply s i k d o) (h2 : OnApply s' j k d' o') : d = d' :=
  (onApply_same hp (preach_inv hp h) h' h1 h2).1

/-- 7 at index 2: at node 1 in `s1`, at nodes 2 and 3 later. -/
example : PReachable Dflt c3 s1 ∧ PSteps Dflt c3 s1 s2 ∧ OnApply s1 1 2 7 (some 1) ∧ OnApply s2 2 2 7 none ∧ OnApply s2 3 2 7 none :=
  ⟨s1_ok, s12, by decide +kernel⟩

/-- C77: the closure on_apply gets with data is one that was given to apply() of that process, with that data; the
index is committed and the entry is in the log; it has the term the task asked for. -/
theorem C77_closure_matches_partial (hp : COk p) {s : PSys N D C} (h : PReachable p c0 s) {i : N} {k : Nat} {d : D} {c : C}
    (ha : OnApply s i k d (some c)) : 1 ≤ k ∧ k ≤ (s.cl.node i).bb.lastCommitted ∧
      ∃ term, (s.cl.node i).log[k - 1]? = some ⟨term, .data d⟩ ∧
        ∃ t ∈ (s.pn i).given, t.done = some c ∧ t.data = d ∧ (t.expected = -1 ∨ t.expected = (term : Int)) := by
  have hb := (preach_inv hp h).both i
  obtain ⟨h1, h2, term, h3, h4⟩ := (task_closure_matches c0.nd hb.half.run).1 k d c ha
  rw [hb.half.core.bb.lc] at h2
  rw [hb.half.core.log] at h3
  exact ⟨h1, h2, term, fents_data.mp h3, h4⟩

/-- 8 was given with closure 2 and expected term 2. -/
example : PReachable Dflt c3 s1 ∧ OnApply s1 1 3 8 (some 2) ∧ (s1.cl.node 1).log[2]? = some (da 2 8) ∧
    (s1.pn 1).given.map (fun t => (t.data, t.done, t.expected)) = [(7, some 1, -1), (9, some 3, 5), (8, some 2, 2)] :=
  ⟨s1_ok, by decide +kernel⟩

/-- C77: what a state machine was given is never lost: from then on it is in the log of every leader of that or a
later term, and of every node that counts the index as committed. -/
theorem C77_never_lost_partial (hp : COk p) {s s' : PSys N D C} (h : PReachable p c0 s) (h' : PSteps p c0 s s') {i j : N} {k : Nat}
    {d : D} {o : Option C} (ha : OnApply s i k d o)
    (hj : (∃ t, Cluster.LeadsC s'.cl j t ∧ (s.cl.node i).term ≤ t) ∨ k ≤ (s'.cl.node j).bb.lastCommitted ∨ k ≤ (s'.cl.node j).applied) :
    ∃ term, (s.cl.node i).log[k - 1]? = some ⟨term, .data d⟩ ∧ (s'.cl.node j).log[k - 1]? = some ⟨term, .data d⟩ := by
  have hI := preach_inv hp h
  obtain ⟨h1, h2, ⟨t, h3⟩, _⟩ := onApply_log hI ha
  have hc := (psteps_inv hp hI h').2
  refine ⟨t, h3, ?_⟩
  rw [← h3]
  refine get_of_take (k := k) ?_ h1
  rcases hj with ⟨u, hl, hu⟩ | hj
  · exact (Cluster.leader_completeness_partial hp hI.reach hc (Or.inl h2) hl hu).1
  · exact (committed_take hp hI.reach hc (Or.inl h2) hj).symm

/-- Node 2 leads term 3 later. -/
example : OnApply s1 1 2 7 (some 1) ∧ (s1.cl.node 1).term ≤ 3 ∧ (s2.cl.node 2).state.leads = true ∧ (s2.cl.node 2).term = 3 ∧
    (s2.cl.node 2).log[1]? = some (da 2 7) := by decide +kernel

/-- C77: the closures given to a process, while its state machine does not roll back, are exactly those in the queue,
those waiting for a commit, those run with an error and those handed to the state machine. -/
theorem C77_once_partial (hp : COk p) {s : PSys N D C} (h : PReachable p c0 s) (i : N) (hroll : Fsm.rolled (s.pn i).f.ev = 0) :
    (Pipe.dones (s.pn i).given ++ (s.pn i).confs).Perm
      (Pipe.dones (s.pn i).queued ++ ((s.pn i).n.bb.closures.queue.filterMap id ++ ((s.pn i).errs ++
        (Pipe.shown (s.pn i).f.ev ++ Pipe.failed (s.pn i).f.ev)))) :=
  task_closures_once c0.nd ((preach_inv hp h).both i).half.run hroll

/-- C77: with distinct closures, none is run or handed out twice. -/
theorem C77_never_twice_partial (hp : COk p) {s : PSys N D C} (h : PReachable p c0 s) (i : N) (hroll : Fsm.rolled (s.pn i).f.ev = 0)
    (hd : (Pipe.dones (s.pn i).given ++ (s.pn i).confs).Nodup) :
    ((s.pn i).errs ++ (Pipe.shown (s.pn i).f.ev ++ Pipe.failed (s.pn i).f.ev)).Nodup :=
  (task_closure_never_twice c0.nd ((preach_inv hp h).both i).half.run hroll hd).1

/-- Closures 100, 1, 2 are handed out, 3 and 4 have failed. -/
example : Fsm.rolled (s2.pn 1).f.ev = 0 ∧ (Pipe.dones (s2.pn 1).given ++ (s2.pn 1).confs) = [1, 3, 2, 4, 100] ∧
    (s2.pn 1).errs = [3, 4] ∧ Pipe.shown (s2.pn 1).f.ev = [100, 1, 2] := by decide +kernel

/-- C77: when no task is queued, and the node does not lead or has applied its whole log, every closure given to
apply() has been run with an error or handed to the state machine. -/
theorem C77_all_answered_partial (hp : COk p) {s : PSys N D C} (h : PReachable p c0 s) (i : N) (hq : (s.pn i).queued = [])
    (hl : (s.cl.node i).state.leads = false ∨ (s.cl.node i).applied = (s.cl.node i).log.length) :
    ∀ t ∈ (s.pn i).given, ∀ c, t.done = some c →
      c ∈ (s.pn i).errs ∨ c ∈ Pipe.shown (s.pn i).f.ev ∨ c ∈ Pipe.failed (s.pn i).f.ev := by
  have hI := preach_inv hp h
  have hb := hI.both i
  refine task_closures_all_answered c0.nd hb.half.run hq ?_
  rcases hl with hl | hl
  · left
    rw [hb.half.core.bb.pe]
    exact ((bf_reach hp hI.reach i).fol hl).1
  · right
    refine ⟨hb.half.core.le, ?_⟩
    rw [hb.half.core.ap, hb.half.core.log, fents_length, hl]

/-- Node 1 stepped down; node 2 leads and has applied everything. -/
example : PReachable Dflt c3 s2 ∧ (s2.pn 1).queued = [] ∧ (s2.cl.node 1).state.leads = false ∧ (s2.pn 1).given.length = 4 ∧
    (s2.pn 2).queued = [] ∧ (s2.cl.node 2).state.leads = true ∧ (s2.cl.node 2).applied = (s2.cl.node 2).log.length :=
  ⟨s2_ok, by decide +kernel⟩

/-! ### What is in the state machines -/

theorem numbered_append (a b : Log N D) : numbered (a ++ b) = numbered a ++ (b.zipIdx (a.length + 1)).filterMap (fun x => match x.1.payload with
    | .data d => some (x.2, d)
    | .conf _ => none) := by
  unfold numbered
  rw [List.zipIdx_append, List.filterMap_append, Nat.add_comm]

theorem numbered_prefix {a b : Log N D} (h : a <+: b) : numbered a <+: numbered b := by
  obtain ⟨r, rfl⟩ := h
  rw [numbered_append]
  exact List.prefix_append _ _

theorem numbered_entries (l : Log N D) (m : Nat) (hm : m ≤ l.length) :
    Fsm.entriesOf (Pipe.entryAt (fents l)) 0 m = numbered (l.take m) := by
  induction m with
  | zero => simp [Fsm.entriesOf_self, numbered]
  | succ m ih =>
    rw [← Fsm.entriesOf_append _ (Nat.zero_le m) (Nat.le_succ m), ih (by omega)]
    have hget : l[m]? = some l[m] := List.getElem?_eq_getElem (by omega)
    rw [List.take_succ, hget]
    simp only [Option.toList_some]
    rw [numbered_append]
    congr 1
    unfold Fsm.entriesOf
    rw [show m + 1 - m = 1 by omega, List.length_take, Nat.min_eq_left (by omega)]
    simp only [List.range'_one, List.zipIdx_cons, List.zipIdx_nil, List.filterMap_cons, List.filterMap_nil]
    have hk : (Pipe.entryAt (fents l) (m + 1)).kind = kindOf l[m].payload := by
      unfold Pipe.entryAt
      rw [fents_get, show m + 1 - 1 = m by omega, hget]
      rfl
    rw [hk]
    cases l[m].payload <;> rfl

/-- C77: what is in a state machine are the data entries of the log up to an index `m`, all of them, in order, each
once; without error `m` is the last applied index. -/
theorem C77_content_partial (hp : COk p) {s : PSys N D C} (h : PReachable p c0 s) (i : N) :
    ∃ m, base s i ≤ m ∧ m ≤ (s.cl.node i).applied ∧ ((s.pn i).f.err = false → m = (s.cl.node i).applied) ∧
      content s i = numbered ((s.cl.node i).log.take m) := by
  have hI := preach_inv hp h
  have hb := hI.both i
  obtain ⟨m, h1, h2, h3, h4⟩ := preach_seen hp h i
  rw [view_sinceLoad] at h1 h4
  rw [hb.half.core.log] at h4
  have hlen : (s.cl.node i).applied ≤ (s.cl.node i).log.length := by
    have := hb.inv.apl
    rw [hb.half.core.log, fents_length, hb.half.core.ap] at this
    exact this
  rw [hb.half.core.ap] at h2 h3
  refine ⟨m, h1, h2, h3, ?_⟩
  have h1 : base s i ≤ m := h1
  have h4 : since s i = Fsm.entriesOf (Pipe.entryAt (fents (s.cl.node i).log)) (base s i) m := h4
  unfold content
  rw [h4, ← numbered_entries _ _ (by omega), Fsm.entriesOf_append _ (Nat.zero_le _) h1, numbered_entries _ _ (by omega)]

/-- Node 1 of `s3` has loaded a snapshot of node 2, node 3 has applied everything itself: the same content. -/
example : PReachable Dflt c3 s3 ∧ base s3 1 = 5 ∧ since s3 1 = [] ∧ content s3 1 = [(2, 7), (3, 8), (5, 6)] ∧
    base s3 3 = 0 ∧ since s3 3 = [(2, 7), (3, 8), (5, 6)] ∧ base s4 1 = 5 :=
  ⟨s3_ok, by decide +kernel⟩

/-- C77: at any two moments the contents of two state machines are comparable: one is the beginning of the other. -/
theorem C77_state_machines_partial (hp : COk p) {s s' : PSys N D C} (h : PReachable p c0 s) (h' : PSteps p c0 s s') (i j : N) :
    content s i <+: content s' j ∨ content s' j <+: content s i := by
  have hI := preach_inv hp h
  obtain ⟨hI', hc⟩ := psteps_inv hp hI h'
  obtain ⟨m, a1, a2, _, a3⟩ := C77_content_partial hp h i
  obtain ⟨n, b1, b2, _, b3⟩ := C77_content_partial hp (psteps_trans h h') j
  rw [a3, b3]
  by_cases hmn : m ≤ n
  · left
    rw [committed_take hp hI.reach hc (k := m) (j := j) (Or.inr a2) (Or.inr (by omega))]
    exact numbered_prefix (List.take_prefix_take_left hmn)
  · right
    rw [← committed_take hp hI.reach hc (k := n) (i := i) (Or.inr (by omega)) (Or.inr b2)]
    exact numbered_prefix (List.take_prefix_take_left (by omega))

theorem noLoad_since {s : PSys N D C} {i : N} (h : NoLoad s i) : content s i = FsmSpec.applied (s.pn i).f.ev := by
  have : ∀ (b : Nat) (x : List (Fsm.Ev D C)), (∀ k, Fsm.Ev.load k true ∉ x) → FsmSpec.sinceLoad b x = (b, x) := by
    intro b x hx
    induction x with
    | nil => rfl
    | cons e x ih =>
      unfold FsmSpec.sinceLoad
      have hn : x.any (fun x => match x with | .load _ true => true | _ => false) = false := by
        rw [List.any_eq_false]
        intro e' he'
        cases e' with
        | load k ok => cases ok with
          | true => exact absurd (List.mem_cons_of_mem _ he') (hx k)
          | false => simp
        | _ => simp
      rw [if_neg (by intro hc; have hc : x.any (fun x => match x with | .load _ true => true | _ => false) = true := hc; rw [hn] at hc; cases hc)]
      cases e with
      | load k ok => cases ok with
        | true => exact absurd (List.mem_cons_self ..) (hx k)
        | false => rfl
      | _ => rfl
  unfold content base since
  rw [this _ _ h]
  simp [numbered]

/-- C77: two state machines that have loaded no snapshot were given the same sequence of indexes and data by on_apply,
one of them possibly only a beginning of it. -/
theorem C77_same_sequence_partial (hp : COk p) {s s' : PSys N D C} (h : PReachable p c0 s) (h' : PSteps p c0 s s') {i j : N}
    (hi : NoLoad s i) (hj : NoLoad s' j) :
    FsmSpec.applied (s.pn i).f.ev <+: FsmSpec.applied (s'.pn j).f.ev ∨ FsmSpec.applied (s'.pn j).f.ev <+: FsmSpec.applied (s.pn i).f.ev := by
  rw [← noLoad_since hi, ← noLoad_since hj]
  exact C77_state_machines_partial hp h h' i j

/-- Node 1 of `s1` and node 3 of `s2`. -/
example : (s1.pn 1).f.ev = [.confCommitted 1, .ran 100, .apply 2 7 (some 1), .apply 3 8 (some 2)] ∧
    (s2.pn 3).f.ev = [.confCommitted 1, .apply 2 7 none, .apply 3 8 none, .confCommitted 4, .apply 5 6 none] := by decide +kernel

/-- C77 (the queue and the state machine's thread are never blocked by this model): a batch of tasks is always taken, and
a round of the state machine's thread with a commit index of the ballot box can always run, whatever user code does and
whichever reads fail. -/
theorem C77_enabled_partial (hp : COk p) {s : PSys N D C} (h : PReachable p c0 s) (i : N) :
    (∀ k, ∃ s', pstep p c0 s (.batch i k) = some s') ∧
    (∀ size us bad k, k ≤ (s.pn i).n.bb.lastCommitted → ∃ s', pstep p c0 s (.fsm i size us bad (.committed k)) = some s') ∧
    (∀ us bad, ∃ s', pstep p c0 s (.fsmEnd i us bad) = some s') := by
  have hI := preach_inv hp h
  refine ⟨fun k => ?_, fun size us bad k hk => ?_, fun us bad => ?_⟩
  · obtain ⟨s', h1, _⟩ := batch_ok hp hI i k; exact ⟨s', h1⟩
  · obtain ⟨s', h1, _⟩ := fsm_enabled hp hI i size us bad (t := .committed k) (by simpa [fsmOk] using hk); exact ⟨s', h1⟩
  · obtain ⟨s', h1, _⟩ := fsmEnd_enabled hp hI i us bad; exact ⟨s', h1⟩

example : PReachable Dflt c3 s2 ∧ 5 ≤ (s2.pn 3).n.bb.lastCommitted := ⟨s2_ok, by decide +kernel⟩

/-! ### C78: the order of tasks -/

/-- C78 (real time): a task given to any node after an index was applied at any node gets a larger index. With C77 this
is linearizability of tasks: one order, the order of indexes, that agrees with real time and that all state machines
follow. -/
theorem C78_real_time_partial (hp : COk p) {s s' : PSys N D C} (h : PReachable p c0 s) (h' : PSteps p c0 s s') {i j : N} {k m : Nat}
    {d d' : D} {o : Option C} {c : C} (hi : OnApply s i k d o) (hf : Fresh s j c) (hj : OnApply s' j m d' (some c)) : k < m := by
  have hI := preach_inv hp h
  have hI' := (psteps_inv hp hI h').1
  obtain ⟨t, ha⟩ := hI.ev i k d o hi
  obtain ⟨_, _, ⟨t', hlog⟩, hp'⟩ := onApply_log hI' hj
  rcases slot_order hp hI h' ha (hp' c rfl) hlog with hs | hs
  · exfalso
    have := hs.given (hI.both j).inv
    rcases List.mem_append.mp this with hg | hg
    · obtain ⟨t, ht, hd⟩ := List.mem_filterMap.mp hg
      exact hf.1 t ht hd
    · exact hf.2 hg
  · exact hs

/-- 7 and 8 were applied at node 1 in `s1`; 6 was given to node 2 afterwards. -/
example : PReachable Dflt c3 s1 ∧ PSteps Dflt c3 s1 s2 ∧ OnApply s1 1 3 8 (some 2) ∧ OnApply s2 2 5 6 (some 2) ∧ Fresh s1 2 2 :=
  ⟨s1_ok, s12, by decide +kernel, by decide +kernel, by
    have h1 : (s1.pn 2).given = [] := by decide +kernel
    have h2 : (s1.pn 2).confs = [] := by decide +kernel
    exact ⟨(by rw [h1]; intro t ht; cases ht), (by rw [h2]; intro h; cases h)⟩⟩

/-- C78: for one index only one closure is ever handed to a state machine, at one node. -/
theorem C78_unique_ack_partial (hp : COk p) {s s' : PSys N D C} (h : PReachable p c0 s) (h' : PSteps p c0 s s') {i j : N} {k : Nat}
    {d d' : D} {c c' : C} (hi : OnApply s i k d (some c)) (hj : OnApply s' j k d' (some c')) : i = j ∧ c = c' ∧ d = d' :=
  ⟨(unique_ack hp h h' hi hj).1, (unique_ack hp h h' hi hj).2, C77_same_data_partial hp h h' hi hj⟩

example : OnApply s1 1 2 7 (some 1) ∧ OnApply s2 1 2 7 (some 1) ∧ OnApply s2 2 2 7 none := by decide +kernel

/-- **Finding.** A closure that is run with an error says nothing about its task: here closure 1 of task 7 fails when
node 1 steps down, and 7 is committed by node 2 and applied. A user who gives the task again after the error applies it
twice. -/
theorem C78_failed_but_applied :
    ∃ s : PS, PReachable Dflt c3 s ∧ 1 ∈ (s.pn 1).errs ∧ (∃ t ∈ (s.pn 1).given, t.done = some 1 ∧ t.data = 7) ∧ OnApply s 2 2 7 none :=
  ⟨afterP Dflt c3 (initP c3) unlucky, afterP_ok (by decide +kernel), by decide +kernel,
    ⟨⟨7, some 1, -1⟩, (by
      have : (( afterP Dflt c3 (initP c3) unlucky).pn 1).given = [⟨7, some 1, -1⟩] := by rfl
      rw [this]; simp), rfl, rfl⟩, by decide +kernel⟩

end Braft.Props.EndToEnd
