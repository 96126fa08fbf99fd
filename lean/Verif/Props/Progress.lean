import Verif.Cluster.CalmStatic
import Verif.Cluster.CalmStuck
import Verif.Props.Cluster
/-
C79: can a group always go on? Stated for the cluster of servers of Verif/Cluster/Server.lean, each a transcription of the
handlers of `NodeImpl`.

Vocabulary:
* `CReachable p c0 s`: `s` is a state of an execution of a group that starts with fresh nodes and the configuration `c0`,
  with any number of crashes, restarts, elections, lost, repeated and reordered messages, snapshots and so on.
* `Quiet p c0 s s'`: from `s` the group can get to `s'` without a crash, without a failure of a storage, and without
  anybody changing the configuration.
* `Ev.applied v k e`: the state machine of node `v` is handed entry `e`, which has index `k`.
-/
set_option linter.unusedVariables false
set_option linter.unusedSimpArgs false
set_option linter.unusedSectionVars false

namespace Braft.Props.Progress
open Braft.Raft Braft.Cl Braft.Cl.Traces Braft.Props.Cluster

section Spec
variable {N D : Type} [DecidableEq N] [DecidableEq D]

/-- The action is neither the end of a process nor the failure of a storage nor a change of the configuration nor a
TimeoutNow request (which only an operator causes). -/
def QuietAct : CAct N D → Prop
  | .crash _ => False
  | .electDie _ _ => False
  | .changeConf _ _ => False
  | .timeoutNow _ _ _ _ => False
  | .electB _ _ ok _ => ok = true
  | .voteRes _ _ _ _ _ _ _ ok => ok = true
  | .voteReqB _ _ _ ok grantOk => ok = true ∧ grantOk = true
  | .stepDown _ _ ok => ok = true
  | .append _ _ _ _ _ _ _ ok _ => ok = true
  | .install _ _ _ _ ok => ok = true
  | _ => True

/-- Quiet continuations of `s`. -/
inductive Quiet (p : CParams) (c0 : Conf N) (s : CSys N D) : CSys N D → Prop where
  | refl : Quiet p c0 s s
  | tail {s' s''} (a : CAct N D) : Quiet p c0 s s' → QuietAct a → cstep p c0 s' a = some s'' → Quiet p c0 s s''

/-- From `s` the group can, quietly, elect `j` in a term that is new to all nodes of `V`, and hand the task `d`, which `j`
appended in this term, to the state machines of all nodes of `V`, at one and the same index. -/
def CanCommit (p : CParams) (c0 : Conf N) (s : CSys N D) (j : N) (V : N → Prop) (d : D) : Prop :=
  ∃ s' T k es, Quiet p c0 s s' ∧ s'.ev = es ++ s.ev ∧ LeadsC s' j T ∧
    ∀ v, V v → (s.node v).term < T ∧ Ev.applied v k ⟨T, .data d⟩ ∈ es

/-- The group is stuck: nobody leads, and whatever happens nobody will. -/
def StuckForever (p : CParams) (c0 : Conf N) (s : CSys N D) : Prop :=
  ∀ s', CSteps p c0 s s' → ∀ i t, ¬ LeadsC s' i t

/-- Executions in which nobody changes the configuration. -/
inductive NoChange (p : CParams) (c0 : Conf N) (s : CSys N D) : CSys N D → Prop where
  | refl : NoChange p c0 s s
  | tail {s' s''} (a : CAct N D) : NoChange p c0 s s' → (∀ i c, a ≠ .changeConf i c) → cstep p c0 s' a = some s'' →
      NoChange p c0 s s''
end Spec

variable {N D : Type} [DecidableEq N] [DecidableEq D] {c0 : Conf N} {p : CParams}

theorem calm_quiet {s s' : CSys N D} (h : CalmSteps p c0 s s') : Quiet p c0 s s' := by
  induction h with
  | refl => exact .refl
  | tail a _ hc hs ih =>
    refine .tail a ih ?_ hs
    cases a <;> simp_all [calm, QuietAct]

theorem quiet_steps {s s' : CSys N D} (h : Quiet p c0 s s') : CSteps p c0 s s' := by
  induction h with
  | refl => exact .refl
  | tail a _ _ hs ih => exact .tail a ih hs

theorem static_of {s s' : CSys N D} (h : NoChange p c0 s s') : StaticC p c0 s s' := by
  induction h with
  | refl => exact .refl
  | tail a _ hn hs ih => exact .tail a ih hn hs

/-- C79: in every reachable state in which some node `j` is a member of the last configuration of its log, and together
with the nodes of `Q`, whose logs are not ahead of its own, is a quorum of that configuration, and none of them is
installing a snapshot, `j` can be elected and a task can be applied at all of them.

Missing: that there is such a node. It need not be: `C79_removed_leader_stuck`. -/
theorem C79_can_commit_partial (hp : COk p) {s : CSys N D} (hr : CReachable p c0 s) (j : N) (Q : List N) (d : D)
    (hj : j ∈ (confOf c0 (s.node j).log).peers ∨ j ∈ (confOf c0 (s.node j).log).old)
    (hnd : (j :: Q).Nodup) (hQm : ∀ v ∈ Q, v ∈ (confOf c0 (s.node j).log).peers ∨ v ∈ (confOf c0 (s.node j).log).old)
    (hQ : (confOf c0 (s.node j).log).Quorum (fun x => decide (x ∈ j :: Q)))
    (hle : ∀ v ∈ Q, idLe (lastId (s.node v).log) (lastId (s.node j).log) = true)
    (hd : ∀ v ∈ j :: Q, (s.node v).dl = none) :
    CanCommit p c0 s j (fun v => v ∈ j :: Q) d := by
  obtain ⟨s', T, k, es, h1, h2, h3, h4, h5⟩ := progress_calm hp hr j Q d hj (List.nodup_cons.mp hnd).2
    (List.nodup_cons.mp hnd).1 (fun v hv => by
      unfold members
      rcases hQm v hv with h | h
      · exact List.mem_append_left _ h
      · by_cases h' : v ∈ (confOf c0 (s.node j).log).peers
        · exact List.mem_append_left _ h'
        · exact List.mem_append_right _ (List.mem_filter.mpr ⟨h, by simpa using h'⟩))
    (by simpa only [List.mem_cons] using hQ) hle (hd j List.mem_cons_self) (fun v hv => hd v (List.mem_cons_of_mem _ hv))
  exact ⟨s', T, k, es, calm_quiet h1, h2, ⟨by rw [h3]; rfl, h4⟩, fun v hv => h5 v (List.mem_cons.mp hv)⟩

/-- C79 for groups whose membership never changes: from every reachable state the group can elect a leader and apply any
task at all its members. -/
theorem C79_static_group (hp : COk p) {s : CSys N D} (hr : NoChange p c0 initC s) (hne : c0.peers ≠ [])
    (hst : c0.old = []) (d : D) : ∃ j ∈ c0.peers, CanCommit p c0 s j (fun v => v ∈ c0.peers) d := by
  obtain ⟨s', j, T, k, es, h1, h2, h3, h4, h5, h6⟩ := progress_static hp (static_of hr) d hne hst
  exact ⟨j, h3, s', T, k, es, calm_quiet h1, h2, ⟨by rw [h4]; rfl, h5⟩, h6⟩

/-- Nobody can commit when everybody is stuck. -/
theorem stuck_not_commit {s : CSys N D} (h : StuckForever p c0 s) (j : N) (V : N → Prop) (d : D) :
    ¬ CanCommit p c0 s j V d := by
  rintro ⟨s', T, k, es, h1, -, h3, -⟩
  exact h s' (quiet_steps h1) j T h3

/-- C79 does not hold in full (violation): a group of two whose leader removes itself, writes the new configuration to its
own disk, and restarts before it sends it to the other node. Whatever happens then - no matter which messages arrive,
which timers fire, who restarts - nobody ever leads the group again. -/
theorem C79_removed_leader_stuck : ∃ (c0 : Conf Nat) (s : CSys Nat Nat), c0.peers = [1, 2] ∧ c0.old = [] ∧
    CReachable Defaults c0 s ∧ Ev.lead 1 2 ∈ s.ev ∧ StuckForever Defaults c0 s ∧
    ∀ j V d, ¬ CanCommit Defaults c0 s j V d := by
  have hs : StuckForever Defaults Stuck.c2 Stuck.sStuck := by
    intro s' h i t hl
    have := ((Stuck.ws_steps Stuck.ws_stuck h).1.node i).nl
    rw [hl.1] at this
    cases this
  exact ⟨Stuck.c2, Stuck.sStuck, rfl, rfl, after_ok (by decide +kernel), by decide +kernel, hs,
    fun j V d => stuck_not_commit hs j V d⟩

/-! ### Cases -/

/-- The group of three of `first` and `second`: 1 led term 2, restarted; 2 was elected in term 3. Then 1 and 2 restart. -/
def exTrace : List A := first ++ second ++ [.crash 1, .crash 2]

def exS : S := Traces.after Defaults c3 initC exTrace

theorem exS_reach : CReachable Defaults c3 exS := after_ok (by decide +kernel)

/-- Node 3 is not needed: 2 and 1 can go on. -/
example : CanCommit Defaults c3 exS 2 (fun v => v ∈ [2, 1]) 42 :=
  C79_can_commit_partial defaults_ok exS_reach 2 [1] 42 (by decide +kernel) (by decide) (by decide +kernel)
    (by decide +kernel) (by decide +kernel) (by decide +kernel)

theorem noChange_of_run : ∀ (as : List A) {s0 s s' : S}, NoChange Defaults c3 s0 s →
    runC Defaults c3 s as = some s' → (∀ a ∈ as, ∀ i c, a ≠ .changeConf i c) → NoChange Defaults c3 s0 s'
  | [], s0, s, s', h0, h, _ => by
    have : s = s' := Option.some.inj h
    rw [← this]; exact h0
  | a :: as, s0, s, s', h0, h, ha => by
    unfold runC at h
    split at h
    · cases h
    · next s1 h1 =>
      exact noChange_of_run as (.tail a h0 (ha a List.mem_cons_self) h1) h (fun x hx => ha x (List.mem_cons_of_mem _ hx))

theorem exS_static : NoChange Defaults c3 initC exS := by
  have hs : (runC Defaults c3 initC exTrace).isSome = true := by decide +kernel
  obtain ⟨s', hr⟩ := Option.isSome_iff_exists.mp hs
  have h1 : exS = s' := by rw [exS, Traces.after, hr]; rfl
  rw [h1]
  refine noChange_of_run exTrace .refl hr ?_
  intro a ha
  simp only [exTrace, first, second, List.mem_append, List.mem_cons, List.not_mem_nil, or_false] at ha
  intro i c e
  subst e
  simp at ha

/-- The whole group can go on, and 7 has been applied before. -/
example : (∃ j ∈ c3.peers, CanCommit Defaults c3 exS j (fun v => v ∈ c3.peers) 42) ∧
    Ev.applied 1 2 (da 2 7) ∈ exS.ev :=
  ⟨C79_static_group defaults_ok exS_static (by decide) rfl 42, by decide +kernel⟩

end Braft.Props.Progress
