import Verif.Cluster.SimD
import Verif.Cluster.Traces
import Verif.Props.Raft
/-
Theorems about the cluster of servers (Verif/Cluster/Server.lean), whose nodes run the handlers of
`NodeImpl` with real ballots and ballot boxes: C01-C05, C57 and C69. They follow from those of
Verif/Props/Raft.lean by simulation (Verif/Cluster/Sim*.lean).

Specification vocabulary:
* `CReachable p c0 s`: `s` is a state of some execution of a group of servers with the initial
  configuration `c0`; `CSteps p c0 s s'`: `s'` is a later state of an execution through `s`.
* `s.ev`: what users have seen so far, see `Ev`.
* `COk p`: the environment assumptions, see `Params` and `CParams`; the default flags of braft
  (`Defaults`) meet them as far as flags are concerned.
-/
set_option linter.unusedVariables false
set_option linter.unusedSimpArgs false
set_option linter.unusedSectionVars false

namespace Braft.Props.Cluster
open Braft.Raft Braft.Cl Braft.Cl.Traces

section Spec
variable {N D : Type} [DecidableEq N] [DecidableEq D]

/-- `is_leader()` of node `i`, in term `t`. -/
def LeadsC (s : CSys N D) (i : N) (t : Nat) : Prop :=
  (s.node i).state.leads = true ∧ (s.node i).term = t

/-- `leader_id()` of node `i` answers `l`, in term `t`. -/
def Names (s : CSys N D) (i l : N) (t : Nat) : Prop :=
  (s.node i).leaderId = some l ∧ (s.node i).term = t

/-- A log node `i` holds, in memory or on disk. -/
def HoldsC (s : CSys N D) (i : N) (l : Log N D) : Prop := l = (s.node i).log ∨ l = (s.node i).disk

/-- The assumptions of `COk` with the default values of the flags: a failed CHECK does not end the
process (`crash_on_fatal_log`), and there is no leader lease (`raft_enable_leader_lease`). -/
abbrev Defaults : CParams := ⟨Norm, false, true, false⟩

/-- A failed CHECK does not end the process, and the leader lease is on. -/
abbrev NoAbort : CParams := ⟨Norm, false, true, true⟩

/-- All assumptions but one: a node may step down, be elected again and change its log while one
of its replicators is between two accesses to the log manager or the ballot box. -/
abbrev NoRepl : CParams := ⟨Norm, true, false, false⟩
end Spec

variable {N D : Type} [DecidableEq N] [DecidableEq D] {c0 : Conf N} {p : CParams}

theorem defaults_ok : COk Defaults := ⟨rfl, rfl, Or.inr rfl⟩

theorem ev_mono {p : CParams} {s s' : CSys N D} (h : CSteps p c0 s s') : ∀ e ∈ s.ev, e ∈ s'.ev := by
  induction h with
  | refl => exact fun _ h => h
  | tail a _ hs ih =>
    intro e he
    have := ih e he
    unfold cstep at hs
    split at hs
    · have hx := Option.some.inj hs
      rw [← hx]
      exact List.mem_append_right _ this
    · cases hs

theorem msgs_mono {p : CParams} {s s' : CSys N D} (h : CSteps p c0 s s') :
    ∀ m ∈ s.msgs, m ∈ s'.msgs := by
  induction h with
  | refl => exact fun _ h => h
  | tail a _ hs ih =>
    intro e he
    have := ih e he
    unfold cstep at hs
    split at hs
    · have hx := Option.some.inj hs
      rw [← hx]
      exact List.mem_append_right _ this
    · cases hs

theorem sim_two (hp : COk p) {s s' : CSys N D} (h : CReachable p c0 s) (h' : CSteps p c0 s s') :
    ∃ a a', Reachable Normal c0 a ∧ Steps Normal c0 a a' ∧ SR c0 s a ∧ SR c0 s' a' := by
  obtain ⟨a, h1⟩ := sim_reach' hp h
  obtain ⟨a', h3, h4⟩ := sim_steps hp h1 h'
  exact ⟨a, a', h1.reach, h3, h1.rel, h4.rel⟩

theorem leads_rel {s : CSys N D} {a : Sys N D} (h : SR c0 s a) {i : N} {t : Nat}
    (hl : LeadsC s i t) : LeadsAt a i t := by
  refine ⟨?_, ?_⟩
  · exact (leads_role (h.node i)).mp hl.1
  · rw [(h.node i).term]; exact hl.2

/-! ### C01 Election safety -/

/-- C01/C31: two nodes never become leaders of the same term, over the whole execution. -/
theorem one_leader_per_term_partial {s : CSys N D} {i j : N} {t : Nat}
    (hp : COk p) (h : CReachable p c0 s) (hi : Ev.lead i t ∈ s.ev) (hj : Ev.lead j t ∈ s.ev) : i = j := by
  obtain ⟨a, ha, hr⟩ := sim_reach hp h
  obtain ⟨r, h1, h2, h3⟩ := hr.ev _ hi
  obtain ⟨r', h1', h2', h3'⟩ := hr.ev _ hj
  have := elections_unique (inv_reachable ha).g h1 h1' (by rw [h3, h3'])
  rw [← h2, ← h2', this]

/-- C01: at any two moments. -/
theorem leaders_agree_partial {s s' : CSys N D} {i j : N} {t : Nat}
    (hp : COk p) (h : CReachable p c0 s) (h' : CSteps p c0 s s')
    (hi : LeadsC s i t) (hj : LeadsC s' j t) : i = j := by
  obtain ⟨a, a', h1, h2, h3, h4⟩ := sim_two hp h h'
  exact election_safety_partial h1 h2 (leads_rel h3 hi) (leads_rel h4 hj)

/-- 1 leads term 2, later 2 leads term 3. -/
example : ∃ s s' : S, CReachable Defaults c3 s ∧ CSteps Defaults c3 s s' ∧ LeadsC s 1 2 ∧
    LeadsC s' 2 3 ∧ Ev.lead 1 2 ∈ s'.ev ∧ Ev.lead 2 3 ∈ s'.ev := by
  refine ⟨after Defaults c3 initC first, after Defaults c3 (after Defaults c3 initC first) second,
    after_ok (by decide +kernel), after_ok (by decide +kernel), ?_, ?_, by decide +kernel,
    by decide +kernel⟩
  all_goals (unfold LeadsC; decide +kernel)

/-! ### C69 The leader a node names -/

/-- C69: the leader that `leader_id()` names became leader in the node's term; so did the one
that `on_start_following` names; and a node that leads names itself. -/
theorem C69_leader_id_partial {s : CSys N D} (hp : COk p) (h : CReachable p c0 s) :
    (∀ i l t, Names s i l t → Ev.lead l t ∈ s.ev) ∧
    (∀ i l t, Ev.follow i l t ∈ s.ev → Ev.lead l t ∈ s.ev) ∧
    ∀ i t, LeadsC s i t → Ev.lead i t ∈ s.ev ∧ ∀ l, Names s i l t → l = i := by
  obtain ⟨a, ha, hr⟩ := sim_reach hp h
  have lid : ∀ i l t, Names s i l t → Ev.lead l t ∈ s.ev := by
    intro i l t hn
    have := (hr.node i).lid l hn.1
    rwa [hn.2] at this
  refine ⟨lid, fun i l t hf => hr.ev _ hf, fun i t hl => ?_⟩
  have hm := (hr.node i).me hl.1
  rw [hl.2] at hm
  exact ⟨hm, fun l hn => one_leader_per_term_partial hp h (lid i l t hn) hm⟩

/-- C69: two nodes that name a leader for the same term name the same one, at any two moments. -/
theorem C69_agree_partial {s s' : CSys N D} {i j l l' : N} {t : Nat}
    (hp : COk p) (h : CReachable p c0 s) (h' : CSteps p c0 s s')
    (hi : Names s i l t) (hj : Names s' j l' t) : l = l' := by
  have hr : CReachable p c0 s' := csteps_append h h'
  exact one_leader_per_term_partial hp hr
    (ev_mono h' _ ((C69_leader_id_partial hp h).1 i l t hi)) ((C69_leader_id_partial hp hr).1 j l' t hj)

/-- C69: what a follower was told by `on_start_following` fits as well. -/
theorem C69_follow_agree_partial {s : CSys N D} {i j l l' : N} {t : Nat}
    (hp : COk p) (h : CReachable p c0 s) (hi : Ev.follow i l t ∈ s.ev) (hj : Ev.follow j l' t ∈ s.ev) :
    l = l' :=
  one_leader_per_term_partial hp h ((C69_leader_id_partial hp h).2.1 i l t hi)
    ((C69_leader_id_partial hp h).2.1 j l' t hj)

/-- C69: requests of leaders come from leaders, so a node never has to raise its term because two
nodes claim to lead the current one (node.cpp:2433-2443, 2632-2643): after `check_step_down` for a
request of `srv` the leader is `srv`. -/
theorem C69_no_conflict_partial {s : CSys N D} {i srv : N} {t : Nat} {ok : Bool}
    (hp : COk p) (h : CReachable p c0 s)
    (hm : (∃ prev pt es cm, CMsg.aeReq t srv i prev pt es cm ∈ s.msgs) ∨
      ∃ K, CMsg.isReq t srv i K ∈ s.msgs)
    (ht : (s.node i).term ≤ t) :
    (sCheckStepDown i (s.node i) t srv ok).1.leaderId = some srv := by
  obtain ⟨a, ha, hr⟩ := sim_reach hp h
  have hl : Ev.lead srv t ∈ s.ev := by
    rcases hm with ⟨prev, pt, es, cm, hm⟩ | ⟨K, hm⟩
    · exact (hr.msg _ hm).2
    · exact (hr.msg _ hm).2
  unfold sCheckStepDown
  dsimp only
  by_cases hx : (s.node i).term < t ∨ (s.node i).state ≠ .follower ∨ (s.node i).leaderId = none
  · rw [if_pos hx]
    rw [if_pos (show (sStepDown (s.node i) t ok).leaderId = none from rfl)]
  · rw [if_neg hx]
    have hte : (s.node i).term = t := by
      have : ¬ (s.node i).term < t := fun h => hx (Or.inl h)
      omega
    cases hL : (s.node i).leaderId with
    | none => exact absurd (Or.inr (Or.inr hL)) hx
    | some l =>
      rw [if_neg (by simp)]
      have := one_leader_per_term_partial hp h ((C69_leader_id_partial hp h).1 i l t ⟨hL, hte⟩) hl
      rw [hL, this]

/-- Node 2 names 1 in term 2, node 1 names itself; later 2 names itself in term 3, and a request of
node 1 for node 2 is on its way. -/
example : ∃ s s' : S, CReachable Defaults c3 s ∧ CSteps Defaults c3 s s' ∧ Names s 2 1 2 ∧
    Names s 1 1 2 ∧ Names s' 2 2 3 ∧ Ev.follow 2 1 2 ∈ s'.ev ∧
    CMsg.aeReq 2 1 2 2 2 [] 2 ∈ s.msgs ∧ (s.node 2).term = 2 := by
  refine ⟨after Defaults c3 initC first, after Defaults c3 (after Defaults c3 initC first) second,
    after_ok (by decide +kernel), after_ok (by decide +kernel), ?_, ?_, ?_, by decide +kernel,
    by decide +kernel, by decide +kernel⟩
  all_goals (unfold Names; decide +kernel)

/-! ### C02-C04, C57 -/

/-- C02: log matching. -/
theorem log_matching_partial {s s' : CSys N D} {i j : N} {l l' : Log N D} {k : Nat}
    {e e' : Entry N D} (hp : COk p) (h : CReachable p c0 s) (h' : CSteps p c0 s s')
    (hl : HoldsC s i l) (hl' : HoldsC s' j l') (he : l[k]? = some e) (he' : l'[k]? = some e')
    (ht : e.term = e'.term) : l.take (k + 1) = l'.take (k + 1) := by
  obtain ⟨a, a', h1, h2, h3, h4⟩ := sim_two hp h h'
  refine Props.log_matching_partial (i := i) (j := j) h1 h2 ?_ ?_ he he' ht
  · rcases hl with hl | hl
    · exact Or.inl (by rw [hl, (h3.node i).log])
    · exact Or.inr (by rw [hl, (h3.node i).disk])
  · rcases hl' with hl | hl
    · exact Or.inl (by rw [hl, (h4.node j).log])
    · exact Or.inr (by rw [hl, (h4.node j).disk])

/-- C03: what a node counts as committed or has applied is in the log of every leader of that or a
later term. -/
theorem leader_completeness_partial {s s' : CSys N D} {i j : N} {t n : Nat}
    (hp : COk p) (h : CReachable p c0 s) (h' : CSteps p c0 s s')
    (hn : n ≤ (s.node i).bb.lastCommitted ∨ n ≤ (s.node i).applied) (hj : LeadsC s' j t)
    (ht : (s.node i).term ≤ t) :
    (s'.node j).log.take n = (s.node i).log.take n ∧ n ≤ (s'.node j).log.length := by
  obtain ⟨a, a', h1, h2, h3, h4⟩ := sim_two hp h h'
  have := Props.leader_completeness_partial (n := n) (i := i) h1 h2
    (by rw [(h3.node i).commit, (h3.node i).applied]; exact hn) (leads_rel h4 hj)
    (by rw [(h3.node i).term]; exact ht)
  rwa [(h3.node i).log, (h4.node j).log] at this

/-- C04: two nodes never apply different entries at one index, over the whole execution. -/
theorem applied_agree_partial {s : CSys N D} {i j : N} {n : Nat} {e e' : Entry N D}
    (hp : COk p) (h : CReachable p c0 s) (hi : Ev.applied i n e ∈ s.ev) (hj : Ev.applied j n e' ∈ s.ev) :
    e = e' := by
  obtain ⟨a, ha, hr⟩ := sim_reach hp h
  exact Props.state_machine_safety_partial ha (hr.ev _ hi) (hr.ev _ hj)

/-- C04/C57: the state machine contains the beginning of the node's log up to the applied index,
and at any two moments the state machines of two nodes are comparable. -/
theorem state_machines_agree_partial {s s' : CSys N D} {i j : N}
    (hp : COk p) (h : CReachable p c0 s) (h' : CSteps p c0 s s') :
    (s.node i).sm = (s.node i).log.take (s.node i).applied ∧
    (s.node i).sm.length = (s.node i).applied ∧
    ((s.node i).sm <+: (s'.node j).sm ∨ (s'.node j).sm <+: (s.node i).sm) := by
  obtain ⟨a, a', h1, h2, h3, h4⟩ := sim_two hp h h'
  have e1 := Props.state_machine_content_partial h1 i
  have e2 := Props.state_machines_agree_partial (i := i) (j := j) h1 h2
  rw [(h3.node i).sm, (h3.node i).log, (h3.node i).applied] at e1
  rw [(h3.node i).sm, (h4.node j).sm] at e2
  exact ⟨e1.1, e1.2, e2⟩

/-- C57: stored snapshots are beginnings of the same history. -/
theorem snapshots_agree_partial {s s' : CSys N D} {i j : N}
    (hp : COk p) (h : CReachable p c0 s) (h' : CSteps p c0 s s') :
    ((s.node i).psnap <+: (s'.node j).sm ∨ (s'.node j).sm <+: (s.node i).psnap) ∧
    ∀ t, LeadsC s' j t → (s.node i).pterm ≤ t → (s.node i).psnap <+: (s'.node j).log := by
  obtain ⟨a, a', h1, h2, h3, h4⟩ := sim_two hp h h'
  have e := Props.snapshots_agree_partial (i := i) (j := j) h1 h2
  rw [(h3.node i).psnap, (h3.node i).pterm, (h4.node j).sm, (h4.node j).log] at e
  exact ⟨e.1, fun t hl ht => e.2.1 t (leads_rel h4 hl) ht⟩

/-- C05: in one term a server grants its vote to one candidate only. -/
theorem one_vote_per_term_partial {s : CSys N D} {t u u' q q' : Nat} {v c c' : N}
    {rj rj' d d' : Bool} (hp : COk p) (h : CReachable p c0 s)
    (h1 : CMsg.rvRes t v c true rj d u q ∈ s.msgs)
    (h2 : CMsg.rvRes t v c' true rj' d' u' q' ∈ s.msgs) : c = c' := by
  obtain ⟨a, ha, hr⟩ := sim_reach hp h
  exact Props.one_vote_per_term ha (hr.msg _ h1 rfl) (hr.msg _ h2 rfl)

/-- C42: committed and applied indexes are covered by the node's log. -/
theorem commit_bounded_partial {s : CSys N D} (hp : COk p) (h : CReachable p c0 s) (i : N) :
    (s.node i).bb.lastCommitted ≤ (s.node i).log.length ∧
    (s.node i).applied ≤ (s.node i).log.length := by
  obtain ⟨a, ha, hr⟩ := sim_reach hp h
  have hI := (inv_reachable ha).n i
  have h1 := hI.cl
  have h2 := hI.ap
  rw [(hr.node i).commit, (hr.node i).log] at h1
  rw [(hr.node i).applied, (hr.node i).log] at h2
  exact ⟨h1, h2⟩

/-- Nodes 1 and 2 applied two entries of term 2, 2 granted its vote to 1, and later 2 leads term
3. -/
example : ∃ s s' : S, CReachable Defaults c3 s ∧ CSteps Defaults c3 s s' ∧
    Ev.applied 1 2 (da 2 7) ∈ s.ev ∧ Ev.applied 2 2 (da 2 7) ∈ s.ev ∧
    (s.node 1).sm = [ce 2 c3, da 2 7] ∧ (s.node 1).bb.lastCommitted = 2 ∧ LeadsC s' 2 3 ∧
    (s.node 1).term ≤ 3 ∧ CMsg.rvRes 2 2 1 true false false 2 1 ∈ s.msgs ∧
    HoldsC s 1 [ce 2 c3, da 2 7] ∧ HoldsC s' 2 [ce 2 c3, da 2 7] := by
  refine ⟨after Defaults c3 initC first, after Defaults c3 (after Defaults c3 initC first) second,
    after_ok (by decide +kernel), after_ok (by decide +kernel), by decide +kernel,
    by decide +kernel, by decide +kernel, by decide +kernel, ?_, by decide +kernel,
    by decide +kernel, ?_, ?_⟩
  all_goals (first | unfold LeadsC | unfold HoldsC)
  all_goals decide +kernel

/-! ### What goes wrong without the assumptions of `COk` -/

/-- C02 and C04 fail when a replicator is not scheduled between filling in the previous log id of
a request and reading its entries (replicator.cpp:521-552 and 636-720; the entries are those the
log manager has when they are read, whoever wrote them): 3 stores 9 of term 3 after 7 of term 2,
node 2 stores it after 8; both then hold an entry of term 3 at index 3, and nodes 2 and 3 apply
different entries at index 2. -/
theorem stalled_replicator_breaks_safety :
    ∃ s s' : S, CReachable NoRepl c5 s ∧ CSteps NoRepl c5 s s' ∧
      (s.node 2).log = [ce 3 c5, da 3 8, da 3 9] ∧ (s.node 3).log = [ce 2 c5, da 2 7, da 3 9] ∧
      Ev.applied 2 2 (da 3 8) ∈ s'.ev ∧ Ev.applied 3 2 (da 2 7) ∈ s'.ev := by
  refine ⟨after NoRepl c5 initC mixed, after NoRepl c5 (after NoRepl c5 initC mixed) mixedApply,
    after_ok (by decide +kernel), after_ok (by decide +kernel), by decide +kernel,
    by decide +kernel, by decide +kernel, by decide +kernel⟩

/-- The sole member of a group stands for election, steps down in the same term (the vote timer)
while `elect_self` waits for the disk, and then becomes leader as a follower: the CHECK of
node.cpp:1941 fails, and is only logged. The theorems above hold nevertheless. -/
example : ∃ s s' : S, CReachable Defaults Traces.c1 s ∧ CSteps Defaults Traces.c1 s s' ∧
    (s.node 1).state = .follower ∧ (s.node 1).term = 2 ∧ LeadsC s' 1 2 := by
  refine ⟨after Defaults Traces.c1 initC (unvoted.take 2),
    after Defaults Traces.c1 (after Defaults Traces.c1 initC (unvoted.take 2))
      [.electB 1 ⟨2, (0, 0), 0⟩ true true],
    after_ok (by decide +kernel), after_ok (by decide +kernel), by decide +kernel,
    by decide +kernel, ?_⟩
  unfold LeadsC; decide +kernel

/-- With failed CHECKs only logged and the leader lease on, a node that stepped down while `elect_self` waited for the
disk can still count its own vote, later and in another term: the sole member of a group becomes
leader of term 7 as a follower (CHECK of node.cpp:1941), having voted for nobody in term 7. -/
theorem leader_without_vote :
    ∃ s s' : S, CReachable NoAbort Traces.c1 s ∧ CSteps NoAbort Traces.c1 s s' ∧
      (s.node 1).state = .follower ∧ (s.node 1).term = 7 ∧ (s.node 1).vote = none ∧
      (s.node 1).pterm = 7 ∧ (s.node 1).pvote = none ∧ LeadsC s' 1 7 ∧ Ev.lead 1 7 ∈ s'.ev := by
  refine ⟨after NoAbort Traces.c1 initC (unvoted.take 4),
    after NoAbort Traces.c1 (after NoAbort Traces.c1 initC (unvoted.take 4)) (unvoted.drop 4),
    after_ok (by decide +kernel), after_ok (by decide +kernel), by decide +kernel,
    by decide +kernel, by decide +kernel, by decide +kernel, by decide +kernel, ?_,
    by decide +kernel⟩
  unfold LeadsC; decide +kernel

end Braft.Props.Cluster
