import Verif.Raft.Hist
import Verif.Raft.Traces
/-
Theorems about the cluster model (Verif/Raft/Model.lean): C01-C07, C31, C42.

Specification vocabulary used in the statements:
* `Reachable p c0 s`: `s` is a state of some execution of a group whose initial configuration is
  `c0`; an execution is any interleaving of the actions of `Act`, with message loss, duplication,
  delay and reordering, and crashes at any point.
* `Steps p c0 s s'`: `s'` is a later state of an execution through `s`.
* `LeadsAt s i t`: node `i` reports itself leader of term `t` in state `s`.
* `p.strict`, `p.metaOk`, `p.instOk`, `p.durOk`, `p.flushOk`: environment assumptions, see
  `Params`. `Normal` has all of them.
-/
set_option linter.unusedVariables false
set_option linter.unusedSimpArgs false
set_option linter.unusedSectionVars false

namespace Braft.Props
open Braft.Raft Braft.Raft.Traces

section Spec
variable {N D : Type} [DecidableEq N] [DecidableEq D]

/-- Node `i` is leader of term `t`. -/
def LeadsAt (s : Sys N D) (i : N) (t : Nat) : Prop :=
  (s.node i).role = .leader ∧ (s.node i).term = t

/-- A log node `i` holds: LogManager's view or the content of its storage. -/
def Holds (s : Sys N D) (i : N) (l : Log N D) : Prop := l = (s.node i).log ∨ l = (s.node i).disk

/-- All environment assumptions. -/
def Normal : Params := ⟨true, true, true, true, true⟩

/-- All environment assumptions but one: `set_term_and_votedfor` may fail in `elect_self`. -/
abbrev NoMeta : Params := ⟨true, false, true, true, true⟩

/-- All environment assumptions but one: `elect_self` may start during the installation of a
snapshot. -/
abbrev NoInst : Params := ⟨true, true, false, true, true⟩

/-- All environment assumptions but one: a snapshot may become durable while the current term is
not. -/
abbrev NoDur : Params := ⟨true, true, true, false, true⟩

/-- All environment assumptions but one: `last_log_id(true)` may return without waiting for the
disk thread when the log ends at the last snapshot. -/
abbrev NoFlush : Params := ⟨true, true, true, true, false⟩

/-- All environment assumptions but one: the log of a voter may change while its RequestVote
handler waits. -/
abbrev NoStrict : Params := ⟨false, true, true, true, true⟩

end Spec

variable {N D : Type} [DecidableEq N] [DecidableEq D] {c0 : Conf N}

/-! ### C01 Election safety -/

theorem elections_unique {g : Glob N D} (h : GInv c0 g) {r r' : Elec N D}
    (hr : r ∈ g.elections) (hr' : r' ∈ g.elections) (ht : r.term = r'.term) : r = r' := by
  have hp := h.euniq
  rw [List.pairwise_iff_getElem] at hp
  obtain ⟨a, ha, hra⟩ := List.getElem_of_mem hr
  obtain ⟨b, hb, hrb⟩ := List.getElem_of_mem hr'
  rcases Nat.lt_trichotomy a b with hab | hab | hab
  · have := hp a b ha hb hab
    rw [hra, hrb] at this; exact absurd ht this
  · subst hab; rw [← hra, ← hrb]
  · have := hp b a hb ha hab
    rw [hra, hrb] at this; exact absurd ht.symm this

/-- C01/C31: whatever membership changes happen, a term has at most one leader, over the whole
execution. Partial: assumes that the environment assumptions hold (`Normal`). -/
theorem election_safety_partial {s s' : Sys N D} {i j : N} {t : Nat}
    (h : Reachable Normal c0 s) (h' : Steps Normal c0 s s')
    (hi : LeadsAt s i t) (hj : LeadsAt s' j t) : i = j := by
  have hI := inv_reachable h
  have hI' := inv_reachable (Steps.trans h h')
  obtain ⟨_, r, hr, hri, hrt, _⟩ := (hI.n i).lead hi.1
  obtain ⟨_, r', hr', hri', hrt', _⟩ := (hI'.n j).lead hj.1
  have := elections_unique hI'.g ((gle_steps h').elections r hr) hr'
    (by rw [hrt, hrt', hi.2, hj.2])
  rw [← hri, ← hri', this]

/-- 1 leads term 2, and later, peer 4 having been added, 4 leads term 3. -/
example : ∃ s s' : S, Reachable Normal c3 s ∧ Steps Normal c3 s s' ∧ LeadsAt s 1 2 ∧
    LeadsAt s' 4 3 ∧ LeadsAt s' 1 2 := by
  refine ⟨run first, run member, steps_of_ok first_ok, ?_, ?_, ?_, ?_⟩
  · exact steps_of_ok_append (List.prefix_append _ _) member_ok
  all_goals (unfold LeadsAt; decide)

/-- C01: without membership changes a term has at most one leader, with no assumption on
timing. Partial: `elect_self` must be able to persist the term (`metaOk`), see
`two_leaders_if_meta_write_fails`. -/
theorem election_safety_static_partial {p : Params} (hm : p.metaOk = true) {s s' : Sys N D} {i j : N} {t : Nat}
    (h : StaticSteps p c0 (initSys c0) s) (h' : StaticSteps p c0 s s')
    (hi : LeadsAt s i t) (hj : LeadsAt s' j t) : i = j := by
  have hI : SInv c0 s := sinv_steps hm sinv_init h
  have hI' : SInv c0 s' := sinv_steps hm hI h'
  obtain ⟨r, hr, hri, hrt⟩ := (hI.n i).ld hi.1
  obtain ⟨r', hr', hri', hrt'⟩ := (hI'.n j).ld hj.1
  obtain ⟨S, hS, hSv⟩ := hI'.er r ((gle_steps h'.steps).elections r hr)
  obtain ⟨S', hS', hSv'⟩ := hI'.er r' hr'
  obtain ⟨v, _, h1, h2⟩ := Ballot.majority_inter hS.1 hS'.1
  obtain ⟨k, hk⟩ := hSv v h1
  obtain ⟨k', hk'⟩ := hSv' v h2
  have := hI'.v.vuniq _ hk _ hk' (by rw [hrt, hrt', hi.2, hj.2]) rfl
  rw [← hri, ← hri']; exact this

/-- Two successive terms with different leaders, without membership change. -/
example : ∃ s : S, StaticSteps NoStrict c3 (initSys c3) s ∧ LeadsAt s 1 2 := by
  refine ⟨run (first.take 5), static_of_ok (by decide) (by decide), ?_⟩
  unfold LeadsAt; decide

/-- C01 fails when `elect_self` cannot persist the new term: the failure is only logged
(node.cpp:1739-1748), and the own vote is nevertheless counted when the last leader grants its
vote (1446-1449). After a restart node 1 votes for another candidate in that term. -/
theorem two_leaders_if_meta_write_fails :
    ∃ s s' : S, StaticSteps NoMeta c3 (initSys c3) s ∧
      StaticSteps NoMeta c3 s s' ∧ LeadsAt s 1 3 ∧ LeadsAt s' 3 3 := by
  refine ⟨run (twice.take 15), runActs c3 (run (twice.take 15)) (twice.drop 15),
    static_of_ok (by decide) (by decide), static_of_ok (by decide) (by decide), ?_, ?_⟩
  all_goals (unfold LeadsAt; decide)

/-! ### C02 Log matching -/

/-- C02/C31: two logs (in memory or on disk, of any nodes at any two moments) that hold entries of
the same term at one index are equal up to that index. -/
theorem log_matching_partial {s s' : Sys N D} {i j : N} {l l' : Log N D} {k : Nat}
    {e e' : Entry N D} (h : Reachable Normal c0 s) (h' : Steps Normal c0 s s')
    (hl : Holds s i l) (hl' : Holds s' j l') (he : l[k]? = some e) (he' : l'[k]? = some e')
    (ht : e.term = e'.term) : l.take (k + 1) = l'.take (k + 1) := by
  have hI := inv_reachable h
  have hI' := inv_reachable (Steps.trans h h')
  have g1 : Good s'.g l := by
    have : Good s.g l := by
      rcases hl with rfl | rfl
      · exact ((hI.n i).glog).1
      · exact (hI.n i).gd
    exact fun K a b => (gle_steps h').created K (this K a b)
  have g2 : Good s'.g l' := by
    rcases hl' with rfl | rfl
    · exact (hI'.n j).glog.1
    · exact (hI'.n j).gd
  have hk : k < l.length := (List.getElem?_eq_some_iff.mp he).1
  have hk' : k < l'.length := (List.getElem?_eq_some_iff.mp he').1
  apply good_eq hI'.g.toGBase
  · exact fun K a b => g1 K a (b.trans (List.take_prefix _ _))
  · exact fun K a b => g2 K a (b.trans (List.take_prefix _ _))
  · simp; omega
  · rw [lastTerm_take_succ he, lastTerm_take_succ he', ht]

/-- Nodes 1 and 2 hold an entry of term 2 at index 2. -/
example : ∃ s : S, Reachable Normal c3 s ∧ Holds s 1 (s.node 1).log ∧ Holds s 2 (s.node 2).disk ∧
    (s.node 1).log[1]? = some (da 2 7) ∧ (s.node 2).disk[1]? = some (da 2 7) :=
  ⟨run first, steps_of_ok first_ok, Or.inl rfl, Or.inr rfl, by decide, by decide⟩

/-! ### C03 Leader completeness -/

/-- What has been committed in a term at most `t` is in the log of a leader of term `t`. -/
theorem committed_in_leader {s' : Sys N D} {j : N} {t u : Nat} {X : Log N D} (hI' : Inv c0 s')
    (hX : Committed s'.g u X) (hj : LeadsAt s' j t) (ht : u ≤ t) : X <+: (s'.node j).log := by
  rcases hX with h0 | ⟨K, hK', hKt, hp⟩
  · rw [h0]; exact List.nil_prefix
  · obtain ⟨hall, r, hr, hri, hrt, es, hes, _⟩ := (hI'.n j).lead hj.1
    refine hp.trans ?_
    rcases Nat.lt_or_ge (lastTerm K) r.term with hlt | hge
    · rw [hes]
      exact (hI'.g.toGBase.lc hK' hr hlt).trans (List.prefix_append _ _)
    · apply hall K (hI'.g.com K hK').1
      rw [hj.2] at hrt ⊢; omega

theorem committed_later {p : Params} {s s' : Sys N D} {u : Nat} {X : Log N D}
    (h' : Steps p c0 s s') (hX : Committed s.g u X) : Committed s'.g u X :=
  hX.imp id (fun ⟨K, hK, h⟩ => ⟨K, (gle_steps h').commits K hK, h⟩)

/-- C03/C31: what a node counts as committed (an upper bound for the tasks whose closures ran with
OK) or has applied (itself or from a snapshot) is in the log of every leader of that or a later
term. -/
theorem leader_completeness_partial {s s' : Sys N D} {i j : N} {t n : Nat}
    (h : Reachable Normal c0 s) (h' : Steps Normal c0 s s')
    (hn : n ≤ (s.node i).commit ∨ n ≤ (s.node i).applied) (hj : LeadsAt s' j t)
    (ht : (s.node i).term ≤ t) :
    (s'.node j).log.take n = (s.node i).log.take n ∧ n ≤ (s'.node j).log.length := by
  have hI := inv_reachable h
  have hI' := inv_reachable (Steps.trans h h')
  have hcl := (hI.n i).cl
  have hap := (hI.n i).ap
  have hpre : (s.node i).log.take n <+: (s'.node j).log ∧ n ≤ (s.node i).log.length := by
    rcases hn with hn | hn
    · refine ⟨List.IsPrefix.trans ?_ (committed_in_leader hI' (committed_later h' (hI.n i).cc) hj ht),
        by omega⟩
      apply List.prefix_of_prefix_length_le (List.take_prefix _ _) (List.take_prefix _ _)
      simp; omega
    · refine ⟨List.IsPrefix.trans ?_ (committed_in_leader hI' (committed_later h' (hI.n i).ac) hj ht),
        by omega⟩
      apply List.prefix_of_prefix_length_le (List.take_prefix _ _) (List.take_prefix _ _)
      simp; omega
  have hlen := hpre.1.length_le
  rw [List.length_take, Nat.min_eq_left hpre.2] at hlen
  have := prefix_take hpre.1
  rw [List.length_take, Nat.min_eq_left hpre.2] at this
  exact ⟨this.symm, hlen⟩

/-- C03 in terms of what was applied. -/
theorem leader_has_applied_partial {s s' : Sys N D} {i j : N} {t k : Nat}
    (h : Reachable Normal c0 s) (h' : Steps Normal c0 s s')
    (hn : k < (s.node i).applied) (hj : LeadsAt s' j t) (ht : (s.node i).term ≤ t) :
    (s'.node j).log[k]? = (s.node i).log[k]? ∧ k < (s'.node j).log.length := by
  obtain ⟨h1, h2⟩ := leader_completeness_partial (n := k + 1) h h' (Or.inr hn) hj ht
  refine ⟨?_, by omega⟩
  have := congrArg (fun l => l[k]?) h1
  simpa [List.getElem?_take] using this

/-- Node 1 applied two entries and lost leadership; 2 leads a later term. -/
example : ∃ s s' : S, Reachable Normal c3 s ∧ Steps Normal c3 s s' ∧ 1 < (s.node 1).applied ∧
    2 ≤ (s.node 1).commit ∧ LeadsAt s' 2 3 ∧ (s.node 1).term ≤ 3 := by
  refine ⟨run first, run second, steps_of_ok first_ok, ?_, by decide, by decide, ?_, by decide⟩
  · exact steps_of_ok_append (List.prefix_append _ _) second_ok
  · unfold LeadsAt; decide

/-! ### C04 State machine safety -/

/-- C04/C31: two nodes never hand different entries to the state machine for one index.
`applies` is the list of all (node, index, entry) handed over in the execution. -/
theorem state_machine_safety_partial {s : Sys N D} {i j : N} {n : Nat} {e e' : Entry N D}
    (h : Reachable Normal c0 s) (hi : (i, n, e) ∈ s.g.applies) (hj : (j, n, e') ∈ s.g.applies) :
    e = e' := by
  have hI := inv_reachable h
  obtain ⟨_, K, hK, hKe⟩ := hI.g.app i n e hi
  obtain ⟨_, K', hK', hKe'⟩ := hI.g.app j n e' hj
  obtain ⟨_, Q, hQ, _, hQp⟩ := hI.g.com K hK
  obtain ⟨_, Q', hQ', _, hQp'⟩ := hI.g.com K' hK'
  have hg : ∀ (A B : Log N D) (x : Entry N D), A <+: B → A[n - 1]? = some x → B[n - 1]? = some x := by
    intro A B x hp hx
    obtain ⟨tl, rfl⟩ := hp
    rw [List.getElem?_append_left (List.getElem?_eq_some_iff.mp hx).1]; exact hx
  have h1 := hg _ _ _ hQp hKe
  have h2 := hg _ _ _ hQp' hKe'
  rcases direct_total hI.g.toGBase.core hQ hQ' with h' | h'
  · rw [hg _ _ _ h' h1] at h2; exact Option.some.inj h2
  · rw [hg _ _ _ h' h2] at h1; exact (Option.some.inj h1).symm

/-- C04, seen from the nodes: at any two moments two nodes agree on every index both have
applied. -/
theorem applied_logs_agree_partial {s s' : Sys N D} {i j : N} {k : Nat}
    (h : Reachable Normal c0 s) (h' : Steps Normal c0 s s')
    (hi : k ≤ (s.node i).applied) (hj : k ≤ (s'.node j).applied) :
    (s.node i).log.take k = (s'.node j).log.take k := by
  have hI := inv_reachable h
  have hI' := inv_reachable (Steps.trans h h')
  have tk : ∀ (l : Log N D) (m : Nat), k ≤ m → l.take k <+: l.take m := by
    intro l m hm
    apply List.prefix_of_prefix_length_le (List.take_prefix _ _) (List.take_prefix _ _)
    simp; omega
  have c1 := (committed_later h' (hI.n i).ac).pre (tk _ _ hi)
  have c2 := ((hI'.n j).ac).pre (tk _ _ hj)
  have l1 : ((s.node i).log.take k).length = k := by have := (hI.n i).ap; simp; omega
  have l2 : ((s'.node j).log.take k).length = k := by have := (hI'.n j).ap; simp; omega
  rcases hI'.g.toGBase.comm_total c1 c2 with h3 | h3
  · exact h3.eq_of_length (by omega)
  · exact (h3.eq_of_length (by omega)).symm

/-- Nodes 1 and 2 both applied index 2. -/
example : ∃ s : S, Reachable Normal c3 s ∧ (1, 2, da 2 7) ∈ s.g.applies ∧
    (2, 2, da 2 7) ∈ s.g.applies ∧ 2 ≤ (s.node 1).applied ∧ 2 ≤ (s.node 2).applied :=
  ⟨run first, steps_of_ok first_ok, by decide, by decide, by decide, by decide⟩

/-! ### C05 One vote per term -/

/-- C05: in one term a node answers granted=true to one candidate only, over the whole execution,
crashes and failed meta writes included. (Messages are never removed from `msgs`.) -/
theorem one_vote_per_term {p : Params} {s : Sys N D} {t : Nat} {v c c' : N}
    (h : Reachable p c0 s) (h1 : Msg.vr t v c ∈ s.g.msgs) (h2 : Msg.vr t v c' ∈ s.g.msgs) :
    c = c' := by
  have hI := vinv_reachable h
  obtain ⟨k, hk⟩ := hI.vr _ _ _ h1
  obtain ⟨k', hk'⟩ := hI.vr _ _ _ h2
  exact hI.vuniq _ hk _ hk' rfl rfl

/-- C05: a node that stored a vote for itself never grants that term to another candidate. -/
theorem own_vote_exclusive {p : Params} {s s' : Sys N D} {i c : N}
    (h : Reachable p c0 s) (h' : Steps p c0 s s') (hp : (s.node i).pvote = some i) :
    Msg.vr (s.node i).pterm i c ∉ s'.g.msgs := by
  intro hm
  have hI := vinv_reachable h
  have hI' := vinv_reachable (Steps.trans h h')
  obtain ⟨k, hk⟩ := (hI.n i).pv _ hp
  obtain ⟨k', hk'⟩ := hI'.vr _ _ _ hm
  have := hI'.vuniq _ ((gle_steps h').votes _ hk) _ hk' rfl rfl
  exact hI'.vrne _ _ _ hm this.symm

/-- 2 voted for 1 in term 2; 1 stored a vote for itself. -/
example : ∃ s : S, Reachable Normal c3 s ∧ Msg.vr 2 2 1 ∈ s.g.msgs ∧ (s.node 1).pvote = some 1 :=
  ⟨run first, steps_of_ok first_ok, by decide, by decide⟩

/-! ### C06 Terms never go backwards -/

/-- C06: a step changes a node's term and its stored term upwards only, except that a restart
falls back to the stored term, or to one above the log's if that is higher. -/
theorem term_monotonic {p : Params} {s s' : Sys N D} (h : Reachable p c0 s)
    (hs : Step p c0 s s') (i : N) :
    (s.node i).pterm ≤ (s'.node i).pterm ∧ (s'.node i).pterm ≤ (s'.node i).term ∧
    ((s.node i).term ≤ (s'.node i).term ∨
      (s'.node i = restart (s.node i) ∧ (s.node i).pterm ≤ (s'.node i).term ∧
        lastTerm (s'.node i).log ≤ (s'.node i).term)) := by
  have hI := vinv_reachable h
  have hI' := vinv_step hI hs
  refine ⟨?_, (hI'.n i).pt, ?_⟩
  · -- stored term
    have hpt := (hI.n i).pt
    obtain ⟨a, hp, rfl⟩ := hs
    have upd : ∀ (j : N) (n' : NodeSt N D), (s.node j).pterm ≤ n'.pterm →
        (s.node i).pterm ≤ (updF s.node j n' i).pterm := by
      intro j n' hx
      by_cases hij : i = j
      · subst hij; rw [updF_same]; exact hx
      · rw [updF_other _ _ hij]; exact Nat.le_refl _
    have hsd : ∀ j t ok, (s.node j).pterm ≤ (stepDown (s.node j) t ok).pterm := by
      intro j t ok
      have := (hI.n j).pt
      unfold stepDown
      split
      · show (s.node j).pterm ≤ if ok = true then t else (s.node j).pterm
        split <;> omega
      · exact Nat.le_refl _
    have hre : ∀ j, (s.node j).pterm ≤ (restart (s.node j)).pterm := by
      intro j
      simp only [restart, decide_eq_true_eq]
      split <;> omega
    cases a with
    | raiseTerm j t ok => exact upd j _ (hsd j t ok)
    | electSend j o => exact upd j _ (hI.n j).pt
    | electCrash j o => exact upd j _ (hre j)
    | crash j => exact upd j _ (hre j)
    | becomeLeader j q =>
      by_cases hij : i = j
      · subst hij; simp [eff, sysAppend, lead, updF, appendOwn]
      · simp [eff, sysAppend, lead, updF, hij]
    | voteEnd j f ok g =>
      simp only [eff]
      have key : (s.node j).pterm ≤ (voteFinish (s.node j) f ok g).1.pterm := by
        unfold voteFinish
        generalize hn1 : (if (s.node j).term < f.reqTerm then stepDown (s.node j) f.reqTerm ok
          else s.node j) = n1
        have e1 : (s.node j).pterm ≤ n1.pterm := by
          rw [← hn1]; split
          · exact hsd j _ _
          · exact Nat.le_refl _
        have e0 : n1.pterm ≤ n1.term := by
          rw [← hn1]; split
          · exact ((hI.n j).stepDown _ _).pt
          · exact (hI.n j).pt
        simp only []
        split
        · have e2 : n1.pterm ≤ (stepDown { n1 with vframes := (s.node j).vframes.erase f } f.reqTerm ok).pterm := by
            unfold stepDown
            split
            · next hlt =>
              show n1.pterm ≤ if ok = true then f.reqTerm else n1.pterm
              have hlt' : n1.term < f.reqTerm := hlt
              split <;> omega
            · exact Nat.le_refl _
          split
          · show (s.node j).pterm ≤ (stepDown { n1 with vframes := (s.node j).vframes.erase f } f.reqTerm ok).term
            rw [stepDown_term]
            show (s.node j).pterm ≤ max n1.term f.reqTerm
            omega
          · exact Nat.le_trans e1 e2
        · exact e1
      split
      · exact upd j _ key
      · exact upd j _ key
    | recvAE j t prev pt es c ok gone =>
      have key : (s.node j).pterm ≤ (handleAE (s.node j) t prev pt es c ok gone).1.pterm := by
        have e1 : (s.node j).pterm ≤ (aeStepDown (s.node j) t ok).pterm := by
          unfold aeStepDown; split
          · exact hsd j _ _
          · exact Nat.le_refl _
        unfold handleAE
        simp only []
        split
        · exact e1
        · split
          · exact e1
          · split
            · exact e1
            · exact e1
      simp only [eff]
      split
      · exact upd j _ key
      · exact upd j _ key
    | disk j =>
      simp only [eff, diskStep]
      split
      · exact Nat.le_refl _
      · split
        · exact upd j _ (Nat.le_refl _)
        · exact upd j _ (Nat.le_refl _)
        · exact upd j _ (Nat.le_refl _)
        · split <;> exact upd j _ (Nat.le_refl _)
        · split <;> exact upd j _ (Nat.le_refl _)
    | electStart j => exact upd j _ (Nat.le_refl _)
    | electFail j o => exact upd j _ (Nat.le_refl _)
    | voteBegin j t cand claim => exact upd j _ (Nat.le_refl _)
    | voteDrop j f => exact upd j _ (Nat.le_refl _)
    | voteAgain j t cand => exact Nat.le_refl _
    | propose j ds => exact upd j _ (Nat.le_refl _)
    | changeConf j c => exact upd j _ (Nat.le_refl _)
    | sendAE j prev cnt c => exact Nat.le_refl _
    | commit j k q => exact upd j _ (Nat.le_refl _)
    | apply j => exact upd j _ (Nat.le_refl _)
    | saveSnap j k => exact upd j _ (Nat.le_refl _)
    | sendIS j => exact Nat.le_refl _
    | recvIS j t K ok =>
      have e1 : (s.node j).pterm ≤ (aeStepDown (s.node j) t ok).pterm := by
        unfold aeStepDown; split
        · exact hsd j _ _
        · exact Nat.le_refl _
      have key : (s.node j).pterm ≤ (handleIS (s.node j) t K ok).pterm := by
        unfold handleIS
        dsimp only
        split
        · exact e1
        · exact e1
      exact upd j _ key
    | copied j => exact upd j _ (Nat.le_refl _)
    | loaded j =>
      have key : (s.node j).pterm ≤ (handleLoaded (s.node j) (s.node j).psnap).pterm := by
        unfold handleLoaded
        split
        · split <;> exact Nat.le_refl _
        · exact Nat.le_refl _
      exact upd j _ key
    | dlDrop j => exact upd j _ (Nat.le_refl _)
  · -- current term
    obtain ⟨a, hp, rfl⟩ := hs
    have upd : ∀ (j : N) (n' : NodeSt N D), (s.node j).term ≤ n'.term →
        (s.node i).term ≤ (updF s.node j n' i).term := by
      intro j n' hx
      by_cases hij : i = j
      · subst hij; rw [updF_same]; exact hx
      · rw [updF_other _ _ hij]; exact Nat.le_refl _
    have hsd : ∀ (n : NodeSt N D) t ok, n.term ≤ (stepDown n t ok).term := by
      intro n t ok
      rw [stepDown_term]; exact Nat.le_max_left _ _
    have hcr : ∀ j : N, (s.node i).term ≤ (updF s.node j (restart (s.node j)) i).term ∨
        (updF s.node j (restart (s.node j)) i = restart (s.node i) ∧
          (s.node i).pterm ≤ (updF s.node j (restart (s.node j)) i).term ∧
          lastTerm (updF s.node j (restart (s.node j)) i).log ≤
            (updF s.node j (restart (s.node j)) i).term) := by
      intro j
      by_cases hij : i = j
      · subst hij
        right
        rw [updF_same]
        refine ⟨rfl, ?_, ?_⟩
        · simp only [restart, decide_eq_true_eq]; split <;> omega
        · simp only [restart, decide_eq_true_eq]; split <;> omega
      · left; rw [updF_other _ _ hij]; exact Nat.le_refl _
    cases a with
    | electCrash j o => exact hcr j
    | crash j => exact hcr j
    | raiseTerm j t ok => exact Or.inl (upd j _ (hsd _ t ok))
    | electStart j => exact Or.inl (upd j _ (Nat.le_succ _))
    | electSend j o => exact Or.inl (upd j _ (Nat.le_refl _))
    | becomeLeader j q =>
      left
      by_cases hij : i = j
      · subst hij; simp [eff, sysAppend, lead, updF, appendOwn]
      · simp [eff, sysAppend, lead, updF, hij]
    | voteEnd j f ok g =>
      left
      simp only [eff]
      have key : (s.node j).term ≤ (voteFinish (s.node j) f ok g).1.term := by
        unfold voteFinish
        generalize hn1 : (if (s.node j).term < f.reqTerm then stepDown (s.node j) f.reqTerm ok
          else s.node j) = n1
        have e1 : (s.node j).term ≤ n1.term := by
          rw [← hn1]; split
          · exact hsd _ _ _
          · exact Nat.le_refl _
        simp only []
        split
        · have := hsd { n1 with vframes := (s.node j).vframes.erase f } f.reqTerm ok
          have this' : n1.term ≤ _ := this
          split <;> exact Nat.le_trans e1 this'
        · exact e1
      split
      · exact upd j _ key
      · exact upd j _ key
    | recvAE j t prev pt es c ok gone =>
      left
      have key : (s.node j).term ≤ (handleAE (s.node j) t prev pt es c ok gone).1.term := by
        have e1 : (s.node j).term ≤ (aeStepDown (s.node j) t ok).term := by
          unfold aeStepDown; split
          · exact hsd _ _ _
          · exact Nat.le_refl _
        unfold handleAE
        simp only []
        split
        · exact e1
        · split
          · exact e1
          · split
            · exact e1
            · exact e1
      simp only [eff]
      split
      · exact upd j _ key
      · exact upd j _ key
    | disk j =>
      left
      simp only [eff, diskStep]
      split
      · exact Nat.le_refl _
      · split
        · exact upd j _ (Nat.le_refl _)
        · exact upd j _ (Nat.le_refl _)
        · exact upd j _ (Nat.le_refl _)
        · split <;> exact upd j _ (Nat.le_refl _)
        · split <;> exact upd j _ (Nat.le_refl _)
    | electFail j o => exact Or.inl (upd j _ (Nat.le_refl _))
    | voteBegin j t cand claim => exact Or.inl (upd j _ (Nat.le_refl _))
    | voteDrop j f => exact Or.inl (upd j _ (Nat.le_refl _))
    | voteAgain j t cand => exact Or.inl (Nat.le_refl _)
    | propose j ds => exact Or.inl (upd j _ (Nat.le_refl _))
    | changeConf j c => exact Or.inl (upd j _ (Nat.le_refl _))
    | sendAE j prev cnt c => exact Or.inl (Nat.le_refl _)
    | commit j k q => exact Or.inl (upd j _ (Nat.le_refl _))
    | apply j => exact Or.inl (upd j _ (Nat.le_refl _))
    | saveSnap j k => exact Or.inl (upd j _ (Nat.le_refl _))
    | sendIS j => exact Or.inl (Nat.le_refl _)
    | recvIS j t K ok =>
      have e1 : (s.node j).term ≤ (aeStepDown (s.node j) t ok).term := by
        unfold aeStepDown; split
        · exact hsd _ _ _
        · exact Nat.le_refl _
      have key : (s.node j).term ≤ (handleIS (s.node j) t K ok).term := by
        unfold handleIS
        dsimp only
        split
        · exact e1
        · exact e1
      exact Or.inl (upd j _ key)
    | copied j => exact Or.inl (upd j _ (Nat.le_refl _))
    | loaded j =>
      have key : (s.node j).term ≤ (handleLoaded (s.node j) (s.node j).psnap).term := by
        unfold handleLoaded
        split
        · split <;> exact Nat.le_refl _
        · exact Nat.le_refl _
      exact Or.inl (upd j _ key)
    | dlDrop j => exact Or.inl (upd j _ (Nat.le_refl _))

/-- A restart does lower a node's term when the term was not persisted. -/
example : ∃ s s' : S, Reachable Normal c3 s ∧ Step Normal c3 s s' ∧
    (s'.node 1).term < (s.node 1).term :=
  ⟨run [.electStart 1], run [.electStart 1, .crash 1], steps_of_ok (by decide),
    ⟨.crash 1, trivial, rfl⟩, by decide⟩

/-! ### C07 Votes only go to up-to-date candidates -/

/-- C07: when a vote is newly granted, the candidate's announced last log id is at least the
voter's last log id at the moment the handler started (`s0`), in the same term, and it answers a
request that candidate sent. Partial: not "at the moment the vote is granted", see
`vote_race_breaks_safety`. -/
theorem vote_up_to_date_partial {p : Params} {s : Sys N D} {i : N} {f : VFrame N} {ok g : Bool}
    (h : Reachable p c0 s) (hp : pre p c0 s (.voteEnd i f ok g))
    (hg : (voteFinish (s.node i) f ok g).2 = true) :
    ∃ s0, Reachable p c0 s0 ∧ Steps p c0 s0 s ∧ (s0.node i).term = (s.node i).term ∧
      Msg.rv f.reqTerm f.cand f.claim ∈ s0.g.msgs ∧
      idLe (lastId (s0.node i).log) f.claim = true ∧
      (p.strict = true → lastId (s0.node i).log = lastId (s.node i).log) := by
  obtain ⟨hf, hp⟩ := hp
  obtain ⟨s0, h1, h2, h3, h4, h5⟩ := vframe_origin h i f hf
  refine ⟨s0, h1, h2, by rw [h3, hp.1], h5, ?_, ?_⟩
  · rw [h4]
    unfold voteFinish at hg
    generalize (if (s.node i).term < f.reqTerm then stepDown (s.node i) f.reqTerm ok
      else s.node i) = n1 at hg
    simp only [] at hg
    by_cases hx : idLe f.lastId f.claim = true ∧ n1.vote = none
    · exact hx.1
    · rw [if_neg hx] at hg; cases hg
  · intro hst
    rw [h4]; exact hp.2 hst

/-- 3 grants its vote for term 3 to 2, whose last log id is (2, 2). -/
example : ∃ (s : S) (f : VFrame Nat), Reachable Normal c3 s ∧
    pre Normal c3 s (.voteEnd 3 f true true) ∧ (voteFinish (s.node 3) f true true).2 = true ∧
    f.cand = 2 ∧ f.claim = (2, 2) :=
  ⟨run (second.take 26), ⟨3, 2, (2, 2), 1, (0, 0)⟩, steps_of_ok (by decide),
    preB_sound (by decide), by decide, rfl, rfl⟩

/-! ### What goes wrong without the assumptions -/

/-- C03, C04, C07 fail when an AppendEntries of the same term is handled while a RequestVote
handler waits outside the mutex (node.cpp:2225-2234 re-checks the term only; raft_enable_leader_lease is off, its default): node 2 grants its
vote to 3 although its own log is longer, leader 3 lacks an entry node 1 has applied, and nodes 1
and 3 apply different entries at index 2. -/
theorem vote_race_breaks_safety :
    ∃ s1 s2 s3 : S, Reachable NoStrict c3 s1 ∧ Steps NoStrict c3 s1 s2 ∧
      Steps NoStrict c3 s2 s3 ∧
      -- C07: in s1 node 2 has a log of two entries of term 2; the next action grants 3 its vote,
      -- whose announced last log id is (0, 0)
      s2 = eff c3 s1 (.voteEnd 2 ⟨3, 3, (0, 0), 2, (0, 0)⟩ true true) ∧ lastId (s1.node 2).log = (2, 2) ∧
      Msg.vr 3 2 3 ∉ s1.g.msgs ∧ Msg.vr 3 2 3 ∈ s2.g.msgs ∧
      (∀ cl, Msg.rv 3 3 cl ∈ s2.g.msgs → cl = (0, 0)) ∧
      -- C03: node 1 applied (2, data 7); leader 3 of a later term has something else there
      (s1.node 1).applied = 2 ∧ (s1.node 1).log[1]? = some (da 2 7) ∧ LeadsAt s3 3 3 ∧
      (s3.node 3).log[1]? = some (da 3 8) ∧
      -- C04
      (1, 2, da 2 7) ∈ s3.g.applies ∧ (3, 2, da 3 8) ∈ s3.g.applies := by
  refine ⟨run (race.take 22), run (race.take 23), run race, steps_of_ok (by decide), ?_, ?_, rfl,
    by decide, by decide, by decide, ?_, by decide, by decide, by unfold LeadsAt; decide,
    by decide, by decide, by decide⟩
  · exact steps_of_ok_append (l' := race.take 23) ⟨[.voteEnd 2 ⟨3, 3, (0, 0), 2, (0, 0)⟩ true true], rfl⟩ (by decide)
  · exact steps_of_ok_append (l' := race) (List.take_prefix _ _) (by decide)
  · intro cl hcl
    have : (run (race.take 23)).g.msgs =
        [.vr 3 2 3, .ar 2 1 2, .ar 2 1 1, .ar 2 2 2, .ae 2 0 0 [ce 2 c3, da 2 7] 0,
         .rv 3 3 (0, 0), .vr 2 2 1, .rv 2 1 (0, 0)] := by decide
    rw [this] at hcl
    simpa using hcl

/-- C02 fails when the write of the new term in `elect_self` fails (node.cpp:1739-1748 only logs
it): node 1 leads term 2 twice with different logs, and nodes 2 and 3 hold different entries of
the same term at index 2. -/
theorem log_matching_fails_if_meta_write_fails :
    ∃ s : S, Reachable NoMeta c3 s ∧
      (s.node 2).log[1]? = some (da 2 7) ∧ (s.node 3).log[1]? = some (da 2 8) :=
  ⟨run lost, steps_of_ok lost_ok, by decide, by decide⟩

/-! ### C42 Followers never commit beyond the leader -/

/-- C42: what a node counts as committed was the committed prefix of a leader of a term at most
the node's, at an earlier (or this) moment: the index is not above that leader's committed index
and the entries are the leader's. -/
theorem follower_commit_bounded_partial {s : Sys N D} (h : Reachable Normal c0 s) (i : N) :
    (s.node i).commit = 0 ∨
    ∃ s0 j, Reachable Normal c0 s0 ∧ Steps Normal c0 s0 s ∧
      LeadsAt s0 j (s0.node j).term ∧ (s0.node j).term ≤ (s.node i).term ∧
      (s.node i).commit ≤ (s0.node j).commit ∧ (s.node i).commit ≤ (s.node i).log.length ∧
      (s.node i).log.take (s.node i).commit = (s0.node j).log.take (s.node i).commit := by
  have hI := inv_reachable h
  have hcl := (hI.n i).cl
  rcases (hI.n i).cc with h0 | ⟨K, hK, hKt, hp⟩
  · left
    have := congrArg List.length h0
    rw [List.length_take] at this
    simp only [List.length_nil] at this
    omega
  · right
    obtain ⟨s0, j, h1, h2, h3, h4, h5, h6⟩ := commits_origin h K hK
    have hlen := hp.length_le
    rw [List.length_take, h6] at hlen
    have hle : (s.node i).commit ≤ (s0.node j).commit := by omega
    refine ⟨s0, j, h1, h2, ⟨h3, rfl⟩, by rw [h5]; exact hKt, hle, hcl, ?_⟩
    have e1 := prefix_take hp
    rw [List.length_take, Nat.min_eq_left hcl, ← h4, List.take_take, Nat.min_eq_left hle] at e1
    exact e1

/-- Node 2, a follower, has committed two entries. -/
example : ∃ s : S, Reachable Normal c3 s ∧ (s.node 2).role = .follower ∧ (s.node 2).commit = 2 :=
  ⟨run first, steps_of_ok first_ok, by decide, by decide⟩

/-- C42 for what has been applied, by applying entries or by loading a snapshot: it was the
committed prefix of a leader. -/
theorem applied_bounded_partial {s : Sys N D} (h : Reachable Normal c0 s) (i : N) :
    (s.node i).applied = 0 ∨
    ∃ s0 j, Reachable Normal c0 s0 ∧ Steps Normal c0 s0 s ∧
      LeadsAt s0 j (s0.node j).term ∧ (s0.node j).term ≤ (s.node i).term ∧
      (s.node i).applied ≤ (s0.node j).commit ∧
      (s.node i).sm = (s0.node j).log.take (s.node i).applied := by
  have hI := inv_reachable h
  have hap := (hI.n i).ap
  have hsm := (hI.n i).smi
  rcases (hI.n i).ac with h0 | ⟨K, hK, hKt, hp⟩
  · left
    have := congrArg List.length h0
    rw [List.length_take] at this
    simp only [List.length_nil] at this
    omega
  · right
    obtain ⟨s0, j, h1, h2, h3, h4, h5, h6⟩ := commits_origin h K hK
    have hlen := hp.length_le
    rw [List.length_take, h6] at hlen
    have hle : (s.node i).applied ≤ (s0.node j).commit := by omega
    refine ⟨s0, j, h1, h2, ⟨h3, rfl⟩, by rw [h5]; exact hKt, hle, ?_⟩
    have e1 := prefix_take hp
    rw [List.length_take, Nat.min_eq_left hap, ← h4, List.take_take, Nat.min_eq_left hle] at e1
    rw [hsm]; exact e1

/-- Node 3 restarted: nothing is known to be committed, but it has applied its snapshot. -/
example : ∃ s : S, Reachable Normal c3 s ∧ (s.node 3).commit = 0 ∧ (s.node 3).applied = 2 :=
  ⟨run install, steps_of_ok install_ok, by decide, by decide⟩

/-! ### C57 Snapshots and logs tell the same history -/

/-- C57/C04: `sm` is the list of entries the state machine contains, whether it applied them one by
one, loaded them with a snapshot of its own or installed them from another node. It is the
beginning of the node's log up to the applied index. -/
theorem state_machine_content_partial {s : Sys N D} (h : Reachable Normal c0 s) (i : N) :
    (s.node i).sm = (s.node i).log.take (s.node i).applied ∧
    (s.node i).sm.length = (s.node i).applied := by
  have hI := inv_reachable h
  refine ⟨(hI.n i).smi, ?_⟩
  rw [(hI.n i).smi, List.length_take]
  exact Nat.min_eq_left (hI.n i).ap

/-- C57/C04: at any two moments the state machines of any two nodes are comparable: one contains
what the other does, and possibly more. -/
theorem state_machines_agree_partial {s s' : Sys N D} {i j : N}
    (h : Reachable Normal c0 s) (h' : Steps Normal c0 s s') :
    (s.node i).sm <+: (s'.node j).sm ∨ (s'.node j).sm <+: (s.node i).sm := by
  have hI := inv_reachable h
  have hI' := inv_reachable (Steps.trans h h')
  rw [(hI.n i).smi, (hI'.n j).smi]
  exact hI'.g.toGBase.comm_total (committed_later h' (hI.n i).ac) (hI'.n j).ac

/-- C57: the snapshot in a node's storage and every snapshot being shipped or installed is a
beginning of the same history: comparable with every state machine, and contained in the log of
every leader of the stored term or a later one. -/
theorem snapshots_agree_partial {s s' : Sys N D} {i j : N}
    (h : Reachable Normal c0 s) (h' : Steps Normal c0 s s') :
    ((s.node i).psnap <+: (s'.node j).sm ∨ (s'.node j).sm <+: (s.node i).psnap) ∧
    (∀ t, LeadsAt s' j t → (s.node i).pterm ≤ t → (s.node i).psnap <+: (s'.node j).log) ∧
    ∀ t K, Msg.is t K ∈ s.g.msgs →
      (K <+: (s'.node j).sm ∨ (s'.node j).sm <+: K) ∧
      ∀ u, LeadsAt s' j u → t ≤ u → K <+: (s'.node j).log := by
  have hI := inv_reachable h
  have hI' := inv_reachable (Steps.trans h h')
  rw [(hI'.n j).smi]
  refine ⟨?_, ?_, ?_⟩
  · exact hI'.g.toGBase.comm_total (committed_later h' (hI.n i).cs) (hI'.n j).ac
  · intro t hj ht
    exact committed_in_leader hI' (committed_later h' (hI.n i).cs) hj ht
  · intro t K hK
    have hc := committed_later h' (hI.g.is t K hK)
    exact ⟨hI'.g.toGBase.comm_total hc (hI'.n j).ac,
      fun u hj hu => committed_in_leader hI' hc hj hu⟩

/-- C57: the state machine of a node never loses anything, except that a restart begins with the
content of the stored snapshot. In particular loading a snapshot never takes it back. -/
theorem state_machine_grows_partial {s s' : Sys N D} (h : Reachable Normal c0 s)
    (hs : Step Normal c0 s s') (i : N) :
    (s.node i).sm <+: (s'.node i).sm ∨
      (s'.node i = restart (s.node i) ∧ (s'.node i).sm = (s.node i).psnap) := by
  have hI := inv_reachable h
  have hI' := inv_step hI hs
  obtain ⟨a, hp, rfl⟩ := hs
  have upd : ∀ (j : N) (n' : NodeSt N D), (s.node j).sm <+: n'.sm →
      (s.node i).sm <+: (updF s.node j n' i).sm := by
    intro j n' hx
    by_cases hij : i = j
    · subst hij; rw [updF_same]; exact hx
    · rw [updF_other _ _ hij]; exact List.prefix_refl _
  have same : ∀ (j : N) (n' : NodeSt N D), n'.sm = (s.node j).sm →
      (s.node i).sm <+: (updF s.node j n' i).sm := by
    intro j n' hx
    exact upd j n' (by rw [hx]; exact List.prefix_refl _)
  have hsd : ∀ (n : NodeSt N D) t ok, (stepDown n t ok).sm = n.sm := by
    intro n t ok; unfold stepDown; split <;> rfl
  have hae : ∀ (n : NodeSt N D) t ok, (aeStepDown n t ok).sm = n.sm := by
    intro n t ok; unfold aeStepDown; split
    · exact hsd _ _ _
    · rfl
  have hcr : ∀ j : N, (s.node i).sm <+: (updF s.node j (restart (s.node j)) i).sm ∨
      (updF s.node j (restart (s.node j)) i = restart (s.node i) ∧
        (updF s.node j (restart (s.node j)) i).sm = (s.node i).psnap) := by
    intro j
    by_cases hij : i = j
    · subst hij; right; rw [updF_same]; exact ⟨rfl, rfl⟩
    · left; rw [updF_other _ _ hij]; exact List.prefix_refl _
  cases a with
  | electCrash j o => exact hcr j
  | crash j => exact hcr j
  | raiseTerm j t ok => exact Or.inl (same j _ (hsd _ _ _))
  | electStart j => exact Or.inl (same j _ rfl)
  | electSend j o => exact Or.inl (same j _ rfl)
  | electFail j o => exact Or.inl (same j _ rfl)
  | becomeLeader j q =>
    left
    by_cases hij : i = j
    · subst hij; simp [eff, sysAppend, lead, updF, appendOwn]
    · simp [eff, sysAppend, lead, updF, hij]
  | voteBegin j t cand claim => exact Or.inl (same j _ rfl)
  | voteEnd j f ok g =>
    left
    have key : (voteFinish (s.node j) f ok g).1.sm = (s.node j).sm := by
      unfold voteFinish
      generalize hn1 : (if (s.node j).term < f.reqTerm then stepDown (s.node j) f.reqTerm ok
        else s.node j) = n1
      have e1 : n1.sm = (s.node j).sm := by
        rw [← hn1]; split
        · exact hsd _ _ _
        · rfl
      simp only []
      split
      · split
        · show (stepDown _ f.reqTerm ok).sm = _
          rw [hsd]; exact e1
        · show (stepDown _ f.reqTerm ok).sm = _
          rw [hsd]; exact e1
      · exact e1
    simp only [eff]
    split
    · exact same j _ key
    · exact same j _ key
  | voteDrop j f => exact Or.inl (same j _ rfl)
  | voteAgain j t cand => exact Or.inl (List.prefix_refl _)
  | propose j ds => exact Or.inl (same j _ rfl)
  | changeConf j c => exact Or.inl (same j _ rfl)
  | sendAE j prev cnt c => exact Or.inl (List.prefix_refl _)
  | recvAE j t prev pt es c ok gone =>
    left
    have key : (handleAE (s.node j) t prev pt es c ok gone).1.sm = (s.node j).sm := by
      have e1 := hae (s.node j) t ok
      unfold handleAE
      simp only []
      split
      · exact e1
      · split
        · exact e1
        · split
          · exact e1
          · exact e1
    simp only [eff]
    split
    · exact same j _ key
    · exact same j _ key
  | disk j =>
    left
    simp only [eff, diskStep]
    split
    · exact List.prefix_refl _
    · split
      · exact same j _ rfl
      · exact same j _ rfl
      · exact same j _ rfl
      · split <;> exact same j _ rfl
      · split <;> exact same j _ rfl
  | commit j k q => exact Or.inl (same j _ rfl)
  | apply j => exact Or.inl (upd j _ (List.prefix_append _ _))
  | saveSnap j k => exact Or.inl (same j _ rfl)
  | sendIS j => exact Or.inl (List.prefix_refl _)
  | recvIS j t K ok =>
    left
    have key : (handleIS (s.node j) t K ok).sm = (s.node j).sm := by
      have e1 := hae (s.node j) t ok
      unfold handleIS
      dsimp only
      split
      · exact e1
      · exact e1
    exact same j _ key
  | copied j => exact Or.inl (same j _ rfl)
  | loaded j =>
    left
    refine upd j _ ?_
    have hst := (hI.n j).stale_iff hI.g.toGBase (hI.n j).cs
    have hcmp := hI.g.toGBase.comm_total (hI.n j).ac (hI.n j).cs
    rw [← (hI.n j).smi] at hcmp
    have hlen : (s.node j).sm.length = (s.node j).applied := by
      rw [(hI.n j).smi, List.length_take]; exact Nat.min_eq_left (hI.n j).ap
    unfold handleLoaded
    split
    · next hle =>
      have hle' := hst.mp hle
      have : (s.node j).sm <+: (s.node j).psnap := by
        rcases hcmp with h1 | h1
        · exact h1
        · have h2 := h1.eq_of_length_le (by omega)
          rw [h2]; exact List.prefix_refl _
      split
      · exact this
      · exact this
    · exact List.prefix_refl _
  | dlDrop j => exact Or.inl (same j _ rfl)

/-- Node 3, whose log and state machine were empty, has installed two entries from node 1, and
later applied a third one itself. -/
example : ∃ s s' s'' : S, Reachable Normal c3 s ∧ Steps Normal c3 s s' ∧ Steps Normal c3 s' s'' ∧
    (s.node 3).sm = [] ∧ (s.node 3).log = [] ∧ Msg.is 2 k2 ∈ s.g.msgs ∧
    (s'.node 3).sm = k2 ∧ (s'.node 3).log = k2 ∧ (s'.node 3).disk = [] ∧
    (s'.node 3).psnap = k2 ∧ (s'.node 1).sm = k2 ∧
    (s''.node 3).sm = k2 ++ [da 2 9] ∧ LeadsAt s'' 1 2 ∧ (s''.node 3).disk = k2 ++ [da 2 9] := by
  refine ⟨run (install.take 24), run (install.take 27), run (install.take 40),
    steps_of_ok (by decide), ?_, ?_, by decide, by decide, by decide, by decide, by decide,
    by decide, by decide, by decide, by decide, by unfold LeadsAt; decide, by decide⟩
  · exact steps_of_ok_append (l' := install.take 27)
      ⟨[.recvIS 3 2 k2 true, .copied 3, .loaded 3], rfl⟩ (by decide)
  · exact steps_of_ok_append (l' := install.take 40)
      ⟨(install.take 40).drop 27, rfl⟩ (by decide)

/-! ### What goes wrong without the assumptions, with snapshots -/

/-- C01/C31 fails when a node stands for election while it installs a snapshot: `pre_vote` checks
that at its beginning only (node.cpp:1619-1625), neither `handle_pre_vote_response` (1502-1580) nor
`handle_timeout_now_request` (1092-1145) nor `elect_self` (1681-1750) does. The vote context is
initialised with the old configuration, and when `last_log_id(true)` returns, the snapshot with
the new one has been loaded; so 1 asks for votes with an up-to-date log and counts them in a
configuration that is no longer in force. -/
theorem two_leaders_if_electing_while_installing :
    ∃ s s' : S, Reachable NoInst c3 s ∧ Steps NoInst c3 s s' ∧ LeadsAt s 1 3 ∧ LeadsAt s' 1 3 ∧
      LeadsAt s' 3 3 := by
  refine ⟨run (inst.take 50), run inst, steps_of_ok (by decide +kernel), ?_, ?_, ?_, ?_⟩
  · exact steps_of_ok_append (List.take_prefix _ _) inst_ok
  all_goals (unfold LeadsAt; decide +kernel)

/-- C03 fails when `last_log_id(true)` does not wait for the disk thread (log_manager.cpp:198-201:
the log ends at the last snapshot): a LeaderStableClosure of an earlier leadership of the node,
still queued, then counts as acknowledgement of entries of the new one (node.cpp:1998-2022 and
ballot_box.cpp:60-117 look at indices only). Node 1 applies index 4, restarts and has not got it;
the leader of the next term has not got it either. -/
theorem committed_entry_lost_by_early_ack :
    ∃ s s' : S, Reachable NoFlush c3 s ∧ Steps NoFlush c3 s s' ∧ LeadsAt s 1 4 ∧
      (1, 4, da 4 5) ∈ s.g.applies ∧ LeadsAt s' 2 5 ∧ (s'.node 2).log[3]? = none ∧
      (s'.node 1).log[3]? = none := by
  refine ⟨run (early.take 49), run early, steps_of_ok (by decide +kernel), ?_, ?_, ?_, ?_, ?_, ?_⟩
  · exact steps_of_ok_append (List.take_prefix _ _) early_ok
  · unfold LeadsAt; decide +kernel
  · decide +kernel
  · unfold LeadsAt; decide +kernel
  · decide +kernel
  · decide +kernel

/-- C03/C57 fails when a snapshot becomes durable although the term it was received in is not
(`step_down` only logs the failure of `set_term_and_votedfor`, node.cpp:1845-1851, and the
installation goes on). Node 5 restarts with the snapshot, in a term older than the one that
committed it; it follows the leader of that term, whose log differs from what 5 has applied, and
answers success for an entry it does not have (log_manager.cpp:357-364). No violation of C04 by this
is known: the leader of the old term cannot commit any more. -/
theorem applied_not_in_leader_if_term_not_durable :
    ∃ s s' : S, Reachable NoDur c5 s ∧ Step NoDur c5 s s' ∧
      (s.node 5).applied = 1 ∧ (s.node 5).log = [ce 2 c5] ∧ LeadsAt s 1 3 ∧ (s.node 5).term = 3 ∧
      (s.node 1).log = [ce 3 c5] ∧ Msg.ae 3 0 0 [ce 3 c5] 0 ∈ s.g.msgs ∧
      Msg.ar 3 5 1 ∉ s.g.msgs ∧ Msg.ar 3 5 1 ∈ s'.g.msgs ∧
      (s'.node 5).log = [ce 2 c5] ∧ (s'.node 5).queue = (s.node 5).queue := by
  refine ⟨runActs c5 (initSys c5) (stale.take 44),
    eff c5 (runActs c5 (initSys c5) (stale.take 44)) (.recvAE 5 3 0 0 [ce 3 c5] 0 true false),
    steps_of_ok (by decide +kernel), ⟨.recvAE 5 3 0 0 [ce 3 c5] 0 true false, preB_sound ?_, rfl⟩,
    ?_, ?_, ?_, ?_, ?_, ?_, ?_, ?_, ?_, ?_⟩
  all_goals (try unfold LeadsAt); decide +kernel

end Braft.Props
