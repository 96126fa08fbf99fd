import Verif.Raft.Static
/-
Where the pieces of a state come from: earlier states of the same execution.
-/
set_option linter.unusedVariables false
set_option linter.unusedSimpArgs false
set_option linter.unusedSectionVars false

namespace Braft.Raft
variable {N D : Type} [DecidableEq N] [DecidableEq D] {p : Params} {c0 : Conf N}

theorem stepDown_vframe (n : NodeSt N D) (t : Nat) (ok : Bool) :
    (stepDown n t ok).vframes = n.vframes := by unfold stepDown; split <;> rfl

theorem handleAE_vframe (n : NodeSt N D) (t prev pt : Nat) (es : List (Entry N D)) (c : Nat)
    (ok gone : Bool) : (handleAE n t prev pt es c ok gone).1.vframes = n.vframes := by
  have h1 : (aeStepDown n t ok).vframes = n.vframes := by
    unfold aeStepDown; split
    · exact stepDown_vframe _ _ _
    · rfl
  unfold handleAE
  simp only []
  split
  · exact h1
  · split
    · exact h1
    · split
      · exact h1
      · exact h1

theorem handleIS_vframe (n : NodeSt N D) (t : Nat) (K : Log N D) (ok : Bool) :
    (handleIS n t K ok).vframes = n.vframes := by
  have h1 : (aeStepDown n t ok).vframes = n.vframes := by
    unfold aeStepDown; split
    · exact stepDown_vframe _ _ _
    · rfl
  unfold handleIS
  dsimp only
  split
  · exact h1
  · exact h1

theorem handleLoaded_vframe (n : NodeSt N D) (K : Log N D) :
    (handleLoaded n K).vframes = n.vframes := by
  unfold handleLoaded
  split
  · split <;> rfl
  · rfl

theorem voteFinish_vframe (n : NodeSt N D) (f : VFrame N) (ok g : Bool) :
    (voteFinish n f ok g).1.vframes = n.vframes.erase f := by
  unfold voteFinish
  generalize (if n.term < f.reqTerm then stepDown n f.reqTerm ok else n) = n1
  simp only []
  by_cases h : idLe f.lastId f.claim = true ∧ n1.vote = none
  · rw [if_pos h]
    by_cases hg : g = true
    · rw [if_pos hg]; simp only [stepDown_vframe]
    · rw [if_neg hg]; simp only [stepDown_vframe]
  · rw [if_neg h]

theorem diskStep_vframe (s : Sys N D) (i j : N) :
    ((diskStep s i).node j).vframes = (s.node j).vframes := by
  unfold diskStep
  simp only []
  split
  · rfl
  · split
    · simp only [updF]; split <;> simp_all
    · simp only [updF]; split <;> simp_all
    · simp only [updF]; split <;> simp_all
    · split <;> (simp only [updF]; split <;> simp_all)
    · split <;> (simp only [updF]; split <;> simp_all)

/-- A vote frame is created by `voteBegin` and otherwise kept or dropped. -/
theorem vframe_eff (s : Sys N D) (a : Act N D) (i : N) (f : VFrame N)
    (h : f ∈ ((eff c0 s a).node i).vframes) :
    f ∈ (s.node i).vframes ∨ ∃ t cand claim, a = .voteBegin i t cand claim ∧
      f = ⟨t, cand, claim, (s.node i).term, lastId (s.node i).log⟩ := by
  have upd : ∀ (j : N) (n' : NodeSt N D), f ∈ (updF s.node j n' i).vframes →
      (f ∈ n'.vframes → f ∈ (s.node j).vframes) → f ∈ (s.node i).vframes := by
    intro j n' hx hy
    by_cases hij : i = j
    · subst hij; rw [updF_same] at hx; exact hy hx
    · rw [updF_other _ _ hij] at hx; exact hx
  cases a with
  | raiseTerm j t ok => exact Or.inl (upd j _ h (by rw [stepDown_vframe]; exact id))
  | electStart j => exact Or.inl (upd j _ h id)
  | electSend j o => exact Or.inl (upd j _ h id)
  | electCrash j o => exact Or.inl (upd j _ h (by intro hx; simp [restart] at hx))
  | electFail j o => exact Or.inl (upd j _ h id)
  | becomeLeader j q =>
    left
    by_cases hij : i = j
    · subst hij; simpa [eff, sysAppend, lead, updF, appendOwn] using h
    · simpa [eff, sysAppend, lead, updF, hij] using h
  | voteBegin j t cand claim =>
    by_cases hij : i = j
    · subst hij
      simp only [eff, setNode, updF_same, List.mem_cons] at h
      rcases h with h | h
      · exact Or.inr ⟨t, cand, claim, rfl, h⟩
      · exact Or.inl h
    · left; simpa [eff, setNode, updF, hij] using h
  | voteEnd j f' ok g =>
    left
    simp only [eff] at h
    split at h
    · exact upd j _ h (by rw [voteFinish_vframe]; exact List.mem_of_mem_erase)
    · exact upd j _ h (by rw [voteFinish_vframe]; exact List.mem_of_mem_erase)
  | voteDrop j f' => exact Or.inl (upd j _ h List.mem_of_mem_erase)
  | voteAgain j t cand => exact Or.inl h
  | propose j ds => exact Or.inl (upd j _ h id)
  | changeConf j c => exact Or.inl (upd j _ h id)
  | sendAE j prev cnt c => exact Or.inl h
  | recvAE j t prev pt es c ok gone =>
    left
    simp only [eff] at h
    split at h
    · exact upd j _ h (by rw [handleAE_vframe]; exact id)
    · exact upd j _ h (by rw [handleAE_vframe]; exact id)
  | disk j => left; simpa [eff, diskStep_vframe] using h
  | commit j k q => exact Or.inl (upd j _ h id)
  | apply j => exact Or.inl (upd j _ h id)
  | crash j => exact Or.inl (upd j _ h (by intro hx; simp [restart] at hx))
  | saveSnap j k => exact Or.inl (upd j _ h id)
  | sendIS j => exact Or.inl h
  | recvIS j t K ok => exact Or.inl (upd j _ h (by rw [handleIS_vframe]; exact id))
  | copied j => exact Or.inl (upd j _ h id)
  | loaded j => exact Or.inl (upd j _ h (by rw [handleLoaded_vframe]; exact id))
  | dlDrop j => exact Or.inl (upd j _ h id)

/-- The moment a vote handler compared the logs. -/
theorem vframe_origin {s : Sys N D} (h : Reachable p c0 s) (i : N) (f : VFrame N)
    (hf : f ∈ (s.node i).vframes) :
    ∃ s0, Reachable p c0 s0 ∧ Steps p c0 s0 s ∧ (s0.node i).term = f.savedTerm ∧
      lastId (s0.node i).log = f.lastId ∧ Msg.rv f.reqTerm f.cand f.claim ∈ s0.g.msgs := by
  have : ∀ s' : Sys N D, Steps p c0 (initSys c0) s' → f ∈ (s'.node i).vframes →
    ∃ s0, Reachable p c0 s0 ∧ Steps p c0 s0 s' ∧ (s0.node i).term = f.savedTerm ∧
      lastId (s0.node i).log = f.lastId ∧ Msg.rv f.reqTerm f.cand f.claim ∈ s0.g.msgs := by
    intro s' hs
    induction hs with
    | refl => intro hx; simp [initSys, freshNode] at hx
    | @tail s1 s2 h1 h2 ih =>
      intro hx
      have h2' := h2
      obtain ⟨a, hp, rfl⟩ := h2
      rcases vframe_eff s1 a i f hx with h' | ⟨t, cand, claim, rfl, rfl⟩
      · obtain ⟨s0, a1, a2, a3⟩ := ih h'
        exact ⟨s0, a1, .tail a2 h2', a3⟩
      · exact ⟨s1, h1, .tail .refl h2', rfl, rfl, hp.1⟩
  exact this s h hf

theorem commits_eff (s : Sys N D) (a : Act N D) (K : Log N D)
    (h : K ∈ (eff c0 s a).g.commits) :
    K ∈ s.g.commits ∨ ∃ i k q, a = .commit i k q ∧ K = (s.node i).log.take k := by
  cases a with
  | commit i k q =>
    simp only [eff, List.mem_cons] at h
    rcases h with rfl | h
    · exact Or.inr ⟨i, k, q, rfl, rfl⟩
    · exact Or.inl h
  | voteEnd j f ok g =>
    left
    simp only [eff] at h
    split at h <;> exact h
  | recvAE j t prev pt es c ok gone =>
    left
    simp only [eff] at h
    split at h <;> exact h
  | disk j =>
    left
    simp only [eff, diskStep] at h
    split at h
    · exact h
    · split at h
      · exact h
      · exact h
      · exact h
      · split at h <;> exact h
      · split at h <;> exact h
  | _ => exact Or.inl h

/-- Every committed prefix was the committed prefix of a leader. -/
theorem commits_origin {s : Sys N D} (h : Reachable p c0 s) (K : Log N D)
    (hK : K ∈ s.g.commits) :
    ∃ s0 j, Reachable p c0 s0 ∧ Steps p c0 s0 s ∧ (s0.node j).role = .leader ∧
      (s0.node j).log.take (s0.node j).commit = K ∧ (s0.node j).term = lastTerm K ∧
      K.length = (s0.node j).commit := by
  have : ∀ s' : Sys N D, Steps p c0 (initSys c0) s' → K ∈ s'.g.commits →
    ∃ s0 j, Reachable p c0 s0 ∧ Steps p c0 s0 s' ∧ (s0.node j).role = .leader ∧
      (s0.node j).log.take (s0.node j).commit = K ∧ (s0.node j).term = lastTerm K ∧
      K.length = (s0.node j).commit := by
    intro s' hs
    induction hs with
    | refl => intro hx; simp [initSys, initGlob] at hx
    | @tail s1 s2 h1 h2 ih =>
      intro hx
      have h2' := h2
      obtain ⟨a, hp, rfl⟩ := h2
      rcases commits_eff s1 a K hx with h' | ⟨i, k, q, rfl, rfl⟩
      · obtain ⟨s0, j, a1, a2, a3⟩ := ih h'
        exact ⟨s0, j, a1, .tail a2 h2', a3⟩
      · refine ⟨_, i, .tail h1 h2', .refl, ?_, ?_, ?_, ?_⟩
        · simp only [eff, updF_same]; exact hp.1
        · simp only [eff, updF_same]
        · simp only [eff, updF_same]
          rw [← hp.2.2.2.1, termAt_take hp.2.2.1]
        · simp only [eff, updF_same, List.length_take]
          have := hp.2.2.1
          omega
  exact this s h hK

end Braft.Raft
