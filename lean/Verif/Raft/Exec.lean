import Verif.Raft.Model
/-
An executable check of `pre`, so that concrete executions of the cluster model can be shown by
evaluation. Used for the examples and counterexamples in `Verif/Props/Raft.lean`.
-/
set_option linter.unusedVariables false
set_option linter.unusedSimpArgs false
set_option linter.unusedSectionVars false

namespace Braft.Raft
variable {N D : Type} [DecidableEq N] [DecidableEq D]

/-- Decides `lastIdOk`. -/
def lastIdB (p : Params) (s : Sys N D) (i : N) (o : Log N D) : Bool :=
  decide ((o ∈ s.g.hist i ∧ noAckL (s.node i).queue = true) ∨
    (p.flushOk = false ∧ o = (s.node i).snap ∧ (s.node i).log.length = (s.node i).snap.length))

/-- Decides `pre`. -/
def preB (p : Params) (c0 : Conf N) (s : Sys N D) : Act N D → Bool
  | .raiseTerm i t _ => decide ((s.node i).term ≤ t)
  | .electStart i => decide ((s.node i).role ≠ .leader ∧
      (p.instOk = true → (s.node i).dl = none) ∧ (i ∈ (confOf c0 (s.node i).log).peers ∨ i ∈ (confOf c0 (s.node i).log).old))
  | .electSend i o => decide ((s.node i).elect = some (s.node i).term) && lastIdB p s i o
  | .electCrash i o => decide ((s.node i).elect = some (s.node i).term) && lastIdB p s i o
  | .electFail i o => decide (p.metaOk = false ∧ (s.node i).elect = some (s.node i).term) &&
      lastIdB p s i o
  | .becomeLeader i q => decide ((s.node i).role = .candidate ∧ (s.node i).ready = true ∧
      (s.node i).bconf.Quorum (fun v => decide (v ∈ q))) &&
      q.all (fun v => if v = i then
        decide (p.metaOk = false ∨
          ((s.node i).pterm = (s.node i).term ∧ (s.node i).pvote = some i))
        else decide (Msg.vr (s.node i).term v i ∈ s.g.msgs))
  | .voteBegin i t cand claim =>
      decide (Msg.rv t cand claim ∈ s.g.msgs ∧ (s.node i).term ≤ t ∧ cand ≠ i)
  | .voteEnd i f _ _ => decide (f ∈ (s.node i).vframes ∧ f.savedTerm = (s.node i).term ∧
      (p.strict = true → f.lastId = lastId (s.node i).log))
  | .voteDrop i f => decide (f ∈ (s.node i).vframes)
  | .voteAgain i t cand => s.g.msgs.any (fun m => match m with
        | .rv t' c' _ => decide (t' = t ∧ c' = cand)
        | _ => false) &&
      decide (cand ≠ i ∧ (s.node i).term = t ∧ (s.node i).vote = some cand)
  | .propose i ds => decide ((s.node i).role = .leader ∧ ds ≠ [])
  | .changeConf i c => decide ((s.node i).role = .leader ∧
      lastConfIdx (s.node i).log ≤ (s.node i).commit ∧
      confStepOk (confOf c0 (s.node i).log) c = true)
  | .sendAE i prev _ c => decide ((s.node i).role = .leader ∧ prev ≤ (s.node i).log.length ∧
      c ≤ (s.node i).commit)
  | .recvAE i t prev pt es c _ gone =>
      decide (Msg.ae t prev pt es c ∈ s.g.msgs ∧ (s.node i).term ≤ t ∧
        (gone = true → 0 < prev ∧ prev < (s.node i).snap.length))
  | .disk i => decide ((s.node i).queue ≠ [])
  | .commit i k q => decide ((s.node i).role = .leader ∧ (s.node i).commit < k ∧
      k ≤ (s.node i).log.length ∧ termAt (s.node i).log k = (s.node i).term ∧
      (confOf c0 ((s.node i).log.take k)).Quorum (fun v => decide (v ∈ q))) &&
      q.all (fun v => s.g.msgs.any (fun m => match m with
        | .ar t w u => decide (t = (s.node i).term ∧ w = v ∧ k ≤ u)
        | _ => false))
  | .apply i => decide ((s.node i).applied < (s.node i).commit)
  | .crash _ => true
  | .saveSnap i k => decide ((s.node i).dl = none ∧ (s.node i).psnap.length < k ∧
      k ≤ (s.node i).applied ∧ (p.durOk = true → (s.node i).pterm = (s.node i).term))
  | .sendIS i => decide ((s.node i).role = .leader ∧ (s.node i).psnap ≠ [])
  | .recvIS i t K _ => decide (Msg.is t K ∈ s.g.msgs ∧ (s.node i).term ≤ t)
  | .copied i => decide ((s.node i).dl ≠ none ∧
      (p.durOk = true → (s.node i).pterm = (s.node i).term))
  | .loaded i => decide ((s.node i).dl = some (s.node i).psnap)
  | .dlDrop i => decide ((s.node i).dl ≠ none ∧ (s.node i).dl ≠ some (s.node i).psnap)

theorem preB_sound {p : Params} {c0 : Conf N} {s : Sys N D} {a : Act N D}
    (h : preB p c0 s a = true) : pre p c0 s a := by
  cases a with
  | becomeLeader i q =>
    simp only [preB, Bool.and_eq_true, decide_eq_true_eq, List.all_eq_true] at h
    refine ⟨h.1.1, h.1.2.1, h.1.2.2, ?_⟩
    intro v hv
    have := h.2 v hv
    by_cases hvi : v = i
    · rw [if_pos hvi] at this ⊢; simpa using this
    · rw [if_neg hvi] at this ⊢; simpa using this
  | voteAgain i t cand =>
    simp only [preB, Bool.and_eq_true, decide_eq_true_eq, List.any_eq_true] at h
    obtain ⟨⟨m, hm, hm'⟩, h2⟩ := h
    refine ⟨⟨m, hm, ?_⟩, h2⟩
    cases m with
    | rv t' c' cl =>
      simp only [decide_eq_true_eq] at hm'
      obtain ⟨rfl, rfl⟩ := hm'
      exact ⟨cl, rfl⟩
    | _ => simp at hm'
  | commit i k q =>
    simp only [preB, Bool.and_eq_true, decide_eq_true_eq, List.any_eq_true, List.all_eq_true] at h
    obtain ⟨⟨h1, h2, h3, h4, h5⟩, h6⟩ := h
    refine ⟨h1, h2, h3, h4, h5, ?_⟩
    intro v hv
    obtain ⟨m, hm, hm'⟩ := h6 v hv
    refine ⟨m, hm, ?_⟩
    cases m with
    | ar t w u =>
      simp only [decide_eq_true_eq] at hm'
      obtain ⟨rfl, rfl, h7⟩ := hm'
      exact ⟨u, rfl, h7⟩
    | _ => simp at hm'
  | crash i => trivial
  | electSend i o => simpa [preB, pre, lastIdB, lastIdOk] using h
  | electCrash i o => simpa [preB, pre, lastIdB, lastIdOk] using h
  | electFail i o =>
    simp only [preB, lastIdB, Bool.and_eq_true, decide_eq_true_eq] at h
    exact ⟨h.1.1, h.1.2, h.2⟩
  | _ => simp only [preB, decide_eq_true_eq] at h; exact h

/-- The state after a list of actions. -/
def runActs (c0 : Conf N) (s : Sys N D) (as : List (Act N D)) : Sys N D := as.foldl (eff c0) s

/-- Is every action of the list possible when its turn comes? -/
def okActs (p : Params) (c0 : Conf N) : Sys N D → List (Act N D) → Bool
  | _, [] => true
  | s, a :: as => preB p c0 s a && okActs p c0 (eff c0 s a) as

theorem Steps.trans {p : Params} {c0 : Conf N} {a b c : Sys N D} (h1 : Steps p c0 a b)
    (h2 : Steps p c0 b c) : Steps p c0 a c := by
  induction h2 with
  | refl => exact h1
  | tail _ h ih => exact .tail ih h

theorem steps_of_ok {p : Params} {c0 : Conf N} {s : Sys N D} {as : List (Act N D)}
    (h : okActs p c0 s as = true) : Steps p c0 s (runActs c0 s as) := by
  induction as generalizing s with
  | nil => exact .refl
  | cons a as ih =>
    simp only [okActs, Bool.and_eq_true] at h
    exact Steps.trans (.tail .refl ⟨a, preB_sound h.1, rfl⟩) (ih h.2)

theorem okActs_append {p : Params} {c0 : Conf N} {s : Sys N D} {as bs : List (Act N D)} :
    okActs p c0 s (as ++ bs) = (okActs p c0 s as && okActs p c0 (runActs c0 s as) bs) := by
  induction as generalizing s with
  | nil => rfl
  | cons a as ih => simp [okActs, ih, runActs, Bool.and_assoc]

/-- From the end of a prefix of a possible execution to its end. -/
theorem steps_of_ok_append {p : Params} {c0 : Conf N} {s : Sys N D} {l l' : List (Act N D)}
    (hp : l <+: l') (h : okActs p c0 s l' = true) :
    Steps p c0 (runActs c0 s l) (runActs c0 s l') := by
  obtain ⟨bs, rfl⟩ := hp
  rw [okActs_append, Bool.and_eq_true] at h
  have := steps_of_ok h.2
  simpa [runActs, List.foldl_append] using this

end Braft.Raft
