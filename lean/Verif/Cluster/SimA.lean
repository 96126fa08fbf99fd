import Verif.Cluster.Rel
/-
Simulation of step_down, elections and votes.
-/
set_option linter.unusedVariables false
set_option linter.unusedSimpArgs false
set_option linter.unusedSectionVars false

namespace Braft.Cl
open Braft.Raft
variable {N D : Type} [DecidableEq N] [DecidableEq D] {c0 : Conf N} {g : Glob N D}
  {ev : List (Ev N D)} {i : N} {c : Srv N D} {n : NodeSt N D}

theorem stepDown_eq (n : NodeSt N D) (t : Nat) (ok : Bool) :
    stepDown n t ok = { n with
      role := .follower, ready := false,
      term := if n.term < t then t else n.term,
      vote := if n.term < t then none else n.vote,
      pterm := if n.term < t ∧ ok = true then t else n.pterm,
      pvote := if n.term < t ∧ ok = true then none else n.pvote } := by
  unfold stepDown
  by_cases h : n.term < t
  · simp only [if_pos h]
    cases ok <;> simp [h]
  · simp only [if_neg h]
    simp [h]

/-- The ballot while `elect_self` is pending. -/
theorem NR.noVotes (h : NR c0 g ev i c n) {f : EFrame} (hf : f ∈ c.elects) (ht : f.term = c.term) :
    Ballot.Inv n.bconf.peers (oldOf n.bconf) (fun _ => false) c.ctx.ballot := by
  obtain ⟨h1, h2, h3, h4⟩ := (h.el f hf).now ht
  cases hs : c.state with
  | leader => rw [hs] at h2; cases h2
  | transferring => rw [hs] at h2; cases h2
  | follower => exact (h.pend hs f hf ht).2.1
  | candidate =>
    obtain ⟨S, s1, s2⟩ := h.cand hs
    have : S = fun _ => false := by
      funext v
      cases hv : S v with
      | false => rfl
      | true =>
        have := (s2 v hv).1
        rw [h3] at this; cases this
    rw [this] at s1; exact s1

/-- The clause `pend` after `step_down` within the term. -/
theorem NR.pendDown (h : NR c0 g ev i c n) {f : EFrame} (hf : f ∈ c.elects) (ht : f.term = c.term)
    (t : Nat) (ok : Bool) :
    Ballot.Inv n.bconf.peers (oldOf n.bconf) (fun _ => false) (sStepDown c t ok).ctx.ballot ∧
    (sStepDown c t ok).ctx.version ∉ c.timers := by
  have hb := h.noVotes hf ht
  obtain ⟨h1, h2, h3, h4⟩ := (h.el f hf).now ht
  simp only [sStepDown]
  split
  · refine ⟨hb, fun hx => ?_⟩
    have := h.vrs.2 _ hx
    simp only [VoteCtx.reset] at this
    omega
  · rename_i hc
    refine ⟨hb, ?_⟩
    cases hs : c.state with
    | leader => rw [hs] at h2; cases h2
    | transferring => rw [hs] at h2; cases h2
    | candidate => exact absurd hs hc
    | follower => exact (h.pend hs f hf ht).2.2

theorem NR.stepDown (h : NR c0 g ev i c n) (t : Nat) (ok : Bool)
    (hq : c.term < t ∨ ∀ f ∈ c.elects, f.term = c.term →
      ¬ n.bconf.Quorum (fun v => decide (v = i))) :
    NR c0 g ev i (sStepDown c t ok) (stepDown n t ok) := by
  rw [stepDown_eq]
  exact {
    term := by simp only [sStepDown, h.term, decide_eq_true_eq]
    vote := by simp only [sStepDown, h.term, h.vote, decide_eq_true_eq]
    role := Or.inl rfl
    pterm := by simp only [sStepDown, h.term, h.pterm, Bool.and_eq_true, decide_eq_true_eq]
    pvote := by simp only [sStepDown, h.term, h.pvote, Bool.and_eq_true, decide_eq_true_eq]
    log := h.log
    disk := h.disk
    snap := h.snap
    psnap := h.psnap
    dl := h.dl
    applied := h.applied
    sm := h.sm
    queue := h.queue
    commit := by
      simp only [sStepDown]
      rw [h.commit]
      split <;> rfl
    vf := h.vf
    el := fun f hf => by
      have hf' := h.el f hf
      exact {
        le := by
          simp only [sStepDown]
          have := hf'.le
          split
          · rename_i hx; simp at hx; omega
          · exact this
        rest := hf'.rest
        claim := hf'.claim
        now := by
          simp only [sStepDown]
          intro he
          split at he
          · rename_i hx; simp at hx; have := hf'.le; omega
          · obtain ⟨h1, h2, h3, h4⟩ := hf'.now he
            exact ⟨h1, rfl, trivial, h4⟩ }
    eln := h.eln
    sn := h.sn
    pend := fun _ f hf he => by
      have hle := (h.el f hf).le
      have hlt : ¬ c.term < t := fun hlt => by
        simp only [sStepDown, decide_eq_true_eq, if_pos hlt] at he
        omega
      have he : f.term = c.term := by
        simp only [sStepDown, decide_eq_true_eq, if_neg hlt] at he
        exact he
      exact ⟨Or.inr (hq.resolve_left hlt f hf he), h.pendDown hf he t ok⟩
    cand := fun hc => by simp [sStepDown] at hc
    rpc := fun hc => by simp [sStepDown] at hc
    vrs := by
      simp only [sStepDown]
      have hv := h.vrs
      split
      · simp only [VoteCtx.reset]
        exact ⟨fun r hr => by have := hv.1 r hr; omega, fun r hr => by have := hv.2 r hr; omega⟩
      · exact hv
    ask := fun hc => by simp [sStepDown] at hc
    lead := fun hl => by simp [sStepDown, St.leads] at hl
    fol := fun _ => by
      simp only [sStepDown]
      split
      · exact ⟨rfl, rfl⟩
      · rename_i hx
        exact h.fol (by simpa using hx)
    me := fun hl => by simp [sStepDown, St.leads] at hl
    lid := fun l hl => by simp [sStepDown] at hl
    repl := fun f hf => by
      refine ⟨?_, fun hc => (by cases hc), fun hl => by simp [sStepDown, St.leads] at hl⟩
      simp only [sStepDown]
      have := (h.repl f hf).1
      split
      · rename_i hx; simp at hx; omega
      · exact this }

@[simp] theorem sStepDown_state (c : Srv N D) (t : Nat) (ok : Bool) :
    (sStepDown c t ok).state = .follower := rfl

theorem sStepDown_term (c : Srv N D) (t : Nat) (ok : Bool) :
    (sStepDown c t ok).term = max c.term t := by
  simp only [sStepDown, decide_eq_true_eq]
  split <;> omega

/-- `step_down` of a node that does not lead, within its term: nothing abstract happens. -/
theorem NR.stepSoft (h : NR c0 g ev i c n) (ok : Bool) (hl : c.state.leads = false) :
    NR c0 g ev i (sStepDown c c.term ok) n := by
  have ht : (sStepDown c c.term ok).term = c.term := by simp [sStepDown]
  exact { h with
    term := by rw [ht]; exact h.term
    vote := by simp only [sStepDown]; simpa using h.vote
    role := by
      cases hs : c.state with
      | leader => rw [hs] at hl; cases hl
      | transferring => rw [hs] at hl; cases hl
      | candidate =>
        have := h.role
        rw [hs] at this
        rcases this with h1 | h1
        · right; exact ⟨rfl, h1, rfl⟩
        · cases h1.1
      | follower =>
        have := h.role
        rw [hs] at this
        rcases this with h1 | h1
        · left; exact h1
        · right; exact ⟨rfl, h1.2.1, rfl⟩
    pterm := by simp only [sStepDown]; simpa using h.pterm
    pvote := by simp only [sStepDown]; simpa using h.pvote
    commit := by
      simp only [sStepDown, hl]; exact h.commit
    el := fun f hf => by
      have hx := h.el f hf
      exact { le := by rw [ht]; exact hx.le
              rest := hx.rest
              claim := hx.claim
              now := fun he => by
                rw [ht] at he
                obtain ⟨h1, h2, h3, h4⟩ := hx.now he
                exact ⟨h1, rfl, h3, h4⟩ }
    cand := fun hc => by simp [sStepDown] at hc
    rpc := fun hc => by simp [sStepDown] at hc
    pend := fun _ f hf he => by
      rw [ht] at he
      refine ⟨?_, h.pendDown hf he _ ok⟩
      cases hs : c.state with
      | leader => rw [hs] at hl; cases hl
      | transferring => rw [hs] at hl; cases hl
      | follower => exact (h.pend hs f hf he).1
      | candidate =>
        have := h.role
        rw [hs] at this
        rcases this with h1 | h1
        · exact Or.inl h1
        · cases h1.1
    vrs := by
      simp only [sStepDown]
      have hv := h.vrs
      split
      · simp only [VoteCtx.reset]
        exact ⟨fun r hr => by have := hv.1 r hr; omega, fun r hr => by have := hv.2 r hr; omega⟩
      · exact hv
    ask := fun hc => by simp [sStepDown] at hc
    lead := fun hl => by simp [sStepDown, St.leads] at hl
    fol := fun _ => by
      simp only [sStepDown, hl]
      exact h.fol hl
    me := fun hl => by simp [sStepDown, St.leads] at hl
    lid := fun l hl => by simp [sStepDown] at hl
    repl := fun f hf => by
      rw [ht]
      exact ⟨(h.repl f hf).1, (h.repl f hf).2.1, fun hl => by simp [sStepDown, St.leads] at hl⟩ }

/-- `step_down` is `raiseTerm`. -/
theorem sim_stepDown {a : Sys N D} (h : NR c0 a.g ev i c (a.node i)) (t : Nat) (ok : Bool)
    (ht : c.term ≤ t)
    (hq : c.term < t ∨ ∀ f ∈ c.elects, f.term = c.term →
      ¬ (a.node i).bconf.Quorum (fun v => decide (v = i))) :
    ∃ a', Sim1 c0 i a a' ∧ NR c0 a'.g ev i (sStepDown c t ok) (a'.node i) ∧
      a'.g = a.g := by
  refine ⟨eff c0 a (.raiseTerm i t ok), sim_act i _ rfl ?_, ?_, rfl⟩
  · show (a.node i).term ≤ t
    rw [h.term]; exact ht
  · simp only [eff, setNode, updF_same]
    exact h.stepDown t ok hq

theorem hist_self {s : Sys N D} {i : N} (l : Log N D) : l ∈ (s.g.held i l).hist i := by
  simp [Glob.held, updF]

/-- The log of a node that is all in the storage or in its queue. -/
theorem askId_eq (h : NR c0 g ev i c n) (hn : NodeInv c0 g i n) : askId c = lastId c.log := by
  unfold askId
  split
  · rename_i hl
    have hp := hn.sn
    rw [h.snap, h.log] at hp
    rw [hp.eq_of_length hl.symm]
  · rw [drain_rel h.queue, ← h.disk, ← hn.mem, h.log]

theorem leads_role (h : NR c0 g ev i c n) : c.state.leads = true ↔ n.role = .leader := by
  rcases h.role with h1 | ⟨h1, h2, _⟩
  · rw [h1]; cases c.state <;> simp [St.leads, roleOf]
  · rw [h1, h2]; simp [St.leads]

theorem cand_role (h : NR c0 g ev i c n) (hc : c.state = .candidate) : n.role = .candidate := by
  rcases h.role with h1 | ⟨h1, h2, _⟩
  · rw [h1, hc]; rfl
  · exact h2

theorem fol_role (h : NR c0 g ev i c n) (hc : c.state = .follower) (hl : c.leaderId ≠ none) :
    n.role = .follower := by
  rcases h.role with h1 | ⟨h1, h2, h3⟩
  · rw [h1, hc]; rfl
  · exact absurd h3 hl

/-- `step_down` that does not lead to following another node. -/
theorem sim_stepAny {a : Sys N D} (h : NR c0 a.g ev i c (a.node i)) (t : Nat) (ok : Bool)
    (ht : c.term ≤ t) :
    ∃ a', Sim1 c0 i a a' ∧ NR c0 a'.g ev i (sStepDown c t ok) (a'.node i) ∧
      a'.g = a.g := by
  by_cases hlt : c.term < t
  · exact sim_stepDown h t ok ht (Or.inl hlt)
  · have e : t = c.term := by omega
    subst e
    cases hl : c.state.leads with
    | false => exact ⟨a, Sim1.refl _ _ _, h.stepSoft ok hl, rfl⟩
    | true =>
      refine sim_stepDown h _ ok ht (Or.inr (fun f hf he => ?_))
      have := ((h.el f hf).now he).2.1
      rw [hl] at this; cases this

/-- `elect_self`, first half. -/
theorem NR.electStart (h : NR c0 g ev i c n) (hn : NodeInv c0 g i n) (stepped : Bool)
    (hl : c.state.leads = false) (hok : electOk CNorm c = true)
    (hm : ¬(i ∉ (confOf c0 c.log).peers ∧ i ∉ (confOf c0 c.log).old)) :
    NR c0 g ev i (sElectA c0 i c stepped) (electStart c0 i n) := by
  have hflush : c.log.length ≠ c.snap.length ∨ noLeaderJob c.queue = true := by
    simp [electOk] at hok
    exact hok.2
  unfold sElectA Raft.electStart
  rw [if_neg hm]
  exact {
    term := by simp [h.term]
    vote := rfl
    role := Or.inl rfl
    pterm := h.pterm
    pvote := h.pvote
    log := h.log
    disk := h.disk
    snap := h.snap
    psnap := h.psnap
    dl := h.dl
    applied := h.applied
    sm := h.sm
    queue := h.queue
    commit := h.commit
    vf := h.vf
    el := fun f hf => by
      simp only [List.mem_cons] at hf
      rcases hf with rfl | hf
      · exact {
          le := Nat.le_refl _
          rest := by
            simp only [askRest]; split <;> simp
          claim := by
            simp only [askRest, askId]
            split
            · right; exact ⟨_, h.sn, by rw [h.snap]⟩
            · by_cases hq : 0 < c.queue.length
              · left
                exact ⟨hq, by rw [List.take_of_length_le (Nat.le_refl c.queue.length)]⟩
              · right
                have : c.queue = [] := List.eq_nil_of_length_eq_zero (by omega)
                refine ⟨_, hn.hd, ?_⟩
                rw [this, h.disk]; rfl
          now := fun _ => by
            refine ⟨by simp [h.term], rfl, rfl, ?_⟩
            simp only [askRest]
            split
            · rename_i hx
              rcases hflush with h1 | h1
              · exact absurd hx h1
              · simpa using h1
            · rw [List.drop_of_length_le (Nat.le_refl c.queue.length)]; rfl }
      · have := h.el f hf
        exact { le := by show f.term ≤ c.term + 1; have := this.le; omega
                rest := this.rest
                claim := this.claim
                now := fun he => by
                  have h1 := this.le
                  have h2 : f.term = c.term + 1 := he
                  omega }
    eln := by
      simp only [List.map_cons, List.nodup_cons]
      refine ⟨?_, h.eln⟩
      intro hx
      obtain ⟨f, hf, he⟩ := List.mem_map.mp hx
      have h1 := (h.el f hf).le
      omega
    sn := h.sn
    cand := fun _ => ⟨fun _ => false, by
      rw [h.log]
      exact ⟨Ballot.inv_init _ _, by simp⟩⟩
    rpc := fun _ hx => by
      exfalso
      simp only [VoteCtx.init, VoteCtx.reset] at hx
      rcases hx with ⟨r, hr, he⟩ | hx
      · have := h.vrs.1 r hr; omega
      · have := h.vrs.2 _ hx; omega
    pend := fun hc => by cases hc
    vrs := by
      simp only [VoteCtx.init, VoteCtx.reset]
      exact ⟨fun r hr => by have := h.vrs.1 r hr; omega, fun r hr => by have := h.vrs.2 r hr; omega⟩
    ask := fun _ hr => by cases hr
    lead := fun hx => by simp [St.leads] at hx
    fol := fun _ => h.fol hl
    me := fun hx => by simp [St.leads] at hx
    lid := fun l hx => by cases hx
    repl := fun f hf => by
      have := (h.repl f hf).1
      exact ⟨by show f.term ≤ c.term + 1; omega, fun _ => by show f.term < c.term + 1; omega,
        fun hx => by simp [St.leads] at hx⟩ }

theorem sim_electA {a : Sys N D} (hi : Inv c0 a) (h : NR c0 a.g ev i c (a.node i))
    (stepped : Bool) (hl : c.state.leads = false) (hok : electOk CNorm c = true) :
    Tr c0 i ev a (sElectA c0 i c stepped, [], []) := by
  by_cases hm : i ∉ (confOf c0 c.log).peers ∧ i ∉ (confOf c0 c.log).old
  · unfold sElectA; rw [if_pos hm]; exact Tr.stay h
  · refine ⟨eff c0 a (.electStart i), sim_act i _ rfl ?_, ?_, by simp, by simp⟩
    · refine ⟨?_, fun _ => ?_, ?_⟩
      · intro hr; rw [← leads_role h] at hr; rw [hr] at hl; cases hl
      · simp [electOk] at hok
        rw [h.dl]; exact hok.1
      · rw [h.log]
        by_cases h1 : i ∈ (confOf c0 c.log).peers
        · exact Or.inl h1
        · by_cases h2 : i ∈ (confOf c0 c.log).old
          · exact Or.inr h2
          · exact absurd ⟨h1, h2⟩ hm
    · simp only [eff, setNode, updF_same]
      exact h.electStart (hi.n i) stepped hl hok hm

/-- Restart. -/
theorem NR.restart (h : NR c0 g ev i c n) :
    NR c0 (g.held i n.psnap) ev i (restartSrv c) (restart n) := by
  simp only [Raft.restart, restartSrv, h.psnap, h.disk, h.pterm, h.pvote]
  exact {
    term := rfl
    vote := rfl
    role := Or.inl rfl
    pterm := rfl
    pvote := rfl
    log := rfl
    disk := rfl
    snap := rfl
    psnap := rfl
    dl := rfl
    applied := rfl
    sm := rfl
    queue := by
      show QR (loadJobs c.psnap) (loadOps c.psnap)
      simp only [loadJobs, loadOps]
      split
      · exact .nil
      · exact .cons (.snap _) .nil
    commit := rfl
    vf := rfl
    el := fun f hf => by cases hf
    eln := List.nodup_nil
    sn := by simp [Glob.held, updF]
    cand := fun hc => by cases hc
    rpc := fun hc => by cases hc
    pend := fun _ f hf => by cases hf
    vrs := ⟨fun r hr => (by cases hr), fun r hr => (by cases hr)⟩
    ask := fun hc => by cases hc
    lead := fun hc => by cases hc
    fol := fun _ => ⟨rfl, rfl⟩
    me := fun hc => by cases hc
    lid := fun l hl => by cases hl
    repl := fun f hf => by cases hf }

theorem sim_crash {a : Sys N D} (h : NR c0 a.g ev i c (a.node i)) :
    Tr c0 i ev a (restartSrv c, [], []) := by
  refine ⟨eff c0 a (.crash i), sim_act i _ rfl trivial, ?_, by simp, by simp⟩
  simp only [eff, updF_same]
  exact h.restart

/-! ### Becoming leader -/

theorem quorum_iff {cf : Conf N} {S : N → Bool} (h : IsQuorum cf.peers (oldOf cf) S) :
    cf.Quorum S := by
  refine ⟨h.1, fun ho => h.2 cf.old ?_⟩
  simp [oldOf, ho]

/-- A quorum as a list of members. -/
theorem quorum_list {cf : Conf N} {S : N → Bool} (h : cf.Quorum S) :
    cf.Quorum (fun v => decide (v ∈ (cf.peers ++ cf.old).filter S)) := by
  have key : ∀ l : List N, (∀ x ∈ l, x ∈ cf.peers ++ cf.old) → Majority l S →
      Majority l (fun v => decide (v ∈ (cf.peers ++ cf.old).filter S)) := by
    intro l hl hm
    unfold Majority at hm ⊢
    have : l.countP (fun v => decide (v ∈ (cf.peers ++ cf.old).filter S)) = l.countP S := by
      apply List.countP_congr
      intro x hx
      simp only [decide_eq_true_eq, List.mem_filter]
      exact ⟨fun h => h.2, fun h => ⟨hl x hx, h⟩⟩
    rw [this]; exact hm
  exact ⟨key _ (fun x hx => List.mem_append_left _ hx) h.1,
    fun ho => key _ (fun x hx => List.mem_append_right _ hx) (h.2 ho)⟩

theorem quorum_some {cf : Conf N} {S : N → Bool} (h : cf.Quorum S) : ∃ v, S v = true := by
  have hm := h.1
  unfold Majority at hm
  have : 0 < cf.peers.countP S := by omega
  rw [List.countP_pos_iff] at this
  obtain ⟨v, _, hv⟩ := this
  exact ⟨v, hv⟩

/-- One ballot per entry, all of the same configuration. -/
theorem append_tasks (cf : Conf N) (es : List (Entry N D)) : ∀ b : BallotBox N Unit,
    (es.foldl (fun b _ => b.appendPendingTask cf.peers (oldOf cf) none) b).pending = b.pending ∧
    (es.foldl (fun b _ => b.appendPendingTask cf.peers (oldOf cf) none) b).lastCommitted
      = b.lastCommitted ∧
    (es.foldl (fun b _ => b.appendPendingTask cf.peers (oldOf cf) none) b).queue
      = b.queue ++ List.replicate es.length (Ballot.init cf.peers (oldOf cf)) := by
  induction es with
  | nil => intro b; simp
  | cons e es ih =>
    intro b
    obtain ⟨h1, h2, h3⟩ := ih (b.appendPendingTask cf.peers (oldOf cf) none)
    simp only [List.foldl_cons]
    refine ⟨h1, h2, ?_⟩
    rw [h3]
    simp only [BallotBox.appendPendingTask, List.length_cons, List.replicate_succ,
      List.append_assoc, List.singleton_append]

theorem termAt_append_right {l es : Log N D} {t k : Nat} (h : ∀ e ∈ es, e.term = t)
    (h1 : l.length < k) (h2 : k ≤ (l ++ es).length) : termAt (l ++ es) k = t := by
  unfold termAt
  rw [if_neg (by omega)]
  rw [List.getElem?_append_right (by omega)]
  rw [List.length_append] at h2
  have hlt : k - 1 - l.length < es.length := by omega
  rw [List.getElem?_eq_getElem hlt]
  exact h _ (List.getElem_mem hlt)

theorem termAt_append_left {l es : Log N D} {k : Nat} (h1 : k ≤ l.length) :
    termAt (l ++ es) k = termAt l k := by
  unfold termAt
  split
  · rfl
  · rw [List.getElem?_append_left (by omega)]

/-- Appending own entries to a leader's ballot box. -/
theorem LB.append {cf : Conf N} {es : List (Entry N D)}
    (hp : 0 < c.bb.pending) (hlen : c.bb.pending + c.bb.queue.length = c.log.length + 1)
    (hlc : c.bb.lastCommitted < c.bb.pending)
    (htm : ∀ k, c.bb.pending ≤ k → k ≤ c.log.length → termAt c.log k = c.term)
    (hbal : ∃ S : Nat → N → Bool,
      (∀ k (hk : k < c.bb.queue.length),
        Ballot.Inv (confOf c0 (c.log.take (c.bb.pending + k))).peers
          (oldOf (confOf c0 (c.log.take (c.bb.pending + k)))) (S (c.bb.pending + k)) c.bb.queue[k]) ∧
      ∀ k v, S k v = true → ∃ u, k ≤ u ∧ Msg.ar c.term v u ∈ g.msgs)
    (het : ∀ e ∈ es, e.term = c.term)
    (hcf : ∀ k, c.log.length < k → k ≤ (c.log ++ es).length → confOf c0 ((c.log ++ es).take k) = cf) :
    LB c0 g (sAppendOwn c cf es) := by
  obtain ⟨h1, h2, h3⟩ := append_tasks (N := N) cf es c.bb
  obtain ⟨S, hS1, hS2⟩ := hbal
  refine {
    pos := by simp only [sAppendOwn]; rw [h1]; exact hp
    len := by
      simp only [sAppendOwn]; rw [h1, h3]
      simp only [List.length_append, List.length_replicate]; omega
    lc := by simp only [sAppendOwn]; rw [h1, h2]; exact hlc
    tm := by
      simp only [sAppendOwn]
      intro k hk1 hk2
      rw [h1] at hk1
      by_cases hk : k ≤ c.log.length
      · rw [termAt_append_left hk]; exact htm k hk1 hk
      · exact termAt_append_right het (by omega) hk2
    bal := ?_ }
  refine ⟨fun k v => if k ≤ c.log.length then S k v else false, ?_, ?_⟩
  · simp only [sAppendOwn]
    intro k hk
    simp only [h1]
    simp only [h3] at hk
    by_cases hkl : k < c.bb.queue.length
    · have hle : c.bb.pending + k ≤ c.log.length := by omega
      have e1 : (c.log ++ es).take (c.bb.pending + k) = c.log.take (c.bb.pending + k) :=
        List.take_append_of_le_length hle
      have := hS1 k hkl
      simp only [h3, List.getElem_append_left hkl, e1, hle, if_true]
      exact this
    · have hgt : ¬ (c.bb.pending + k ≤ c.log.length) := by omega
      simp only [List.length_append, List.length_replicate] at hk
      have hc := hcf (c.bb.pending + k) (by omega) (by rw [List.length_append]; omega)
      simp only [hc, hgt, if_false]
      have : (c.bb.queue ++ List.replicate es.length (Ballot.init cf.peers (oldOf cf)))[k]'(by
          simp only [List.length_append, List.length_replicate]; omega) = Ballot.init cf.peers (oldOf cf) := by
        rw [List.getElem_append_right (by omega)]
        simp
      simp only [h3, this]
      exact Ballot.inv_init _ _
  · simp only [sAppendOwn]
    intro k v hv
    by_cases hk : k ≤ c.log.length
    · simp only [hk, if_true] at hv; exact hS2 k v hv
    · simp [hk] at hv

/-- `apply` and `unsafe_apply_configuration` of a leader. -/
theorem NR.appendOwn (h : NR c0 g ev i c n) {cf : Conf N} {es : List (Entry N D)} (hne : es ≠ [])
    (hl : c.state.leads = true) (het : ∀ e ∈ es, e.term = c.term)
    (hcf : ∀ k, c.log.length < k → k ≤ (c.log ++ es).length → confOf c0 ((c.log ++ es).take k) = cf) :
    NR c0 g ev i (sAppendOwn c cf es) (appendOwn n es) := by
  have hb := h.lead hl
  obtain ⟨h1, h2, h3⟩ := append_tasks (N := N) cf es c.bb
  exact { h with
    log := by simp [Raft.appendOwn, sAppendOwn, h.log]
    queue := by
      simp only [Raft.appendOwn, sAppendOwn]
      refine forall2_append (forall2_append h.queue (forall2_pushes es)) (.cons ?_ .nil)
      refine JR.leader _ _ _ ?_
      have : 0 < es.length := List.length_pos_iff.mpr hne
      rw [List.length_append, h.log]; omega
    commit := by simp only [Raft.appendOwn, sAppendOwn]; rw [h2]; exact h.commit
    el := fun f hf => (h.el f hf).append (es.map .push ++ [.leader (c.log.length + 1) es.length])
      (by simp [sAppendOwn]) rfl rfl rfl rfl rfl (fun he => by
        have := ((h.el f hf).now he).2.1
        rw [hl] at this; cases this)
    lead := fun _ => LB.append hb.pos hb.len hb.lc hb.tm hb.bal het hcf
    fol := fun hx => by
      simp only [sAppendOwn] at hx
      rw [hl] at hx; cases hx
    repl := fun f hf => by
      obtain ⟨r1, r2, r3⟩ := h.repl f hf
      refine ⟨r1, r2, fun hx he => ?_⟩
      have := r3 hx he
      cases f with
      | ack => exact this
      | send t to prev pt cm =>
        simp only [RFOk, sAppendOwn] at this ⊢
        obtain ⟨p1, p2, p3⟩ := this
        exact ⟨by rw [List.length_append]; omega, by rw [termAt_append_left p1]; exact p2,
          by rw [h2]; exact p3⟩ }

theorem confOf_snoc (c0 : Conf N) (l : Log N D) (t : Nat) (cf : Conf N) :
    confOf c0 (l ++ [⟨t, .conf cf⟩]) = cf := by
  simp [confOf, Entry.conf?]

theorem sim_becomeLeader {p : CParams} {a : Sys N D} (hi : Inv c0 a)
    (h : NR c0 a.g ev i c (a.node i)) (hg : c.ctx.ballot.granted = true)
    (hp : c.state = .candidate ∨ p.checkAborts = true ∨ (c.state = .follower ∧
      (a.node i).role = .candidate ∧ (a.node i).ready = true ∧ ∃ S : N → Bool,
        Ballot.Inv (a.node i).bconf.peers (oldOf (a.node i).bconf) S c.ctx.ballot ∧
        ∀ v, S v = true → v = i)) :
    Tr c0 i ev a (sBecomeLeader p c0 i c) := by
  by_cases hab : c.state ≠ .candidate ∧ p.checkAborts = true
  · have : sBecomeLeader p c0 i c = (restartSrv c, [], []) := by
      unfold sBecomeLeader; rw [if_pos hab]
    rw [this]; exact sim_crash h
  · have key : (a.node i).role = .candidate ∧ c.state.leads = false ∧ ∃ S : N → Bool,
        Ballot.Inv (a.node i).bconf.peers (oldOf (a.node i).bconf) S c.ctx.ballot ∧
        ∀ v, S v = true → (a.node i).ready = true ∧ (v = i ∨ Msg.vr c.term v i ∈ a.g.msgs) := by
      by_cases hc : c.state = .candidate
      · exact ⟨cand_role h hc, by rw [hc]; rfl, h.cand hc⟩
      · rcases hp with h1 | h1 | ⟨h1, h2, h3, S, s1, s2⟩
        · exact absurd h1 hc
        · exact absurd ⟨hc, h1⟩ hab
        · exact ⟨h2, by rw [h1]; rfl, S, s1, fun v hv => ⟨h3, Or.inl (s2 v hv)⟩⟩
    obtain ⟨hrole, hleads, S, hS1, hS2⟩ := key
    have hQ := quorum_iff ((Ballot.inv_granted_iff hS1).mp hg)
    obtain ⟨v0, hv0⟩ := quorum_some hQ
    have hready := (hS2 v0 hv0).1
    have hci := (hi.n i).cand hrole
    have hf := h.fol hleads
    have hcl : c.bb.lastCommitted ≤ c.log.length := by
      rw [← h.commit, ← h.log]; exact (hi.n i).cl
    refine ⟨eff c0 a (.becomeLeader i (((a.node i).bconf.peers ++ (a.node i).bconf.old).filter S)),
      sim_act i _ rfl ?_, ?_, ?_, ?_⟩
    · refine ⟨hrole, hready, quorum_list hQ, ?_⟩
      intro v hv
      rw [List.mem_filter] at hv
      have := (hS2 v hv.2).2
      by_cases hvi : v = i
      · rw [if_pos hvi]; right; exact ⟨(hci.2.2 hready).1, (hci.2.2 hready).2.1⟩
      · rw [if_neg hvi, h.term]; exact this.resolve_left hvi
    · -- the new node
      have e : sBecomeLeader p c0 i c =
          (sAppendOwn { c with
            ctx := c.ctx.reset, state := .leader, leaderId := some i, lastLeader := none,
            bb := c.bb.resetPendingIndex (c.log.length + 1) }
            (confOf c0 c.log) [⟨c.term, .conf (confOf c0 c.log)⟩], [], [.lead i c.term]) := by
        unfold sBecomeLeader; rw [if_neg hab]
      rw [e]
      simp only [eff, sysAppend, Raft.lead, updF_same]
      have hlog := h.log
      have hterm := h.term
      rw [hlog, hterm]
      have hbp : (c.bb.resetPendingIndex (c.log.length + 1)).pending = c.log.length + 1 := rfl
      have hbq : (c.bb.resetPendingIndex (c.log.length + 1)).queue = [] := hf.2
      have hbl : (c.bb.resetPendingIndex (c.log.length + 1)).lastCommitted = c.bb.lastCommitted := rfl
      exact {
        term := rfl
        vote := h.vote
        role := Or.inl rfl
        pterm := h.pterm
        pvote := h.pvote
        log := rfl
        disk := h.disk
        snap := h.snap
        psnap := h.psnap
        dl := h.dl
        applied := h.applied
        sm := h.sm
        queue := by
          simp only [Raft.appendOwn, sAppendOwn]
          refine forall2_append (forall2_append h.queue (forall2_pushes _)) (.cons ?_ .nil)
          exact JR.leader _ _ _ (by simp)
        commit := h.commit
        vf := h.vf
        el := fun f hf => by
          have hx := h.el f hf
          exact {
            le := hx.le
            rest := by simp only [sAppendOwn, List.length_append]; have := hx.rest; omega
            claim := by
              refine hx.claim.imp (fun ⟨h1, h2⟩ => ⟨h1, ?_⟩) id
              simp only [sAppendOwn]
              rw [List.append_assoc, List.take_append_of_le_length hx.rest]; exact h2
            now := fun he => by
              have := (hx.now he).2.2.1
              rw [hready] at this; cases this }
        eln := h.eln
        sn := h.sn
        cand := fun hx => by cases hx
        rpc := fun hx => by cases hx
        pend := fun hx => by cases hx
        vrs := by
          simp only [sAppendOwn, VoteCtx.reset]
          exact ⟨fun r hr => by have := h.vrs.1 r hr; omega,
            fun r hr => by have := h.vrs.2 r hr; omega⟩
        ask := fun hx => by cases hx
        lead := fun _ => by
          refine LB.append (by simp [hbp]) (by simp only [hbp, hbq]; simp) (by simp only [hbp, hbl]; omega)
            (fun k hk1 hk2 => by
              have h1 : c.log.length + 1 ≤ k := hk1
              have h2 : k ≤ c.log.length := hk2
              omega) ?_ (by simp) ?_
          · refine ⟨fun _ _ => false, ?_, fun k v hv => by cases hv⟩
            intro k hk
            simp only [hbq] at hk
            cases hk
          · intro k hk1 hk2
            have hk1' : c.log.length < k := hk1
            have e : List.take k (c.log ++ [(⟨c.term, .conf (confOf c0 c.log)⟩ : Entry N D)]) =
                c.log ++ [⟨c.term, .conf (confOf c0 c.log)⟩] :=
              List.take_of_length_le (by rw [List.length_append, List.length_singleton]; omega)
            show confOf c0 (List.take k (c.log ++ [(⟨c.term, .conf (confOf c0 c.log)⟩ : Entry N D)])) = _
            rw [e]
            exact confOf_snoc _ _ _ _
        fol := fun hx => by cases hx
        me := fun _ => by simp [sAppendOwn]
        lid := fun l hl => by
          simp only [sAppendOwn, Option.some.injEq] at hl ⊢
          subst hl
          simp
        repl := fun f hf' => by
          have hr := h.repl f hf'
          have hlt := hr.2.1 hrole
          refine ⟨hr.1, fun hx => (by cases hx), fun _ he => ?_⟩
          simp only [sAppendOwn] at he
          omega }
    · intro m hm
      unfold sBecomeLeader at hm
      rw [if_neg hab] at hm
      cases hm
    · intro e he
      unfold sBecomeLeader at he
      rw [if_neg hab] at he
      simp only [List.mem_singleton] at he
      subst he
      refine ⟨⟨(a.node i).term, i, (a.node i).log⟩, ?_, rfl, h.term⟩
      simp [eff, sysAppend, Raft.lead]

end Braft.Cl
