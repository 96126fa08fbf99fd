import Verif.Cluster.CalmElect
/-
A calm continuation in which a new leader brings a follower up to date and counts its answer.
-/
set_option linter.unusedVariables false
set_option linter.unusedSimpArgs false
set_option linter.unusedSectionVars false

namespace Braft.Cl
open Braft.Raft
variable {N D : Type} [DecidableEq N] [DecidableEq D] {p : CParams} {c0 : Conf N}

/-- A leader whose entries are on its disk. -/
structure Ld (cf : Conf N) (a : Srv N D) (T : Nat) (L : Log N D) (S : Nat → N → Bool) (c : Srv N D) : Prop where
  state : c.state = .leader
  term : c.term = T
  log : c.log = L
  queue : c.queue = []
  snap : c.snap = a.snap
  psnap : c.psnap = a.psnap
  dl : c.dl = none
  bb : BI cf (a.log.length + 1) S c.bb
  pend : c.bb.pending + c.bb.queue.length = L.length + 1

/-- A follower that can be brought up to date. -/
structure Vs (j : N) (T n : Nat) (c : Srv N D) : Prop where
  settled : Settled c
  term : c.term < T ∨ (c.term = T ∧ c.pterm = T ∧ c.state = .follower ∧ (c.leaderId = none ∨ c.leaderId = some j))
  applied : c.applied ≤ n

theorem csd_ok (v : N) {j : N} {T : Nat} {c : Srv N D}
    (h : c.term < T ∨ (c.term = T ∧ c.pterm = T ∧ c.state = .follower ∧ (c.leaderId = none ∨ c.leaderId = some j))) :
    SameL c (sCheckStepDown v c T j true).1 ∧ (sCheckStepDown v c T j true).1.term = T ∧
    (sCheckStepDown v c T j true).1.pterm = T ∧ (sCheckStepDown v c T j true).1.state = .follower ∧
    (sCheckStepDown v c T j true).1.leaderId = some j := by
  rcases h with h | ⟨h1, h2, h3, h4⟩
  · have e : sCheckStepDown v c T j true = ({ sStepDown c T true with leaderId := some j },
        [.follow v j (sStepDown c T true).term]) := by
      have hc : c.term < T ∨ c.state ≠ .follower ∨ c.leaderId = none := .inl h
      unfold sCheckStepDown
      dsimp only
      simp only [hc, if_true]
      rfl
    rw [e]
    refine ⟨by constructor <;> rfl, ?_, ?_, rfl, rfl⟩
    · simp [sStepDown, h]
    · simp [sStepDown, h]
  · rcases h4 with h4 | h4
    · have e : sCheckStepDown v c T j true = ({ sStepDown c T true with leaderId := some j },
          [.follow v j (sStepDown c T true).term]) := by
        have hc : c.term < T ∨ c.state ≠ .follower ∨ c.leaderId = none := .inr (.inr h4)
        unfold sCheckStepDown
        dsimp only
        simp only [hc, if_true]
        rfl
      rw [e]
      refine ⟨by constructor <;> rfl, ?_, ?_, rfl, rfl⟩
      · simp [sStepDown, h1]
      · simp [sStepDown, h1, h2]
    · have e : sCheckStepDown v c T j true = (c, []) := by
        have hc : ¬ (c.term < T ∨ c.state ≠ .follower ∨ c.leaderId = none) := by rw [h1, h3, h4]; simp
        unfold sCheckStepDown
        dsimp only
        simp only [hc, if_false]
        rw [if_neg (by rw [h4]; simp)]
      rw [e]
      exact ⟨SameL.refl c, h1, h2, h3, h4⟩

/-- The follower takes the entries. -/
theorem append_ok (v : N) {j : N} {T n : Nat} {c : Srv N D} (h : Vs j T n c) {prev pt cm : Nat} {es : List (Entry N D)}
    (hne : es ≠ []) (ht : termAt c.log prev = pt) (hn : n < prev + es.length) :
    ((sAppend v c T j prev pt es cm true false).1.queue =
      resolveJobs c.log prev es ++ [.follower T (prev + es.length) es.length cm j]) ∧
    (sAppend v c T j prev pt es cm true false).1.term = T ∧
    (sAppend v c T j prev pt es cm true false).1.pterm = T ∧
    (sAppend v c T j prev pt es cm true false).1.state = .follower ∧
    (sAppend v c T j prev pt es cm true false).1.leaderId = some j ∧
    (sAppend v c T j prev pt es cm true false).1.snap = c.snap ∧
    (sAppend v c T j prev pt es cm true false).1.dl = none ∧
    (sAppend v c T j prev pt es cm true false).1.applied = c.applied := by
  obtain ⟨e1, e2, e3, e4, e5⟩ := csd_ok v h.term
  have hle : c.term ≤ T := by rcases h.term with h | ⟨h, -⟩ <;> omega
  unfold sAppend
  rw [if_neg (by omega)]
  dsimp only
  rw [if_neg (by rw [e5]; simp), if_neg (by rw [e1.dl, h.settled.dl]; simp), if_neg (by rw [e1.log, ht]; simp),
    if_neg hne, if_neg (by rw [e1.applied]; have := h.applied; omega)]
  dsimp only
  rw [e1.queue, h.settled.queue, e1.log, e2]
  exact ⟨rfl, rfl, e3, e4, e5, e1.snap, e1.dl.trans h.settled.dl, e1.applied⟩

/-- Jobs that only change the stored log. -/
def plainJob : Job N D → Bool
  | .push _ => true
  | .pop => true
  | _ => false

theorem resolve_plain (l : Log N D) (prev : Nat) (es : List (Entry N D)) :
    ∀ x ∈ resolveJobs l prev es, plainJob x = true := by
  intro x hx
  unfold resolveJobs at hx
  dsimp only at hx
  rcases List.mem_append.mp hx with hx | hx
  · split at hx
    · rw [List.eq_of_mem_replicate hx]; rfl
    · cases hx
  · obtain ⟨e, -, rfl⟩ := List.mem_map.mp hx
    rfl

/-- The follower writes the entries and answers. -/
theorem write_calm (hp : COk p) (v : N) (T u k cm : Nat) (j : N) : ∀ (js : List (Job N D)) (s : CSys N D),
    CReachable p c0 s → (s.node v).queue = js ++ [.follower T u k cm j] → (∀ x ∈ js, plainJob x = true) →
    (s.node v).term = T → (s.node v).state = .follower →
    ∃ s', CalmSteps p c0 s s' ∧ Only v s s' ∧ Keep (s.node v) (s'.node v) ∧ (s'.node v).queue = [] ∧
      (s'.node v).applied = (s.node v).applied ∧ CMsg.aeRes T j v true T u k ∈ s'.msgs ∧
      min cm u ≤ (s'.node v).bb.lastCommitted := by
  intro js
  induction js with
  | nil =>
    intro s hr hq _ ht hst
    obtain ⟨s1, h1, h2, h3, h4, -, -⟩ := calm_one (p := p) (c0 := c0) (s := s) v (.disk v) rfl rfl (by
      simp [cpre, hq])
    have hb := (bf_reach hp hr v).fol (by rw [hst]; rfl)
    obtain ⟨k1, k2, k3⟩ := sDisk_keep v (s.node v)
    have h3 : s1.node v = (sDisk v (s.node v)).1 := h3
    have h4 : ∀ m ∈ (sDisk v (s.node v)).2.1, m ∈ s1.msgs := h4
    rw [← h3] at k1 k2 k3
    unfold sDisk at h3 h4
    rw [hq] at h3 h4
    dsimp only [List.nil_append] at h3 h4
    rw [if_neg (by rw [ht]; simp)] at h3 h4
    refine ⟨s1, h1, h2, k1, by rw [k2, hq]; rfl, k3, h4 _ List.mem_cons_self, ?_⟩
    rw [h3]
    dsimp only [sSetCommitted, BallotBox.setLastCommittedIndex]
    rw [hb.1, hb.2, if_neg (by simp)]
    split
    · dsimp only; omega
    · split
      · exact Nat.le_refl _
      · dsimp only; omega
  | cons x js ih =>
    intro s hr hq hx ht hst
    obtain ⟨s1, h1, h2, h3, -, -, -⟩ := calm_one (p := p) (c0 := c0) (s := s) v (.disk v) rfl rfl (by
      simp [cpre, hq])
    have h3 : s1.node v = (sDisk v (s.node v)).1 := h3
    obtain ⟨k1, k2, k3⟩ := sDisk_keep v (s.node v)
    rw [← h3] at k1 k2 k3
    obtain ⟨s2, g1, g2, g3, g4, g5, g6, g7⟩ := ih s1 (h1.reach hr) (by rw [k2, hq]; rfl)
      (fun y hy => hx y (List.mem_cons_of_mem _ hy)) (k1.term.trans ht) (k1.state.trans hst)
    exact ⟨s2, h1.trans g1, h2.trans g2, k1.trans g3, g4, g5.trans k3, g6, g7⟩

/-- A follower that holds the leader's entries. -/
structure Synced (j : N) (T n cm : Nat) (c : Srv N D) : Prop where
  vs : Vs j T n c
  lc : cm ≤ c.bb.lastCommitted

/-- One request, its answer, and the count. -/
theorem send_calm (hp : COk p) {s : CSys N D} (hr : CReachable p c0 s) (j v : N) (hjv : v ≠ j) {cf : Conf N} {a : Srv N D}
    {T : Nat} {L : Log N D} {S : Nat → N → Bool} (hl : Ld cf a T L S (s.node j)) (hn : a.log.length < L.length)
    (hv : Vs j T a.log.length (s.node v)) {prev : Nat} (hp1 : a.snap.length ≤ prev) (hp2 : (s.node v).snap.length ≤ prev)
    (hp3 : prev ≤ a.log.length) (ht : termAt (s.node v).log prev = termAt L prev) :
    ∃ s', CalmSteps p c0 s s' ∧ Grow s s' ∧ (∀ i, i ≠ j → i ≠ v → s'.node i = s.node i) ∧
      Ld cf a T L (addS S (prev + 1) L.length v) (s'.node j) ∧ (s'.node j).applied = (s.node j).applied ∧
      Synced j T a.log.length (s.node j).bb.lastCommitted (s'.node v) := by
  have hcl : (s.node j).bb.lastCommitted ≤ L.length := by rw [← hl.log]; exact ((facts_reach hp hr).1 j).cl
  generalize hcm : (s.node j).bb.lastCommitted = cm at *
  -- _fill_common_fields
  obtain ⟨s1, a1, a2, a3, -, -, -⟩ := calm_one (p := p) (c0 := c0) (s := s) j (.replSend j v prev) rfl
    (by simp [calm, hl.snap, hp1]) (by simp [cpre, hl.state, St.leads, hjv, hl.log]; omega)
  have a3 : s1.node j = sReplSend (s.node j) v prev := a3
  have hf : RFrame.send T v prev (termAt L prev) cm ∈ (s1.node j).repl := by
    rw [a3]
    dsimp only [sReplSend]
    rw [hl.term, hl.log, hcm]
    exact List.mem_cons_self
  -- _send_entries
  obtain ⟨s2, b1, b2, b3, b4, -, -⟩ := calm_one (p := p) (c0 := c0) (s := s1) j
    (.replRead j (.send T v prev (termAt L prev) cm) L.length) rfl rfl (by
      simp [cpre, hf]
      right
      rw [a3]
      exact ⟨by show (s.node j).state.leads = true; rw [hl.state]; rfl, hl.term⟩)
  have b3 : s2.node j = { s1.node j with repl := (s1.node j).repl.erase (.send T v prev (termAt L prev) cm) } := b3
  have hL1 : (s1.node j).log = L := by rw [a3]; exact hl.log
  have hm2 : CMsg.aeReq T j v prev (termAt L prev) (L.drop prev) cm ∈ s2.msgs := by
    refine b4 _ ?_
    show _ ∈ [CMsg.aeReq T j v prev (termAt L prev) (((s1.node j).log.drop prev).take L.length) cm]
    rw [hL1, List.take_of_length_le (by rw [List.length_drop]; omega)]
    exact List.mem_cons_self
  have hlen : prev + (L.drop prev).length = L.length := by rw [List.length_drop]; omega
  have hv2 : s2.node v = s.node v := by rw [b2.other v hjv, a2.other v hjv]
  have hj2 : Ld cf a T L S (s2.node j) := by
    rw [b3, a3]
    exact ⟨hl.state, hl.term, hl.log, hl.queue, hl.snap, hl.psnap, hl.dl, hl.bb, hl.pend⟩
  have hap2 : (s2.node j).applied = (s.node j).applied := by rw [b3, a3]; rfl
  -- handle_append_entries_request
  obtain ⟨s3, d1, d2, d3, -, -, -⟩ := calm_one (p := p) (c0 := c0) (s := s2) v
    (.append v T j prev (termAt L prev) (L.drop prev) cm true false) rfl (by simp [calm, hv2, hp2]) (by simp [cpre, hm2])
  have d3 : s3.node v = (sAppend v (s2.node v) T j prev (termAt L prev) (L.drop prev) cm true false).1 := d3
  rw [hv2] at d3
  obtain ⟨e1, e2, e3, e4, e5, e6, e7, e8⟩ := append_ok v hv (prev := prev) (pt := termAt L prev) (cm := cm)
    (es := L.drop prev) (by
      intro h0
      have := congrArg List.length h0
      rw [List.length_drop, List.length_nil] at this
      omega) ht (by omega)
  rw [← d3] at e1 e2 e3 e4 e5 e6 e7 e8
  have hr3 := d1.reach (b1.reach (a1.reach hr))
  -- the disk thread of the follower
  rw [hlen] at e1
  obtain ⟨s4, f1, f2, f3, f4, f5, f6, f7⟩ := write_calm hp v T L.length (L.drop prev).length cm j _ s3 hr3 e1
    (resolve_plain _ _ _) e2 e4
  have hj4 : s4.node j = s2.node j := by rw [f2.other j (Ne.symm hjv), d2.other j (Ne.symm hjv)]
  -- _on_rpc_returned
  obtain ⟨s5, g1, g2, g3, -, -, -⟩ := calm_one (p := p) (c0 := c0) (s := s4) j
    (.replRes j v (prev + 1) L.length (L.drop prev).length) rfl
    (by simp only [calm, decide_eq_true_eq]; omega)
    (by
      simp only [cpre, Bool.and_eq_true, decide_eq_true_eq]
      rw [hj4, hj2.state, hj2.term]
      exact ⟨⟨rfl, by omega⟩, f6⟩)
  have g3 : s5.node j = sReplRes (s4.node j) v (prev + 1) L.length := g3
  have hf5 : RFrame.ack T v (prev + 1) L.length ∈ (s5.node j).repl := by
    rw [g3]
    dsimp only [sReplRes]
    rw [hj4, hj2.term]
    exact List.mem_cons_self
  -- commit_at
  obtain ⟨s6, k1, k2, k3, -, -, -⟩ := calm_one (p := p) (c0 := c0) (s := s5) j (.replAck j (.ack T v (prev + 1) L.length))
    rfl rfl (by
      simp [cpre, hf5]
      right
      rw [g3, hj4]
      exact ⟨by show (s2.node j).state.leads = true; rw [hj2.state]; rfl, hj2.term⟩)
  have k3 : s6.node j = { s5.node j with
      repl := (s5.node j).repl.erase (.ack T v (prev + 1) L.length),
      bb := ((s5.node j).bb.commitAt (prev + 1) L.length v).1 } := k3
  obtain ⟨m1, m2⟩ := hj2.bb.commit (prev + 1) L.length v (by rw [hj2.pend]; omega)
  have hbb5 : (s5.node j).bb = (s2.node j).bb := by rw [g3, hj4]; rfl
  refine ⟨s6, ((((a1.trans b1).trans d1).trans f1).trans g1).trans k1,
    ((((a2.grow.trans b2.grow).trans d2.grow).trans f2.grow).trans g2.grow).trans k2.grow, fun i hi hi' => ?_, ?_, ?_, ?_⟩
  · rw [k2.other i hi, g2.other i hi, f2.other i hi', d2.other i hi', b2.other i hi, a2.other i hi]
  · rw [k3]
    refine ⟨?_, ?_, ?_, ?_, ?_, ?_, ?_, ?_, ?_⟩
    · show (s5.node j).state = _; rw [g3, hj4]; exact hj2.state
    · show (s5.node j).term = _; rw [g3, hj4]; exact hj2.term
    · show (s5.node j).log = _; rw [g3, hj4]; exact hj2.log
    · show (s5.node j).queue = _; rw [g3, hj4]; exact hj2.queue
    · show (s5.node j).snap = _; rw [g3, hj4]; exact hj2.snap
    · show (s5.node j).psnap = _; rw [g3, hj4]; exact hj2.psnap
    · show (s5.node j).dl = _; rw [g3, hj4]; exact hj2.dl
    · dsimp only; rw [hbb5]; exact m1
    · dsimp only; rw [hbb5, m2]; exact hj2.pend
  · rw [k3]
    show (s5.node j).applied = _; rw [g3, hj4]; exact hap2
  · have hv6 : s6.node v = s4.node v := by rw [k2.other v hjv, g2.other v hjv]
    rw [hv6]
    refine ⟨⟨⟨f4, by rw [f3.dl, e7]⟩, .inr ⟨by rw [f3.term, e2], by rw [f3.pterm, e3], by rw [f3.state, e4],
      .inr (by rw [f3.leaderId, e5])⟩, by rw [f5, e8]; exact hv.applied⟩, ?_⟩
    omega

end Braft.Cl
