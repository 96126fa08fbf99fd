import Verif.Cluster.CalmRepl
/-
A follower is brought up to date by a new leader, with a snapshot where the log does not suffice.
-/
set_option linter.unusedVariables false
set_option linter.unusedSimpArgs false
set_option linter.unusedSectionVars false

namespace Braft.Cl
open Braft.Raft
variable {N D : Type} [DecidableEq N] [DecidableEq D] {p : CParams} {c0 : Conf N}

/-- A committed prefix that is shorter than a leader's log is part of it, if it is not of a later term. -/
theorem comm_lead {g : Glob N D} (hg : GBase c0 g) {i : N} {n : NodeSt N D} (hn : NodeInv c0 g i n) (ho : OwnOK n)
    {X : Log N D} {u : Nat} (hX : Committed g u X) (hu : u ≤ n.term) (hlt : X.length < n.log.length) : X <+: n.log := by
  have hne : n.log ≠ [] := by intro h; rw [h] at hlt; exact absurd hlt (Nat.not_lt_zero _)
  have hL : n.log ∈ g.created := hn.glog.1 n.log hne (List.prefix_refl _)
  rcases hg.comm_cmp hX hL (by rw [ho.2]; exact hu) with h | h
  · exact h
  · have := h.length_le; omega

/-- What a node has applied is part of the log of a leader of its term or a later one. -/
theorem applied_pref (hp : COk p) {s : CSys N D} (hr : CReachable p c0 s) {j v : N} (hl : (s.node j).state.leads = true)
    (ht : (s.node v).term ≤ (s.node j).term) (ha : (s.node v).applied < (s.node j).log.length) :
    (s.node v).log.take (s.node v).applied <+: (s.node j).log := by
  obtain ⟨a, h1, h2⟩ := sim_reach hp hr
  have hi := inv_reachable h1
  have rj := h2.node j
  have rv := h2.node v
  have hrole := (leads_role rj).mp hl
  have := comm_lead hi.g.toGBase (hi.n j) (hi.own j hrole) (hi.n v).ac
    (by rw [rj.term, rv.term]; exact ht)
    (by rw [rj.log, rv.applied, List.length_take]; omega)
  rw [rj.log, rv.log, rv.applied] at this
  exact this

/-- The snapshot of a leader is part of its log. -/
theorem psnap_pref (hp : COk p) {s : CSys N D} (hr : CReachable p c0 s) {j : N} (hl : (s.node j).state.leads = true)
    (ha : (s.node j).psnap.length < (s.node j).log.length) : (s.node j).psnap <+: (s.node j).log := by
  obtain ⟨a, h1, h2⟩ := sim_reach hp hr
  have hi := inv_reachable h1
  have rj := h2.node j
  have hrole := (leads_role rj).mp hl
  have := comm_lead hi.g.toGBase (hi.n j) (hi.own j hrole) (hi.n j).cs (hi.n j).pt
    (by rw [rj.log, rj.psnap]; exact ha)
  rw [rj.log, rj.psnap] at this
  exact this

/-- What was committed before a term is in the log with which the leader of that term was elected. -/
theorem old_commits (hp : COk p) {s s' : CSys N D} (hr : CReachable p c0 s) (h : CSteps p c0 s s') {j : N} {T : Nat}
    {L0 es : Log N D} (hl : (s'.node j).state.leads = true) (ht : (s'.node j).term = T) (hlog : (s'.node j).log = L0 ++ es)
    (hes : ∀ e ∈ es, e.term = T) (v : N) (hv : (s.node v).term < T) :
    (s.node v).applied ≤ L0.length ∧ (s.node v).psnap.length ≤ L0.length := by
  obtain ⟨a, h1⟩ := sim_reach' hp hr
  obtain ⟨a', h3, h4⟩ := sim_steps hp h1 h
  have hI := inv_reachable h1.reach
  have hI' := inv_reachable h4.reach
  have rv := h1.rel.node v
  have rj := h4.rel.node j
  have hrole := (leads_role rj).mp hl
  obtain ⟨-, r, hr1, hr2, hr3, es', hlr, -⟩ := (hI'.n j).lead hrole
  rw [rj.log, hlog] at hlr
  rw [rj.term, ht] at hr3
  have hrl : r.log.length ≤ L0.length := by
    apply Nat.le_of_not_lt
    intro hlt
    have hpre : r.log <+: L0 ++ es := ⟨es', hlr.symm⟩
    have hlast : lastTerm r.log = T := by
      rw [← termAt_pref hpre]
      exact termAt_append_right hes hlt hpre.length_le
    have := hI'.g.elt r hr1
    omega
  have key : ∀ {X : Log N D} {u : Nat}, Committed a.g u X → u < T → X.length ≤ L0.length := by
    rintro X u (rfl | ⟨K, hK, hKu, hXK⟩) hu
    · exact Nat.zero_le _
    · have hK' := (gle_steps h3).commits K hK
      have := (hXK.trans (hI'.g.toGBase.lc hK' hr1 (by omega))).length_le
      omega
  have hvT : (a.node v).term < T := by rw [rv.term]; exact hv
  constructor
  · have h5 := key (hI.n v).ac hvT
    have h6 := (hI.n v).ap
    rw [List.length_take] at h5
    rw [← rv.applied]
    omega
  · have h5 := key (hI.n v).cs (Nat.lt_of_le_of_lt (hI.n v).pt hvT)
    rw [← rv.psnap]
    exact h5

theorem install_ok (v : N) {j : N} {T n : Nat} {c : Srv N D} (h : Vs j T n c) {K : Log N D} (hK : c.snap.length < K.length) :
    (sInstall v c T j K true).1.dl = some K ∧ (sInstall v c T j K true).1.term = T ∧
    (sInstall v c T j K true).1.pterm = T ∧ (sInstall v c T j K true).1.state = .follower ∧
    (sInstall v c T j K true).1.leaderId = some j ∧ (sInstall v c T j K true).1.log = c.log ∧
    (sInstall v c T j K true).1.snap = c.snap ∧ (sInstall v c T j K true).1.queue = [] ∧
    (sInstall v c T j K true).1.applied = c.applied := by
  obtain ⟨e1, e2, e3, e4, e5⟩ := csd_ok v h.term
  have hle : c.term ≤ T := by rcases h.term with h | ⟨h, -⟩ <;> omega
  unfold sInstall
  rw [if_neg (by omega)]
  dsimp only
  rw [if_neg (by rw [e5]; simp), if_pos ⟨by rw [e1.dl, h.settled.dl], by rw [e1.snap]; exact hK⟩]
  exact ⟨rfl, e2, e3, e4, e5, e1.log, e1.snap, e1.queue.trans h.settled.queue, e1.applied⟩

/-- The leader's snapshot is installed at a follower whose log does not hold it. -/
theorem snap_calm (hp : COk p) {s : CSys N D} (hr : CReachable p c0 s) (j v : N) (hjv : v ≠ j) {T n : Nat} {K : Log N D}
    (hjs : (s.node j).state = .leader) (hjt : (s.node j).term = T) (hjp : (s.node j).psnap = K) (hKn : K.length ≤ n)
    (hv : Vs j T n (s.node v)) (hK : (s.node v).snap.length < K.length)
    (hid : idLe (termAt (s.node v).log (s.node v).applied, (s.node v).applied) (lastId K) = true) :
    ∃ s', CalmSteps p c0 s s' ∧ Only v s s' ∧ Vs j T n (s'.node v) ∧ (s'.node v).snap = K ∧
      termAt (s'.node v).log K.length = lastTerm K := by
  have hKne : K ≠ [] := by intro h0; rw [h0] at hK; exact absurd hK (Nat.not_lt_zero _)
  obtain ⟨s1, a1, a2, a3, a4, -, -⟩ := calm_one (p := p) (c0 := c0) (s := s) j (.sendIS j v) rfl rfl (by
    simp [cpre, hjs, St.leads, hjv, hjp, hKne])
  have a3 : s1.node j = s.node j := a3
  have hm : CMsg.isReq T j v K ∈ s1.msgs := by
    refine a4 _ ?_
    show _ ∈ [CMsg.isReq (s.node j).term j v (s.node j).psnap]
    rw [hjt, hjp]; exact List.mem_cons_self
  have hv1 : s1.node v = s.node v := a2.other v hjv
  obtain ⟨s2, b1, b2, b3, -, -, -⟩ := calm_one (p := p) (c0 := c0) (s := s1) v (.install v T j K true) rfl rfl (by
    simp [cpre, hm])
  have b3 : s2.node v = (sInstall v (s1.node v) T j K true).1 := b3
  rw [hv1] at b3
  obtain ⟨i1, i2, i3, i4, i5, i6, i7, i8, i9⟩ := install_ok v hv hK
  rw [← b3] at i1 i2 i3 i4 i5 i6 i7 i8 i9
  obtain ⟨s3, d1, d2, d3, -, -, -⟩ := calm_one (p := p) (c0 := c0) (s := s2) v (.copied v) rfl rfl (by
    simp [cpre, i1, i2, i3])
  have d3 : s3.node v = { s2.node v with psnap := (s2.node v).dl.getD (s2.node v).psnap } := d3
  have hps : (s3.node v).psnap = K := by rw [d3]; dsimp only; rw [i1]; rfl
  obtain ⟨s4, e1, e2, e3, -, -, -⟩ := calm_one (p := p) (c0 := c0) (s := s3) v (.loaded v) rfl rfl (by
    simp only [cpre, decide_eq_true_eq]
    rw [hps, d3]; exact i1)
  have e3 : s4.node v = sLoaded (s3.node v) := e3
  have e4 : s4.node v = { s3.node v with
      dl := none, applied := K.length, sm := K, snap := K, log := snapMerge K (s.node v).log, queue := [.snap K] } := by
    rw [e3]
    unfold sLoaded
    dsimp only
    have q1 : (s3.node v).log = (s.node v).log := by rw [d3]; exact i6
    have q2 : (s3.node v).applied = (s.node v).applied := by rw [d3]; exact i9
    have q3 : (s3.node v).snap = (s.node v).snap := by rw [d3]; exact i7
    have q4 : (s3.node v).queue = [] := by rw [d3]; exact i8
    rw [hps, q1, q2, q3, q4, if_pos hid, if_pos hK]
    rfl
  obtain ⟨s5, f1, f2, f3, f4, f5⟩ := drain_calm (p := p) (c0 := c0) v _ s4 rfl
  have oj : Only v s s5 := by
    refine ⟨fun i hi => ?_, fun m hm => f2.msgs m (e2.msgs m (d2.msgs m (b2.msgs m (a2.msgs m hm)))),
      ((((a2.grow.trans b2.grow).trans d2.grow).trans e2.grow).trans f2.grow).ev⟩
    rw [f2.other i hi, e2.other i hi, d2.other i hi, b2.other i hi]
    by_cases hij : i = j
    · rw [hij, a3]
    · exact a2.other i hij
  refine ⟨s5, (((a1.trans b1).trans d1).trans e1).trans f1, oj, ⟨⟨f4, ?_⟩, .inr ⟨?_, ?_, ?_, .inr ?_⟩, ?_⟩, ?_, ?_⟩
  · rw [f3.dl, e4]
  · rw [f3.term, e4]; show (s3.node v).term = T; rw [d3]; exact i2
  · rw [f3.pterm, e4]; show (s3.node v).pterm = T; rw [d3]; exact i3
  · rw [f3.state, e4]; show (s3.node v).state = _; rw [d3]; exact i4
  · rw [f3.leaderId, e4]; show (s3.node v).leaderId = _; rw [d3]; exact i5
  · rw [f5, e4]; exact hKn
  · rw [f3.snap, e4]
  · rw [f3.log, e4]
    show termAt (snapMerge K (s.node v).log) K.length = lastTerm K
    unfold snapMerge
    split
    · assumption
    · exact termAt_self

/-- **A follower is brought up to date.** -/
theorem sync_calm (hp : COk p) {s : CSys N D} (hr : CReachable p c0 s) (j v : N) (hjv : v ≠ j) {cf : Conf N} {a : Srv N D}
    {T : Nat} {L : Log N D} {S : Nat → N → Bool} (hl : Ld cf a T L S (s.node j)) (hn : a.log.length < L.length)
    (hps : a.psnap.length ≤ a.log.length) (hv : Vs j T a.log.length (s.node v)) :
    ∃ s', CalmSteps p c0 s s' ∧ Grow s s' ∧ (∀ i, i ≠ j → i ≠ v → s'.node i = s.node i) ∧
      (∃ m, m ≤ a.log.length ∧ Ld cf a T L (addS S (m + 1) L.length v) (s'.node j)) ∧
      (s'.node j).applied = (s.node j).applied ∧
      Synced j T a.log.length (s.node j).bb.lastCommitted (s'.node v) := by
  have fj := (facts_reach hp hr).1 j
  have fv := (facts_reach hp hr).1 v
  have hlead : (s.node j).state.leads = true := by rw [hl.state]; rfl
  have hvt : (s.node v).term ≤ T := by rcases hv.term with h | ⟨h, -⟩ <;> omega
  have hva := hv.applied
  have hpre : (s.node v).log.take (s.node v).applied <+: L := by
    rw [← hl.log]
    refine applied_pref hp hr hlead (by rw [hl.term]; exact hvt) (by rw [hl.log]; omega)
  have hsj : a.snap.length ≤ a.psnap.length := by rw [← hl.snap, ← hl.psnap]; exact fj.sp.length_le
  have hmatch : ∀ k, k ≤ (s.node v).applied → termAt (s.node v).log k = termAt L k := by
    intro k hk
    have hka : k ≤ (s.node v).log.length := by have := fv.ap; omega
    have hkl := hpre.length_le
    rw [List.length_take] at hkl
    have h2 : (s.node v).log.take k <+: L := by
      refine List.IsPrefix.trans ?_ hpre
      rw [show (s.node v).log.take k = ((s.node v).log.take (s.node v).applied).take k by
        rw [List.take_take, Nat.min_eq_left hk]]
      exact List.take_prefix _ _
    have h3 := termAt_pref h2
    rw [List.length_take, Nat.min_eq_left hka] at h3
    rw [h3]
    exact Raft.termAt_take hka
  by_cases hc : a.snap.length ≤ (s.node v).snap.length
  · have := fv.sa
    obtain ⟨s1, g1, g2, g3, g4, g5, g6⟩ := send_calm hp hr j v hjv hl hn hv hc (Nat.le_refl _) (by omega) (hmatch _ this)
    exact ⟨s1, g1, g2, g3, ⟨_, by omega, g4⟩, g5, g6⟩
  · by_cases ht : termAt (s.node v).log a.snap.length = termAt L a.snap.length
    · obtain ⟨s1, g1, g2, g3, g4, g5, g6⟩ := send_calm hp hr j v hjv hl hn hv (Nat.le_refl _) (by omega) (by omega) ht
      exact ⟨s1, g1, g2, g3, ⟨_, by omega, g4⟩, g5, g6⟩
    · have hap : (s.node v).applied < a.snap.length := by
        apply Nat.lt_of_not_le
        intro h; exact ht (hmatch _ h)
      have hKL : a.psnap <+: L := by
        have := psnap_pref hp hr hlead (by rw [hl.psnap, hl.log]; omega)
        rw [hl.psnap, hl.log] at this; exact this
      have hKt : termAt L a.psnap.length = lastTerm a.psnap := termAt_pref hKL
      have hmono : termAt L (s.node v).applied ≤ lastTerm a.psnap := by
        rw [← hKt]
        have := fj.mono (s.node v).applied a.psnap.length (by omega) (by rw [hl.log]; omega)
        rw [hl.log] at this; exact this
      obtain ⟨s1, a1, a2, a3, a4, a5⟩ := snap_calm hp hr j v hjv hl.state hl.term hl.psnap hps hv (by omega) (by
        unfold idLe lastId
        rw [hmatch _ (Nat.le_refl _)]
        dsimp only
        split
        · exact decide_eq_true (by omega)
        · exact decide_eq_true (by omega))
      have hj1 : s1.node j = s.node j := a2.other j (Ne.symm hjv)
      obtain ⟨s2, g1, g2, g3, g4, g5, g6⟩ := send_calm hp (a1.reach hr) j v hjv (by rw [hj1]; exact hl) hn a3 hsj
        (by rw [a4]; exact Nat.le_refl _) hps (by rw [a5, hKt])
      rw [hj1] at g5 g6
      exact ⟨s2, a1.trans g1, a2.grow.trans g2, fun i hi hi' => by rw [g3 i hi hi', a2.other i hi'], ⟨_, hps, g4⟩, g5, g6⟩

end Braft.Cl
