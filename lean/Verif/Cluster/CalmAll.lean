import Verif.Cluster.CalmSync
/-
A calm continuation from the election of a leader to the application of a task by a quorum.
-/
set_option linter.unusedVariables false
set_option linter.unusedSimpArgs false
set_option linter.unusedSectionVars false

namespace Braft.Cl
open Braft.Raft
variable {N D : Type} [DecidableEq N] [DecidableEq D] {p : CParams} {c0 : Conf N}

theorem disk_push {s : CSys N D} (j : N) {e : Entry N D} {q : List (Job N D)} (hq : (s.node j).queue = .push e :: q) :
    ∃ s', CalmSteps p c0 s s' ∧ Only j s s' ∧ Keep (s.node j) (s'.node j) ∧ (s'.node j).queue = q ∧
      (s'.node j).applied = (s.node j).applied ∧ (s'.node j).bb = (s.node j).bb := by
  obtain ⟨s1, h1, h2, h3, -, -, -⟩ := calm_one (p := p) (c0 := c0) (s := s) j (.disk j) rfl rfl (by simp [cpre, hq])
  have h3 : s1.node j = (sDisk j (s.node j)).1 := h3
  obtain ⟨k1, k2, k3⟩ := sDisk_keep j (s.node j)
  rw [← h3] at k1 k2 k3
  refine ⟨s1, h1, h2, k1, by rw [k2, hq]; rfl, k3, ?_⟩
  rw [h3]
  unfold sDisk
  rw [hq]

theorem disk_leader {s : CSys N D} (j : N) {f n : Nat} {q : List (Job N D)} (hq : (s.node j).queue = .leader f n :: q) :
    ∃ s', CalmSteps p c0 s s' ∧ Only j s s' ∧ Keep (s.node j) (s'.node j) ∧ (s'.node j).queue = q ∧
      (s'.node j).applied = (s.node j).applied ∧ (s'.node j).bb = ((s.node j).bb.commitAt f (f + n - 1) j).1 := by
  obtain ⟨s1, h1, h2, h3, -, -, -⟩ := calm_one (p := p) (c0 := c0) (s := s) j (.disk j) rfl rfl (by simp [cpre, hq])
  have h3 : s1.node j = (sDisk j (s.node j)).1 := h3
  obtain ⟨k1, k2, k3⟩ := sDisk_keep j (s.node j)
  rw [← h3] at k1 k2 k3
  refine ⟨s1, h1, h2, k1, by rw [k2, hq]; rfl, k3, ?_⟩
  rw [h3]
  unfold sDisk
  rw [hq]

theorem confOf_own (l : Log N D) (cf : Conf N) (t : Nat) : confOf c0 (l ++ [⟨t, .conf cf⟩]) = cf := by
  simp [confOf, List.foldl_append, Entry.conf?]

/-- The log of the new leader with the task. -/
def newLog (c0 : Conf N) (a : Srv N D) (T : Nat) (d : D) : Log N D :=
  a.log ++ [⟨T, .conf (confOf c0 a.log)⟩, ⟨T, .data d⟩]

theorem newLog_length (a : Srv N D) (T : Nat) (d : D) : (newLog c0 a T d).length = a.log.length + 2 := by
  simp [newLog]

/-- The new leader takes a task and writes its log. -/
theorem task_calm {s : CSys N D} (j : N) {a : Srv N D} {T : Nat} (d : D) (h : Won c0 a T (s.node j)) :
    ∃ s' S, CalmSteps p c0 s s' ∧ Only j s s' ∧ Ld (confOf c0 a.log) a T (newLog c0 a T d) S (s'.node j) ∧
      S (a.log.length + 2) j = true ∧ (s'.node j).applied = a.applied := by
  obtain ⟨s1, a1, a2, a3, -, -, -⟩ := calm_one (p := p) (c0 := c0) (s := s) j (.apply j [d]) rfl rfl (by
    simp [cpre, h.state])
  have a3 : s1.node j = sAppendOwn (s.node j) (confOf c0 (s.node j).log) [⟨(s.node j).term, .data d⟩] := a3
  have hcf : confOf c0 (s.node j).log = confOf c0 a.log := by rw [h.log]; exact confOf_own _ _ _
  rw [hcf, h.term] at a3
  have hq1 : (s1.node j).queue = [.push ⟨T, .conf (confOf c0 a.log)⟩, .leader (a.log.length + 1) 1,
      .push ⟨T, .data d⟩, .leader (a.log.length + 2) 1] := by
    rw [a3]
    dsimp only [sAppendOwn]
    rw [h.queue, h.log]
    simp
  have hb1 : BI (confOf c0 a.log) (a.log.length + 1) (fun _ _ => false) (s1.node j).bb := by
    rw [a3]
    exact h.bb.append rfl (no_quorum _)
  have hp1 : (s1.node j).bb.pending + (s1.node j).bb.queue.length = a.log.length + 3 := by
    rw [a3]
    have := h.pend
    dsimp only [sAppendOwn, List.foldl_cons, List.foldl_nil, BallotBox.appendPendingTask]
    rw [List.length_append, List.length_singleton]; omega
  obtain ⟨s2, b1, b2, b3, b4, b5, b6⟩ := disk_push (p := p) (c0 := c0) j hq1
  obtain ⟨s3, d1, d2, d3, d4, d5, d6⟩ := disk_leader (p := p) (c0 := c0) j b4
  obtain ⟨s4, e1, e2, e3, e4, e5, e6⟩ := disk_push (p := p) (c0 := c0) j d4
  obtain ⟨s5, f1, f2, f3, f4, f5, f6⟩ := disk_leader (p := p) (c0 := c0) j e4
  have hk : Keep (s1.node j) (s5.node j) := ((b3.trans d3).trans e3).trans f3
  obtain ⟨m1, m2⟩ := hb1.commit (a.log.length + 1) (a.log.length + 1 + 1 - 1) j (by omega)
  rw [← b6, ← d6, ← e6] at m1 m2
  obtain ⟨n1, n2⟩ := m1.commit (a.log.length + 2) (a.log.length + 2 + 1 - 1) j (by rw [m2, b6]; omega)
  rw [← f6] at n1 n2
  refine ⟨s5, _, (((a1.trans b1).trans d1).trans e1).trans f1, (((a2.trans b2).trans d2).trans e2).trans f2,
    ⟨?_, ?_, ?_, f4, ?_, ?_, ?_, n1, ?_⟩, ?_, ?_⟩
  · rw [hk.state, a3]; exact h.state
  · rw [hk.term, a3]; exact h.term
  · rw [hk.log, a3]; dsimp only [sAppendOwn]; rw [h.log]; simp [newLog]
  · rw [hk.snap, a3]; exact h.snap
  · rw [hk.psnap, a3]; exact h.psnap
  · rw [hk.dl, a3]; exact h.dl
  · rw [newLog_length, n2, m2, b6, hp1]
  · simp [addS]
  · rw [f5, e5, d5, b5, a3]; exact h.applied

/-- All followers of a list are brought up to date. -/
theorem syncs_calm (hp : COk p) (j : N) {cf : Conf N} {a : Srv N D} {T : Nat} {L : Log N D} (hn : a.log.length < L.length)
    (hps : a.psnap.length ≤ a.log.length) : ∀ (vs : List N) (s : CSys N D) (S : Nat → N → Bool) (C : Nat),
    CReachable p c0 s → vs.Nodup → j ∉ vs → Ld cf a T L S (s.node j) →
    (C = 0 ∨ (C = L.length ∧ IsQuorum cf.peers (oldOf cf) (S L.length))) →
    (∀ v ∈ vs, Vs j T a.log.length (s.node v)) →
    ∃ s' S', CalmSteps p c0 s s' ∧ Grow s s' ∧ (∀ i, i ≠ j → i ∉ vs → s'.node i = s.node i) ∧
      Ld cf a T L S' (s'.node j) ∧ (∀ x, S L.length x = true ∨ x ∈ vs → S' L.length x = true) ∧
      (s'.node j).applied = (s.node j).applied ∧
      ∀ v ∈ vs, Synced j T a.log.length C (s'.node v) := by
  intro vs
  induction vs with
  | nil =>
    intro s S C hr _ _ hl hC _
    exact ⟨s, S, .refl, Grow.refl s, fun _ _ _ => rfl, hl, fun x hx => hx.resolve_right List.not_mem_nil, rfl,
      fun v hv => absurd hv List.not_mem_nil⟩
  | cons v vs ih =>
    intro s S C hr hnd hj hl hC hvs
    rw [List.nodup_cons] at hnd
    rw [List.mem_cons, not_or] at hj
    obtain ⟨s1, g1, g2, g3, ⟨m, hm, g4⟩, g5, g6⟩ := sync_calm hp hr j v (Ne.symm hj.1) hl hn hps (hvs v List.mem_cons_self)
    have hr1 := g1.reach hr
    have hC0 : C ≤ (s.node j).bb.lastCommitted := by
      rcases hC with h | ⟨h, hq⟩
      · omega
      · have := hl.bb.all hl.pend (by omega) hq
        omega
    have hC1 : C = 0 ∨ (C = L.length ∧ IsQuorum cf.peers (oldOf cf) (addS S (m + 1) L.length v L.length)) :=
      hC.imp id (fun ⟨h, hq⟩ => ⟨h, BallotBox.IsQuorum.mono hq (fun x hx => by simp [addS, hx])⟩)
    obtain ⟨s2, S', k1, k2, k3, k4, k5, k6, k7⟩ := ih s1 _ C hr1 hnd.2 hj.2 g4 hC1 (fun w hw => by
      rw [g3 w (fun e => hj.2 (e ▸ hw)) (fun e => hnd.1 (e ▸ hw))]
      exact hvs w (List.mem_cons_of_mem _ hw))
    refine ⟨s2, S', g1.trans k1, g2.trans k2, fun i hi hi' => ?_, k4, fun x hx => k5 x ?_, k6.trans g5, fun w hw => ?_⟩
    · rw [List.mem_cons, not_or] at hi'
      rw [k3 i hi hi'.2, g3 i hi hi'.1]
    · rcases hx with hx | hx
      · left; simp [addS, hx]
      · rcases List.mem_cons.mp hx with hx | hx
        · left
          subst hx
          have : m + 1 ≤ L.length := by omega
          simp [addS, this]
        · exact .inr hx
    · by_cases hwv : w = v
      · subst hwv
        rw [k3 w (Ne.symm hj.1) hnd.1]
        exact ⟨g6.vs, Nat.le_trans hC0 g6.lc⟩
      · exact k7 w ((List.mem_cons.mp hw).resolve_left hwv)

/-- The state machine of a node applies what is committed. -/
theorem fsm_calm (v : N) : ∀ (n : Nat) (s : CSys N D) (k : Nat), k ≤ (s.node v).bb.lastCommitted → k = (s.node v).applied + n →
    ∃ s', CalmSteps p c0 s s' ∧ Only v s s' ∧ (s'.node v).bb = (s.node v).bb ∧ (s'.node v).log = (s.node v).log ∧
      (s'.node v).state = (s.node v).state ∧ (s'.node v).term = (s.node v).term ∧
      ∃ es, s'.ev = es ++ s.ev ∧
        ∀ i e, (s.node v).applied < i → i ≤ k → (s.node v).log[i - 1]? = some e → Ev.applied v i e ∈ es := by
  intro n
  induction n with
  | zero =>
    intro s k h1 h2
    exact ⟨s, .refl, Only.refl v s, rfl, rfl, rfl, rfl, [], rfl, fun i e h3 h4 => by omega⟩
  | succ n ih =>
    intro s k h1 h2
    obtain ⟨s1, a1, a2, a3, -, -, a5⟩ := calm_one (p := p) (c0 := c0) (s := s) v (.fsm v) rfl rfl (by
      simp only [cpre, decide_eq_true_eq]; omega)
    have a3 : s1.node v = (sApply v (s.node v)).1 := a3
    have a5 : s1.ev = (sApply v (s.node v)).2.2 ++ s.ev := a5
    have q1 : (s1.node v).applied = (s.node v).applied + 1 := by rw [a3]; rfl
    have q2 : (s1.node v).log = (s.node v).log := by rw [a3]; rfl
    have q3 : (s1.node v).bb = (s.node v).bb := by rw [a3]; rfl
    obtain ⟨s2, b1, b2, b3, b4, b5, b6, es, b7, b8⟩ := ih s1 k (by rw [q3]; exact h1) (by rw [q1]; omega)
    refine ⟨s2, a1.trans b1, a2.trans b2, b3.trans q3, b4.trans q2, b5.trans (by rw [a3]; rfl), b6.trans (by rw [a3]; rfl),
      es ++ (sApply v (s.node v)).2.2, by rw [b7, a5, List.append_assoc], fun i e h3 h4 h5 => ?_⟩
    by_cases hi : i = (s.node v).applied + 1
    · refine List.mem_append_right _ ?_
      subst hi
      rw [Nat.add_sub_cancel] at h5
      dsimp only [sApply]
      rw [h5]
      exact List.mem_cons_self
    · refine List.mem_append_left _ (b8 i e (by rw [q1]; omega) h4 (by rw [q2]; exact h5))

/-- A node that will apply the entry `e` at `k`. -/
structure Rd (k : Nat) (e : Entry N D) (c : Srv N D) : Prop where
  lc : k ≤ c.bb.lastCommitted
  ap : c.applied < k
  at_ : c.log[k - 1]? = some e

theorem fsms_calm (k : Nat) (e : Entry N D) : ∀ (vs : List N) (s : CSys N D), vs.Nodup →
    (∀ v ∈ vs, Rd k e (s.node v)) →
    ∃ s', CalmSteps p c0 s s' ∧ (∀ i, (s'.node i).state = (s.node i).state ∧ (s'.node i).term = (s.node i).term) ∧
      ∃ es, s'.ev = es ++ s.ev ∧ ∀ v ∈ vs, Ev.applied v k e ∈ es := by
  intro vs
  induction vs with
  | nil => intro s _ _; exact ⟨s, .refl, fun _ => ⟨rfl, rfl⟩, [], rfl, fun v hv => absurd hv List.not_mem_nil⟩
  | cons v vs ih =>
    intro s hnd h
    rw [List.nodup_cons] at hnd
    have hv := h v List.mem_cons_self
    have hlt := hv.ap
    obtain ⟨s1, a1, a2, -, -, a5, a6, es, a7, a8⟩ := fsm_calm (p := p) (c0 := c0) v (k - (s.node v).applied) s k hv.lc (by omega)
    obtain ⟨s2, b1, b2, es', b3, b4⟩ := ih s1 hnd.2 (fun w hw => by
      rw [a2.other w (fun e => hnd.1 (e ▸ hw))]; exact h w (List.mem_cons_of_mem _ hw))
    refine ⟨s2, a1.trans b1, fun i => ?_, es' ++ es, by rw [b3, a7, List.append_assoc], fun w hw => ?_⟩
    · rw [(b2 i).1, (b2 i).2]
      by_cases hi : i = v
      · rw [hi]; exact ⟨a5, a6⟩
      · rw [a2.other i hi]; exact ⟨rfl, rfl⟩
    · by_cases hwv : w = v
      · subst hwv
        exact List.mem_append_right _ (a8 k e hlt (Nat.le_refl _) hv.at_)
      · exact List.mem_append_left _ (b4 w ((List.mem_cons.mp hw).resolve_left hwv))

/-- A bound for the terms of some nodes. -/
theorem term_bound (s : CSys N D) : ∀ vs : List N, ∃ T, ∀ v ∈ vs, (s.node v).term < T := by
  intro vs
  induction vs with
  | nil => exact ⟨0, fun v hv => absurd hv List.not_mem_nil⟩
  | cons v vs ih =>
    obtain ⟨T, h⟩ := ih
    refine ⟨max T ((s.node v).term + 1), fun w hw => ?_⟩
    rcases List.mem_cons.mp hw with rfl | hw
    · omega
    · have := h w hw; omega

/-- **Progress**: if a node is a member of its own configuration and a quorum of that configuration has logs that are
not ahead of its own, there is a calm continuation in which the node becomes leader and they all apply the task `d`. -/
theorem progress_calm (hp : COk p) {s : CSys N D} (hr : CReachable p c0 s) (j : N) (Q : List N) (d : D)
    (hj : j ∈ (confOf c0 (s.node j).log).peers ∨ j ∈ (confOf c0 (s.node j).log).old)
    (hnd : Q.Nodup) (hQj : j ∉ Q) (hQm : ∀ v ∈ Q, v ∈ members (confOf c0 (s.node j).log))
    (hQ : (confOf c0 (s.node j).log).Quorum (fun x => decide (x = j ∨ x ∈ Q)))
    (hle : ∀ v ∈ Q, idLe (lastId (s.node v).log) (lastId (s.node j).log) = true)
    (hdj : (s.node j).dl = none) (hdv : ∀ v ∈ Q, (s.node v).dl = none) :
    ∃ s' T k es, CalmSteps p c0 s s' ∧ s'.ev = es ++ s.ev ∧ (s'.node j).state = .leader ∧ (s'.node j).term = T ∧
      ∀ v, v = j ∨ v ∈ Q → (s.node v).term < T ∧ Ev.applied v k ⟨T, .data d⟩ ∈ es := by
  -- everybody finishes what is under way
  obtain ⟨s1, a1, a2, -, a4⟩ := settle_all (p := p) (c0 := c0) (j :: Q) s
  have hr1 := a1.reach hr
  have hjs := (a4 j List.mem_cons_self).1
  have hjk := (a4 j List.mem_cons_self).2.1 hdj
  have hvs := fun v (hv : v ∈ Q) => (a4 v (List.mem_cons_of_mem _ hv)).1
  have hvk := fun v (hv : v ∈ Q) => (a4 v (List.mem_cons_of_mem _ hv)).2.1 (hdv v hv)
  obtain ⟨T, hT⟩ := term_bound s1 (j :: Q)
  have hTj := hT j List.mem_cons_self
  have hTv := fun v (hv : v ∈ Q) => hT v (List.mem_cons_of_mem _ hv)
  -- the election
  obtain ⟨s2, b1, b2, -, b4, b5⟩ := win_calm hp hr1 j Q T (by rw [hjk.log]; exact hj) hjs hTj hnd hQj
    (by rw [hjk.log]; exact hQm) (by rw [hjk.log]; exact hQ) (fun v hv => ⟨hvs v hv, hTv v hv, by
      rw [hjk.log, (hvk v hv).log]; exact hle v hv⟩)
  generalize ha : s1.node j = a at *
  have hr2 := b1.reach hr1
  have hold : ∀ v, (s1.node v).term < T → (s1.node v).applied ≤ a.log.length ∧ (s1.node v).psnap.length ≤ a.log.length :=
    fun v hv => old_commits hp hr1 b1.steps (j := j) (T := T) (L0 := a.log) (es := [⟨T, .conf (confOf c0 a.log)⟩])
      (by rw [b5.state]; rfl) b5.term b5.log (by simp) v hv
  have hoj : a.applied ≤ a.log.length ∧ a.psnap.length ≤ a.log.length := by
    have := hold j (by rw [ha]; exact hTj)
    rw [ha] at this; exact this
  have hready : ∀ v ∈ Q, Vs j T a.log.length (s2.node v) := by
    intro v hv
    have h1 := hold v (hTv v hv)
    have h2 := hvs v hv
    rcases b4 v hv with h | h
    · rw [h]; exact ⟨h2, .inl (hTv v hv), h1.1⟩
    · exact ⟨⟨h.same.queue.trans h2.queue, h.same.dl.trans h2.dl⟩, .inr ⟨h.term, h.pterm, h.state, .inl h.leaderId⟩,
        by rw [h.same.applied]; exact h1.1⟩
  -- the task
  obtain ⟨s3, S, d1, d2, d3, d4, d5⟩ := task_calm (p := p) (c0 := c0) j d b5
  have hr3 := d1.reach hr2
  have hlen := newLog_length (c0 := c0) a T d
  -- two rounds of replication
  obtain ⟨s4, S4, e1, e2, e3, e4, e5, e6, e7⟩ := syncs_calm hp j (by omega) hoj.2 Q s3 S 0 hr3 hnd hQj d3 (.inl rfl)
    (fun v hv => by rw [d2.other v (fun e => hQj (e ▸ hv))]; exact hready v hv)
  have hr4 := e1.reach hr3
  have hquo : IsQuorum (confOf c0 a.log).peers (oldOf (confOf c0 a.log)) (S4 (newLog c0 a T d).length) := by
    have hQ' : (confOf c0 a.log).Quorum (fun x => decide (x = j ∨ x ∈ Q)) := by rw [hjk.log]; exact hQ
    refine BallotBox.IsQuorum.mono (quorum_is hQ') (fun x hx => ?_)
    rcases of_decide_eq_true hx with rfl | hx
    · exact e5 x (.inl (by rw [hlen]; exact d4))
    · exact e5 x (.inr hx)
  obtain ⟨s5, S5, f1, f2, f3, f4, f5, f6, f7⟩ := syncs_calm hp j (by omega) hoj.2 Q s4 S4 (newLog c0 a T d).length hr4 hnd hQj
    e4 (.inr ⟨rfl, hquo⟩) (fun v hv => (e7 v hv).vs)
  have hr5 := f1.reach hr4
  have hlc5 : (s5.node j).bb.lastCommitted = (newLog c0 a T d).length := by
    refine f4.bb.all f4.pend (by omega) (BallotBox.IsQuorum.mono hquo (fun x hx => f5 x (.inl hx)))
  have hje : (newLog c0 a T d)[a.log.length + 2 - 1]? = some ⟨T, .data d⟩ := by
    simp [newLog]
  -- the state machines
  obtain ⟨s6, k1, k2, es, k3, k4⟩ := fsms_calm (p := p) (c0 := c0) (a.log.length + 2) ⟨T, .data d⟩ (j :: Q) s5
    (List.nodup_cons.mpr ⟨hQj, hnd⟩) (by
      intro v hv
      have hcase : (s5.node v).applied ≤ a.log.length ∧ a.log.length + 2 ≤ (s5.node v).bb.lastCommitted := by
        rcases List.mem_cons.mp hv with rfl | hv
        · exact ⟨by rw [f6, e6, d5]; exact hoj.1, by rw [hlc5, hlen]; exact Nat.le_refl _⟩
        · exact ⟨(f7 v hv).vs.applied, by have := (f7 v hv).lc; omega⟩
      refine ⟨hcase.2, by omega, ?_⟩
      have ht := committed_take hp hr5 (.refl) (i := v) (j := j) (k := a.log.length + 2) (.inl hcase.2)
        (.inl (by rw [hlc5, hlen]; exact Nat.le_refl _))
      have : ((s5.node v).log.take (a.log.length + 2))[a.log.length + 2 - 1]? = some ⟨T, .data d⟩ := by
        rw [ht, f4.log, List.take_of_length_le (by rw [hlen]; exact Nat.le_refl _)]; exact hje
      rw [List.getElem?_take_of_lt (by omega)] at this
      exact this)
  obtain ⟨es', hes'⟩ := (((((a2.trans b2).trans d2.grow).trans e2).trans f2)).ev
  refine ⟨s6, T, a.log.length + 2, es ++ es', ((((a1.trans b1).trans d1).trans e1).trans f1).trans k1,
    by rw [k3, hes', List.append_assoc], by rw [(k2 j).1, f4.state], by rw [(k2 j).2, f4.term], fun v hv => ⟨?_, ?_⟩⟩
  · rcases hv with rfl | hv
    · rw [← hjk.term]; exact hTj
    · rw [← (hvk v hv).term]; exact hTv v hv
  · refine List.mem_append_left _ (k4 v ?_)
    rcases hv with rfl | hv
    · exact List.mem_cons_self
    · exact List.mem_cons_of_mem _ hv

end Braft.Cl
