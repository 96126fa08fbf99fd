import Verif.Cluster.PipeNodeSteps
/-
Calm continuations of a cluster of servers (Verif/Cluster/Server.lean): no process ends, no storage fails, the lease
does not stand in the way, nobody changes the configuration. They are used to say that a group can always go on
(Verif/Props/Progress.lean).
-/
set_option linter.unusedVariables false
set_option linter.unusedSimpArgs false
set_option linter.unusedSectionVars false

namespace Braft.Cl
open Braft.Raft
variable {N D : Type} [DecidableEq N] [DecidableEq D]

/-- The actions of a calm continuation. A replicator sends only entries that are behind the snapshot of its log manager
(log_manager.cpp:622-679: older ones may be compacted), and with the first index of the request itself; a follower is
asked only about entries behind its own snapshot; `step_down` keeps the term (the step-down timer, node.cpp:3462-3468);
an installation of a snapshot that is under way may end or be dropped. -/
def calm (s : CSys N D) : CAct N D → Bool
  | .elect _ => true
  | .electB _ _ ok free => ok && free
  | .voteReq _ _ _ _ _ => true
  | .voteReqB _ _ free ok grantOk => free && ok && grantOk
  | .voteRes _ _ _ _ _ _ _ ok => ok
  | .stepDown i t ok => decide (t = (s.node i).term) && ok
  | .apply _ _ => true
  | .replSend i _ prev => decide ((s.node i).snap.length ≤ prev)
  | .replRead _ _ _ => true
  | .replRes _ _ first upTo n => decide (first + n = upTo + 1)
  | .replAck _ _ => true
  | .append i _ _ prev _ _ _ ok gone => ok && !gone && decide ((s.node i).snap.length ≤ prev)
  | .sendIS _ _ => true
  | .install _ _ _ _ ok => ok
  | .disk _ => true
  | .fsm _ => true
  | .copied _ => true
  | .loaded _ => true
  | .dlDrop _ => true
  | _ => false

/-- Continuations of `s` by calm actions. -/
inductive CalmSteps (p : CParams) (c0 : Conf N) (s : CSys N D) : CSys N D → Prop where
  | refl : CalmSteps p c0 s s
  | tail {s' s''} (a : CAct N D) : CalmSteps p c0 s s' → calm s' a = true → cstep p c0 s' a = some s'' →
      CalmSteps p c0 s s''

variable {p : CParams} {c0 : Conf N}

theorem CalmSteps.trans {s s' s'' : CSys N D} (h1 : CalmSteps p c0 s s') (h2 : CalmSteps p c0 s' s'') :
    CalmSteps p c0 s s'' := by
  induction h2 with
  | refl => exact h1
  | tail a _ hc hs ih => exact .tail a ih hc hs

theorem CalmSteps.steps {s s' : CSys N D} (h : CalmSteps p c0 s s') : CSteps p c0 s s' := by
  induction h with
  | refl => exact .refl
  | tail a _ hc hs ih => exact .tail a ih hs

theorem csteps_join {s s' s'' : CSys N D} (h1 : CSteps p c0 s s') (h2 : CSteps p c0 s' s'') : CSteps p c0 s s'' := by
  induction h2 with
  | refl => exact h1
  | tail a _ hs ih => exact .tail a ih hs

theorem CalmSteps.reach {s s' : CSys N D} (h : CalmSteps p c0 s s') (hr : CReachable p c0 s) : CReachable p c0 s' :=
  csteps_join hr h.steps

/-- The state after an action. -/
def after (p : CParams) (c0 : Conf N) (s : CSys N D) (a : CAct N D) : CSys N D :=
  { node := updF s.node a.at (ceff p c0 (s.node a.at) a).1, msgs := (ceff p c0 (s.node a.at) a).2.1 ++ s.msgs,
    ev := (ceff p c0 (s.node a.at) a).2.2 ++ s.ev }

theorem calm_act {s : CSys N D} (a : CAct N D) (hc : calm s a = true) (hp : cpre p c0 s a = true) :
    CalmSteps p c0 s (after p c0 s a) :=
  .tail a .refl hc (by unfold cstep; rw [if_pos hp]; rfl)

/-- What stays when actions happen at node `v` only. -/
structure Only (v : N) (s s' : CSys N D) : Prop where
  other : ∀ i, i ≠ v → s'.node i = s.node i
  msgs : ∀ m ∈ s.msgs, m ∈ s'.msgs
  ev : ∃ es, s'.ev = es ++ s.ev

theorem Only.refl (v : N) (s : CSys N D) : Only v s s := ⟨fun _ _ => rfl, fun _ h => h, [], rfl⟩

theorem Only.trans {v : N} {s s' s'' : CSys N D} (h1 : Only v s s') (h2 : Only v s' s'') : Only v s s'' :=
  ⟨fun i hi => (h2.other i hi).trans (h1.other i hi), fun m hm => h2.msgs m (h1.msgs m hm), by
    obtain ⟨e1, h3⟩ := h1.ev
    obtain ⟨e2, h4⟩ := h2.ev
    exact ⟨e2 ++ e1, by rw [h4, h3, List.append_assoc]⟩⟩

theorem only_after (s : CSys N D) (a : CAct N D) : Only a.at s (after p c0 s a) :=
  ⟨fun i hi => by simp [after, updF, hi], fun m hm => List.mem_append_right _ hm, _, rfl⟩

theorem after_at (s : CSys N D) (a : CAct N D) : (after p c0 s a).node a.at = (ceff p c0 (s.node a.at) a).1 := by
  simp [after, updF]

/-- One calm action at `v`, with the new node. -/
theorem calm_one {s : CSys N D} (v : N) (a : CAct N D) (hv : a.at = v) (hc : calm s a = true)
    (hp : cpre p c0 s a = true) :
    ∃ s', CalmSteps p c0 s s' ∧ Only v s s' ∧ s'.node v = (ceff p c0 (s.node v) a).1 ∧
      (∀ m ∈ (ceff p c0 (s.node v) a).2.1, m ∈ s'.msgs) ∧ (∀ e ∈ (ceff p c0 (s.node v) a).2.2, e ∈ s'.ev) ∧
      s'.ev = (ceff p c0 (s.node v) a).2.2 ++ s.ev := by
  subst hv
  exact ⟨_, calm_act a hc hp, only_after s a, after_at s a, fun m hm => List.mem_append_left _ hm,
    fun m hm => List.mem_append_left _ hm, rfl⟩

/-! ### The disk queue is worked off -/

/-- What the disk thread and the state machine leave alone. -/
structure Keep (c c' : Srv N D) : Prop where
  state : c'.state = c.state
  term : c'.term = c.term
  vote : c'.vote = c.vote
  leaderId : c'.leaderId = c.leaderId
  lastLeader : c'.lastLeader = c.lastLeader
  ctx : c'.ctx = c.ctx
  rpcs : c'.rpcs = c.rpcs
  repl : c'.repl = c.repl
  pterm : c'.pterm = c.pterm
  log : c'.log = c.log
  snap : c'.snap = c.snap
  psnap : c'.psnap = c.psnap
  dl : c'.dl = c.dl

theorem Keep.refl (c : Srv N D) : Keep c c := by constructor <;> rfl

theorem Keep.trans {a b c : Srv N D} (h1 : Keep a b) (h2 : Keep b c) : Keep a c := by
  constructor
  · exact h2.state.trans h1.state
  · exact h2.term.trans h1.term
  · exact h2.vote.trans h1.vote
  · exact h2.leaderId.trans h1.leaderId
  · exact h2.lastLeader.trans h1.lastLeader
  · exact h2.ctx.trans h1.ctx
  · exact h2.rpcs.trans h1.rpcs
  · exact h2.repl.trans h1.repl
  · exact h2.pterm.trans h1.pterm
  · exact h2.log.trans h1.log
  · exact h2.snap.trans h1.snap
  · exact h2.psnap.trans h1.psnap
  · exact h2.dl.trans h1.dl

theorem sDisk_keep (i : N) (c : Srv N D) : Keep c (sDisk i c).1 ∧ (sDisk i c).1.queue = c.queue.tail ∧
    (sDisk i c).1.applied = c.applied := by
  unfold sDisk
  split
  · rename_i h; exact ⟨Keep.refl c, by simp [h], rfl⟩
  · rename_i j q h
    dsimp only
    split
    · exact ⟨by constructor <;> rfl, by simp [h], rfl⟩
    · exact ⟨by constructor <;> rfl, by simp [h], rfl⟩
    · exact ⟨by constructor <;> rfl, by simp [h], rfl⟩
    · split
      · exact ⟨by constructor <;> rfl, by simp [h], rfl⟩
      · exact ⟨by constructor <;> rfl, by simp [sSetCommitted, h], rfl⟩
    · exact ⟨by constructor <;> rfl, by simp [h], rfl⟩

/-- Work off the disk queue of `v`. -/
theorem drain_calm (v : N) : ∀ (n : Nat) (s : CSys N D), (s.node v).queue.length = n →
    ∃ s', CalmSteps p c0 s s' ∧ Only v s s' ∧ Keep (s.node v) (s'.node v) ∧ (s'.node v).queue = [] ∧
      (s'.node v).applied = (s.node v).applied := by
  intro n
  induction n with
  | zero =>
    intro s h
    exact ⟨s, .refl, Only.refl v s, Keep.refl _, List.length_eq_zero_iff.mp h, rfl⟩
  | succ n ih =>
    intro s h
    obtain ⟨s1, h1, h2, h3, -, -, -⟩ := calm_one (p := p) (c0 := c0) (s := s) v (.disk v) rfl rfl (by
      simp only [cpre, decide_eq_true_eq]
      intro h0; rw [h0] at h; simp at h)
    have h3 : s1.node v = (sDisk v (s.node v)).1 := h3
    obtain ⟨k1, k2, k3⟩ := sDisk_keep v (s.node v)
    rw [← h3] at k1 k2 k3
    obtain ⟨s2, g1, g2, g3, g4, g5⟩ := ih s1 (by rw [k2, List.length_tail, h]; omega)
    exact ⟨s2, h1.trans g1, h2.trans g2, k1.trans g3, g4, g5.trans k3⟩

/-- A node with nothing under way. -/
structure Settled (c : Srv N D) : Prop where
  queue : c.queue = []
  dl : c.dl = none

theorem sLoaded_dl (c : Srv N D) : (sLoaded c).dl = none := by
  unfold sLoaded
  dsimp only
  repeat' split
  all_goals rfl

theorem sLoaded_term (c : Srv N D) : (sLoaded c).term = c.term := by
  unfold sLoaded
  dsimp only
  repeat' split
  all_goals rfl

/-- Let a node finish what it is doing. -/
theorem settle_calm (v : N) (s : CSys N D) : ∃ s', CalmSteps p c0 s s' ∧ Only v s s' ∧ Settled (s'.node v) ∧
    ((s.node v).dl = none → Keep (s.node v) (s'.node v)) ∧ (s'.node v).term = (s.node v).term := by
  have hd : ∃ s', CalmSteps p c0 s s' ∧ Only v s s' ∧ (s'.node v).dl = none ∧
      ((s.node v).dl = none → s' = s) ∧ (s'.node v).term = (s.node v).term := by
    by_cases h0 : (s.node v).dl = none
    · exact ⟨s, .refl, Only.refl v s, h0, fun _ => rfl, rfl⟩
    · by_cases h1 : (s.node v).dl = some (s.node v).psnap
      · obtain ⟨s1, g1, g2, g3, -, -, -⟩ := calm_one (p := p) (c0 := c0) (s := s) v (.loaded v) rfl rfl (by
          simpa only [cpre, decide_eq_true_eq] using h1)
        exact ⟨s1, g1, g2, by rw [g3]; exact sLoaded_dl _, fun h => absurd h h0, by rw [g3]; exact sLoaded_term _⟩
      · obtain ⟨s1, g1, g2, g3, -, -, -⟩ := calm_one (p := p) (c0 := c0) (s := s) v (.dlDrop v) rfl rfl (by
          simp only [cpre, Bool.and_eq_true, decide_eq_true_eq]; exact ⟨h0, h1⟩)
        exact ⟨s1, g1, g2, by rw [g3]; rfl, fun h => absurd h h0, by rw [g3]; rfl⟩
  obtain ⟨s1, g1, g2, g3, g4, g5⟩ := hd
  obtain ⟨s2, h1, h2, h3, h4, -⟩ := drain_calm (p := p) (c0 := c0) v _ s1 rfl
  exact ⟨s2, g1.trans h1, g2.trans h2, ⟨h4, by rw [h3.dl, g3]⟩, fun h => by rw [← g4 h]; exact h3, h3.term.trans g5⟩

/-- Messages and events only grow. -/
structure Grow (s s' : CSys N D) : Prop where
  msgs : ∀ m ∈ s.msgs, m ∈ s'.msgs
  ev : ∃ es, s'.ev = es ++ s.ev

theorem Only.grow {v : N} {s s' : CSys N D} (h : Only v s s') : Grow s s' := ⟨h.msgs, h.ev⟩

theorem Grow.refl (s : CSys N D) : Grow s s := ⟨fun _ h => h, [], rfl⟩

theorem Grow.trans {s s' s'' : CSys N D} (h1 : Grow s s') (h2 : Grow s' s'') : Grow s s'' :=
  ⟨fun m hm => h2.msgs m (h1.msgs m hm), by
    obtain ⟨e1, h3⟩ := h1.ev
    obtain ⟨e2, h4⟩ := h2.ev
    exact ⟨e2 ++ e1, by rw [h4, h3, List.append_assoc]⟩⟩

theorem Grow.mem {s s' : CSys N D} (h : Grow s s') {e : Ev N D} (he : e ∈ s.ev) : e ∈ s'.ev := by
  obtain ⟨es, h1⟩ := h.ev
  rw [h1]; exact List.mem_append_right _ he

theorem settle_all : ∀ (vs : List N) (s : CSys N D), ∃ s', CalmSteps p c0 s s' ∧ Grow s s' ∧
    (∀ i, i ∉ vs → s'.node i = s.node i) ∧
    ∀ v ∈ vs, Settled (s'.node v) ∧ ((s.node v).dl = none → Keep (s.node v) (s'.node v)) ∧
      (s'.node v).term = (s.node v).term := by
  intro vs
  induction vs with
  | nil => intro s; exact ⟨s, .refl, Grow.refl s, fun _ _ => rfl, fun v hv => absurd hv List.not_mem_nil⟩
  | cons v vs ih =>
    intro s
    obtain ⟨s1, g1, g2, g3, g4⟩ := ih s
    obtain ⟨s2, h1, h2, h3, h5, h6⟩ := settle_calm (p := p) (c0 := c0) v s1
    refine ⟨s2, g1.trans h1, g2.trans h2.grow, fun i hi => ?_, fun w hw => ?_⟩
    · rw [List.mem_cons, not_or] at hi
      rw [h2.other i hi.1, g3 i hi.2]
    · by_cases hwv : w = v
      · subst hwv
        refine ⟨h3, fun hd => ?_, ?_⟩
        · by_cases hm : w ∈ vs
          · have k1 := (g4 w hm).2.1 hd
            exact k1.trans (h5 (k1.dl.trans hd))
          · rw [g3 w hm] at h5
            exact h5 hd
        · by_cases hm : w ∈ vs
          · rw [h6]; exact (g4 w hm).2.2
          · rw [h6, g3 w hm]
      · rw [h2.other w hwv]
        exact g4 w ((List.mem_cons.mp hw).resolve_left hwv)

end Braft.Cl
