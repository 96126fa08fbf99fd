import Verif.Cluster.PipeNode
import Verif.Cluster.LogNodeSafe
import Verif.Props.Raft
import Verif.PipeRun
/-
What the handlers of a server do to its ballot box, log and applied index, and what the safety of the cluster
(Raft/Inv.lean, Cluster/Sim*.lean) says about them.
-/
set_option linter.unusedVariables false
set_option linter.unusedSimpArgs false
set_option linter.unusedSectionVars false

namespace Braft.Cl
open Braft.Raft
variable {N D : Type} [DecidableEq N] [DecidableEq D] {c0 : Conf N} {p : CParams}

/-- Nothing that concerns tasks has changed, except that a leader may have stepped down. -/
structure BSame (c c' : Srv N D) : Prop where
  log : c'.log = c.log
  applied : c'.applied = c.applied
  bb : c'.bb = if (c.state.leads && !c'.state.leads) = true then c.bb.clearPendingTasks.1 else c.bb
  lead : c'.state.leads = true → c.state.leads = true

theorem BSame.of {c c' : Srv N D} (h1 : c'.log = c.log) (h2 : c'.applied = c.applied) (h3 : c'.bb = c.bb)
    (h4 : c'.state.leads = c.state.leads) : BSame c c' where
  log := h1
  applied := h2
  bb := by rw [h3, h4]; cases c.state.leads <;> rfl
  lead := by rw [h4]; exact id

theorem BSame.rfl' (c : Srv N D) : BSame c c := .of rfl rfl rfl rfl

theorem BSame.trans {a b c : Srv N D} (h1 : BSame a b) (h2 : BSame b c) : BSame a c where
  log := h2.log.trans h1.log
  applied := h2.applied.trans h1.applied
  bb := by
    have l1 := h1.lead
    have l2 := h2.lead
    rw [h2.bb, h1.bb]
    cases ha : a.state.leads <;> cases hb : b.state.leads <;> cases hc : c.state.leads <;> rw [ha, hb] at l1 <;> rw [hb, hc] at l2 <;>
      first
        | rfl
        | exact absurd (l1 rfl) (by simp)
        | exact absurd (l2 rfl) (by simp)
  lead := fun h => h1.lead (h2.lead h)

theorem stepDown_b (c : Srv N D) (t : Nat) (ok : Bool) : BSame c (sStepDown c t ok) where
  log := rfl
  applied := rfl
  bb := by
    show (if c.state.leads then c.bb.clearPendingTasks.1 else c.bb) = _
    cases c.state.leads <;> rfl
  lead := by intro h; cases h

theorem checkStepDown_b (i : N) (c : Srv N D) (t : Nat) (srv : N) (ok : Bool) : BSame c (sCheckStepDown i c t srv ok).1 := by
  unfold sCheckStepDown
  dsimp only
  have h : BSame c (if c.term < t ∨ c.state ≠ .follower ∨ c.leaderId = none then sStepDown c t ok else c) := by
    split
    · exact stepDown_b ..
    · exact .rfl' c
  generalize (if c.term < t ∨ c.state ≠ .follower ∨ c.leaderId = none then sStepDown c t ok else c) = c1 at h ⊢
  split
  · exact h.trans (.of rfl rfl rfl rfl)
  · exact h

/-- After check_step_down the node is a follower. -/
theorem checkStepDown_follower (i : N) (c : Srv N D) (t : Nat) (srv : N) (ok : Bool) :
    (sCheckStepDown i c t srv ok).1.state = .follower := by
  unfold sCheckStepDown
  dsimp only
  have h : (if c.term < t ∨ c.state ≠ .follower ∨ c.leaderId = none then sStepDown c t ok else c).state = .follower := by
    split
    · rfl
    · rename_i hn
      exact Decidable.byContradiction fun h => hn (Or.inr (Or.inl h))
  generalize (if c.term < t ∨ c.state ≠ .follower ∨ c.leaderId = none then sStepDown c t ok else c) = c1 at h ⊢
  split
  · exact h
  · exact h

theorem electA_b (i : N) (c : Srv N D) (st : Bool) (hl : c.state.leads = false) : BSame c (sElectA c0 i c st) := by
  unfold sElectA
  split
  · exact .rfl' c
  · exact .of rfl rfl rfl hl.symm

theorem timeoutNow_b (i : N) (c : Srv N D) (t : Nat) (st ok : Bool) : BSame c (sTimeoutNow c0 i c t st ok) := by
  unfold sTimeoutNow
  split
  · split
    · exact stepDown_b ..
    · exact .rfl' c
  · split
    · exact .rfl' c
    · rename_i h
      refine electA_b _ _ _ ?_
      rw [Decidable.not_not.mp h]
      rfl

theorem voteCast_b (c : Srv N D) (f : VFrame N) (ok g : Bool) : BSame c (sVoteCast c f ok g) := by
  unfold sVoteCast
  dsimp only
  have h : BSame c (if c.term < f.reqTerm then sStepDown c f.reqTerm ok else c) := by
    split
    · exact stepDown_b ..
    · exact .rfl' c
  generalize (if c.term < f.reqTerm then sStepDown c f.reqTerm ok else c) = c1 at h ⊢
  split
  · have h2 := h.trans (stepDown_b c1 f.reqTerm ok)
    split
    · exact h2.trans (.of rfl rfl rfl rfl)
    · exact h2.trans (.of rfl rfl rfl rfl)
  · exact h

theorem voteReqA_b (i : N) (c : Srv N D) (t : Nat) (cand : N) (claim : Nat × Nat) : BSame c (sVoteReqA i c t cand claim).1 := by
  unfold sVoteReqA
  split
  · exact .rfl' c
  · exact .of rfl rfl rfl rfl

theorem voteReqB_b (i : N) (c : Srv N D) (f : VFrame N) (free ok g : Bool) : BSame c (sVoteReqB i c f free ok g).1 := by
  unfold sVoteReqB
  dsimp only
  split
  · exact .of rfl rfl rfl rfl
  · split
    · exact .of rfl rfl rfl rfl
    · exact BSame.trans (b := { c with vcalls := c.vcalls.erase f }) (.of rfl rfl rfl rfl) (voteCast_b ..)

theorem install_b (i : N) (c : Srv N D) (t : Nat) (srv : N) (K : Log N D) (ok : Bool) : BSame c (sInstall i c t srv K ok).1 := by
  have h := checkStepDown_b i c t srv ok
  unfold sInstall
  dsimp only
  split
  · exact .rfl' c
  · split
    · exact h.trans (stepDown_b ..)
    · split
      · exact h.trans (.of rfl rfl rfl rfl)
      · exact h

theorem replRead_b (i : N) (c : Srv N D) (f : RFrame N) (cnt : Nat) : BSame c (sReplRead i c f cnt).1 := by
  unfold sReplRead
  split
  · exact .of rfl rfl rfl rfl
  · exact .rfl' c

/-- What elections do: nothing, or the process ends, or the node leads and appends its configuration. -/
inductive BOut (c0 : Conf N) (c : Srv N D) (r : Res N D) (ab : Bool) : Prop where
  | same (h : BSame c r.1) (hl : led r = false) (ha : ab = false)
  | boot (c1 : Srv N D) (hr : r.1 = restartSrv c1) (ha : ab = true)
  | lead (hlog : r.1.log = c.log ++ [⟨c.term, .conf (confOf c0 c.log)⟩]) (hap : r.1.applied = c.applied)
      (hbb : r.1.bb = (c.bb.resetPendingIndex (c.log.length + 1)).appendPendingTask (confOf c0 c.log).peers (oldOf (confOf c0 c.log)) none)
      (hst : r.1.state = .leader) (ht : r.1.term = c.term) (hl : led r = true) (ha : ab = false)

theorem BOut.congr {c : Srv N D} {r r' : Res N D} {ab ab' : Bool} (h : BOut c0 c r ab) (h1 : r'.1 = r.1) (h2 : r'.2.2 = r.2.2)
    (h3 : ab' = ab) : BOut c0 c r' ab' := by
  cases h with
  | same a b d => exact .same (by rw [h1]; exact a) (by rw [led_congr h2]; exact b) (h3.trans d)
  | boot c1 d e => exact .boot c1 (h1.trans d) (h3.trans e)
  | lead a b d e f g h => exact .lead (by rw [h1]; exact a) (by rw [h1]; exact b) (by rw [h1]; exact d) (by rw [h1]; exact e) (by rw [h1]; exact f) (by rw [led_congr h2]; exact g) (h3.trans h)

theorem becomeLeader_b (i : N) {c c1 : Srv N D} (h1 : c1.log = c.log) (h2 : c1.applied = c.applied) (h3 : c1.bb = c.bb) (ht : c1.term = c.term) :
    BOut c0 c (sBecomeLeader p c0 i c1) (decide (c1.state ≠ .candidate) && p.checkAborts) := by
  unfold sBecomeLeader
  by_cases ha : c1.state ≠ .candidate ∧ p.checkAborts = true
  · rw [if_pos ha]
    exact .boot c1 rfl (by simp [ha.1, ha.2])
  · rw [if_neg ha]
    have hf : (decide (c1.state ≠ .candidate) && p.checkAborts) = false := by
      cases hb : (decide (c1.state ≠ .candidate) && p.checkAborts) with
      | false => rfl
      | true =>
        rw [Bool.and_eq_true, decide_eq_true_eq] at hb
        exact absurd hb ha
    dsimp only
    refine .lead ?_ ?_ ?_ rfl ?_ rfl hf
    · rw [← ht, ← h1]; rfl
    · rw [← h2]; rfl
    · rw [← h1, ← h3]; rfl
    · rw [← ht]; rfl

theorem grantSelf_b (i : N) {c c1 : Srv N D} (free : Bool) (h1 : c1.log = c.log) (h2 : c1.applied = c.applied) (h3 : c1.bb = c.bb)
    (ht : c1.term = c.term) (hs : c1.state = c.state) :
    BOut c0 c (sGrantSelf p c0 i c1 free)
      (free && (c1.ctx.ballot.grant i).granted && decide (c1.state ≠ .candidate) && p.checkAborts) := by
  unfold sGrantSelf
  cases free with
  | false => exact .same (.of h1 h2 h3 (by show c1.state.leads = _; rw [hs])) rfl rfl
  | true =>
    simp only [if_true, Bool.true_and]
    by_cases hg : (c1.ctx.ballot.grant i).granted = true
    · rw [if_pos hg, hg, Bool.true_and]
      have := becomeLeader_b (p := p) (c0 := c0) i (c := c) (c1 := { c1 with ctx := { c1.ctx with ballot := c1.ctx.ballot.grant i } })
        h1 h2 h3 ht
      exact this
    · rw [if_neg hg]
      refine .same (.of h1 h2 h3 (by show c1.state.leads = _; rw [hs])) rfl ?_
      rw [Bool.not_eq_true] at hg
      rw [hg]
      rfl

theorem electB_b (i : N) (c : Srv N D) (f : EFrame) (ok free : Bool) :
    BOut c0 c (sElectB p c0 i c f ok free) (aborts p i c (.electB i f ok free)) := by
  unfold sElectB aborts
  by_cases hf : f.term ≠ c.term
  · rw [if_pos hf]
    exact .same (.of rfl rfl rfl rfl) rfl (by simp [hf])
  · rw [if_neg hf]
    dsimp only
    cases ok with
    | false =>
      simp only [Bool.false_eq_true, if_false, Bool.and_false, Bool.false_and]
      exact .same (.of rfl rfl rfl rfl) rfl rfl
    | true =>
      simp only [if_true]
      have := grantSelf_b (p := p) (c0 := c0) i (c := c)
        (c1 := { (sElectAsk c0 i c f).1 with pterm := (sElectAsk c0 i c f).1.term, pvote := some i }) free
        rfl rfl rfl rfl rfl
      refine this.congr rfl rfl ?_
      have hft : f.term = c.term := by simpa using hf
      rw [decide_eq_true hft, Bool.true_and, Bool.true_and]
      rfl

theorem timer_b (i : N) (c : Srv N D) (v : Nat) (free : Bool) :
    BOut c0 c (sTimer p c0 i c v free) (aborts p i c (.timer i v free)) := by
  unfold sTimer aborts
  dsimp only
  by_cases hv : c.ctx.version ≠ v
  · rw [if_pos hv]
    exact .same (.of rfl rfl rfl rfl) rfl (by simp [hv])
  · rw [if_neg hv]
    have := grantSelf_b (p := p) (c0 := c0) i (c := c) (c1 := { c with timers := c.timers.erase v }) free
      rfl rfl rfl rfl rfl
    refine this.congr rfl rfl ?_
    have hft : c.ctx.version = v := by simpa using hv
    rw [decide_eq_true hft, Bool.true_and]

theorem voteRes_b (i : N) (c : Srv N D) (r : Rpc N) (g rj di : Bool) (rt pt : Nat) (ok : Bool) :
    BOut c0 c (sVoteRes p c0 i c r g rj di rt pt ok) false := by
  unfold sVoteRes
  by_cases h1 : r.version ≠ c.ctx.version
  · rw [if_pos h1]; exact .same (.of rfl rfl rfl rfl) rfl rfl
  rw [if_neg h1]
  by_cases h2 : c.state ≠ .candidate
  · rw [if_pos h2]; exact .same (.of rfl rfl rfl rfl) rfl rfl
  rw [if_neg h2]
  by_cases h3 : r.term ≠ c.term
  · rw [if_pos h3]; exact .same (.of rfl rfl rfl rfl) rfl rfl
  rw [if_neg h3]
  by_cases h4 : c.term < rt
  · rw [if_pos h4]
    exact .same (BSame.trans (b := { c with rpcs := c.rpcs.erase r }) (.of rfl rfl rfl rfl) (stepDown_b ..)) rfl rfl
  rw [if_neg h4]
  by_cases h5 : ¬ g = true ∧ ¬ rj = true
  · rw [if_pos h5]; exact .same (.of rfl rfl rfl rfl) rfl rfl
  rw [if_neg h5]
  have hst : c.state = .candidate := Decidable.not_not.mp h2
  dsimp only
  generalize (if di = true then _ else c.ctx : VoteCtx N) = x1
  generalize (if g = true ∧ some r.peer = c.lastLeader then _ else _ : Ballot N) = b2
  generalize (if g = true then x1.reserved else _ : List N) = rs
  by_cases h6 : g = true ∧ b2.granted = true
  · rw [if_pos h6]
    refine (becomeLeader_b (p := p) (c0 := c0) i (c := c) (c1 := { c with rpcs := c.rpcs.erase r, ctx := { x1 with ballot := b2, reserved := rs } }) rfl rfl rfl rfl).congr rfl rfl ?_
    dsimp only
    rw [hst]
    rfl
  rw [if_neg h6]
  by_cases h7 : x1.disrupted = none
  · rw [if_pos h7]; exact .same (.of rfl rfl rfl rfl) rfl rfl
  · rw [if_neg h7]; exact .same (.of rfl rfl rfl rfl) rfl rfl

/-! ### Safety -/

/-- Facts about the ballot box of a server. -/
structure BF (c : Srv N D) : Prop where
  fol : c.state.leads = false → c.bb.pending = 0 ∧ c.bb.queue = []
  lead : c.state.leads = true → c.bb.pending ≠ 0
  dl : c.dl ≠ none → c.state.leads = false
  cl : c.bb.lastCommitted ≤ c.log.length
  ap : c.applied ≤ c.log.length

theorem bf_of {g : Glob N D} {ev : List (Ev N D)} {i : N} {c : Srv N D} {n : NodeSt N D}
    (h : NodeInv c0 g i n) (r : NR c0 g ev i c n) : BF c where
  fol := r.fol
  lead := fun hl => Nat.ne_of_gt (r.lead hl).pos
  dl := fun hd => by
    have h1 := h.dlf (by rw [r.dl]; exact hd)
    cases hl : c.state.leads with
    | false => rfl
    | true => rw [(leads_role r).mp hl] at h1; cases h1
  cl := by rw [← r.log, ← r.commit]; exact h.cl
  ap := by rw [← r.log, ← r.applied]; exact h.ap

theorem bf_reach (hp : COk p) {s : CSys N D} (h : CReachable p c0 s) (i : N) : BF (s.node i) := by
  obtain ⟨a, ha, hr⟩ := sim_reach hp h
  exact bf_of ((inv_reachable ha).n i) (hr.node i)

/-- What two nodes, at any two moments, count as committed or have applied is the same. -/
theorem committed_take (hp : COk p) {s s' : CSys N D} (h : CReachable p c0 s) (h' : CSteps p c0 s s') {i j : N} {k : Nat}
    (hi : k ≤ (s.node i).bb.lastCommitted ∨ k ≤ (s.node i).applied)
    (hj : k ≤ (s'.node j).bb.lastCommitted ∨ k ≤ (s'.node j).applied) :
    (s.node i).log.take k = (s'.node j).log.take k := by
  obtain ⟨a, h1⟩ := sim_reach' hp h
  obtain ⟨a', h3, h4⟩ := sim_steps hp h1 h'
  have hI := inv_reachable h1.reach
  have hI' := inv_reachable h4.reach
  have key : ∀ {s : CSys N D} {a : Sys N D} (hs : SR c0 s a) (hi : Inv c0 a) (i : N),
      (k ≤ (s.node i).bb.lastCommitted ∨ k ≤ (s.node i).applied) → k ≤ (s.node i).log.length ∧
        Committed a.g (a.node i).term ((s.node i).log.take k) := by
    intro s a hs hi i hk
    have r := hs.node i
    have n := hi.n i
    rcases hk with hk | hk
    · have h1 := n.cl
      have h2 := n.cc
      rw [r.commit, r.log] at h1 h2
      exact ⟨by omega, h2.pre (List.take_prefix_take_left hk)⟩
    · have h1 := n.ap
      have h2 := n.ac
      rw [r.applied, r.log] at h1 h2
      exact ⟨by omega, h2.pre (List.take_prefix_take_left hk)⟩
  obtain ⟨l1, k1⟩ := key h1.rel hI i hi
  obtain ⟨l2, k2⟩ := key h4.rel hI' j hj
  rcases hI'.g.toGBase.comm_total (Props.committed_later h3 k1) k2 with h | h
  · exact h.eq_of_length (by rw [List.length_take, List.length_take]; omega)
  · exact (h.eq_of_length (by rw [List.length_take, List.length_take]; omega)).symm

theorem led_append (i : N) (c : Srv N D) (t : Nat) (srv : N) (prev pt : Nat) (es : List (Entry N D)) (cm : Nat) (ok gone : Bool) :
    led (sAppend i c t srv prev pt es cm ok gone) = false := by
  unfold sAppend
  by_cases h1 : t < c.term
  · rw [if_pos h1]; rfl
  rw [if_neg h1]
  dsimp only
  by_cases h2 : (sCheckStepDown i c t srv ok).1.leaderId ≠ some srv
  · rw [if_pos h2]; exact led_follow ..
  rw [if_neg h2]
  by_cases h3 : es ≠ [] ∧ (sCheckStepDown i c t srv ok).1.dl.isSome = true
  · rw [if_pos h3]; exact led_follow ..
  rw [if_neg h3]
  by_cases h4 : (if gone = true then 0 else termAt (sCheckStepDown i c t srv ok).1.log prev) ≠ pt
  · rw [if_pos h4]; exact led_follow ..
  rw [if_neg h4]
  by_cases h5 : es = []
  · rw [if_pos h5]; exact led_follow ..
  rw [if_neg h5]
  by_cases h6 : prev + es.length ≤ (sCheckStepDown i c t srv ok).1.applied
  · rw [if_pos h6]; exact led_follow ..
  rw [if_neg h6]
  exact led_follow ..

/-- A node that becomes leader was none. -/
theorem led_free (hp : COk p) {s : CSys N D} (h : CReachable p c0 s) {a : CAct N D} (hpre : cpre p c0 s a = true)
    (hl : led (ceff p c0 (s.node a.at) a) = true) (hr : restarts p a.at (s.node a.at) a = false) :
    (s.node a.at).state.leads = false := by
  obtain ⟨b, hb⟩ := sim_reach' hp h
  cases a with
  | electB i f ok free =>
    simp only [cpre, Bool.and_eq_true, decide_eq_true_eq] at hpre
    have r := hb.rel.node i
    have hft : f.term = (s.node i).term := by
      apply Classical.byContradiction
      intro hn
      have hl : led (sElectB p c0 i (s.node i) f ok free) = true := hl
      unfold sElectB at hl
      rw [if_pos hn] at hl
      cases hl
    exact ((r.el f hpre.1.1.1).now hft).2.1
  | timer i v free =>
    simp only [cpre, Bool.and_eq_true, decide_eq_true_eq] at hpre
    rcases hp.check with hc | hc
    · have hl : led (sTimer p c0 i (s.node i) v free) = true := hl
      have hr : aborts p i (s.node i) (.timer i v free) = false := hr
      show (s.node i).state.leads = false
      have hv : (s.node i).ctx.version = v := by
        apply Classical.byContradiction
        intro hn
        unfold sTimer at hl
        dsimp only at hl
        rw [if_pos hn] at hl
        cases hl
      have hf : free = true := by
        cases free with
        | true => rfl
        | false =>
          unfold sTimer sGrantSelf at hl
          dsimp only at hl
          rw [if_neg (by simpa using hv)] at hl
          cases hl
      subst hf
      have hgr : ((s.node i).ctx.ballot.grant i).granted = true := by
        apply Classical.byContradiction
        intro hn
        unfold sTimer sGrantSelf at hl
        dsimp only at hl
        rw [if_neg (by simpa using hv), if_pos rfl, if_neg hn] at hl
        cases hl
      have hr : (decide ((s.node i).ctx.version = v) && true && ((s.node i).ctx.ballot.grant i).granted && decide ((s.node i).state ≠ .candidate) && p.checkAborts) = false := hr
      rw [decide_eq_true hv, hgr, hc] at hr
      simp only [Bool.true_and, Bool.and_true, decide_eq_false_iff_not, Decidable.not_not] at hr
      rw [hr]
      rfl
    · have := hb.timers hc i
      rw [this] at hpre
      cases hpre.1
  | voteRes i r g rj d rt pt ok =>
    have hl : led (sVoteRes p c0 i (s.node i) r g rj d rt pt ok) = true := hl
    show (s.node i).state.leads = false
    have : (s.node i).state = .candidate := by
      apply Classical.byContradiction
      intro hn
      unfold sVoteRes at hl
      by_cases h1 : r.version ≠ (s.node i).ctx.version
      · rw [if_pos h1] at hl; cases hl
      · rw [if_neg h1, if_pos hn] at hl
        cases hl
    rw [this]
    rfl
  | voteReq i t cand claim dis =>
    have hl : led (sVoteReqA i (s.node i) t cand claim) = true := hl
    rw [led_voteReqA] at hl; cases hl
  | voteReqB i f free ok g =>
    have hl : led (sVoteReqB i (s.node i) f free ok g) = true := hl
    rw [led_voteReqB] at hl; cases hl
  | append i t srv prev pt es cm ok gone =>
    have hl : led (sAppend i (s.node i) t srv prev pt es cm ok gone) = true := hl
    rw [led_append] at hl; cases hl
  | install i t srv K ok =>
    have hl : led (sInstall i (s.node i) t srv K ok) = true := hl
    rw [led_install] at hl; cases hl
  | disk i =>
    exfalso
    have hl : led (sDisk i (s.node i)) = true := hl
    unfold sDisk at hl
    repeat' split at hl
    all_goals first | cases hl | (dsimp only at hl; split at hl <;> cases hl)
  | fsm i =>
    exfalso
    have hl : led (sApply i (s.node i)) = true := hl
    unfold sApply led at hl
    dsimp only at hl
    split at hl <;> cases hl
  | replRead i f cnt =>
    have hl : led (sReplRead i (s.node i) f cnt) = true := hl
    rw [led_replRead] at hl; cases hl
  | elect i => cases hl
  | timeoutNow i t st ok => cases hl
  | electDie i f => cases hr
  | stepDown i t ok => cases hl
  | transfer i => cases hl
  | transferTimeout i => cases hl
  | apply i ds => cases hl
  | changeConf i cf => cases hl
  | replSend i to prev => cases hl
  | replRes i who first upTo n => cases hl
  | replAck i f => cases hl
  | sendIS i to => cases hl
  | saveSnap i k => cases hl
  | copied i => cases hl
  | loaded i => cases hl
  | dlDrop i => cases hl
  | crash i => cases hr

end Braft.Cl
