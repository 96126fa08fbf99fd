import Verif.Cluster.ConfNodeRun
import Verif.Cluster.Traces
import Verif.Cluster.LogNodeSafe
/-
NodeImpl::get_status (node.cpp:2837-2896) over the servers with LogManagers of Cluster/LogNode.lean, and what a server does
to its terms and indexes as long as its process runs.

get_status looks at the node, the LogManager and the BallotBox one after the other, under their mutexes, so it sees three
states of the system. What is not here: peer_id and readonly (C28), applying_index, and the map of followers with the status
of their replicators.
-/
set_option linter.unusedVariables false
set_option linter.unusedSimpArgs false
set_option linter.unusedSectionVars false

namespace Braft.Stat
open Braft.Raft Braft.Cl Braft.CN

/-- NodeStatus (raft.h:367-432). -/
structure Report (N : Type) where
  state : St
  term : Nat
  leaderId : Option N
  firstIndex : Int
  lastIndex : Int
  diskIndex : Int
  knownAppliedIndex : Int
  committedIndex : Nat
  pendingIndex : Nat
  pendingQueueSize : Nat
deriving DecidableEq, Repr

section Model
variable {N D : Type} [DecidableEq N] [DecidableEq D]

/-- leader_id (node.cpp:2853-2858). -/
def leaderOf (i : N) (c : Srv N D) : Option N :=
  if c.state.leads then some i else if c.state = .follower then c.leaderId else none

/-- get_status of node `i`: node.cpp:2845-2858 reads `s1`, LogManager::get_status (log_manager.cpp:925-934) `s2`,
BallotBox::get_status (ballot_box.cpp:176-186) `s3`. -/
def report (i : N) (s1 s2 s3 : JSys N D) : Report N where
  state := (s1.cl.node i).state
  term := (s1.cl.node i).term
  leaderId := leaderOf i (s1.cl.node i)
  firstIndex := (s2.ln i).lm.store.first
  lastIndex := (s2.ln i).lm.store.last
  diskIndex := (s2.ln i).lm.disk.index
  knownAppliedIndex := (s2.ln i).lm.applied.index
  committedIndex := (s3.cl.node i).bb.lastCommitted
  pendingIndex := if (s3.cl.node i).bb.queue.isEmpty then 0 else (s3.cl.node i).bb.pending
  pendingQueueSize := (s3.cl.node i).bb.queue.length

/-- Does the process of `i` end with this action? -/
def ends (p : CParams) (i : N) (s : JSys N D) : JAct N D → Bool
  | .srv a _ => decide (a.at = i) && restarts p i (s.cl.node i) a
  | .die j _ => decide (j = i)
  | _ => false

/-- Executions in which the process of `i` goes on. -/
inductive Stays (p : CParams) (c0 : Conf N) (i : N) (s : JSys N D) : JSys N D → Prop where
  | refl : Stays p c0 i s s
  | tail {s' s''} (a : JAct N D) : Stays p c0 i s s' → jstep p c0 s' a = some s'' → ends p i s' a = false →
      Stays p c0 i s s''

/-- The same of the cluster. -/
inductive CStays (p : CParams) (c0 : Conf N) (i : N) (s : CSys N D) : CSys N D → Prop where
  | refl : CStays p c0 i s s
  | tail {s' s''} (a : CAct N D) : CStays p c0 i s s' → cstep p c0 s' a = some s'' →
      (decide (a.at = i) && restarts p i (s'.node i) a) = false → CStays p c0 i s s''
end Model

variable {N D : Type} [DecidableEq N] [DecidableEq D] {c0 : Conf N} {p : CParams}

/-- What an action may do to the indexes of a server that is not restarted. -/
structure Mono (c c' : Srv N D) : Prop where
  lc : c.bb.lastCommitted ≤ c'.bb.lastCommitted
  ap : c.applied ≤ c'.applied
  sn : c.snap.length ≤ c'.snap.length
  tm : c.term ≤ c'.term
  src : c'.applied = c.applied ∨ c'.applied ≤ c'.bb.lastCommitted ∨ c'.applied ≤ c'.snap.length

theorem Mono.keep {c c' : Srv N D} (h1 : c.bb.lastCommitted ≤ c'.bb.lastCommitted) (h2 : c'.applied = c.applied)
    (h3 : c'.snap = c.snap) (h4 : c.term ≤ c'.term) : Mono c c' :=
  ⟨h1, Nat.le_of_eq h2.symm, by rw [h3]; exact Nat.le_refl _, h4, Or.inl h2⟩

theorem Mono.refl (c : Srv N D) : Mono c c := .keep (Nat.le_refl _) rfl rfl (Nat.le_refl _)

theorem Mono.after {c c1 c' : Srv N D} (h : Mono c c1) (h1 : c1.bb.lastCommitted ≤ c'.bb.lastCommitted)
    (h2 : c'.applied = c1.applied) (h3 : c'.snap = c1.snap) (h4 : c1.term ≤ c'.term) : Mono c c' :=
  ⟨Nat.le_trans h.lc h1, by rw [h2]; exact h.ap, by rw [h3]; exact h.sn, Nat.le_trans h.tm h4, by
    rw [h2, h3]
    rcases h.src with h | h | h
    · exact Or.inl h
    · exact Or.inr (Or.inl (Nat.le_trans h h1))
    · exact Or.inr (Or.inr h)⟩

theorem stepDown_lc (c : Srv N D) (t : Nat) (ok : Bool) : (sStepDown c t ok).bb.lastCommitted = c.bb.lastCommitted := by
  show (if c.state.leads = true then c.bb.clearPendingTasks.1 else c.bb).lastCommitted = _
  split <;> rfl

theorem stepDown_mono (c : Srv N D) (t : Nat) (ok : Bool) : Mono c (sStepDown c t ok) :=
  .keep (Nat.le_of_eq (stepDown_lc c t ok).symm) rfl rfl (stepDown_le c t ok)

theorem stepDown_after {c c1 : Srv N D} (h : Mono c c1) (t : Nat) (ok : Bool) : Mono c (sStepDown c1 t ok) :=
  h.after (Nat.le_of_eq (stepDown_lc c1 t ok).symm) rfl rfl (stepDown_le c1 t ok)

theorem checkStepDown_mono (i : N) (c : Srv N D) (t : Nat) (srv : N) (ok : Bool) : Mono c (sCheckStepDown i c t srv ok).1 := by
  unfold sCheckStepDown
  dsimp only
  have h : Mono c (if c.term < t ∨ c.state ≠ .follower ∨ c.leaderId = none then sStepDown c t ok else c) := by
    split
    · exact stepDown_mono c t ok
    · exact .refl c
  generalize (if c.term < t ∨ c.state ≠ .follower ∨ c.leaderId = none then sStepDown c t ok else c) = c1 at h
  split
  · exact h.after (Nat.le_refl _) rfl rfl (Nat.le_refl _)
  · exact h

theorem electA_mono (i : N) (c : Srv N D) (st : Bool) : Mono c (sElectA c0 i c st) := by
  unfold sElectA
  split
  · exact .refl c
  · exact .keep (Nat.le_refl _) rfl rfl (Nat.le_succ _)

theorem timeoutNow_mono (i : N) (c : Srv N D) (t : Nat) (st ok : Bool) : Mono c (sTimeoutNow c0 i c t st ok) := by
  unfold sTimeoutNow
  split
  · split
    · exact stepDown_mono ..
    · exact .refl c
  · split
    · exact .refl c
    · exact electA_mono ..

theorem voteReqB_mono (i : N) (c : Srv N D) (f : VFrame N) (free ok g : Bool) : Mono c (sVoteReqB i c f free ok g).1 := by
  unfold sVoteReqB
  dsimp only
  split
  · exact .keep (Nat.le_refl _) rfl rfl (Nat.le_refl _)
  · split
    · exact .keep (Nat.le_refl _) rfl rfl (Nat.le_refl _)
    · have h : Mono c { c with vcalls := c.vcalls.erase f } := .keep (Nat.le_refl _) rfl rfl (Nat.le_refl _)
      generalize ({ c with vcalls := c.vcalls.erase f } : Srv N D) = c0 at h ⊢
      unfold sVoteCast
      dsimp only
      have h1 : Mono c (if c0.term < f.reqTerm then sStepDown c0 f.reqTerm ok else c0) := by
        split
        · exact stepDown_after h ..
        · exact h
      generalize (if c0.term < f.reqTerm then sStepDown c0 f.reqTerm ok else c0) = c1 at h1 ⊢
      split
      · have h2 := stepDown_after h1 f.reqTerm ok
        generalize sStepDown c1 f.reqTerm ok = c2 at h2 ⊢
        split
        · exact h2.after (Nat.le_refl _) rfl rfl (Nat.le_refl _)
        · exact h2.after (Nat.le_refl _) rfl rfl (Nat.le_refl _)
      · exact h1

theorem becomeLeader_mono (i : N) {c c1 : Srv N D} (h : Mono c c1)
    (ha : (decide (c1.state ≠ .candidate) && p.checkAborts) = false) : Mono c (sBecomeLeader p c0 i c1).1 := by
  unfold sBecomeLeader
  rw [if_neg (fun hx => by
    rw [decide_eq_true hx.1, hx.2] at ha
    cases ha)]
  refine h.after ?_ rfl rfl (Nat.le_refl _)
  exact Nat.le_of_eq (fold_lc (N := N) (D := D) (confOf c0 c1.log) [⟨c1.term, .conf (confOf c0 c1.log)⟩] (c1.bb.resetPendingIndex (c1.log.length + 1))).symm

theorem grantSelf_mono (i : N) {c c1 : Srv N D} (free : Bool) (h : Mono c c1)
    (ha : (free && (c1.ctx.ballot.grant i).granted && decide (c1.state ≠ .candidate) && p.checkAborts) = false) :
    Mono c (sGrantSelf p c0 i c1 free).1 := by
  unfold sGrantSelf
  cases free with
  | false => exact h.after (Nat.le_refl _) rfl rfl (Nat.le_refl _)
  | true =>
    simp only [if_true]
    have h1 : Mono c { c1 with ctx := { c1.ctx with ballot := c1.ctx.ballot.grant i } } := h.after (Nat.le_refl _) rfl rfl (Nat.le_refl _)
    by_cases hg : (c1.ctx.ballot.grant i).granted = true
    · rw [if_pos hg]
      rw [hg, Bool.true_and, Bool.true_and] at ha
      exact becomeLeader_mono i h1 ha
    · rw [if_neg hg]
      exact h1

theorem electB_mono (i : N) (c : Srv N D) (f : EFrame) (ok free : Bool)
    (ha : aborts p i c (.electB i f ok free) = false) : Mono c (sElectB p c0 i c f ok free).1 := by
  unfold sElectB
  unfold aborts at ha
  dsimp only at ha
  by_cases hf : f.term ≠ c.term
  · rw [if_pos hf]; exact .keep (Nat.le_refl _) rfl rfl (Nat.le_refl _)
  · rw [if_neg hf]
    have hft : f.term = c.term := Decidable.not_not.mp hf
    dsimp only
    cases ok with
    | false =>
      simp only [Bool.false_eq_true, if_false]
      exact .keep (Nat.le_refl _) rfl rfl (Nat.le_refl _)
    | true =>
      simp only [if_true]
      rw [decide_eq_true hft, Bool.true_and, Bool.true_and] at ha
      exact grantSelf_mono i free (c1 := { (sElectAsk c0 i c f).1 with pterm := (sElectAsk c0 i c f).1.term, pvote := some i })
        (.keep (Nat.le_refl _) rfl rfl (Nat.le_refl _)) ha

theorem timer_mono (i : N) (c : Srv N D) (v : Nat) (free : Bool)
    (ha : aborts p i c (.timer i v free) = false) : Mono c (sTimer p c0 i c v free).1 := by
  unfold sTimer
  unfold aborts at ha
  dsimp only at ha ⊢
  by_cases hv : c.ctx.version ≠ v
  · rw [if_pos hv]; exact .keep (Nat.le_refl _) rfl rfl (Nat.le_refl _)
  · rw [if_neg hv]
    have hft : c.ctx.version = v := Decidable.not_not.mp hv
    rw [decide_eq_true hft, Bool.true_and] at ha
    exact grantSelf_mono i free (c1 := { c with timers := c.timers.erase v }) (.keep (Nat.le_refl _) rfl rfl (Nat.le_refl _)) ha

theorem voteRes_mono (i : N) (c : Srv N D) (r : Rpc N) (g rj di : Bool) (rt pt : Nat) (ok : Bool) :
    Mono c (sVoteRes p c0 i c r g rj di rt pt ok).1 := by
  have hk : ∀ c' : Srv N D, c'.term = c.term → c'.applied = c.applied → c'.snap = c.snap → c'.bb = c.bb → Mono c c' :=
    fun c' h1 h2 h3 h4 => .keep (by rw [h4]; exact Nat.le_refl _) h2 h3 (by rw [h1]; exact Nat.le_refl _)
  unfold sVoteRes
  by_cases h1 : r.version ≠ c.ctx.version
  · rw [if_pos h1]; exact hk _ rfl rfl rfl rfl
  rw [if_neg h1]
  by_cases h2 : c.state ≠ .candidate
  · rw [if_pos h2]; exact hk _ rfl rfl rfl rfl
  rw [if_neg h2]
  by_cases h3 : r.term ≠ c.term
  · rw [if_pos h3]; exact hk _ rfl rfl rfl rfl
  rw [if_neg h3]
  by_cases h4 : c.term < rt
  · rw [if_pos h4]
    exact stepDown_after (hk { c with rpcs := c.rpcs.erase r } rfl rfl rfl rfl) rt ok
  rw [if_neg h4]
  by_cases h5 : ¬ g = true ∧ ¬ rj = true
  · rw [if_pos h5]; exact hk _ rfl rfl rfl rfl
  rw [if_neg h5]
  have hst : c.state = .candidate := Decidable.not_not.mp h2
  dsimp only
  generalize (if di = true then _ else c.ctx : VoteCtx N) = x1
  generalize (if g = true ∧ some r.peer = c.lastLeader then _ else _ : Ballot N) = b2
  generalize (if g = true then x1.reserved else _ : List N) = rs
  by_cases h6 : g = true ∧ b2.granted = true
  · rw [if_pos h6]
    refine becomeLeader_mono i (c := c) (c1 := { c with rpcs := c.rpcs.erase r, ctx := { x1 with ballot := b2, reserved := rs } })
      (hk _ rfl rfl rfl rfl) ?_
    dsimp only
    rw [hst]
    rfl
  rw [if_neg h6]
  by_cases h7 : x1.disrupted = none
  · rw [if_pos h7]; exact hk _ rfl rfl rfl rfl
  · rw [if_neg h7]; exact hk _ rfl rfl rfl rfl

theorem setCommitted_after {c c1 : Srv N D} (h : Mono c c1) (k : Nat) : Mono c (sSetCommitted c1 k) :=
  h.after (setCommitted_le _ _) rfl rfl (Nat.le_refl _)

theorem append_mono (i : N) (c : Srv N D) (t : Nat) (srv : N) (prev pt : Nat) (es : List (Entry N D)) (cm : Nat) (ok gone : Bool) :
    Mono c (sAppend i c t srv prev pt es cm ok gone).1 := by
  unfold sAppend
  split
  · exact .refl c
  · have h := checkStepDown_mono i c t srv ok
    dsimp only
    generalize (sCheckStepDown i c t srv ok).1 = c1 at h ⊢
    split
    · exact stepDown_after h ..
    · have h2 : Mono c { c1 with lastLeader := some srv } := h.after (Nat.le_refl _) rfl rfl (Nat.le_refl _)
      repeat' split
      all_goals first
        | exact h2
        | exact setCommitted_after h2 _
        | exact h2.after (c' := { c1 with lastLeader := some srv, log := _, queue := _ }) (Nat.le_refl _) rfl rfl (Nat.le_refl _)

theorem install_mono (i : N) (c : Srv N D) (t : Nat) (srv : N) (K : Log N D) (ok : Bool) :
    Mono c (sInstall i c t srv K ok).1 := by
  unfold sInstall
  split
  · exact .refl c
  · have h := checkStepDown_mono i c t srv ok
    dsimp only
    generalize (sCheckStepDown i c t srv ok).1 = c1 at h ⊢
    split
    · exact stepDown_after h ..
    · split
      · exact h.after (Nat.le_refl _) rfl rfl (Nat.le_refl _)
      · exact h

/-- A snapshot that is not older than what is applied is not shorter. -/
theorem loaded_le {c : Srv N D} (hf : SF c) (hd : c.dl = some c.psnap)
    (hle : idLe (termAt c.log c.applied, c.applied) (lastId c.psnap) = true) : c.applied ≤ c.psnap.length := by
  obtain ⟨_, _, h⟩ := hf.dl _ hd
  rcases h with h | h
  · have hlen := h.length_le
    rw [List.length_take, Nat.min_eq_left hf.ap] at hlen
    have hp : c.psnap <+: c.log := h.trans (List.take_prefix _ _)
    have hlt : lastTerm c.psnap = termAt c.log c.psnap.length := by
      rw [termAt_take hp.length_le, ← List.prefix_iff_eq_take.mp hp]
    have hm := hf.mono c.psnap.length c.applied hlen hf.ap
    rw [← hlt] at hm
    unfold idLe lastId at hle
    dsimp only at hle
    split at hle
    · exact of_decide_eq_true hle
    · have := of_decide_eq_true hle
      omega
  · have := h.length_le
    rw [List.length_take, Nat.min_eq_left hf.ap] at this
    exact this

theorem mono {s : CSys N D} {a : CAct N D} (hd : Pre (s.node a.at)) (hf : SF (s.node a.at)) (hpre : cpre p c0 s a = true)
    (hr : restarts p a.at (s.node a.at) a = false) : Mono (s.node a.at) (ceff p c0 (s.node a.at) a).1 := by
  cases a with
  | elect i => exact electA_mono i _ false
  | timeoutNow i t st ok => exact timeoutNow_mono i _ t st ok
  | electB i f ok free => exact electB_mono i _ f ok free hr
  | electDie i f => cases hr
  | timer i v free => exact timer_mono i _ v free hr
  | voteRes i r g rj d rt pt ok => exact voteRes_mono i _ r g rj d rt pt ok
  | voteReq i t cand claim dis =>
    show Mono (s.node i) (sVoteReqA i (s.node i) t cand claim).1
    unfold sVoteReqA
    split <;> exact .keep (Nat.le_refl _) rfl rfl (Nat.le_refl _)
  | voteReqB i f free ok g => exact voteReqB_mono i _ f free ok g
  | stepDown i t ok => exact stepDown_mono _ t ok
  | transfer i => exact .keep (Nat.le_refl _) rfl rfl (Nat.le_refl _)
  | transferTimeout i => exact .keep (Nat.le_refl _) rfl rfl (Nat.le_refl _)
  | apply i ds => exact .keep (Nat.le_of_eq (fold_lc ..).symm) rfl rfl (Nat.le_refl _)
  | changeConf i cf => exact .keep (Nat.le_of_eq (fold_lc (N := N) (D := D) cf [⟨(s.node i).term, .conf cf⟩] _).symm) rfl rfl (Nat.le_refl _)
  | replSend i to prev => exact .keep (Nat.le_refl _) rfl rfl (Nat.le_refl _)
  | replRead i f cnt =>
    show Mono (s.node i) (sReplRead i (s.node i) f cnt).1
    unfold sReplRead
    split <;> exact .keep (Nat.le_refl _) rfl rfl (Nat.le_refl _)
  | replRes i who first upTo n => exact .keep (Nat.le_refl _) rfl rfl (Nat.le_refl _)
  | replAck i f =>
    show Mono (s.node i) (sReplAck (s.node i) f)
    unfold sReplAck
    split
    · exact .keep (commitAt_le _ _ _ _ hd.lc) rfl rfl (Nat.le_refl _)
    · exact .refl _
  | append i t srv prev pt es cm ok gone => exact append_mono i _ t srv prev pt es cm ok gone
  | sendIS i to => exact .refl _
  | install i t srv K ok => exact install_mono i _ t srv K ok
  | disk i =>
    show Mono (s.node i) (sDisk i (s.node i)).1
    unfold sDisk
    split
    · exact .refl _
    · dsimp only
      split
      · exact .keep (Nat.le_refl _) rfl rfl (Nat.le_refl _)
      · exact .keep (Nat.le_refl _) rfl rfl (Nat.le_refl _)
      · exact .keep (Nat.le_refl _) rfl rfl (Nat.le_refl _)
      · split
        · exact .keep (Nat.le_refl _) rfl rfl (Nat.le_refl _)
        · exact .keep (setCommitted_le _ _) rfl rfl (Nat.le_refl _)
      · exact .keep (commitAt_le _ _ _ _ hd.lc) rfl rfl (Nat.le_refl _)
  | fsm i =>
    have hpre : decide ((s.node i).applied < (s.node i).bb.lastCommitted) = true := hpre
    rw [decide_eq_true_eq] at hpre
    exact ⟨Nat.le_refl _, Nat.le_succ _, Nat.le_refl _, Nat.le_refl _, Or.inr (Or.inl hpre)⟩
  | saveSnap i k =>
    have hpre : (decide ((s.node i).dl = none) && decide ((s.node i).psnap.length < k) && decide (k ≤ (s.node i).applied) && _) = true := hpre
    rw [Bool.and_eq_true, Bool.and_eq_true, Bool.and_eq_true, decide_eq_true_eq, decide_eq_true_eq, decide_eq_true_eq] at hpre
    refine ⟨Nat.le_refl _, Nat.le_refl _, ?_, Nat.le_refl _, Or.inl rfl⟩
    show (s.node i).snap.length ≤ ((s.node i).sm.take k).length
    have h1 := hf.sp.length_le
    have h2 := hf.ap
    have h3 : (s.node i).sm = (s.node i).log.take (s.node i).applied := hf.sm
    rw [h3, List.length_take, List.length_take]
    have := hpre.1.1.2
    have := hpre.1.2
    simp only [CAct.at] at h1 h2
    omega
  | copied i => exact .keep (Nat.le_refl _) rfl rfl (Nat.le_refl _)
  | loaded i =>
    have hpre : decide ((s.node i).dl = some (s.node i).psnap) = true := hpre
    rw [decide_eq_true_eq] at hpre
    have hl := loaded_le hf hpre
    have hsp := hf.sp.length_le
    show Mono (s.node i) (sLoaded (s.node i))
    unfold sLoaded
    dsimp only
    split
    · rename_i h
      have hl := hl h
      split
      · rename_i hlt
        exact ⟨Nat.le_refl _, hl, Nat.le_of_lt hlt, Nat.le_refl _, Or.inr (Or.inr (Nat.le_refl _))⟩
      · rename_i hlt
        exact ⟨Nat.le_refl _, hl, Nat.le_refl _, Nat.le_refl _, Or.inr (Or.inr (Nat.le_of_not_lt hlt))⟩
    · exact .keep (Nat.le_refl _) rfl rfl (Nat.le_refl _)
  | dlDrop i => exact .keep (Nat.le_refl _) rfl rfl (Nat.le_refl _)
  | crash i => cases hr

theorem cstep_next {s s' : CSys N D} {a : CAct N D} (h : cstep p c0 s a = some s') :
    cpre p c0 s a = true ∧ s'.node a.at = (ceff p c0 (s.node a.at) a).1 ∧ ∀ j, j ≠ a.at → s'.node j = s.node j := by
  unfold cstep at h
  split at h
  · rename_i hp
    cases h
    exact ⟨hp, updF_same _ _ _, fun j hj => updF_other _ _ hj⟩
  · cases h

theorem cstep_mono (hp : COk p) {s s' : CSys N D} (h : CReachable p c0 s) {i : N} {a : CAct N D} (hs : cstep p c0 s a = some s')
    (hr : (decide (a.at = i) && restarts p i (s.node i) a) = false) : Mono (s.node i) (s'.node i) := by
  obtain ⟨h1, h2, h3⟩ := cstep_next hs
  by_cases hi : a.at = i
  · subst hi
    rw [decide_eq_true rfl, Bool.true_and] at hr
    rw [h2]
    exact mono (pre_reach hp h _) ((facts_reach hp h).1 _) h1 hr
  · rw [h3 i (fun e => hi e.symm)]
    exact .refl _

/-- What a process starts with: everything applied comes from the snapshot. -/
theorem restarts_boot {c : Srv N D} {a : CAct N D} (h : restarts p a.at c a = true) : ∃ c1, (ceff p c0 c a).1 = restartSrv c1 := by
  cases a with
  | electB i f ok free =>
    have := electB_out (p := p) (c0 := c0) i c f ok free
    cases this with
    | same _ _ ha => exact absurd (show aborts p i c (.electB i f ok free) = true from h) (by rw [ha]; decide)
    | boot c1 _ _ hr ha => exact ⟨c1, hr⟩
    | lead _ _ _ _ ha => exact absurd (show aborts p i c (.electB i f ok free) = true from h) (by rw [ha]; decide)
  | timer i v free =>
    have := timer_out (p := p) (c0 := c0) i c v free
    cases this with
    | same _ _ ha => exact absurd (show aborts p i c (.timer i v free) = true from h) (by rw [ha]; decide)
    | boot c1 _ _ hr ha => exact ⟨c1, hr⟩
    | lead _ _ _ _ ha => exact absurd (show aborts p i c (.timer i v free) = true from h) (by rw [ha]; decide)
  | electDie i f => exact ⟨c, rfl⟩
  | crash i => exact ⟨c, rfl⟩
  | elect i => cases h
  | timeoutNow i t st ok => cases h
  | voteRes i r g rj d rt pt ok => cases h
  | voteReq i t cand claim dis => cases h
  | voteReqB i f free ok g => cases h
  | stepDown i t ok => cases h
  | transfer i => cases h
  | transferTimeout i => cases h
  | apply i ds => cases h
  | changeConf i cf => cases h
  | replSend i to prev => cases h
  | replRead i f cnt => cases h
  | replRes i who first upTo n => cases h
  | replAck i f => cases h
  | append i t srv prev pt es cm ok gone => cases h
  | sendIS i to => cases h
  | install i t srv K ok => cases h
  | disk i => cases h
  | fsm i => cases h
  | saveSnap i k => cases h
  | copied i => cases h
  | loaded i => cases h
  | dlDrop i => cases h

/-- What is applied is committed or in the snapshot. -/
def Cov (c : Srv N D) : Prop := c.applied ≤ c.bb.lastCommitted ∨ c.applied ≤ c.snap.length

theorem Mono.cov {c c' : Srv N D} (m : Mono c c') (h : Cov c) : Cov c' := by
  rcases m.src with h1 | h1 | h1
  · rcases h with h | h
    · exact Or.inl (by rw [h1]; exact Nat.le_trans h m.lc)
    · exact Or.inr (by rw [h1]; exact Nat.le_trans h m.sn)
  · exact Or.inl h1
  · exact Or.inr h1

theorem cov_reach (hp : COk p) {s : CSys N D} (h : CReachable p c0 s) (i : N) : Cov (s.node i) := by
  induction h with
  | refl => exact Or.inl (Nat.le_refl 0)
  | @tail s1 s2 a h1 hs ih =>
    cases hr : (decide (a.at = i) && restarts p i (s1.node i) a) with
    | false => exact (cstep_mono hp h1 hs hr).cov ih
    | true =>
      rw [Bool.and_eq_true, decide_eq_true_eq] at hr
      obtain ⟨rfl, hr⟩ := hr
      obtain ⟨c1, hc⟩ := restarts_boot (c0 := c0) hr
      rw [(cstep_next hs).2.1, hc]
      exact Or.inr (Nat.le_refl _)

theorem Mono.trans {a b c : Srv N D} (h1 : a.bb.lastCommitted ≤ b.bb.lastCommitted ∧ a.applied ≤ b.applied ∧ a.term ≤ b.term)
    (m : Mono b c) : a.bb.lastCommitted ≤ c.bb.lastCommitted ∧ a.applied ≤ c.applied ∧ a.term ≤ c.term :=
  ⟨Nat.le_trans h1.1 m.lc, Nat.le_trans h1.2.1 m.ap, Nat.le_trans h1.2.2 m.tm⟩

theorem cstays_steps {i : N} {s s' : CSys N D} (h : CStays p c0 i s s') : CSteps p c0 s s' := by
  induction h with
  | refl => exact .refl
  | tail a _ hs _ ih => exact .tail a ih hs

theorem cstays_append {i : N} {a b c : CSys N D} (h1 : CStays p c0 i a b) (h2 : CStays p c0 i b c) : CStays p c0 i a c := by
  induction h2 with
  | refl => exact h1
  | tail x _ hs he ih => exact .tail x ih hs he

/-- In one process the committed index, the applied index and the term do not go back. -/
theorem cstays_mono (hp : COk p) {i : N} {s s' : CSys N D} (h : CReachable p c0 s) (h' : CStays p c0 i s s') :
    (s.node i).bb.lastCommitted ≤ (s'.node i).bb.lastCommitted ∧ (s.node i).applied ≤ (s'.node i).applied ∧
    (s.node i).term ≤ (s'.node i).term := by
  induction h' with
  | refl => exact ⟨Nat.le_refl _, Nat.le_refl _, Nat.le_refl _⟩
  | tail a h1 hs he ih => exact Mono.trans ih (cstep_mono hp (Traces.csteps_append h (cstays_steps h1)) hs he)

theorem diskN_stays {i j : N} : ∀ (n : Nat) {s s' : CSys N D}, diskN p c0 j n s = some s' → CStays p c0 i s s'
  | 0, s, s', h => by cases h; exact .refl
  | n + 1, s, s', h => by
    unfold diskN at h
    cases hc : cstep p c0 s (.disk j) with
    | none => rw [hc] at h; cases h
    | some s1 =>
      rw [hc] at h
      exact cstays_append (.tail _ .refl hc (by unfold restarts aborts; simp)) (diskN_stays n h)

theorem map_cl {o : Option (CSys N D)} {s s' : JSys N D} {i : N} {x : LNode N D} (h : o.map (fun cl => s.upd cl i x) = some s') :
    o = some s'.cl := by
  cases o with
  | none => cases h
  | some cl => cases h; rfl

theorem jstep_stays {i : N} {s s' : JSys N D} {a : JAct N D} (h : jstep p c0 s a = some s') (he : ends p i s a = false) :
    CStays p c0 i s.cl s'.cl := by
  have one : ∀ {cl : CSys N D} {j : N} {x : LNode N D}, cl = s.cl → some (s.upd cl j x) = some s' → CStays p c0 i s.cl s'.cl := by
    rintro cl j x rfl h
    cases h
    exact .refl
  cases a with
  | srv a cid =>
    simp only [jstep] at h
    split at h
    · exact .tail a .refl (map_cl h) he
    · cases h
  | ask j cid => simp only [jstep] at h; split at h; exact one rfl h; cases h
  | buffered j => simp only [jstep] at h; split at h; cases h; exact one rfl h
  | clear j c => simp only [jstep] at h; split at h; exact one rfl h; cases h
  | begin j => simp only [jstep] at h; split at h; exact one rfl h; cases h
  | fin j =>
    simp only [jstep] at h
    split at h
    · split at h
      · cases h
      · exact one rfl h
    · cases h
  | skip j =>
    simp only [jstep] at h
    split at h
    · split at h
      · cases h
      · exact diskN_stays _ (map_cl h)
    · cases h
  | flush j k =>
    simp only [jstep] at h
    split at h
    · split at h
      · exact diskN_stays _ (map_cl h)
      · cases h
    · cases h
  | exec j =>
    simp only [jstep] at h
    split at h
    · split at h
      · exact diskN_stays _ (map_cl h)
      · cases h
    · cases h
  | failAppend j k n =>
    simp only [jstep] at h
    split at h
    · split at h
      · exact one rfl h
      · cases h
    · cases h
  | failJob j n =>
    simp only [jstep] at h
    split at h
    · split at h
      · exact one rfl h
      · cases h
    · cases h
  | die j n =>
    have hj : j ≠ i := of_decide_eq_false he
    simp only [jstep] at h
    split at h
    · cases hd : diskN p c0 j n s.cl with
      | none => rw [hd] at h; cases h
      | some cl =>
        rw [hd] at h
        cases hc : cstep p c0 cl (.crash j) with
        | none =>
          simp only [Option.bind_some, hc] at h
          cases h
        | some cl' =>
          simp only [Option.bind_some, hc] at h
          cases h
          refine .tail _ (diskN_stays n hd) hc ?_
          show (decide (j = i) && _) = false
          rw [decide_eq_false hj, Bool.false_and]
    · cases h

theorem stays_steps {i : N} {s s' : JSys N D} (h : Stays p c0 i s s') : JSteps p c0 s s' := by
  induction h with
  | refl => exact .refl
  | tail a _ hs _ ih => exact .tail a ih hs

theorem stays_cstays {i : N} {s s' : JSys N D} (h : Stays p c0 i s s') : CStays p c0 i s.cl s'.cl := by
  induction h with
  | refl => exact .refl
  | tail a _ hs he ih => exact cstays_append ih (jstep_stays hs he)

end Braft.Stat
