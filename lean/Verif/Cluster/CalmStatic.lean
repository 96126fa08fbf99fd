import Verif.Cluster.CalmAll
import Verif.Raft.Static
/-
Executions of a cluster in which nobody changes the configuration: every configuration entry, wherever it is, carries the
initial configuration; so every node always uses it, and the group can always go on.
-/
set_option linter.unusedVariables false
set_option linter.unusedSimpArgs false
set_option linter.unusedSectionVars false

namespace Braft.Cl
open Braft.Raft
variable {N D : Type} [DecidableEq N] [DecidableEq D]

/-- Executions without `changeConf`. -/
inductive StaticC (p : CParams) (c0 : Conf N) (s : CSys N D) : CSys N D → Prop where
  | refl : StaticC p c0 s s
  | tail {s' s''} (a : CAct N D) : StaticC p c0 s s' → (∀ i c, a ≠ .changeConf i c) → cstep p c0 s' a = some s'' →
      StaticC p c0 s s''

variable {p : CParams} {c0 : Conf N}

theorem StaticC.steps {s s' : CSys N D} (h : StaticC p c0 s s') : CSteps p c0 s s' := by
  induction h with
  | refl => exact .refl
  | tail a _ _ hs ih => exact .tail a ih hs

theorem StaticC.calm {s s' s'' : CSys N D} (h : StaticC p c0 s s') (h2 : CalmSteps p c0 s' s'') : StaticC p c0 s s'' := by
  induction h2 with
  | refl => exact h
  | tail a _ hc hs ih => exact .tail a ih (by rintro i c rfl; simp [Cl.calm] at hc) hs

/-- The configurations of a queued step. -/
def JobOK (c0 : Conf N) : Job N D → Prop
  | .push e => CfOK c0 [e]
  | .snap K => CfOK c0 K
  | _ => True

/-- The configurations of a message. -/
def MsgOK (c0 : Conf N) : CMsg N D → Prop
  | .aeReq _ _ _ _ _ es _ => CfOK c0 es
  | .isReq _ _ _ K => CfOK c0 K
  | _ => True

/-- The configurations of a node. -/
structure KN (c0 : Conf N) (c : Srv N D) : Prop where
  log : CfOK c0 c.log
  disk : CfOK c0 c.disk
  snap : CfOK c0 c.snap
  psnap : CfOK c0 c.psnap
  sm : CfOK c0 c.sm
  dl : ∀ K, c.dl = some K → CfOK c0 K
  queue : ∀ j ∈ c.queue, JobOK c0 j

/-- The result of a handler. -/
def RN (c0 : Conf N) (r : Res N D) : Prop := KN c0 r.1 ∧ ∀ m ∈ r.2.1, MsgOK c0 m

/-- Nothing about the log changed. -/
structure SameD (c c' : Srv N D) : Prop where
  log : c'.log = c.log
  disk : c'.disk = c.disk
  snap : c'.snap = c.snap
  psnap : c'.psnap = c.psnap
  sm : c'.sm = c.sm
  dl : c'.dl = c.dl
  queue : c'.queue = c.queue

theorem KN.same {c c' : Srv N D} (h : KN c0 c) (e : SameD c c') : KN c0 c' := by
  refine ⟨?_, ?_, ?_, ?_, ?_, ?_, ?_⟩
  · rw [e.log]; exact h.log
  · rw [e.disk]; exact h.disk
  · rw [e.snap]; exact h.snap
  · rw [e.psnap]; exact h.psnap
  · rw [e.sm]; exact h.sm
  · rw [e.dl]; exact h.dl
  · rw [e.queue]; exact h.queue

theorem cf_nil : CfOK (D := D) c0 [] := by intro e he; cases he

theorem KN.restart {c : Srv N D} (h : KN c0 c) : KN c0 (restartSrv c) := by
  unfold restartSrv
  refine ⟨h.psnap.merge h.disk, h.disk, h.psnap, h.psnap, h.psnap, ?_, ?_⟩
  · intro K hK; cases hK
  · intro j hj
    dsimp only [loadJobs] at hj
    split at hj
    · cases hj
    · rw [List.mem_singleton] at hj; subst hj; exact h.psnap

theorem KN.stepDown {c : Srv N D} (h : KN c0 c) (t : Nat) (ok : Bool) : KN c0 (sStepDown c t ok) :=
  h.same (by constructor <;> rfl)

theorem KN.electA {c : Srv N D} (h : KN c0 c) (i : N) (st : Bool) : KN c0 (sElectA c0 i c st) := by
  unfold sElectA
  split
  · exact h
  · exact h.same (by constructor <;> rfl)

theorem KN.check {c : Srv N D} (h : KN c0 c) (i : N) (t : Nat) (srv : N) (ok : Bool) :
    KN c0 (sCheckStepDown i c t srv ok).1 := by
  unfold sCheckStepDown
  have h1 : KN c0 (if c.term < t ∨ c.state ≠ .follower ∨ c.leaderId = none then sStepDown c t ok else c) := by
    split
    · exact h.stepDown t ok
    · exact h
  dsimp only
  generalize (if c.term < t ∨ c.state ≠ .follower ∨ c.leaderId = none then sStepDown c t ok else c) = c1 at h1 ⊢
  split
  · exact h1.same (by constructor <;> rfl)
  · exact h1

theorem KN.own {c : Srv N D} (h : KN c0 c) (cf : Conf N) {es : List (Entry N D)} (he : CfOK c0 es) :
    KN c0 (sAppendOwn c cf es) := by
  unfold sAppendOwn
  refine ⟨h.log.app he, h.disk, h.snap, h.psnap, h.sm, h.dl, ?_⟩
  intro j hj
  simp only [List.mem_append, List.mem_map, List.mem_singleton] at hj
  rcases hj with (hj | ⟨e, h1, rfl⟩) | rfl
  · exact h.queue j hj
  · exact he.sub (by intro x hx; rw [List.mem_singleton] at hx; subst hx; exact h1)
  · trivial

theorem RN.become {c : Srv N D} (h : KN c0 c) (i : N) : RN c0 (sBecomeLeader p c0 i c) := by
  unfold sBecomeLeader
  split
  · exact ⟨h.restart, by simp⟩
  · refine ⟨?_, by simp⟩
    dsimp only
    rw [h.log.confOf]
    refine KN.own (h.same (by constructor <;> rfl)) c0 ?_
    intro e he c' hc
    rw [List.mem_singleton] at he
    subst he
    simpa [Entry.conf?] using hc.symm

theorem RN.grantSelf {c : Srv N D} (h : KN c0 c) (i : N) (free : Bool) : RN c0 (sGrantSelf p c0 i c free) := by
  unfold sGrantSelf
  split
  · dsimp only
    split
    · exact RN.become (h.same (by constructor <;> rfl)) i
    · exact ⟨h.same (by constructor <;> rfl), by simp⟩
  · exact ⟨h.same (by constructor <;> rfl), by simp⟩

theorem request_ok {c : Srv N D} (h : KN c0 c) (i : N) (ps : List N) :
    KN c0 (sRequestPeers i c ps).1 ∧ ∀ m ∈ (sRequestPeers i c ps).2, MsgOK c0 m := by
  refine ⟨h.same (by constructor <;> rfl), ?_⟩
  intro m hm
  simp only [sRequestPeers, List.mem_map] at hm
  obtain ⟨x, -, rfl⟩ := hm
  trivial

theorem electAsk_ok {c : Srv N D} (h : KN c0 c) (i : N) (f : EFrame) :
    KN c0 (sElectAsk c0 i c f).1 ∧ ∀ m ∈ (sElectAsk c0 i c f).2, MsgOK c0 m :=
  request_ok (h.same (by constructor <;> rfl)) i _

theorem RN.electB {c : Srv N D} (h : KN c0 c) (i : N) (f : EFrame) (ok free : Bool) :
    RN c0 (sElectB p c0 i c f ok free) := by
  unfold sElectB
  split
  · exact ⟨h.same (by constructor <;> rfl), by simp⟩
  · have h1 := electAsk_ok h i f
    dsimp only
    generalize sElectAsk c0 i c f = r at h1
    split
    · have h2 : RN c0 (sGrantSelf p c0 i { r.1 with pterm := r.1.term, pvote := some i } free) :=
        RN.grantSelf (h1.1.same (by constructor <;> rfl)) i free
      refine ⟨h2.1, fun m hm => ?_⟩
      rcases List.mem_append.mp hm with hm | hm
      · exact h2.2 m hm
      · exact h1.2 m hm
    · exact ⟨h1.1.same (by constructor <;> rfl), h1.2⟩

theorem RN.voteRes {c : Srv N D} (h : KN c0 c) (i : N) (r : Rpc N) (g rj d : Bool) (rt pt : Nat) (ok : Bool) :
    RN c0 (sVoteRes p c0 i c r g rj d rt pt ok) := by
  unfold sVoteRes
  have h0 : KN c0 { c with rpcs := c.rpcs.erase r } := h.same (by constructor <;> rfl)
  split
  · exact ⟨h0, by simp⟩
  split
  · exact ⟨h0, by simp⟩
  split
  · exact ⟨h0, by simp⟩
  split
  · exact ⟨h0.stepDown _ _, by simp⟩
  split
  · exact ⟨h0, by simp⟩
  dsimp only
  repeat' split
  all_goals first
    | exact RN.become (h0.same (by constructor <;> rfl)) i
    | exact ⟨h0.same (by constructor <;> rfl), (by intro m hm; exact absurd hm List.not_mem_nil)⟩
    | exact ⟨(request_ok (h0.same (by constructor <;> rfl)) i _).1, (request_ok (h0.same (by constructor <;> rfl)) i _).2⟩

theorem KN.voteCast {c : Srv N D} (h : KN c0 c) (f : VFrame N) (ok g : Bool) : KN c0 (sVoteCast c f ok g) := by
  unfold sVoteCast
  have h1 : KN c0 (if c.term < f.reqTerm then sStepDown c f.reqTerm ok else c) := by
    split
    · exact h.stepDown _ ok
    · exact h
  dsimp only
  generalize (if c.term < f.reqTerm then sStepDown c f.reqTerm ok else c) = c1 at h1 ⊢
  split
  · split
    · exact h1.same (by constructor <;> rfl)
    · exact h1.same (by constructor <;> rfl)
  · exact h1

theorem RN.voteReqA {c : Srv N D} (h : KN c0 c) (i : N) (t : Nat) (cand : N) (claim : Nat × Nat) :
    RN c0 (sVoteReqA i c t cand claim) := by
  unfold sVoteReqA
  split
  · exact ⟨h, by simp [MsgOK]⟩
  · exact ⟨h.same (by constructor <;> rfl), by simp⟩

theorem RN.voteReqB {c : Srv N D} (h : KN c0 c) (i : N) (f : VFrame N) (free ok g : Bool) :
    RN c0 (sVoteReqB i c f free ok g) := by
  unfold sVoteReqB
  have h0 : KN c0 { c with vcalls := c.vcalls.erase f } := h.same (by constructor <;> rfl)
  dsimp only
  split
  · exact ⟨h0, by simp [voteAnswer, MsgOK]⟩
  split
  · exact ⟨h0, by simp [voteAnswer, MsgOK]⟩
  · exact ⟨h0.voteCast f ok g, by simp [voteAnswer, MsgOK]⟩

theorem resolveJobs_ok {l : Log N D} {prev : Nat} {es : List (Entry N D)} (h : CfOK c0 es) :
    ∀ j ∈ resolveJobs l prev es, JobOK c0 j := by
  intro j hj
  simp only [resolveJobs, List.mem_append, List.mem_map] at hj
  rcases hj with hj | ⟨x, hx, rfl⟩
  · split at hj
    · obtain rfl := (List.mem_replicate.mp hj).2; trivial
    · cases hj
  · exact h.sub (by intro y hy; rw [List.mem_singleton] at hy; subst hy; exact List.mem_of_mem_drop hx)

theorem applyJob_ok {l : Log N D} {j : Job N D} (h : CfOK c0 l) (hj : JobOK c0 j) : CfOK c0 (applyJob l j) := by
  cases j with
  | push e => exact h.app hj
  | pop => exact h.sub (fun e he => (List.dropLast_sublist _).subset he)
  | follower => exact h
  | leader => exact h
  | snap K => exact CfOK.merge hj h

theorem drainJobs_ok (q : List (Job N D)) : ∀ (l : Log N D), CfOK c0 l → (∀ j ∈ q, JobOK c0 j) →
    CfOK c0 (drainJobs l q) := by
  induction q with
  | nil => intro l h _; exact h
  | cons j q ih =>
    intro l h hq
    show CfOK c0 (drainJobs (applyJob l j) q)
    exact ih _ (applyJob_ok h (hq j List.mem_cons_self)) (fun x hx => hq x (List.mem_cons_of_mem _ hx))

theorem RN.append {c : Srv N D} (h : KN c0 c) (i : N) (t : Nat) (srv : N) (prev pt : Nat) {es : List (Entry N D)}
    (he : CfOK c0 es) (cm : Nat) (ok gone : Bool) : RN c0 (sAppend i c t srv prev pt es cm ok gone) := by
  unfold sAppend
  split
  · exact ⟨h, by simp [MsgOK]⟩
  have h1 := h.check i t srv ok
  dsimp only
  generalize sCheckStepDown i c t srv ok = r at h1 ⊢
  split
  · exact ⟨h1.stepDown _ _, by simp [MsgOK]⟩
  have h2 : KN c0 { r.1 with lastLeader := some srv } := h1.same (by constructor <;> rfl)
  generalize (if gone = true then 0 else termAt r.1.log prev) = tp
  split
  · exact ⟨h2, by simp⟩
  split
  · exact ⟨h2, by simp [MsgOK]⟩
  split
  · exact ⟨h2.same (by constructor <;> rfl), by simp [MsgOK]⟩
  split
  · exact ⟨h2.same (by constructor <;> rfl), by simp [MsgOK]⟩
  · refine ⟨⟨drainJobs_ok _ _ h2.log (resolveJobs_ok he), h2.disk, h2.snap, h2.psnap, h2.sm, h2.dl, ?_⟩, by simp⟩
    intro j hj
    simp only [List.mem_append, List.mem_singleton] at hj
    rcases hj with (hj | hj) | rfl
    · exact h2.queue j hj
    · exact resolveJobs_ok he j hj
    · trivial

theorem RN.install {c : Srv N D} (h : KN c0 c) (i : N) (t : Nat) (srv : N) {K : Log N D} (hK : CfOK c0 K) (ok : Bool) :
    RN c0 (sInstall i c t srv K ok) := by
  unfold sInstall
  split
  · exact ⟨h, by simp⟩
  have h1 := h.check i t srv ok
  dsimp only
  generalize sCheckStepDown i c t srv ok = r at h1 ⊢
  split
  · exact ⟨h1.stepDown _ _, by simp⟩
  split
  · refine ⟨⟨h1.log, h1.disk, h1.snap, h1.psnap, h1.sm, ?_, h1.queue⟩, by simp⟩
    intro K' h'
    cases h'
    exact hK
  · exact ⟨h1, by simp⟩

theorem KN.loaded {c : Srv N D} (h : KN c0 c) : KN c0 (sLoaded c) := by
  unfold sLoaded
  dsimp only
  split
  · split
    · refine ⟨h.psnap.merge h.log, h.disk, h.psnap, h.psnap, h.psnap, (by intro K hK; cases hK), ?_⟩
      intro j hj
      simp only [List.mem_append, List.mem_singleton] at hj
      rcases hj with hj | rfl
      · exact h.queue j hj
      · exact h.psnap
    · exact ⟨h.log, h.disk, h.snap, h.psnap, h.psnap, (by intro K hK; cases hK), h.queue⟩
  · exact ⟨h.log, h.disk, h.snap, h.psnap, h.sm, (by intro K hK; cases hK), h.queue⟩

theorem RN.disk {c : Srv N D} (h : KN c0 c) (i : N) : RN c0 (sDisk i c) := by
  unfold sDisk
  split
  · exact ⟨h, by simp⟩
  · rename_i j q hq
    have h1 : KN c0 { c with
        disk := applyJob c.disk j, queue := q
        elects := c.elects.map (fun f => { f with rest := f.rest - 1 }) } :=
      ⟨h.log, applyJob_ok h.disk (h.queue j (by rw [hq]; exact List.mem_cons_self)), h.snap, h.psnap, h.sm, h.dl,
        fun x hx => h.queue x (by rw [hq]; exact List.mem_cons_of_mem _ hx)⟩
    dsimp only
    split
    · exact ⟨h1, by simp⟩
    · exact ⟨h1, by simp⟩
    · exact ⟨h1, by simp⟩
    · split
      · exact ⟨h1, by simp [MsgOK]⟩
      · exact ⟨h1.same (by constructor <;> rfl), by simp [MsgOK]⟩
    · exact ⟨h1.same (by constructor <;> rfl), by simp⟩

/-- The configurations of the cluster. -/
structure KS (c0 : Conf N) (s : CSys N D) : Prop where
  node : ∀ i, KN c0 (s.node i)
  msgs : ∀ m ∈ s.msgs, MsgOK c0 m

theorem ks_eff {s : CSys N D} (h : KS c0 s) (a : CAct N D) (hne : ∀ i c, a ≠ .changeConf i c)
    (hp : cpre p c0 s a = true) : RN c0 (ceff p c0 (s.node a.at) a) := by
  cases a with
  | elect i => exact ⟨(h.node i).electA i _, by simp [ceff]⟩
  | timeoutNow i t st ok =>
    refine ⟨?_, by simp [ceff]⟩
    show KN c0 (sTimeoutNow c0 i (s.node i) t st ok)
    unfold sTimeoutNow
    split
    · split
      · exact (h.node i).stepDown _ _
      · exact h.node i
    split
    · exact h.node i
    · exact (h.node i).electA i _
  | electB i f ok free => exact RN.electB (h.node i) i f ok free
  | electDie i f => exact ⟨(h.node i).restart, (electAsk_ok (h.node i) i f).2⟩
  | timer i v free =>
    show RN c0 (sTimer p c0 i (s.node i) v free)
    unfold sTimer
    dsimp only
    split
    · exact ⟨(h.node i).same (by constructor <;> rfl), by simp⟩
    · exact RN.grantSelf ((h.node i).same (by constructor <;> rfl)) i free
  | voteRes i r g rj d rt pt ok => exact RN.voteRes (h.node i) i r g rj d rt pt ok
  | voteReq i t cand claim dis => exact RN.voteReqA (h.node i) i t cand claim
  | voteReqB i f free ok g => exact RN.voteReqB (h.node i) i f free ok g
  | stepDown i t ok => exact ⟨(h.node i).stepDown t ok, by simp [ceff]⟩
  | transfer i => exact ⟨(h.node i).same (by constructor <;> rfl), by simp [ceff]⟩
  | transferTimeout i => exact ⟨(h.node i).same (by constructor <;> rfl), by simp [ceff]⟩
  | apply i ds =>
    refine ⟨(h.node i).own _ ?_, by simp [ceff]⟩
    intro e he c hc
    simp only [List.mem_map] at he
    obtain ⟨d, -, rfl⟩ := he
    simp [Entry.conf?] at hc
  | changeConf i cf => exact absurd rfl (hne i cf)
  | replSend i to prev => exact ⟨(h.node i).same (by constructor <;> rfl), by simp [ceff]⟩
  | replRead i f cnt =>
    show RN c0 (sReplRead i (s.node i) f cnt)
    unfold sReplRead
    split
    · refine ⟨(h.node i).same (by constructor <;> rfl), ?_⟩
      intro m hm
      rw [List.mem_singleton] at hm
      subst hm
      exact (h.node i).log.sub (fun e he => List.mem_of_mem_drop (List.mem_of_mem_take he))
    · exact ⟨h.node i, by simp⟩
  | replRes i who first upTo n => exact ⟨(h.node i).same (by constructor <;> rfl), by simp [ceff]⟩
  | replAck i f =>
    refine ⟨?_, by simp [ceff]⟩
    show KN c0 (sReplAck (s.node i) f)
    unfold sReplAck
    split
    · exact (h.node i).same (by constructor <;> rfl)
    · exact h.node i
  | append i t srv prev pt es cm ok gone =>
    simp only [cpre, Bool.and_eq_true, decide_eq_true_eq] at hp
    exact RN.append (h.node i) i t srv prev pt (h.msgs _ hp.1) cm ok gone
  | sendIS i to =>
    refine ⟨h.node i, ?_⟩
    intro m hm
    simp only [ceff, List.mem_singleton] at hm
    subst hm
    exact (h.node i).psnap
  | install i t srv K ok =>
    simp only [cpre, decide_eq_true_eq] at hp
    exact RN.install (h.node i) i t srv (h.msgs _ hp) ok
  | disk i => exact RN.disk (h.node i) i
  | fsm i =>
    refine ⟨⟨(h.node i).log, (h.node i).disk, (h.node i).snap, (h.node i).psnap, ?_, (h.node i).dl, (h.node i).queue⟩,
      by simp [ceff, sApply]⟩
    exact (h.node i).sm.app ((h.node i).log.sub (fun e he => List.mem_of_mem_drop (List.mem_of_mem_take he)))
  | saveSnap i k =>
    have h1 : CfOK c0 ((s.node i).sm.take k) := (h.node i).sm.sub (fun e he => List.mem_of_mem_take he)
    exact ⟨⟨(h.node i).log, (h.node i).disk, h1, h1, (h.node i).sm, (h.node i).dl, (h.node i).queue⟩, by simp [ceff]⟩
  | copied i =>
    refine ⟨⟨(h.node i).log, (h.node i).disk, (h.node i).snap, ?_, (h.node i).sm, (h.node i).dl, (h.node i).queue⟩,
      by simp [ceff]⟩
    show CfOK c0 ((s.node i).dl.getD (s.node i).psnap)
    cases hd : (s.node i).dl with
    | none => exact (h.node i).psnap
    | some K => exact (h.node i).dl K hd
  | loaded i => exact ⟨(h.node i).loaded, by simp [ceff]⟩
  | dlDrop i =>
    exact ⟨⟨(h.node i).log, (h.node i).disk, (h.node i).snap, (h.node i).psnap, (h.node i).sm,
      (by intro K hK; cases hK), (h.node i).queue⟩, by simp [ceff]⟩
  | crash i => exact ⟨(h.node i).restart, by simp [ceff]⟩

theorem ks_static {s s' : CSys N D} (h : KS c0 s) (hs : StaticC p c0 s s') : KS c0 s' := by
  induction hs with
  | refl => exact h
  | @tail s1 s2 a _ hne hst ih =>
    unfold cstep at hst
    split at hst
    · rename_i hp
      have h1 := ks_eff ih a hne hp
      cases hst
      refine ⟨fun i => ?_, fun m hm => ?_⟩
      · by_cases hi : i = a.at
        · simp only [updF, hi, if_true]; exact h1.1
        · simp only [updF, hi, if_false]; exact ih.node i
      · rcases List.mem_append.mp hm with hm | hm
        · exact h1.2 m hm
        · exact ih.msgs m hm
    · cases hst

theorem ks_init : KS (D := D) c0 initC :=
  ⟨fun i => ⟨cf_nil, cf_nil, cf_nil, cf_nil, cf_nil, (by intro K hK; cases hK), by intro j hj; cases hj⟩,
    by intro m hm; cases hm⟩

/-- A member whose log is not behind any other. -/
theorem exists_max (log : N → Log N D) : ∀ (l : List N), l ≠ [] →
    ∃ j ∈ l, ∀ v ∈ l, idLe (lastId (log v)) (lastId (log j)) = true := by
  intro l
  induction l with
  | nil => intro h; exact absurd rfl h
  | cons a l ih =>
    intro _
    by_cases hl : l = []
    · subst hl
      refine ⟨a, List.mem_cons_self, fun v hv => ?_⟩
      rw [List.mem_singleton] at hv; subst hv
      rw [Raft.idLe_iff]; right; exact ⟨rfl, Nat.le_refl _⟩
    · obtain ⟨j, hj, hm⟩ := ih hl
      by_cases h : idLe (lastId (log a)) (lastId (log j)) = true
      · refine ⟨j, List.mem_cons_of_mem _ hj, fun v hv => ?_⟩
        rcases List.mem_cons.mp hv with rfl | hv
        · exact h
        · exact hm v hv
      · refine ⟨a, List.mem_cons_self, fun v hv => ?_⟩
        rw [Raft.idLe_iff] at h ⊢
        rcases List.mem_cons.mp hv with rfl | hv
        · right; exact ⟨rfl, Nat.le_refl _⟩
        · have := (Raft.idLe_iff _ _).mp (hm v hv)
          omega

theorem quorum_all (hne : c0.peers ≠ []) (hst : c0.old = []) {j : N} (hj : j ∈ c0.peers) :
    c0.Quorum (fun x => decide (x = j ∨ x ∈ c0.peers.erase j)) := by
  refine ⟨?_, fun h => absurd hst h⟩
  unfold Majority
  rw [List.countP_eq_length.mpr ?_]
  · have := List.length_pos_iff.mpr hne
    omega
  · intro x hx
    rw [decide_eq_true_eq]
    by_cases e : x = j
    · exact .inl e
    · exact .inr ((List.Nodup.mem_erase_iff c0.nd).mpr ⟨e, hx⟩)

/-- From every state of a group whose membership never changes, it can elect a leader and commit a task on all its
members. -/
theorem progress_static (hp : COk p) {s : CSys N D} (hr : StaticC p c0 initC s) (d : D)
    (hne : c0.peers ≠ []) (hst : c0.old = []) :
    ∃ s' j T k es, CalmSteps p c0 s s' ∧ s'.ev = es ++ s.ev ∧ j ∈ c0.peers ∧ (s'.node j).state = .leader ∧
      (s'.node j).term = T ∧ ∀ v ∈ c0.peers, (s.node v).term < T ∧ Ev.applied v k ⟨T, .data d⟩ ∈ es := by
  obtain ⟨s1, a1, a2, -, a4⟩ := settle_all (p := p) (c0 := c0) c0.peers s
  have hs1 := hr.calm a1
  have hk := fun i => ((ks_static ks_init hs1).node i).log.confOf
  obtain ⟨j, hj, hm⟩ := exists_max (fun v => (s1.node v).log) c0.peers hne
  obtain ⟨s2, T, k, es, b1, b2, b3, b4, b5⟩ := progress_calm hp hs1.steps j (c0.peers.erase j) d
    (by rw [hk]; exact .inl hj) (c0.nd.erase j) (fun h => (List.Nodup.mem_erase_iff c0.nd).mp h |>.1 rfl)
    (fun v hv => by rw [hk]; exact List.mem_append_left _ (List.mem_of_mem_erase hv))
    (by rw [hk]; exact quorum_all hne hst hj)
    (fun v hv => hm v (List.mem_of_mem_erase hv)) (a4 j hj).1.dl (fun v hv => (a4 v (List.mem_of_mem_erase hv)).1.dl)
  obtain ⟨es1, h1⟩ := a2.ev
  refine ⟨s2, j, T, k, es ++ es1, a1.trans b1, by rw [b2, h1, List.append_assoc], hj, b3, b4, fun v hv => ?_⟩
  have h2 : v = j ∨ v ∈ c0.peers.erase j := by
    by_cases e : v = j
    · exact .inl e
    · exact .inr ((List.Nodup.mem_erase_iff c0.nd).mpr ⟨e, hv⟩)
  exact ⟨by rw [← (a4 v hv).2.2]; exact (b5 v h2).1, List.mem_append_left _ (b5 v h2).2⟩

end Braft.Cl
