import Verif.Raft.Exec
import Verif.Raft.Votes
/-
History only grows; and election safety of executions without membership changes, with no
assumption on timing or on the meta storage.
-/
set_option linter.unusedVariables false
set_option linter.unusedSimpArgs false
set_option linter.unusedSectionVars false

namespace Braft.Raft
variable {N D : Type} [DecidableEq N] [DecidableEq D]

/-! ### History grows -/

structure GLe (g g' : Glob N D) : Prop where
  msgs : ∀ m ∈ g.msgs, m ∈ g'.msgs
  created : ∀ K ∈ g.created, K ∈ g'.created
  elections : ∀ r ∈ g.elections, r ∈ g'.elections
  votes : ∀ v ∈ g.votes, v ∈ g'.votes
  commits : ∀ K ∈ g.commits, K ∈ g'.commits
  applies : ∀ a ∈ g.applies, a ∈ g'.applies

theorem GLe.refl (g : Glob N D) : GLe g g :=
  ⟨fun _ h => h, fun _ h => h, fun _ h => h, fun _ h => h, fun _ h => h, fun _ h => h⟩

theorem GLe.trans {a b c : Glob N D} (h1 : GLe a b) (h2 : GLe b c) : GLe a c :=
  ⟨fun m h => h2.msgs m (h1.msgs m h), fun m h => h2.created m (h1.created m h),
   fun m h => h2.elections m (h1.elections m h), fun m h => h2.votes m (h1.votes m h),
   fun m h => h2.commits m (h1.commits m h), fun m h => h2.applies m (h1.applies m h)⟩

theorem gle_eff (c0 : Conf N) (s : Sys N D) (a : Act N D) : GLe s.g (eff c0 s a).g := by
  cases a with
  | becomeLeader i q =>
    simp only [eff, sysAppend, lead]
    constructor <;> intro m hm <;> simp <;> first | exact hm | exact Or.inl hm | exact Or.inr hm
  | voteEnd i f ok grantOk =>
    simp only [eff]
    split
    · constructor <;> intro m hm <;> simp [Glob.send, Glob.voted] <;> first | exact hm | exact Or.inr hm
    · exact GLe.refl _
  | recvAE i t prev pt es c ok gone =>
    simp only [eff]
    split
    · constructor <;> intro m hm <;> simp [Glob.send] <;> first | exact hm | exact Or.inr hm
    · exact GLe.refl _
  | disk i =>
    simp only [eff, diskStep]
    split
    · exact GLe.refl _
    · split
      · constructor <;> intro m hm <;> simpa [Glob.held] using hm
      · constructor <;> intro m hm <;> simpa [Glob.held] using hm
      · constructor <;> intro m hm <;> simpa [Glob.held] using hm
      · split
        · constructor <;> intro m hm <;> simp [Glob.held, Glob.ack] <;> first | exact hm | exact Or.inr hm
        · constructor <;> intro m hm <;> simpa [Glob.held] using hm
      · split
        · constructor <;> intro m hm <;> simp [Glob.held, Glob.ack] <;> first | exact hm | exact Or.inr hm
        · constructor <;> intro m hm <;> simpa [Glob.held] using hm
  | apply i =>
    simp only [eff]
    constructor <;> intro m hm
    case applies =>
      cases hx : (s.node i).log[(s.node i).applied]? with
      | none => simpa [hx] using hm
      | some e => simp [hx, hm]
    all_goals exact hm
  | commit i k q =>
    simp only [eff]
    constructor <;> intro m hm <;> simp <;> first | exact hm | exact Or.inr hm
  | propose i ds =>
    simp only [eff, sysAppend]
    constructor <;> intro m hm <;> simp <;> first | exact hm | exact Or.inr hm
  | changeConf i c =>
    simp only [eff, sysAppend]
    constructor <;> intro m hm <;> simp <;> first | exact hm | exact Or.inr hm
  | electSend i o =>
    simp only [eff]
    constructor <;> intro m hm <;> simp [Glob.send, Glob.voted] <;> first | exact hm | exact Or.inr hm
  | crash i =>
    simp only [eff]
    constructor <;> intro m hm <;> simpa [Glob.held] using hm
  | saveSnap i k =>
    simp only [eff]
    constructor <;> intro m hm <;> simpa [Glob.held] using hm
  | loaded i =>
    simp only [eff]
    constructor <;> intro m hm <;> simpa [Glob.held] using hm
  | sendIS i =>
    simp only [eff]
    constructor <;> intro m hm <;> simp [Glob.send] <;> first | exact hm | exact Or.inr hm
  | electCrash i o =>
    simp only [eff]
    constructor <;> intro m hm <;> simp [Glob.send, Glob.held] <;> first | exact hm | exact Or.inr hm
  | electFail i o =>
    simp only [eff]
    constructor <;> intro m hm <;> simp [Glob.send] <;> first | exact hm | exact Or.inr hm
  | voteAgain i t cand =>
    simp only [eff]
    constructor <;> intro m hm <;> simp [Glob.send] <;> first | exact hm | exact Or.inr hm
  | sendAE i prev cnt c =>
    simp only [eff]
    constructor <;> intro m hm <;> simp [Glob.send] <;> first | exact hm | exact Or.inr hm
  | _ => exact GLe.refl _

theorem gle_steps {p : Params} {c0 : Conf N} {s s' : Sys N D} (h : Steps p c0 s s') :
    GLe s.g s'.g := by
  induction h with
  | refl => exact GLe.refl _
  | tail _ h2 ih =>
    obtain ⟨a, _, rfl⟩ := h2
    exact ih.trans (gle_eff c0 _ a)

/-! ### Executions without membership change -/

/-- Executions in which no leader changes the configuration. -/
inductive StaticSteps (p : Params) (c0 : Conf N) (s : Sys N D) : Sys N D → Prop where
  | refl : StaticSteps p c0 s s
  | tail {s'} (a : Act N D) : StaticSteps p c0 s s' → (∀ i c, a ≠ .changeConf i c) →
      pre p c0 s' a → StaticSteps p c0 s (eff c0 s' a)

theorem StaticSteps.steps {p : Params} {c0 : Conf N} {s s' : Sys N D}
    (h : StaticSteps p c0 s s') : Steps p c0 s s' := by
  induction h with
  | refl => exact .refl
  | tail a _ _ hp ih => exact .tail ih ⟨a, hp, rfl⟩

def CfOK (c0 : Conf N) (l : List (Entry N D)) : Prop := ∀ e ∈ l, ∀ c, e.conf? = some c → c = c0

theorem CfOK.confOf {c0 : Conf N} {l : Log N D} (h : CfOK c0 l) : confOf c0 l = c0 := by
  have : ∀ (l : Log N D), CfOK c0 l → ∀ c, c = c0 → l.foldl (fun c e => (e.conf?).getD c) c = c0 := by
    intro l
    induction l with
    | nil => intro _ c hc; simpa using hc
    | cons e l ih =>
      intro hl c hc
      simp only [List.foldl_cons]
      apply ih (fun x hx => hl x (by simp [hx]))
      cases he : e.conf? with
      | none => simpa using hc
      | some c' => simpa using hl e (by simp) c' he
  exact this l h c0 rfl

theorem CfOK.sub {c0 : Conf N} {l l' : List (Entry N D)} (h : CfOK c0 l)
    (hs : ∀ e ∈ l', e ∈ l) : CfOK c0 l' := fun e he => h e (hs e he)

theorem CfOK.app {c0 : Conf N} {l l' : List (Entry N D)} (h : CfOK c0 l) (h' : CfOK c0 l') :
    CfOK c0 (l ++ l') := by
  intro e he
  rcases List.mem_append.mp he with he | he
  · exact h e he
  · exact h' e he

/-- One queued step carries no foreign configuration. -/
def OpOK (c0 : Conf N) (op : Op N D) : Prop :=
  (∀ e, op = .push e → ∀ c, e.conf? = some c → c = c0) ∧ ∀ K, op = .snap K → CfOK c0 K

/-- A queue carries no foreign configuration. -/
def QOK (c0 : Conf N) (q : List (Op N D)) : Prop := ∀ op ∈ q, OpOK c0 op

theorem CfOK.merge {c0 : Conf N} {K l : Log N D} (hK : CfOK c0 K) (hl : CfOK c0 l) :
    CfOK c0 (snapMerge K l) := by
  unfold snapMerge; split
  · exact hl
  · exact hK

theorem applyOp_CfOK {c0 : Conf N} {l : Log N D} {op : Op N D} (h : CfOK c0 l)
    (ho : OpOK c0 op) : CfOK c0 (applyOp l op) := by
  cases op with
  | push e =>
    exact h.app (by
      intro x hx; simp only [List.mem_singleton] at hx; subst hx; exact ho.1 _ rfl)
  | pop => exact h.sub (fun e he => (List.dropLast_sublist _).subset he)
  | ackF => exact h
  | ackL => exact h
  | snap K => exact (ho.2 K rfl).merge h

theorem drain_CfOK {c0 : Conf N} (q : List (Op N D)) : ∀ (l : Log N D), CfOK c0 l → QOK c0 q →
    CfOK c0 (drain l q) := by
  induction q with
  | nil => intro l h _; exact h
  | cons op q ih =>
    intro l h hq
    show CfOK c0 (drain (applyOp l op) q)
    apply ih
    · exact applyOp_CfOK h (hq op (by simp))
    · exact fun op hop => hq op (by simp [hop])

structure SN (c0 : Conf N) (g : Glob N D) (i : N) (n : NodeSt N D) : Prop where
  log : CfOK c0 n.log
  disk : CfOK c0 n.disk
  queue : QOK c0 n.queue
  ps : CfOK c0 n.psnap
  dl : ∀ K, n.dl = some K → CfOK c0 K
  sm : CfOK c0 n.sm
  bc : n.role = .candidate → n.bconf = c0
  ld : n.role = .leader → ∃ r ∈ g.elections, r.node = i ∧ r.term = n.term

structure SInv (c0 : Conf N) (s : Sys N D) : Prop where
  v : VInv s
  ae : ∀ t prev pt es c, Msg.ae t prev pt es c ∈ s.g.msgs → CfOK c0 es
  is : ∀ t K, Msg.is t K ∈ s.g.msgs → CfOK c0 K
  er : ∀ r ∈ s.g.elections, ∃ S : N → Bool, c0.Quorum S ∧
    ∀ v, S v = true → ∃ k, ⟨r.term, v, r.node, k⟩ ∈ s.g.votes
  n : ∀ i, SN c0 s.g i (s.node i)

variable {c0 : Conf N}

theorem SN.gle {g g' : Glob N D} {i : N} {n : NodeSt N D} (h : SN c0 g i n) (hg : GLe g g') :
    SN c0 g' i n :=
  { h with ld := fun hr => (h.ld hr).imp fun r h1 => ⟨hg.elections r h1.1, h1.2⟩ }

theorem SN.stepDown {g : Glob N D} {i : N} {n : NodeSt N D} (h : SN c0 g i n) (t : Nat)
    (ok : Bool) : SN c0 g i (stepDown n t ok) := by
  have h1 : (Raft.stepDown n t ok).disk = n.disk := by unfold Raft.stepDown; split <;> rfl
  have h2 : (Raft.stepDown n t ok).queue = n.queue := by unfold Raft.stepDown; split <;> rfl
  have h3 : (Raft.stepDown n t ok).psnap = n.psnap := by unfold Raft.stepDown; split <;> rfl
  have h4 : (Raft.stepDown n t ok).dl = n.dl := by unfold Raft.stepDown; split <;> rfl
  have h5 : (Raft.stepDown n t ok).sm = n.sm := by unfold Raft.stepDown; split <;> rfl
  exact {
    log := by simpa using h.log
    disk := by rw [h1]; exact h.disk
    queue := by rw [h2]; exact h.queue
    ps := by rw [h3]; exact h.ps
    dl := by rw [h4]; exact h.dl
    sm := by rw [h5]; exact h.sm
    bc := by intro hr; simp at hr
    ld := by intro hr; simp at hr }

theorem SN.restart {g : Glob N D} {i : N} {n : NodeSt N D} (h : SN c0 g i n) :
    SN c0 g i (restart n) where
  log := h.ps.merge h.disk
  disk := h.disk
  queue := by
    intro op hop
    simp only [Raft.restart, loadOps] at hop
    split at hop
    · simp at hop
    · simp only [List.mem_singleton] at hop
      subst hop
      exact ⟨(by intro e he; cases he), (by intro K hK; cases hK; exact h.ps)⟩
  ps := h.ps
  dl := by intro K hK; cases hK
  sm := h.ps
  bc := by intro hr; rw [restart_role] at hr; cases hr
  ld := by intro hr; rw [restart_role] at hr; cases hr

theorem SInv.upd {s : Sys N D} (h : SInv c0 s) (i : N) {n' : NodeSt N D} {g' : Glob N D}
    (hv : VInv { node := updF s.node i n', g := g' }) (hg : GLe s.g g')
    (hae : ∀ t prev pt es c, Msg.ae t prev pt es c ∈ g'.msgs →
      Msg.ae t prev pt es c ∈ s.g.msgs ∨ CfOK c0 es)
    (his : ∀ t K, Msg.is t K ∈ g'.msgs → Msg.is t K ∈ s.g.msgs ∨ CfOK c0 K)
    (her : ∀ r ∈ g'.elections, r ∈ s.g.elections ∨ ∃ S : N → Bool, c0.Quorum S ∧
      ∀ v, S v = true → ∃ k, ⟨r.term, v, r.node, k⟩ ∈ g'.votes)
    (hn : SN c0 g' i n') : SInv c0 { node := updF s.node i n', g := g' } where
  v := hv
  ae := fun t prev pt es c hm => by
    rcases hae t prev pt es c hm with h' | h'
    · exact h.ae _ _ _ _ _ h'
    · exact h'
  is := fun t K hm => by
    rcases his t K hm with h' | h'
    · exact h.is _ _ h'
    · exact h'
  er := fun r hr => by
    rcases her r hr with h' | h'
    · obtain ⟨S, h1, h2⟩ := h.er r h'
      refine ⟨S, h1, fun v hv => ?_⟩
      obtain ⟨k, hk⟩ := h2 v hv
      exact ⟨k, hg.votes _ hk⟩
    · exact h'
  n := fun j => by
    by_cases hj : j = i
    · subst hj; simpa [updF_same] using hn
    · simp only [updF_other _ _ hj]
      exact (h.n j).gle hg

/-- Only the messages change. -/
theorem SInv.msg {s : Sys N D} (h : SInv c0 s) {g' : Glob N D}
    (hv : VInv { s with g := g' }) (hg : GLe s.g g') (hel : g'.elections = s.g.elections)
    (hae : ∀ t prev pt es c, Msg.ae t prev pt es c ∈ g'.msgs →
      Msg.ae t prev pt es c ∈ s.g.msgs ∨ CfOK c0 es)
    (his : ∀ t K, Msg.is t K ∈ g'.msgs → Msg.is t K ∈ s.g.msgs ∨ CfOK c0 K) :
    SInv c0 { s with g := g' } where
  v := hv
  ae := fun t prev pt es c hm => by
    rcases hae t prev pt es c hm with h' | h'
    · exact h.ae _ _ _ _ _ h'
    · exact h'
  is := fun t K hm => by
    rcases his t K hm with h' | h'
    · exact h.is _ _ h'
    · exact h'
  er := fun r hr => by
    obtain ⟨S, h1, h2⟩ := h.er r (by rw [← hel]; exact hr)
    refine ⟨S, h1, fun v hv => ?_⟩
    obtain ⟨k, hk⟩ := h2 v hv
    exact ⟨k, hg.votes _ hk⟩
  n := fun j => (h.n j).gle hg

theorem sinv_init : SInv c0 (initSys (D := D) c0) where
  v := vinv_init c0
  ae := by simp [initSys, initGlob]
  is := by simp [initSys, initGlob]
  er := by simp [initSys, initGlob]
  n := fun i => by
    constructor <;> simp [initSys, initGlob, freshNode, CfOK, QOK]

theorem resolveOps_QOK {l : Log N D} {prev : Nat} {es : List (Entry N D)} (h : CfOK c0 es) :
    QOK c0 (resolveOps l prev es) := by
  intro op hop
  simp only [resolveOps, List.mem_append, List.mem_map] at hop
  rcases hop with hop | ⟨x, hx, rfl⟩
  · split at hop
    · obtain rfl := (List.mem_replicate.mp hop).2
      exact ⟨(by intro e he; cases he), (by intro K hK; cases hK)⟩
    · simp at hop
  · refine ⟨?_, (by intro K hK; cases hK)⟩
    intro e he
    cases he
    exact h x (List.mem_of_mem_drop hx)

theorem sinv_step {p : Params} (hm : p.metaOk = true) {s : Sys N D} (h : SInv c0 s) (a : Act N D)
    (hne : ∀ i c, a ≠ .changeConf i c) (hp : pre p c0 s a) : SInv c0 (eff c0 s a) := by
  have hv : VInv (eff c0 s a) := vinv_step h.v ⟨a, hp, rfl⟩
  have hg : GLe s.g (eff c0 s a).g := gle_eff c0 s a
  cases a with
  | raiseTerm i t ok =>
    exact h.upd i hv hg (fun _ _ _ _ _ h => Or.inl h) (fun _ _ h => Or.inl h) (fun r hr => Or.inl hr) ((h.n i).stepDown t ok)
  | electStart i =>
    refine h.upd i hv hg (fun _ _ _ _ _ h => Or.inl h) (fun _ _ h => Or.inl h) (fun r hr => Or.inl hr) ?_
    exact { log := (h.n i).log, disk := (h.n i).disk, queue := (h.n i).queue, ps := (h.n i).ps, dl := (h.n i).dl, sm := (h.n i).sm,
            bc := fun _ => (h.n i).log.confOf, ld := by intro hr; simp [electStart] at hr }
  | electSend i o =>
    refine h.upd i hv hg (by intro t prev pt es c hx; left; simpa [Glob.send, Glob.voted] using hx)
          (by intro t K hx; left; simpa [Glob.send, Glob.voted] using hx)
      (fun r hr => Or.inl hr) ?_
    exact { log := (h.n i).log, disk := (h.n i).disk, queue := (h.n i).queue, ps := (h.n i).ps, dl := (h.n i).dl, sm := (h.n i).sm,
            bc := (h.n i).bc, ld := (h.n i).ld }
  | electCrash i o =>
    exact h.upd i hv hg (by intro t prev pt es c hx; left; simpa [Glob.send, Glob.held] using hx)
          (by intro t K hx; left; simpa [Glob.send, Glob.held] using hx)
      (fun r hr => Or.inl hr) ((h.n i).restart.gle hg)
  | electFail i o =>
    refine h.upd i hv hg (by intro t prev pt es c hx; left; simpa [Glob.send] using hx)
          (by intro t K hx; left; simpa [Glob.send] using hx)
      (fun r hr => Or.inl hr) ?_
    exact { log := (h.n i).log, disk := (h.n i).disk, queue := (h.n i).queue, ps := (h.n i).ps, dl := (h.n i).dl, sm := (h.n i).sm,
            bc := (h.n i).bc, ld := (h.n i).ld }
  | becomeLeader i q =>
    obtain ⟨hr, hready, hq, hvs⟩ := hp
    have hbc := (h.n i).bc hr
    have hlead : (lead s i).node i = { s.node i with role := .leader, ready := false } := by
      simp [lead, updF]
    have hnode : (eff c0 s (.becomeLeader i q)).node = updF s.node i
        (appendOwn { s.node i with role := .leader, ready := false }
          [⟨(s.node i).term, .conf (confOf c0 (s.node i).log)⟩]) := by
      funext j
      by_cases hj : j = i
      · subst hj; simp [eff, sysAppend, hlead, updF]
      · simp [eff, sysAppend, lead, updF, hj]
    have hcc := (h.n i).log.confOf
    have hnew : CfOK c0 [(⟨(s.node i).term, .conf (confOf c0 (s.node i).log)⟩ : Entry N D)] := by
      intro e he c hc
      simp only [List.mem_singleton] at he
      subst he
      rw [hcc] at hc
      exact (Option.some.inj hc).symm
    have key := h.upd i (n' := appendOwn { s.node i with role := .leader, ready := false }
          [⟨(s.node i).term, .conf (confOf c0 (s.node i).log)⟩])
          (g' := (eff c0 s (.becomeLeader i q)).g) (by rw [← hnode]; exact hv) hg
          (fun _ _ _ _ _ h => Or.inl h) (fun _ _ h => Or.inl h) ?_ ?_
    · rw [← hnode] at key; exact key
    · intro r hr'
      have hr'' : r ∈ s.g.elections ++ [⟨(s.node i).term, i, (s.node i).log⟩] := hr'
      rcases List.mem_append.mp hr'' with h1 | h1
      · exact Or.inl h1
      · right
        simp only [List.mem_singleton] at h1
        subst h1
        refine ⟨fun v => decide (v ∈ q), by rw [← hbc]; exact hq, ?_⟩
        intro v hvq
        have := hvs v (by simpa using hvq)
        by_cases hvi : v = i
        · subst hvi
          rw [if_pos rfl] at this
          have this := this.resolve_left (by rw [hm]; simp)
          obtain ⟨k, hk⟩ := (h.v.n v).pv _ this.2
          exact ⟨k, hg.votes _ (by rw [this.1] at hk; exact hk)⟩
        · rw [if_neg hvi] at this
          obtain ⟨k, hk⟩ := h.v.vr _ _ _ this
          exact ⟨k, hg.votes _ hk⟩
    · exact {
        log := (h.n i).log.app hnew
        disk := (h.n i).disk
        queue := by
          intro op hop
          simp only [appendOwn, List.mem_append, List.map_cons, List.map_nil, List.mem_singleton] at hop
          rcases hop with (hop | hop) | hop
          · exact (h.n i).queue op hop
          · subst hop
            exact ⟨(by intro e he; cases he; exact hnew _ (by simp)), (by intro K hK; cases hK)⟩
          · subst hop; exact ⟨(by intro e he; cases he), (by intro K hK; cases hK)⟩
        ps := (h.n i).ps
        dl := (h.n i).dl
        sm := (h.n i).sm
        bc := by intro hx; simp [appendOwn] at hx
        ld := by
          intro _
          refine ⟨⟨(s.node i).term, i, (s.node i).log⟩, ?_, rfl, rfl⟩
          show _ ∈ s.g.elections ++ [⟨(s.node i).term, i, (s.node i).log⟩]
          simp }
  | voteBegin i t cand claim =>
    refine h.upd i hv hg (fun _ _ _ _ _ h => Or.inl h) (fun _ _ h => Or.inl h) (fun r hr => Or.inl hr) ?_
    exact { log := (h.n i).log, disk := (h.n i).disk, queue := (h.n i).queue, ps := (h.n i).ps, dl := (h.n i).dl, sm := (h.n i).sm,
            bc := (h.n i).bc, ld := (h.n i).ld }
  | voteEnd i f ok grantOk =>
    have hn : SN c0 s.g i (voteFinish (s.node i) f ok grantOk).1 := by
      have h0 := h.n i
      unfold voteFinish
      simp only []
      generalize hn1 : (if (s.node i).term < f.reqTerm then Raft.stepDown (s.node i) f.reqTerm ok
        else s.node i) = n1
      have h1 : SN c0 s.g i n1 := by
        rw [← hn1]; split
        · exact h0.stepDown _ _
        · exact h0
      have h2 : SN c0 s.g i { n1 with vframes := (s.node i).vframes.erase f } :=
        { log := h1.log, disk := h1.disk, queue := h1.queue, ps := h1.ps, dl := h1.dl, sm := h1.sm, bc := h1.bc, ld := h1.ld }
      split
      · have h3 := h2.stepDown f.reqTerm ok
        split
        · exact { log := h3.log, disk := h3.disk, queue := h3.queue, ps := h3.ps, dl := h3.dl, sm := h3.sm, bc := h3.bc, ld := h3.ld }
        · exact h3
      · exact h2
    simp only [eff] at hv hg ⊢
    split
    · next hvf =>
      rw [if_pos hvf] at hv hg
      exact h.upd i hv hg (by intro t prev pt es c hx; left; simpa [Glob.send, Glob.voted] using hx)
          (by intro t K hx; left; simpa [Glob.send, Glob.voted] using hx)
        (fun r hr => Or.inl hr) (hn.gle hg)
    · next hvf =>
      rw [if_neg hvf] at hv hg
      exact h.upd i hv hg (fun _ _ _ _ _ h => Or.inl h) (fun _ _ h => Or.inl h) (fun r hr => Or.inl hr) hn
  | voteDrop i f =>
    refine h.upd i hv hg (fun _ _ _ _ _ h => Or.inl h) (fun _ _ h => Or.inl h) (fun r hr => Or.inl hr) ?_
    exact { log := (h.n i).log, disk := (h.n i).disk, queue := (h.n i).queue, ps := (h.n i).ps, dl := (h.n i).dl, sm := (h.n i).sm,
            bc := (h.n i).bc, ld := (h.n i).ld }
  | voteAgain i t cand =>
    exact h.msg hv hg rfl (by intro t prev pt es c hx; left; simpa [Glob.send] using hx)
          (by intro t K hx; left; simpa [Glob.send] using hx)
  | propose i ds =>
    have hnew : CfOK c0 (ds.map (fun d => (⟨(s.node i).term, .data d⟩ : Entry N D))) := by
      intro e he c hc
      obtain ⟨d, _, rfl⟩ := List.mem_map.mp he
      cases hc
    refine h.upd i hv hg (fun _ _ _ _ _ h => Or.inl h) (fun _ _ h => Or.inl h) (fun r hr => Or.inl hr) ?_
    exact {
      log := (h.n i).log.app hnew
      disk := (h.n i).disk
      queue := by
        intro op hop
        simp only [appendOwn, List.mem_append, List.mem_singleton] at hop
        rcases hop with (hop | hop) | hop
        · exact (h.n i).queue op hop
        · obtain ⟨x, hx, rfl⟩ := List.mem_map.mp hop
          exact ⟨(by intro e he; cases he; exact hnew _ hx), (by intro K hK; cases hK)⟩
        · subst hop; exact ⟨(by intro e he; cases he), (by intro K hK; cases hK)⟩
      ps := (h.n i).ps
      dl := (h.n i).dl
      sm := (h.n i).sm
      bc := (h.n i).bc
      ld := (h.n i).ld }
  | changeConf i c => exact absurd rfl (hne i c)
  | sendAE i prev cnt c =>
    refine h.msg hv hg rfl ?_ (by intro t K hx; left; simpa [Glob.send] using hx)
    intro t prev' pt es c' hx
    simp only [Glob.send, List.mem_cons, Msg.ae.injEq] at hx
    rcases hx with ⟨_, _, _, rfl, _⟩ | hx
    · right
      exact (h.n i).log.sub (fun e he => List.mem_of_mem_drop (List.mem_of_mem_take he))
    · exact Or.inl hx
  | recvAE i t prev pt es c ok gone =>
    have hes := h.ae _ _ _ _ _ hp.1
    have hn : SN c0 s.g i (handleAE (s.node i) t prev pt es c ok gone).1 := by
      have h0 := h.n i
      unfold handleAE
      simp only []
      generalize hn1 : aeStepDown (s.node i) t ok = n1
      have h1 : SN c0 s.g i n1 := by
        rw [← hn1]; unfold aeStepDown; split
        · exact h0.stepDown _ _
        · exact h0
      split
      · exact h1
      · split
        · exact { log := h1.log, disk := h1.disk, queue := h1.queue, ps := h1.ps, dl := h1.dl, sm := h1.sm, bc := h1.bc, ld := h1.ld }
        · split
          · exact { log := h1.log, disk := h1.disk, queue := h1.queue, ps := h1.ps, dl := h1.dl, sm := h1.sm, bc := h1.bc, ld := h1.ld }
          · have hq := resolveOps_QOK (l := n1.log) (prev := prev) hes
            exact {
              log := drain_CfOK _ _ h1.log hq
              disk := h1.disk
              queue := by
                intro op hop
                simp only [aeAppend, List.mem_append, List.mem_singleton] at hop
                rcases hop with (hop | hop) | hop
                · exact h1.queue op hop
                · exact hq op hop
                · subst hop; exact ⟨(by intro e he; cases he), (by intro K hK; cases hK)⟩
              ps := h1.ps
              dl := h1.dl
              sm := h1.sm
              bc := h1.bc
              ld := h1.ld }
    simp only [eff] at hv hg ⊢
    split
    · next hvf =>
      rw [if_pos hvf] at hv hg
      exact h.upd i hv hg (by intro t prev pt es c hx; left; simpa [Glob.send] using hx)
          (by intro t K hx; left; simpa [Glob.send] using hx)
        (fun r hr => Or.inl hr) (hn.gle hg)
    · next hvf =>
      rw [if_neg hvf] at hv hg
      exact h.upd i hv hg (fun _ _ _ _ _ h => Or.inl h) (fun _ _ h => Or.inl h) (fun r hr => Or.inl hr) hn
  | disk i =>
    have h0 := h.n i
    simp only [eff, diskStep] at hv hg ⊢
    split
    · exact h
    next op q hq =>
    simp only [hq] at hv hg
    have hqq := h0.queue
    rw [hq] at hqq
    have hd : CfOK c0 (applyOp (s.node i).disk op) := applyOp_CfOK h0.disk (hqq op (by simp))
    have hq' : QOK c0 q := fun op hop => hqq op (by simp [hop])
    have hn : ∀ (g' : Glob N D) (k : Nat), GLe s.g g' → SN c0 g' i { s.node i with
        disk := applyOp (s.node i).disk op, queue := q, commit := k } := by
      intro g' k hg'
      have h1 := h0.gle hg'
      exact { log := h1.log, disk := hd, queue := hq', ps := h1.ps, dl := h1.dl, sm := h1.sm, bc := h1.bc, ld := h1.ld }
    cases op with
    | push e =>
      exact h.upd i hv hg (fun _ _ _ _ _ h => Or.inl h) (fun _ _ h => Or.inl h) (fun r hr => Or.inl hr) (hn _ _ hg)
    | snap K =>
      exact h.upd i hv hg (fun _ _ _ _ _ h => Or.inl h) (fun _ _ h => Or.inl h) (fun r hr => Or.inl hr) (hn _ _ hg)
    | pop =>
      exact h.upd i hv hg (fun _ _ _ _ _ h => Or.inl h) (fun _ _ h => Or.inl h) (fun r hr => Or.inl hr) (hn _ _ hg)
    | ackF t m c =>
      simp only [] at hv hg ⊢
      split
      · next hx =>
        rw [if_pos hx] at hv hg
        exact h.upd i hv hg (by intro t prev pt es c hx; left; simpa [Glob.ack, Glob.held] using hx)
          (by intro t K hx; left; simpa [Glob.ack, Glob.held] using hx)
          (fun r hr => Or.inl hr) (hn _ _ hg)
      · next hx =>
        rw [if_neg hx] at hv hg
        exact h.upd i hv hg (fun _ _ _ _ _ h => Or.inl h) (fun _ _ h => Or.inl h) (fun r hr => Or.inl hr) (hn _ _ hg)
    | ackL m =>
      simp only [] at hv hg ⊢
      split
      · next hx =>
        rw [if_pos hx] at hv hg
        exact h.upd i hv hg (by intro t prev pt es c hx; left; simpa [Glob.ack, Glob.held] using hx)
          (by intro t K hx; left; simpa [Glob.ack, Glob.held] using hx)
          (fun r hr => Or.inl hr) (hn _ _ hg)
      · next hx =>
        rw [if_neg hx] at hv hg
        exact h.upd i hv hg (fun _ _ _ _ _ h => Or.inl h) (fun _ _ h => Or.inl h) (fun r hr => Or.inl hr) (hn _ _ hg)
  | commit i k q =>
    refine h.upd i hv hg (fun _ _ _ _ _ h => Or.inl h) (fun _ _ h => Or.inl h) (fun r hr => Or.inl hr) ?_
    exact { log := (h.n i).log, disk := (h.n i).disk, queue := (h.n i).queue, ps := (h.n i).ps, dl := (h.n i).dl, sm := (h.n i).sm,
            bc := (h.n i).bc, ld := (h.n i).ld }
  | apply i =>
    refine h.upd i hv hg (fun _ _ _ _ _ h => Or.inl h) (fun _ _ h => Or.inl h) (fun r hr => Or.inl hr) ?_
    have h1 := h.n i
    exact { log := h1.log, disk := h1.disk, queue := h1.queue, ps := h1.ps, dl := h1.dl,
            sm := h1.sm.app (h1.log.sub
              (fun e he => List.mem_of_mem_drop (List.mem_of_mem_take he))),
            bc := h1.bc, ld := h1.ld }
  | crash i =>
    exact h.upd i hv hg (fun _ _ _ _ _ h => Or.inl h) (fun _ _ h => Or.inl h) (fun r hr => Or.inl hr)
      ((h.n i).restart.gle hg)
  | saveSnap i k =>
    refine h.upd i hv hg (fun _ _ _ _ _ h => Or.inl h) (fun _ _ h => Or.inl h) (fun r hr => Or.inl hr) ?_
    have h1 := (h.n i).gle hg
    exact { log := h1.log, disk := h1.disk, queue := h1.queue,
            ps := h1.sm.sub (fun e he => List.mem_of_mem_take he), dl := h1.dl,
            sm := h1.sm, bc := h1.bc, ld := h1.ld }
  | sendIS i =>
    refine h.msg hv hg rfl (by intro t prev pt es c hx; left; simpa [Glob.send] using hx) ?_
    intro t K hx
    simp only [Glob.send, List.mem_cons, Msg.is.injEq] at hx
    rcases hx with ⟨_, rfl⟩ | hx
    · exact Or.inr (h.n i).ps
    · exact Or.inl hx
  | recvIS i t K ok =>
    refine h.upd i hv hg (fun _ _ _ _ _ h => Or.inl h) (fun _ _ h => Or.inl h) (fun r hr => Or.inl hr) ?_
    have hK := h.is _ _ hp.1
    unfold handleIS
    dsimp only
    generalize hn1 : aeStepDown (s.node i) t ok = n1
    have h1 : SN c0 s.g i n1 := by
      rw [← hn1]; unfold aeStepDown; split
      · exact (h.n i).stepDown _ _
      · exact h.n i
    split
    · exact { log := h1.log, disk := h1.disk, queue := h1.queue, ps := h1.ps,
              dl := (by intro K' hK'; cases hK'; exact hK),
              sm := h1.sm, bc := h1.bc, ld := h1.ld }
    · exact h1
  | copied i =>
    refine h.upd i hv hg (fun _ _ _ _ _ h => Or.inl h) (fun _ _ h => Or.inl h) (fun r hr => Or.inl hr) ?_
    have h1 := h.n i
    exact { log := h1.log, disk := h1.disk, queue := h1.queue,
            ps := (by
              show CfOK c0 ((s.node i).dl.getD (s.node i).psnap)
              cases hd : (s.node i).dl with
              | none => exact h1.ps
              | some K => exact h1.dl K hd),
            dl := h1.dl, sm := h1.sm, bc := h1.bc, ld := h1.ld }
  | loaded i =>
    refine h.upd i hv hg (fun _ _ _ _ _ h => Or.inl h) (fun _ _ h => Or.inl h) (fun r hr => Or.inl hr) ?_
    have h1 := (h.n i).gle hg
    have hno : ∀ K : Log N D, (none : Option (Log N D)) = some K → CfOK c0 K := by
      intro K hK; cases hK
    have key : SN c0 (eff c0 s (Act.loaded i)).g i (handleLoaded (s.node i) (s.node i).psnap) →
        SN c0 (s.g.held i (handleLoaded (s.node i) (s.node i).psnap).snap) i
          (handleLoaded (s.node i) (s.node i).psnap) := id
    apply key
    generalize (eff c0 s (Act.loaded i)).g = g' at h1
    unfold handleLoaded
    split
    · split
      · exact { log := h1.ps.merge h1.log, disk := h1.disk,
                queue := (by
                  intro op hop
                  rcases List.mem_append.mp hop with hop | hop
                  · exact h1.queue op hop
                  · simp only [List.mem_singleton] at hop
                    subst hop
                    exact ⟨(by intro e he; cases he), (by intro K hK; cases hK; exact h1.ps)⟩),
                ps := h1.ps, dl := hno, sm := h1.ps, bc := h1.bc, ld := h1.ld }
      · exact { log := h1.log, disk := h1.disk, queue := h1.queue, ps := h1.ps, dl := hno,
                sm := h1.ps, bc := h1.bc, ld := h1.ld }
    · exact { log := h1.log, disk := h1.disk, queue := h1.queue, ps := h1.ps, dl := hno,
              sm := h1.sm, bc := h1.bc, ld := h1.ld }
  | dlDrop i =>
    refine h.upd i hv hg (fun _ _ _ _ _ h => Or.inl h) (fun _ _ h => Or.inl h) (fun r hr => Or.inl hr) ?_
    have h1 := h.n i
    exact { log := h1.log, disk := h1.disk, queue := h1.queue, ps := h1.ps,
            dl := (by intro K hK; cases hK),
            sm := h1.sm, bc := h1.bc, ld := h1.ld }

theorem sinv_steps {p : Params} (hm : p.metaOk = true) {s s' : Sys N D} (h : SInv c0 s) (hs : StaticSteps p c0 s s') :
    SInv c0 s' := by
  induction hs with
  | refl => exact h
  | tail a _ hne hp ih => exact sinv_step hm ih a hne hp

/-- An execution without membership change, from an executable check. -/
theorem static_of_ok {p : Params} {c0 : Conf N} {s : Sys N D} {as : List (Act N D)}
    (h : okActs p c0 s as = true)
    (hs : as.all (fun a => match a with | .changeConf _ _ => false | _ => true) = true) :
    StaticSteps p c0 s (runActs c0 s as) := by
  have : ∀ (as : List (Act N D)) (s s' : Sys N D), StaticSteps p c0 s s' →
      okActs p c0 s' as = true →
      as.all (fun a => match a with | .changeConf _ _ => false | _ => true) = true →
      StaticSteps p c0 s (runActs c0 s' as) := by
    intro as
    induction as with
    | nil => intro s s' h _ _; exact h
    | cons a as ih =>
      intro s s' h1 h2 h3
      simp only [okActs, Bool.and_eq_true] at h2
      simp only [List.all_cons, Bool.and_eq_true] at h3
      refine ih s _ (.tail a h1 ?_ (preB_sound h2.1)) h2.2 h3.2
      intro i c hc; subst hc; simp at h3
  exact this as s s .refl h hs

end Braft.Raft
