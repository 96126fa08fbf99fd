import Verif.Cluster.PipeNodeRun
import Verif.Props.Cluster
/-
The invariant of Cluster/PipeNode.lean: the two sides agree, and what the state machine's threads apply is what the
servers apply.
-/
set_option linter.unusedVariables false
set_option linter.unusedSimpArgs false
set_option linter.unusedSectionVars false

namespace Braft.Cl
open Braft.Raft
variable {N D C : Type} [DecidableEq N] [DecidableEq D] {c0 : Conf N} {p : CParams}

/-- Does this step leave the state machine's thread alone? -/
def quiet : POp N D C → Bool
  | .fsm .. => false
  | .fsmEnd .. => false
  | _ => true

theorem step_quiet (x : PN N D C) {op : POp N D C} (h : quiet op = true) :
    (Pipe.step x op).f = x.f ∧ (Pipe.step x op).popped = x.popped := by
  cases op with
  | submit t => simp only [Pipe.step, Pipe.submit]; split <;> exact ⟨rfl, rfl⟩
  | confEntry c cf old => simp only [Pipe.step, Pipe.confEntry]; split <;> exact ⟨rfl, rfl⟩
  | fsm => cases h
  | fsmEnd => cases h
  | _ => exact ⟨rfl, rfl⟩

theorem runOps_quiet (ops : List (POp N D C)) (h : ∀ op ∈ ops, quiet op = true) (x : PN N D C) :
    (runOps x ops).f = x.f ∧ (runOps x ops).popped = x.popped := by
  induction ops generalizing x with
  | nil => exact ⟨rfl, rfl⟩
  | cons op ops ih =>
    have h1 := step_quiet x (h op (by simp))
    have h2 := ih (fun o ho => h o (by simp [ho])) (Pipe.step x op)
    exact ⟨h2.1.trans h1.1, h2.2.trans h1.2⟩

theorem downOps_quiet (c c' : Srv N D) : ∀ op ∈ (downOps c c' : List (POp N D C)), quiet op = true := by
  unfold downOps
  split <;> simp [quiet]

theorem aeOps_quiet (i : N) (c : Srv N D) (t : Nat) (srv : N) (prev pt : Nat) (es : List (Entry N D)) (cm : Nat) (ok gone : Bool) :
    ∀ op ∈ (aeOps i c t srv prev pt es cm ok gone : List (POp N D C)), quiet op = true := by
  unfold aeOps
  dsimp only
  repeat' split
  all_goals simp [quiet]

theorem diskOps_quiet (i : N) (c : Srv N D) : ∀ op ∈ (diskOps i c : List (POp N D C)), quiet op = true := by
  unfold diskOps
  split
  · split <;> simp [quiet]
  · simp [quiet]
  · simp

theorem handlerOps_quiet (c : Srv N D) (a : CAct N D) (cc : C) : ∀ op ∈ handlerOps p c0 c a cc, quiet op = true := by
  unfold handlerOps
  split
  · simp [quiet]
  · intro op hop; exact aeOps_quiet _ _ _ _ _ _ _ _ _ _ _ hop
  · intro op hop; exact diskOps_quiet _ _ _ hop
  · simp [quiet]
  · split <;> simp [quiet]

/-- Loading a snapshot shows no entry. -/
theorem load_noApply (x : PN N D C) (hp : x.f.pend = none) (size : Nat) (e : Fsm.Env D) (l : Fsm.Load) (k : Nat) (d : D) (o : Option C)
    (h : Fsm.Ev.apply k d o ∈ (Pipe.step x (.fsm size e (.load l))).f.ev) : Fsm.Ev.apply k d o ∈ x.f.ev := by
  have hfl : (Pipe.fsmOf x).flush e = Pipe.fsmOf x := by
    unfold Fsm.State.flush
    rw [show (Pipe.fsmOf x).pend = none from hp]
  have h : Fsm.Ev.apply k d o ∈ (((Pipe.fsmOf x).flush e).doLoad l).ev := h
  rw [hfl] at h
  have hse : ∀ f : Fsm.State D C, Fsm.Ev.apply k d o ∈ f.setError.ev → Fsm.Ev.apply k d o ∈ f.ev := by
    intro f hf
    unfold Fsm.State.setError at hf
    split at hf
    · exact hf
    · simpa using hf
  unfold Fsm.State.doLoad at h
  split at h
  · exact h
  · cases l with
    | noReader => exact h
    | badMeta eio => cases eio with
      | true => exact hse (Pipe.fsmOf x) (by simpa using h)
      | false =>
        have h : Fsm.Ev.apply k d o ∈ (Pipe.fsmOf x).ev := by simpa using h
        exact h
    | snap i t j ok =>
      dsimp only at h
      split at h
      · exact h
      · cases ok with
        | true =>
          rw [if_pos rfl] at h
          have h : Fsm.Ev.apply k d o ∈ x.f.ev ++ (Fsm.Ev.load i true :: if j then [] else [.confCommitted i]) := h
          cases j <;> simpa using h
        | false =>
          rw [if_neg (by simp)] at h
          have := hse _ h
          have this : Fsm.Ev.apply k d o ∈ x.f.ev ++ [Fsm.Ev.load i false] := this
          simpa using this

/-- The state machine's view after an action of a server. -/
theorem pipeEff_ev (c : Srv N D) (x : PN N D C) (a : CAct N D) (cc : C) (k : Nat) (d : D) (o : Option C)
    (h : Fsm.Ev.apply k d o ∈ (pipeEff p c0 c x a cc).f.ev) : Fsm.Ev.apply k d o ∈ x.f.ev := by
  unfold pipeEff at h
  dsimp only at h
  split at h
  · exfalso
    unfold bootOps at h
    split at h
    · simp only [List.append_nil, List.cons_append, List.nil_append] at h
      rw [(runOps_quiet _ (by simp [quiet, syncOp]) _).1] at h
      cases h
    · rw [runOps_append] at h
      rw [(runOps_quiet _ (by simp [quiet, syncOp]) _).1] at h
      have h := load_noApply _ rfl _ _ _ _ _ _ h
      cases h
  · rw [(runOps_quiet _ ?_ _).1] at h
    · exact h
    · intro op hop
      simp only [List.mem_append, List.mem_singleton] at hop
      rcases hop with hop | hop | rfl
      · exact downOps_quiet _ _ _ hop
      · exact handlerOps_quiet _ _ _ _ hop
      · rfl

/-- What holds in every reachable state. -/
structure PInv (p : CParams) (c0 : Conf N) (s : PSys N D C) : Prop where
  reach : CReachable p c0 s.cl
  both : ∀ i, Both c0 (s.cl.node i) (s.pn i)
  ev : ∀ i k d o, Fsm.Ev.apply k d o ∈ (s.pn i).f.ev → ∃ t, Ev.applied i k ⟨t, .data d⟩ ∈ s.cl.ev

/-- The other nodes are not concerned. -/
theorem PInv.upd {s : PSys N D C} (h : PInv p c0 s) {cl : CSys N D} {i : N} {x : PN N D C} (hc : CSteps p c0 s.cl cl)
    (hne : ∀ j, j ≠ i → cl.node j = s.cl.node j) (hb : Both c0 (cl.node i) x)
    (hev : ∀ k d o, Fsm.Ev.apply k d o ∈ x.f.ev → Fsm.Ev.apply k d o ∈ (s.pn i).f.ev ∨ ∃ t, Ev.applied i k ⟨t, .data d⟩ ∈ cl.ev) :
    PInv p c0 (s.upd cl i x) := by
  have hm := Props.Cluster.ev_mono hc
  refine ⟨csteps_trans h.reach hc, ?_, ?_⟩
  · intro j
    by_cases hj : j = i
    · subst hj
      show Both c0 (cl.node j) (updF s.pn j x j)
      simp only [updF, if_true]; exact hb
    · show Both c0 (cl.node j) (updF s.pn i x j)
      simp only [updF, hj, if_false]
      rw [hne j hj]; exact h.both j
  · intro j k d o he
    have he : Fsm.Ev.apply k d o ∈ (updF s.pn i x j).f.ev := he
    have old : Fsm.Ev.apply k d o ∈ (s.pn j).f.ev → ∃ t, Ev.applied j k ⟨t, .data d⟩ ∈ cl.ev := by
      intro h0
      obtain ⟨t, ht⟩ := h.ev j k d o h0
      exact ⟨t, hm _ ht⟩
    by_cases hj : j = i
    · subst hj
      simp only [updF, if_true] at he
      rcases hev k d o he with h1 | h1
      · exact old h1
      · exact h1
    · simp only [updF, hj, if_false] at he
      exact old he

/-- A round of the state machine's thread. -/
theorem fsm_round {s : PSys N D C} (h : PInv p c0 s) {i : N} {g : Fsm.State D C}
    (hf : FS (s.pn i).log (s.pn i).n.bb.lastCommitted (Pipe.fsmOf (s.pn i)) g) (hrun : Pipe.Run c0.peers (Pipe.putFsm (s.pn i) g)) :
    ∃ cl, fsmN p c0 i (g.applied - (s.pn i).f.applied) s.cl = some cl ∧ CSteps p c0 s.cl cl ∧
      FN i (g.applied - (s.pn i).f.applied) s.cl cl ∧ Both c0 (cl.node i) (Pipe.putFsm (s.pn i) g) ∧
      ∀ k d o, Fsm.Ev.apply k d o ∈ g.ev → Fsm.Ev.apply k d o ∈ (s.pn i).f.ev ∨ ∃ t, Ev.applied i k ⟨t, .data d⟩ ∈ cl.ev := by
  obtain ⟨cl, h1, h2, h3, h4⟩ := fsm_both (p := p) (h.both i) hf hrun
  refine ⟨cl, h1, h2, h3, h4, ?_⟩
  intro k d o he
  rcases hf.ev k d o he with hold | ⟨hlo, hhi⟩
  · exact Or.inl hold
  · right
    obtain ⟨a1, a2, ⟨t, a3⟩, _⟩ := h4.inv.evA k d o he
    refine ⟨t, h3.new k _ ?_ ?_ ?_⟩
    · rw [← (h.both i).half.core.ap]; exact hlo
    · rw [← (h.both i).half.core.ap]
      have : (s.pn i).f.applied < k := hlo
      omega
    · have a3 : (s.pn i).log[k - 1]? = some ⟨t, .data d⟩ := a3
      rw [(h.both i).half.core.log] at a3
      exact fents_data.mp a3

/-- The end of a round, with everything it needs. -/
theorem fsmEnd_fs {s : PSys N D C} (h : PInv p c0 s) (i : N) (us : Nat → List Fsm.UOp) (bad : Nat → Bool) :
    FS (s.pn i).log (s.pn i).n.bb.lastCommitted (Pipe.fsmOf (s.pn i)) ((Pipe.fsmOf (s.pn i)).flush (envOf (s.pn i).log us bad)) ∧
    Pipe.Run c0.peers (Pipe.step (s.pn i) (.fsmEnd (envOf (s.pn i).log us bad))) ∧
    (Pipe.step (s.pn i) (.fsmEnd (envOf (s.pn i).log us bad))).f.pend = none :=
  ⟨flush_fs (h.both i).inv (reads_envOf (s.pn i) us bad), .step _ (h.both i).half.run (reads_envOf (s.pn i) us bad),
    ((h.both i).inv.flush (reads_envOf (s.pn i) us bad)).2⟩

/-- A round, with everything it needs. -/
theorem fsm_fs {s : PSys N D C} (h : PInv p c0 s) (i : N) (size : Nat) (us : Nat → List Fsm.UOp) (bad : Nat → Bool) {t : Fsm.Task}
    (hok : fsmOk (s.pn i) t = true) :
    FS (s.pn i).log (s.pn i).n.bb.lastCommitted (Pipe.fsmOf (s.pn i)) ((Pipe.fsmOf (s.pn i)).task size (envOf (s.pn i).log us bad) t) ∧
    Pipe.Run c0.peers (Pipe.step (s.pn i) (.fsm size (envOf (s.pn i).log us bad) t)) := by
  refine ⟨task_fs (h.both i).inv (reads_envOf (s.pn i) us bad) size t ?_, .step _ (h.both i).half.run ⟨reads_envOf (s.pn i) us bad, ?_⟩⟩
  · intro a b c d ht
    subst ht
    cases hok
  · cases t with
    | committed k => simpa [fsmOk] using hok
    | load l => cases l <;> first | trivial | cases hok
    | _ => trivial

/-- One step keeps the invariant, and is made of steps of the servers. -/
theorem pstep_inv (hp : COk p) {s s' : PSys N D C} (h : PInv p c0 s) {a : PAct N D C} (hs : pstep p c0 s a = some s') :
    PInv p c0 s' ∧ CSteps p c0 s.cl s'.cl := by
  cases a with
  | srv a cc =>
    simp only [pstep] at hs
    split at hs
    · rename_i hok
      obtain ⟨cl, hcl, rfl⟩ := Option.map_eq_some_iff.mp hs
      obtain ⟨_, _, hne⟩ := cstep_some hcl
      have hc : CSteps p c0 s.cl cl := .tail a .refl hcl
      refine ⟨h.upd hc hne ?_ ?_, hc⟩
      · refine srv_both hp h.reach hcl (h.both a.at) cc ?_ ?_ ?_ <;>
          (intros; rintro rfl; cases hok)
      · intro k d o he
        exact Or.inl (pipeEff_ev _ _ _ _ _ _ _ he)
    · cases hs
  | submit i t =>
    simp only [pstep] at hs
    split at hs
    · cases hs
    · rename_i hok
      cases hs
      have hrun : Pipe.Run c0.peers (Pipe.step (s.pn i) (.submit t)) := .step _ (h.both i).half.run (by
        intro hst
        rw [hst] at hok
        cases hd : t.done with
        | none => rw [hd] at hok; simp at hok
        | some c => simp)
      refine ⟨h.upd .refl (fun _ _ => rfl) ?_ ?_, .refl⟩
      · have hb := h.both i
        revert hrun
        simp only [Pipe.step, Pipe.submit]
        split <;> intro hrun <;>
          exact ⟨⟨⟨hb.half.core.log, hb.half.core.bb, hb.half.core.le, hb.half.core.ap, hb.half.core.ft⟩, hrun⟩,
            ⟨hb.head.role, hb.head.term, hb.head.conf, hb.head.old⟩⟩
      · intro k d o he
        rw [(step_quiet (s.pn i) (op := .submit t) rfl).1] at he
        exact Or.inl he
  | stop i =>
    cases hs
    have hb := h.both i
    have hrun : Pipe.Run c0.peers (Pipe.step (s.pn i) .stop) := .step _ hb.half.run trivial
    refine ⟨h.upd .refl (fun _ _ => rfl) ?_ (fun k d o he => Or.inl he), .refl⟩
    exact ⟨⟨⟨hb.half.core.log, hb.half.core.bb, hb.half.core.le, hb.half.core.ap, hb.half.core.ft⟩, hrun⟩,
      ⟨hb.head.role, hb.head.term, hb.head.conf, hb.head.old⟩⟩
  | batch i k =>
    simp only [pstep] at hs
    have hb := h.both i
    have hbf := bf_reach hp h.reach i
    rw [batch_newData _ hb.half.core.le] at hs
    have hq := (step_quiet (s.pn i) (op := .batch k) rfl).1
    split at hs
    · rename_i he
      cases hs
      have he : (accepted (s.pn i) k).map (·.data) = [] := by simpa using he
      refine ⟨h.upd .refl (fun _ _ => rfl) ?_ (fun k d o hm => Or.inl (by rw [hq] at hm; exact hm)), .refl⟩
      exact batch_both hb hbf k (by rw [he]; simp) rfl (by rw [he]; rfl) rfl rfl
    · obtain ⟨cl, hcl, rfl⟩ := Option.map_eq_some_iff.mp hs
      obtain ⟨_, hn, hne⟩ := cstep_some hcl
      have hc : CSteps p c0 s.cl cl := .tail _ .refl hcl
      refine ⟨h.upd hc hne ?_ (fun k d o hm => Or.inl (by rw [hq] at hm; exact hm)), hc⟩
      have hn : cl.node i = sAppendOwn (s.cl.node i) (confOf c0 (s.cl.node i).log)
        (((accepted (s.pn i) k).map (·.data)).map (fun d => ⟨(s.cl.node i).term, .data d⟩)) := hn
      rw [hn]
      exact batch_both hb hbf k rfl rfl rfl rfl rfl
  | modes i a b =>
    cases hs
    have hb := h.both i
    have hrun : Pipe.Run c0.peers (Pipe.step (s.pn i) (.env (s.pn i).n.role (s.pn i).n.term a b (s.pn i).n.conf (s.pn i).n.old (s.pn i).n.logErr)) :=
      .step _ hb.half.run ⟨hb.inv.role, hb.inv.nd.1, hb.inv.nd.2, fun h => h⟩
    refine ⟨h.upd .refl (fun _ _ => rfl) ?_ (fun k d o he => Or.inl he), .refl⟩
    exact ⟨⟨⟨hb.half.core.log, hb.half.core.bb, hb.half.core.le, hb.half.core.ap, hb.half.core.ft⟩, hrun⟩,
      ⟨hb.head.role, hb.head.term, hb.head.conf, hb.head.old⟩⟩
  | fsm i size us bad t =>
    simp only [pstep] at hs
    split at hs
    · rename_i hok
      obtain ⟨hf, hrun⟩ := fsm_fs h i size us bad hok
      obtain ⟨cl, h1, h2, h3, h4, h5⟩ := fsm_round (p := p) h hf hrun
      have hs : (fsmN p c0 i (((Pipe.fsmOf (s.pn i)).task size (envOf (s.pn i).log us bad) t).applied - (s.pn i).f.applied) s.cl).map
        (fun cl => s.upd cl i (Pipe.step (s.pn i) (.fsm size (envOf (s.pn i).log us bad) t))) = some s' := hs
      rw [h1] at hs
      cases hs
      exact ⟨h.upd h2 h3.ne h4 h5, h2⟩
    · cases hs
  | fsmEnd i us bad =>
    obtain ⟨hf, hrun, _⟩ := fsmEnd_fs h i us bad
    obtain ⟨cl, h1, h2, h3, h4, h5⟩ := fsm_round (p := p) h hf hrun
    have hs : (fsmN p c0 i (((Pipe.fsmOf (s.pn i)).flush (envOf (s.pn i).log us bad)).applied - (s.pn i).f.applied) s.cl).map
        (fun cl => s.upd cl i (Pipe.step (s.pn i) (.fsmEnd (envOf (s.pn i).log us bad)))) = some s' := hs
    rw [h1] at hs
    cases hs
    exact ⟨h.upd h2 h3.ne h4 h5, h2⟩
  | load i us bad ok =>
    simp only [pstep] at hs
    split at hs
    · rename_i hdl
      obtain ⟨hf, hrun, hpd⟩ := fsmEnd_fs h i us bad
      obtain ⟨cl, h1, h2, h3, h4, h5⟩ := fsm_round (p := p) h hf hrun
      have h1 : fsmN p c0 i ((Pipe.step (s.pn i) (.fsmEnd (envOf (s.pn i).log us bad))).f.applied - (s.pn i).f.applied) s.cl = some cl := h1
      rw [h1] at hs
      have hs := hs
      simp only [Option.bind_some] at hs
      have h4 : Both c0 (cl.node i) (Pipe.step (s.pn i) (.fsmEnd (envOf (s.pn i).log us bad))) := h4
      have h5 : ∀ k d o, Fsm.Ev.apply k d o ∈ (Pipe.step (s.pn i) (.fsmEnd (envOf (s.pn i).log us bad))).f.ev → _ := h5
      generalize Pipe.step (s.pn i) (.fsmEnd (envOf (s.pn i).log us bad)) = x1 at *
      split at hs
      · cases hs
        exact ⟨h.upd h2 h3.ne h4 h5, h2⟩
      · rename_i herr
        have herr : x1.f.err = false := by simpa using herr
        split at hs
        · obtain ⟨cl2, hcl, rfl⟩ := Option.map_eq_some_iff.mp hs
          obtain ⟨_, _, hne⟩ := cstep_some hcl
          have hc2 : CSteps p c0 cl cl2 := .tail _ .refl hcl
          have hc : CSteps p c0 s.cl cl2 := csteps_trans h2 hc2
          refine ⟨h.upd hc (fun j hj => (hne j hj).trans (h3.ne j hj)) ?_ ?_, hc⟩
          · exact load_both hp (csteps_trans h.reach h2) hcl h4 hpd herr
          · intro k d o he
            have he : Fsm.Ev.apply k d o ∈ (Pipe.step (Pipe.step x1 (.follow (fents (cl2.node i).log)))
              (.fsm 0 (envOf (fents (cl2.node i).log) (fun _ => []) (fun _ => false))
                (.load (.snap (cl2.node i).psnap.length (lastTerm (cl2.node i).psnap) (oldOf (confOf c0 (cl2.node i).psnap)).isSome true)))).f.ev := he
            have he := load_noApply _ hpd _ _ _ _ _ _ he
            rcases h5 k d o he with h6 | ⟨t, h6⟩
            · exact Or.inl h6
            · exact Or.inr ⟨t, Props.Cluster.ev_mono hc2 _ h6⟩
        · cases hs
          refine ⟨h.upd h2 h3.ne (loadFail_both h4 hpd us bad _ _ _) ?_, h2⟩
          intro k d o he
          exact h5 k d o (load_noApply _ hpd _ _ _ _ _ _ he)
    · cases hs

theorem pinv_init (hp : COk p) : PInv p c0 (initP c0 : PSys N D C) := by
  refine ⟨.refl, fun i => ?_, ?_⟩
  · have hb : BF (freshSrv : Srv N D) := bf_reach (c0 := c0) hp .refl i
    refine Half.sync (c := freshSrv) ⟨⟨rfl, ⟨rfl, rfl, rfl⟩, rfl, rfl, fun _ => rfl⟩, .init⟩ hb _
  · intro i k d o h
    cases h

theorem psteps_inv (hp : COk p) {s s' : PSys N D C} (h : PInv p c0 s) (hs : PSteps p c0 s s') :
    PInv p c0 s' ∧ CSteps p c0 s.cl s'.cl := by
  induction hs with
  | refl => exact ⟨h, .refl⟩
  | tail a _ hs ih =>
    have := pstep_inv hp ih.1 hs
    exact ⟨this.1, csteps_trans ih.2 this.2⟩

theorem preach_inv (hp : COk p) {s : PSys N D C} (h : PReachable p c0 s) : PInv p c0 s := (psteps_inv hp (pinv_init hp) h).1

theorem psteps_trans {a b c : PSys N D C} (h1 : PSteps p c0 a b) (h2 : PSteps p c0 b c) : PSteps p c0 a c := by
  induction h2 with
  | refl => exact h1
  | tail x _ hx ih => exact .tail x ih hx

/-! ### Nothing gets stuck -/

/-- The state machine's thread can always run. -/
theorem fsm_enabled (hp : COk p) {s : PSys N D C} (h : PInv p c0 s) (i : N) (size : Nat) (us : Nat → List Fsm.UOp) (bad : Nat → Bool)
    {t : Fsm.Task} (hok : fsmOk (s.pn i) t = true) : ∃ s', pstep p c0 s (.fsm i size us bad t) = some s' ∧
      s'.pn i = Pipe.step (s.pn i) (.fsm size (envOf (s.pn i).log us bad) t) := by
  obtain ⟨hf, hrun⟩ := fsm_fs h i size us bad hok
  obtain ⟨cl, h1, h2, h3, h4, h5⟩ := fsm_round (p := p) h hf hrun
  simp only [pstep]
  rw [if_pos hok]
  refine ⟨s.upd cl i (Pipe.step (s.pn i) (.fsm size (envOf (s.pn i).log us bad) t)), ?_, by simp [PSys.upd, updF]⟩
  show (fsmN p c0 i (((Pipe.fsmOf (s.pn i)).task size (envOf (s.pn i).log us bad) t).applied - (s.pn i).f.applied) s.cl).map _ = _
  rw [h1]
  rfl

theorem fsmEnd_enabled (hp : COk p) {s : PSys N D C} (h : PInv p c0 s) (i : N) (us : Nat → List Fsm.UOp) (bad : Nat → Bool) :
    ∃ s', pstep p c0 s (.fsmEnd i us bad) = some s' ∧ s'.pn i = Pipe.step (s.pn i) (.fsmEnd (envOf (s.pn i).log us bad)) := by
  obtain ⟨hf, hrun, _⟩ := fsmEnd_fs h i us bad
  obtain ⟨cl, h1, h2, h3, h4, h5⟩ := fsm_round (p := p) h hf hrun
  refine ⟨s.upd cl i (Pipe.step (s.pn i) (.fsmEnd (envOf (s.pn i).log us bad))), ?_, by simp [PSys.upd, updF]⟩
  show (fsmN p c0 i (((Pipe.fsmOf (s.pn i)).flush (envOf (s.pn i).log us bad)).applied - (s.pn i).f.applied) s.cl).map _ = _
  rw [h1]
  rfl

/-- A batch can always be taken. -/
theorem batch_ok (hp : COk p) {s : PSys N D C} (h : PInv p c0 s) (i : N) (k : Nat) :
    ∃ s', pstep p c0 s (.batch i k) = some s' ∧ s'.pn i = Pipe.step (s.pn i) (.batch k) := by
  simp only [pstep]
  rw [batch_newData _ (h.both i).half.core.le]
  split
  · exact ⟨_, rfl, by simp [PSys.upd, updF]⟩
  · rename_i hne
    obtain ⟨cl, hcl⟩ := batch_enabled (p := p) (h.both i) k (by
      intro h0
      rw [h0] at hne
      exact hne rfl)
    rw [hcl]
    exact ⟨_, rfl, by simp [PSys.upd, updF]⟩

end Braft.Cl
