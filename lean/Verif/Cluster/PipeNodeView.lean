import Verif.Cluster.PipeNodeOrder
import Verif.FsmRun
/-
What a server's state machine has seen: the data entries of the log from the snapshot it loaded up to an index, all of
them, in order, each once.
-/
set_option linter.unusedVariables false
set_option linter.unusedSimpArgs false
set_option linter.unusedSectionVars false

namespace Braft.Cl
open Braft.Raft
variable {N D C : Type} [DecidableEq N] [DecidableEq D] {c0 : Conf N} {p : CParams}

/-- The state machine has seen what `log` has up to an index. -/
def Seen (log : List (Fsm.Entry D)) (f : Fsm.State D C) : Prop :=
  ∃ m, (Fsm.view (0, []) f.ev).1 ≤ m ∧ m ≤ f.applied ∧ (f.err = false → m = f.applied) ∧
    (Fsm.view (0, []) f.ev).2 = Fsm.entriesOf (Pipe.entryAt log) (Fsm.view (0, []) f.ev).1 m

/-- Only the applied part matters. -/
theorem Seen.log {l l' : List (Fsm.Entry D)} {f : Fsm.State D C} (h : Seen l f) (hl : l.take f.applied = l'.take f.applied) : Seen l' f := by
  obtain ⟨m, h1, h2, h3, h4⟩ := h
  refine ⟨m, h1, h2, h3, ?_⟩
  rw [h4]
  unfold Fsm.entriesOf
  apply Fsm.filterMap_congr'
  intro k hk
  have hk := List.mem_range'_1.mp hk
  have : l[k - 1]? = l'[k - 1]? := by
    have := congrArg (·[k - 1]?) hl
    simpa [List.getElem?_take, show k - 1 < f.applied by omega] using this
  unfold Pipe.entryAt
  rw [this]

theorem Seen.quiet {l : List (Fsm.Entry D)} {f g : Fsm.State D C} (h : Seen l f) (h1 : g.applied = f.applied)
    (h2 : g.err = false → f.err = false) (h3 : Fsm.view (0, []) g.ev = Fsm.view (0, []) f.ev) : Seen l g := by
  obtain ⟨m, a1, a2, a3, a4⟩ := h
  exact ⟨m, by rw [h3]; exact a1, by rw [h1]; exact a2, fun he => by rw [h1]; exact a3 (h2 he), by rw [h3]; exact a4⟩

theorem Seen.push {l : List (Fsm.Entry D)} {f g : Fsm.State D C} (h : Seen l f) (h1 : g.applied = f.applied)
    (h2 : g.err = false → f.err = false) {y : List (Fsm.Ev D C)} (h3 : g.ev = f.ev ++ y)
    (h4 : ∀ e ∈ y, (∀ i d c, e ≠ Fsm.Ev.apply i d c) ∧ ∀ i, e ≠ Fsm.Ev.load i true) : Seen l g :=
  h.quiet h1 h2 (by rw [h3, Fsm.view_append, Fsm.view_silent h4])

theorem setError_seen {l : List (Fsm.Entry D)} {f : Fsm.State D C} (h : Seen l f) : Seen l f.setError := by
  unfold Fsm.State.setError
  split
  · exact h
  · exact h.push rfl (by intro h'; cases h') (y := [.onError]) rfl (by simp)

theorem doCommitted_seen {x : PN N D C} (h : Pipe.Inv x) {e : Fsm.Env D} (hr : Pipe.Reads x e) {c : Nat} (hc : c ≤ x.n.bb.lastCommitted)
    (hs : Seen x.log (Pipe.fsmOf x)) : Seen x.log ((Pipe.fsmOf x).doCommitted e c) := by
  by_cases hi : x.f.err = true ∨ c ≤ x.f.applied
  · rw [Pipe.doCommitted_idle hi]; exact hs
  · have he : (Pipe.fsmOf x).err = false := by
      show x.f.err = false
      cases hx : x.f.err with
      | false => rfl
      | true => exact absurd (Or.inl hx) hi
    have hlt : (Pipe.fsmOf x).applied < c := by
      show x.f.applied < c
      apply Decidable.byContradiction
      intro hn; exact hi (Or.inr (by omega))
    obtain ⟨evs, m, ⟨h1, h1t⟩, h2, h3, h4, h5, h5p, h5c, h5q, h6⟩ :=
      Fsm.doCommitted_spec (clog := Pipe.entryAt x.log) he hlt (Pipe.reads_env h hr hc)
    obtain ⟨m0, v1, v2, v3, v4⟩ := hs
    have hm0 := v3 he
    subst hm0
    have hview : Fsm.view (0, []) ((Pipe.fsmOf x).ev ++ evs) = ((Fsm.view (0, []) (Pipe.fsmOf x).ev).1,
        Fsm.entriesOf (Pipe.entryAt x.log) (Fsm.view (0, []) (Pipe.fsmOf x).ev).1 m) := by
      rw [Fsm.view_append, Fsm.view_plain h1, h4, Fsm.dataOf_entries, v4, Fsm.entriesOf_append _ v1 h2]
    rcases h6 with ⟨e1, e2, e3, _⟩ | ⟨e1, e2, _⟩
    · refine ⟨m, ?_, by rw [h5]; omega, fun _ => by rw [h5]; exact e2, ?_⟩
      · rw [e3, hview]; show (Fsm.view (0, []) (Pipe.fsmOf x).ev).1 ≤ m; omega
      · rw [e3, hview]
    · have hsil : Fsm.view (0, []) ((Pipe.fsmOf x).doCommitted e c).ev = Fsm.view (0, []) ((Pipe.fsmOf x).ev ++ evs) := by
        rw [e2, List.append_assoc, Fsm.view_append]
        apply Fsm.view_silent
        intro y hy
        rcases List.mem_append.mp hy with hy | hy
        · rw [List.mem_singleton] at hy; subst hy
          exact ⟨(by intro i d c h; cases h), (by intro i h; cases h)⟩
        · obtain ⟨z, _, rfl⟩ := List.mem_map.mp hy
          exact ⟨(by intro i d c h; cases h), (by intro i h; cases h)⟩
      refine ⟨m, ?_, by rw [h5]; omega, (fun h' => by rw [e1] at h'; cases h'), ?_⟩
      · rw [hsil, hview]; show (Fsm.view (0, []) (Pipe.fsmOf x).ev).1 ≤ m; omega
      · rw [hsil, hview]

theorem flush_seen {x : PN N D C} (h : Pipe.Inv x) {e : Fsm.Env D} (hr : Pipe.Reads x e) (hs : Seen x.log (Pipe.fsmOf x)) :
    Seen x.log ((Pipe.fsmOf x).flush e) := by
  unfold Fsm.State.flush
  cases hp : (Pipe.fsmOf x).pend with
  | none => exact hs
  | some c => exact (doCommitted_seen h hr (h.pend c hp) hs).quiet rfl id rfl

theorem take_seen {l : List (Fsm.Entry D)} {f : Fsm.State D C} (h : Seen l f) (i : Nat) : Seen l (f.take i) := by
  unfold Fsm.State.take
  split
  · split
    · exact h.quiet rfl id rfl
    · exact h
  · exact h.quiet rfl id rfl

theorem doLoad_seen {l : List (Fsm.Entry D)} {f : Fsm.State D C} (h : Seen l f) (ld : Fsm.Load) : Seen l (f.doLoad ld) := by
  unfold Fsm.State.doLoad
  split
  · exact h
  · cases ld with
    | noReader => exact h
    | badMeta eio => cases eio with
      | true => exact setError_seen h
      | false => exact h
    | snap i t j ok =>
      dsimp only
      split
      · exact h
      · cases ok with
        | true =>
          rw [if_pos rfl]
          have hv : Fsm.view (0, []) (f.ev ++ (Fsm.Ev.load i true :: if j = true then [] else [.confCommitted i])) = (i, []) := by
            rw [Fsm.view_append]; cases j <;> rfl
          refine ⟨i, ?_, Nat.le_refl _, fun _ => rfl, ?_⟩
          · show (Fsm.view (0, []) (f.ev ++ _)).1 ≤ i
            rw [hv]; exact Nat.le_refl _
          · show (Fsm.view (0, []) (f.ev ++ _)).2 = Fsm.entriesOf _ (Fsm.view (0, []) (f.ev ++ _)).1 i
            rw [hv]; exact (Fsm.entriesOf_self _ _).symm
        | false =>
          rw [if_neg (by simp)]
          exact setError_seen (h.push (g := { f with ev := f.ev ++ [Fsm.Ev.load i false] }) rfl id (y := [.load i false]) rfl (by simp))

theorem task_seen {x : PN N D C} (h : Pipe.Inv x) {e : Fsm.Env D} (hr : Pipe.Reads x e) (size : Nat) (t : Fsm.Task)
    (hs : Seen x.log (Pipe.fsmOf x)) : Seen x.log ((Pipe.fsmOf x).task size e t) := by
  have hf := flush_seen h hr hs
  cases t with
  | committed i =>
    show Seen _ (if (Pipe.fsmOf x).counter < size then (Pipe.fsmOf x).take i else ((Pipe.fsmOf x).flush e).take i)
    split
    · exact take_seen hs i
    · exact take_seen hf i
  | save w =>
    show Seen _ (((Pipe.fsmOf x).flush e).doSave w)
    unfold Fsm.State.doSave
    split
    · exact hf
    · split
      · exact hf.push rfl id (y := [_]) rfl (by simp)
      · exact hf
  | load l => exact doLoad_seen hf l
  | leader => exact hf.push rfl id (y := [.leader]) rfl (by simp)
  | error => exact setError_seen hf

/-- Loading while no commit is pending needs nothing of the log. -/
theorem load_seen {l : List (Fsm.Entry D)} {x : PN N D C} (hs : Seen l x.f) (hp : x.f.pend = none) (size : Nat) (e : Fsm.Env D) (ld : Fsm.Load) :
    Seen l (Pipe.step x (.fsm size e (.load ld))).f := by
  have hfl : (Pipe.fsmOf x).flush e = Pipe.fsmOf x := by
    unfold Fsm.State.flush
    rw [show (Pipe.fsmOf x).pend = none from hp]
  show Seen l (((Pipe.fsmOf x).flush e).doLoad ld)
  rw [hfl]
  exact doLoad_seen (f := Pipe.fsmOf x) (Seen.quiet hs rfl id rfl) ld

/-- A snapshot that is loaded starts a new view, or is not loaded. -/
theorem load_cases (x : PN N D C) (hp : x.f.pend = none) (he : x.f.err = false) (size : Nat) (e : Fsm.Env D) (i t : Nat) (j : Bool) :
    (∀ l, Seen l (Pipe.step x (.fsm size e (.load (.snap i t j true)))).f) ∨
    ((Pipe.step x (.fsm size e (.load (.snap i t j true)))).f = Pipe.fsmOf x) := by
  have hfl : (Pipe.fsmOf x).flush e = Pipe.fsmOf x := by
    unfold Fsm.State.flush
    rw [show (Pipe.fsmOf x).pend = none from hp]
  show (∀ l, Seen l (((Pipe.fsmOf x).flush e).doLoad (.snap i t j true))) ∨ ((Pipe.fsmOf x).flush e).doLoad (.snap i t j true) = _
  rw [hfl]
  unfold Fsm.State.doLoad
  rw [if_neg (by rw [show (Pipe.fsmOf x).err = false from he]; simp)]
  dsimp only
  split
  · exact Or.inr rfl
  · left
    intro l
    rw [if_pos rfl]
    have hv : Fsm.view (0, []) ((Pipe.fsmOf x).ev ++ (Fsm.Ev.load i true :: if j = true then [] else [.confCommitted i])) = (i, []) := by
      rw [Fsm.view_append]; cases j <;> rfl
    refine ⟨i, ?_, Nat.le_refl _, fun _ => rfl, ?_⟩
    · show (Fsm.view (0, []) ((Pipe.fsmOf x).ev ++ _)).1 ≤ i
      rw [hv]; exact Nat.le_refl _
    · show (Fsm.view (0, []) ((Pipe.fsmOf x).ev ++ _)).2 = Fsm.entriesOf _ (Fsm.view (0, []) ((Pipe.fsmOf x).ev ++ _)).1 i
      rw [hv]; exact (Fsm.entriesOf_self _ _).symm

theorem seen_init (l : List (Fsm.Entry D)) (conf : List N) : Seen l (Pipe.State.init conf : PN N D C).f :=
  ⟨0, Nat.le_refl _, Nat.le_refl _, fun _ => rfl, (Fsm.entriesOf_self _ _).symm⟩

theorem pipeEff_seen {l : List (Fsm.Entry D)} (c : Srv N D) (x : PN N D C) (a : CAct N D) (cc : C) (hs : Seen l x.f) :
    (Seen l (pipeEff p c0 c x a cc).f ∧ (pipeEff p c0 c x a cc).f = x.f) ∨ ∀ l', Seen l' (pipeEff p c0 c x a cc).f := by
  unfold pipeEff
  dsimp only
  split
  · right
    intro l'
    unfold bootOps
    split
    · simp only [List.append_nil, List.cons_append, List.nil_append]
      rw [(runOps_quiet _ (by simp [quiet, syncOp]) _).1]
      exact seen_init _ _
    · rw [runOps_append]
      rw [(runOps_quiet _ (by simp [quiet, syncOp]) _).1]
      exact load_seen (x := (Pipe.step (Pipe.State.init c0.peers) (.follow _) : PN N D C)) (seen_init (N := N) _ c0.peers) rfl _ _ _
  · left
    rw [(runOps_quiet _ ?_ _).1]
    · exact ⟨hs, rfl⟩
    · intro op hop
      simp only [List.mem_append, List.mem_singleton] at hop
      rcases hop with hop | hop | rfl
      · exact downOps_quiet _ _ _ hop
      · exact handlerOps_quiet _ _ _ _ hop
      · rfl

/-- The log changes, but not what was applied. -/
theorem Seen.later (hp : COk p) {s s' : PSys N D C} (h : PInv p c0 s) (h' : PInv p c0 s') (hc : CSteps p c0 s.cl s'.cl) {i : N}
    {f : Fsm.State D C} (hs : Seen (s.pn i).log f) (h1 : f.applied ≤ (s.cl.node i).applied ∨ f.applied ≤ (s.cl.node i).bb.lastCommitted)
    (h2 : f.applied ≤ (s'.cl.node i).applied ∨ f.applied ≤ (s'.cl.node i).bb.lastCommitted) : Seen (s'.pn i).log f := by
  refine hs.log ?_
  rw [(h.both i).half.core.log, (h'.both i).half.core.log, ← fents_take, ← fents_take]
  rw [committed_take hp h.reach hc h1.symm h2.symm]

theorem pstep_seen (hp : COk p) {s s' : PSys N D C} (h : PInv p c0 s) (hs : ∀ i, Seen (s.pn i).log (s.pn i).f) {a : PAct N D C}
    (hst : pstep p c0 s a = some s') (j : N) : Seen (s'.pn j).log (s'.pn j).f := by
  obtain ⟨h', hc⟩ := pstep_inv hp h hst
  -- the state machine's thread did nothing
  have same : ∀ i, (s'.pn i).f = (s.pn i).f → Seen (s'.pn i).log (s'.pn i).f := by
    intro i hf
    rw [hf]
    refine (hs i).later hp h h' hc (Or.inl ?_) (Or.inl ?_)
    · rw [(h.both i).half.core.ap]; exact Nat.le_refl _
    · rw [← (h'.both i).half.core.ap, hf]; exact Nat.le_refl _
  have other : ∀ (i : N) (cl : CSys N D) (x : PN N D C), s' = s.upd cl i x → j ≠ i → Seen (s'.pn j).log (s'.pn j).f := by
    intro i cl x he hne
    apply same
    rw [he]
    show (updF s.pn i x j).f = _
    rw [updF, if_neg hne]
  have me : ∀ (i : N) (cl : CSys N D) (x : PN N D C), s' = s.upd cl i x → s'.pn i = x := by
    intro i cl x he; rw [he]; simp [PSys.upd, updF]
  have both : ∀ (i : N) (cl : CSys N D) (x : PN N D C), s' = s.upd cl i x → ((s'.pn i) = x → j = i → Seen (s'.pn i).log (s'.pn i).f) →
      Seen (s'.pn j).log (s'.pn j).f := by
    intro i cl x he hx
    by_cases hj : j = i
    · subst hj; exact hx (me _ _ _ he) rfl
    · exact other i cl x he hj
  cases a with
  | srv a cc =>
    simp only [pstep] at hst
    split at hst
    · obtain ⟨cl, hcl, heq⟩ := Option.map_eq_some_iff.mp hst
      refine both a.at cl _ heq.symm (fun hx hj => ?_)
      rcases pipeEff_seen (p := p) (c0 := c0) (s.cl.node a.at) (s.pn a.at) a cc (hs a.at) with ⟨_, h2⟩ | h2
      · apply same; rw [hx]; exact h2
      · rw [hx]; exact h2 _
    · cases hst
  | submit i t =>
    simp only [pstep] at hst
    split at hst
    · cases hst
    · refine both i _ _ (Option.some.inj hst).symm (fun hx hj => ?_)
      apply same; rw [hx]; exact (step_quiet (s.pn i) (op := .submit t) rfl).1
  | stop i =>
    refine both i _ _ (Option.some.inj hst).symm (fun hx hj => ?_)
    apply same; rw [hx]; rfl
  | batch i k =>
    simp only [pstep] at hst
    split at hst
    · refine both i _ _ (Option.some.inj hst).symm (fun hx hj => ?_)
      apply same; rw [hx]; exact (step_quiet (s.pn i) (op := .batch k) rfl).1
    · obtain ⟨cl, hcl, heq⟩ := Option.map_eq_some_iff.mp hst
      refine both i _ _ heq.symm (fun hx hj => ?_)
      apply same; rw [hx]; exact (step_quiet (s.pn i) (op := .batch k) rfl).1
  | modes i a b =>
    refine both i _ _ (Option.some.inj hst).symm (fun hx hj => ?_)
    apply same; rw [hx]; rfl
  | fsm i size us bad t =>
    simp only [pstep] at hst
    split at hst
    · unfold applied at hst
      obtain ⟨cl, hcl, heq⟩ := Option.map_eq_some_iff.mp hst
      refine both i _ _ heq.symm (fun hx hj => ?_)
      rw [hx]
      exact task_seen (h.both i).inv (reads_envOf (s.pn i) us bad) size t ((hs i).quiet rfl id rfl)
    · cases hst
  | fsmEnd i us bad =>
    simp only [pstep] at hst
    unfold applied at hst
    obtain ⟨cl, hcl, heq⟩ := Option.map_eq_some_iff.mp hst
    refine both i _ _ heq.symm (fun hx hj => ?_)
    rw [hx]
    exact flush_seen (h.both i).inv (reads_envOf (s.pn i) us bad) ((hs i).quiet rfl id rfl)
  | load i us bad ok =>
    have hfl : Seen (s.pn i).log (Pipe.step (s.pn i) (.fsmEnd (envOf (s.pn i).log us bad))).f :=
      flush_seen (h.both i).inv (reads_envOf (s.pn i) us bad) ((hs i).quiet rfl id rfl)
    have hpd := (fsmEnd_fs h i us bad).2.2
    simp only [pstep] at hst
    have hlog : (Pipe.step (s.pn i) (.fsmEnd (envOf (s.pn i).log us bad))).log = (s.pn i).log := rfl
    obtain ⟨x1, hx1⟩ : ∃ x1, x1 = Pipe.step (s.pn i) (.fsmEnd (envOf (s.pn i).log us bad)) := ⟨_, rfl⟩
    rw [← hx1] at hst hfl hpd hlog
    split at hst
    · obtain ⟨cl1, hcl1, hst⟩ := Option.bind_eq_some_iff.mp hst
      split at hst
      · refine both i _ _ (Option.some.inj hst).symm (fun hx hj => ?_)
        rw [hx, hlog]; exact hfl
      · split at hst
        · obtain ⟨cl2, hcl2, heq⟩ := Option.map_eq_some_iff.mp hst
          refine both i _ _ heq.symm (fun hx hj => ?_)
          rename_i herr _
          have herr : x1.f.err = false := by simpa using herr
          have hfa : x1.f.applied ≤ (s.cl.node i).applied ∨ x1.f.applied ≤ (s.cl.node i).bb.lastCommitted := by
            have hap := (fsmEnd_fs h i us bad).1.ap
            have ha1 : ((Pipe.fsmOf (s.pn i)).flush (envOf (s.pn i).log us bad)).applied = x1.f.applied := by rw [hx1]; rfl
            have ha2 : (Pipe.fsmOf (s.pn i)).applied = (s.cl.node i).applied := (h.both i).half.core.ap
            have ha3 := (h.both i).half.core.bb.lc
            omega
          rcases load_cases (Pipe.step x1 (.follow (fents (cl2.node i).log))) hpd herr 0
            (envOf (fents (cl2.node i).log) (fun _ => []) (fun _ => false)) (cl2.node i).psnap.length (lastTerm (cl2.node i).psnap)
            (oldOf (confOf c0 (cl2.node i).psnap)).isSome with hc1 | hc1
          · rw [hx]; exact hc1 _
          · have hf : (s'.pn i).f = Pipe.fsmOf (Pipe.step x1 (.follow (fents (cl2.node i).log))) := by rw [hx]; exact hc1
            have hfap : (s'.pn i).f.applied = x1.f.applied := by rw [hf]; rfl
            rw [hf]
            refine (Seen.later hp h h' hc hfl hfa (Or.inl ?_)).quiet rfl id rfl
            rw [← (h'.both i).half.core.ap, hfap]
            exact Nat.le_refl _
        · refine both i _ _ (Option.some.inj hst).symm (fun hx hj => ?_)
          rw [hx]
          show Seen x1.log _
          rw [hlog]
          exact load_seen hfl hpd _ _ _
    · cases hst

/-- In every reachable state. -/
theorem preach_seen (hp : COk p) {s : PSys N D C} (h : PReachable p c0 s) (i : N) : Seen (s.pn i).log (s.pn i).f := by
  have : PInv p c0 s ∧ ∀ i, Seen (s.pn i).log (s.pn i).f := by
    induction h with
    | refl => exact ⟨pinv_init hp, fun i => seen_init (N := N) _ c0.peers⟩
    | tail act hst hs ih => exact ⟨(pstep_inv hp ih.1 hs).1, pstep_seen hp ih.1 ih.2 hs⟩
  exact this.2 i

end Braft.Cl
