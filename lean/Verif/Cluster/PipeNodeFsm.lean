import Verif.Cluster.PipeNodeSrv
/-
The two sides of a server in Cluster/PipeNode.lean agree after every round of the state machine's thread.
-/
set_option linter.unusedVariables false
set_option linter.unusedSimpArgs false
set_option linter.unusedSectionVars false

namespace Braft.Cl
open Braft.Raft
variable {N D C : Type} [DecidableEq N] [DecidableEq D] {c0 : Conf N} {p : CParams}

/-- What a round of FSMCaller::run does. -/
structure FS (log : List (Fsm.Entry D)) (lc : Nat) (f g : Fsm.State D C) : Prop where
  ap : g.applied = f.applied ∨ (f.applied < g.applied ∧ g.applied ≤ lc)
  err : g.err = false → f.err = false
  tm : g.err = false → (g.applied = f.applied ∧ g.term = f.term) ∨
    (f.applied < g.applied ∧ g.term = (Pipe.entryAt log g.applied).term)
  ev : ∀ k d o, Fsm.Ev.apply k d o ∈ g.ev → Fsm.Ev.apply k d o ∈ f.ev ∨ (f.applied < k ∧ k ≤ g.applied)
  mono : ∀ e, e ∈ f.ev → e ∈ g.ev

theorem FS.rfl' (log : List (Fsm.Entry D)) (lc : Nat) (f : Fsm.State D C) : FS log lc f f :=
  ⟨Or.inl rfl, id, fun _ => Or.inl ⟨rfl, rfl⟩, fun _ _ _ h => Or.inl h, fun _ h => h⟩

/-- A step that applies nothing comes after. -/
theorem FS.after {log : List (Fsm.Entry D)} {lc : Nat} {f g g' : Fsm.State D C} (h : FS log lc f g) (h1 : g'.applied = g.applied)
    (h2 : g'.err = false → g.err = false) (h3 : g'.term = g.term) (y : List (Fsm.Ev D C)) (h4 : g'.ev = g.ev ++ y)
    (h5 : ∀ k d o, Fsm.Ev.apply k d o ∉ y) : FS log lc f g' where
  ap := by rw [h1]; exact h.ap
  err := fun he => h.err (h2 he)
  tm := fun he => by rw [h1, h3]; exact h.tm (h2 he)
  ev := fun k d o hm => by
    rw [h4] at hm
    rcases List.mem_append.mp hm with hm | hm
    · rw [h1]; exact h.ev k d o hm
    · exact absurd hm (h5 k d o)
  mono := fun e he => by rw [h4]; exact List.mem_append_left _ (h.mono e he)

theorem reads_envOf (x : PN N D C) (us : Nat → List Fsm.UOp) (bad : Nat → Bool) : Pipe.Reads x (envOf x.log us bad) := by
  intro i h1 h2
  refine ⟨?_, rfl⟩
  show (if bad i then none else x.log[i - 1]?) = _ ∨ (if bad i then none else x.log[i - 1]?) = _
  split
  · exact Or.inr rfl
  · exact Or.inl rfl

theorem doCommitted_fs {x : PN N D C} (h : Pipe.Inv x) {e : Fsm.Env D} (hr : Pipe.Reads x e) {c : Nat} (hc : c ≤ x.n.bb.lastCommitted) :
    FS x.log x.n.bb.lastCommitted (Pipe.fsmOf x) ((Pipe.fsmOf x).doCommitted e c) := by
  by_cases hi : x.f.err = true ∨ c ≤ x.f.applied
  · rw [Pipe.doCommitted_idle hi]; exact .rfl' ..
  · have he : (Pipe.fsmOf x).err = false := by
      show x.f.err = false
      cases hx : x.f.err with
      | false => rfl
      | true => exact absurd (Or.inl hx) hi
    have hlt : (Pipe.fsmOf x).applied < c := by
      show x.f.applied < c
      apply Decidable.byContradiction
      intro hn; exact hi (Or.inr (by omega))
    obtain ⟨evs, m, ⟨h1, h1t⟩, h2, h3, h4, h5, h5p, h5c, h5q, h6⟩ :=
      Fsm.doCommitted_spec (clog := Pipe.entryAt x.log) he hlt (Pipe.reads_env h hr hc)
    have hmem : ∀ k d o, Fsm.Ev.apply k d o ∈ evs → (Pipe.fsmOf x).applied < k ∧ k ≤ c := by
      intro k d o hm
      have hm' := Pipe.mem_told hm (by intro n h; cases h)
      rw [h1t] at hm'
      have := Pipe.apply_mem_expect hm'
      exact ⟨this.1, by omega⟩
    refine ⟨Or.inr (by rw [h5]; exact ⟨hlt, hc⟩), fun _ => he, ?_, ?_, ?_⟩
    · intro hg
      rcases h6 with ⟨_, _, _, ht, _, _⟩ | ⟨hx, _⟩
      · rw [h5]; exact Or.inr ⟨hlt, ht⟩
      · rw [hg] at hx; cases hx
    · intro k d o hm
      rw [h5]
      rcases h6 with ⟨_, _, hev, _⟩ | ⟨_, hev, _⟩
      · rw [hev] at hm
        rcases List.mem_append.mp hm with hm | hm
        · exact Or.inl hm
        · exact Or.inr (hmem k d o hm)
      · rw [hev, List.append_assoc, List.append_assoc] at hm
        rcases List.mem_append.mp hm with hm | hm
        · exact Or.inl hm
        · rcases List.mem_append.mp hm with hm | hm
          · exact Or.inr (hmem k d o hm)
          · exfalso
            simp at hm
    · intro e' he'
      rcases h6 with ⟨_, _, hev, _⟩ | ⟨_, hev, _⟩
      · rw [hev]; exact List.mem_append_left _ he'
      · rw [hev, List.append_assoc, List.append_assoc]; exact List.mem_append_left _ he'

theorem flush_fs {x : PN N D C} (h : Pipe.Inv x) {e : Fsm.Env D} (hr : Pipe.Reads x e) :
    FS x.log x.n.bb.lastCommitted (Pipe.fsmOf x) ((Pipe.fsmOf x).flush e) := by
  unfold Fsm.State.flush
  cases hp : (Pipe.fsmOf x).pend with
  | none => exact .rfl' ..
  | some c =>
    exact (doCommitted_fs h hr (h.pend c hp)).after rfl id rfl [] (by simp) (by simp)

theorem setError_fs {log : List (Fsm.Entry D)} {lc : Nat} {f g : Fsm.State D C} (h : FS log lc f g) : FS log lc f g.setError := by
  unfold Fsm.State.setError
  split
  · exact h
  · exact h.after rfl (by intro h'; cases h') rfl [.onError] rfl (by simp)

theorem take_fs {log : List (Fsm.Entry D)} {lc : Nat} {f g : Fsm.State D C} (h : FS log lc f g) (i : Nat) : FS log lc f (g.take i) := by
  unfold Fsm.State.take
  split
  · split
    · exact h.after rfl id rfl [] (by simp) (by simp)
    · exact h
  · exact h.after rfl id rfl [] (by simp) (by simp)

/-- A round that loads no snapshot. -/
theorem task_fs {x : PN N D C} (h : Pipe.Inv x) {e : Fsm.Env D} (hr : Pipe.Reads x e) (size : Nat) (t : Fsm.Task)
    (ht : ∀ i t' j ok, t = .load (.snap i t' j ok) → ok = false) :
    FS x.log x.n.bb.lastCommitted (Pipe.fsmOf x) ((Pipe.fsmOf x).task size e t) := by
  have hf := flush_fs h hr
  cases t with
  | committed i =>
    show FS _ _ _ (if (Pipe.fsmOf x).counter < size then (Pipe.fsmOf x).take i else ((Pipe.fsmOf x).flush e).take i)
    split
    · exact take_fs (.rfl' ..) i
    · exact take_fs hf i
  | save w =>
    show FS _ _ _ (((Pipe.fsmOf x).flush e).doSave w)
    unfold Fsm.State.doSave
    split
    · exact hf
    · split
      · exact hf.after rfl id rfl [_] rfl (by simp)
      · exact hf
  | load l =>
    show FS _ _ _ (((Pipe.fsmOf x).flush e).doLoad l)
    unfold Fsm.State.doLoad
    split
    · exact hf
    · cases l with
      | noReader => exact hf
      | badMeta eio => cases eio with
        | true => exact setError_fs hf
        | false => exact hf
      | snap i t' j ok =>
        have hk := ht i t' j ok rfl
        subst hk
        dsimp only
        split
        · exact hf
        · rw [if_neg (by simp)]
          have h2 : FS x.log x.n.bb.lastCommitted (Pipe.fsmOf x) { (Pipe.fsmOf x).flush e with ev := ((Pipe.fsmOf x).flush e).ev ++ [.load i false] } :=
            hf.after rfl id rfl [.load i false] rfl (by simp)
          exact setError_fs h2
  | leader => exact hf.after rfl id rfl [.leader] rfl (by simp)
  | error => exact setError_fs hf

/-- The agreement after a round, when the server has applied as many entries. -/
theorem put_both {c c' : Srv N D} {x : PN N D C} (h : Both c0 c x) {g : Fsm.State D C} (hf : FS x.log x.n.bb.lastCommitted (Pipe.fsmOf x) g)
    (hrun : Pipe.Run c0.peers (Pipe.putFsm x g)) (h1 : c'.log = c.log) (h2 : c'.bb = c.bb) (h3 : c'.applied = g.applied)
    (h4 : c'.state = c.state) (h5 : c'.term = c.term) : Both c0 c' (Pipe.putFsm x g) where
  half :=
    { run := hrun
      core :=
        { log := by rw [h1]; exact h.half.core.log
          bb := by rw [h2]; exact ⟨h.half.core.bb.lc, h.half.core.bb.pe, h.half.core.bb.qu⟩
          le := h.half.core.le
          ap := h3.symm
          ft := fun he => by
            have he : g.err = false := he
            show g.term = _
            rw [h1, h3]
            rcases hf.tm he with ⟨a, b⟩ | ⟨a, b⟩
            · rw [a, b]
              have := h.half.core.ft (hf.err he)
              rw [show (Pipe.fsmOf x).applied = c.applied from h.half.core.ap]
              exact this
            · rw [b, h.half.core.log]
              exact entryAt_term _ (by omega) } }
  head := ⟨by rw [h4]; exact h.head.role, by rw [h5]; exact h.head.term, by rw [h1]; exact h.head.conf, by rw [h1]; exact h.head.old⟩

/-! ### Entries applied on the server's side -/

theorem csteps_trans {a b c : CSys N D} (h1 : CSteps p c0 a b) (h2 : CSteps p c0 b c) : CSteps p c0 a c := by
  induction h2 with
  | refl => exact h1
  | tail x _ hx ih => exact .tail x ih hx

/-- What applying entries changes. -/
structure FN (i : N) (n : Nat) (s s' : CSys N D) : Prop where
  ap : (s'.node i).applied = (s.node i).applied + n
  eq : ∃ sm, s'.node i = { s.node i with applied := (s.node i).applied + n, sm := sm }
  ne : ∀ j, j ≠ i → s'.node j = s.node j
  ev : ∀ e, e ∈ s.ev → e ∈ s'.ev
  new : ∀ k e, (s.node i).applied < k → k ≤ (s.node i).applied + n → (s.node i).log[k - 1]? = some e → Ev.applied i k e ∈ s'.ev

theorem cstep_fsm {s : CSys N D} {i : N} (h : (s.node i).applied < (s.node i).bb.lastCommitted) :
    ∃ s', cstep p c0 s (.fsm i) = some s' ∧ FN i 1 s s' := by
  unfold cstep
  rw [if_pos (by show decide _ = true; exact decide_eq_true h)]
  refine ⟨_, rfl, ?_⟩
  have hni : ∀ (r : Srv N D), updF s.node i r i = r := by intro r; simp [updF]
  refine ⟨?_, ?_, ?_, ?_, ?_⟩
  · show (updF s.node i (sApply i (s.node i)).1 i).applied = _
    rw [hni]; rfl
  · refine ⟨(sApply i (s.node i)).1.sm, ?_⟩
    show updF s.node i (sApply i (s.node i)).1 i = _
    rw [hni]; rfl
  · intro j hj
    show updF s.node i (sApply i (s.node i)).1 j = _
    simp [updF, hj]
  · intro e he
    exact List.mem_append_right _ he
  · intro k e h1 h2 h3
    have hk : k = (s.node i).applied + 1 := by omega
    subst hk
    refine List.mem_append_left _ ?_
    show _ ∈ (match (s.node i).log[(s.node i).applied]? with | none => [] | some e => [Ev.applied i ((s.node i).applied + 1) e])
    rw [show (s.node i).log[(s.node i).applied]? = some e from h3]
    exact List.mem_singleton_self _

theorem fsmN_some (n : Nat) {s : CSys N D} {i : N} (h : n = 0 ∨ (s.node i).applied + n ≤ (s.node i).bb.lastCommitted) :
    ∃ s', fsmN p c0 i n s = some s' ∧ CSteps p c0 s s' ∧ FN i n s s' := by
  induction n generalizing s with
  | zero => exact ⟨s, rfl, .refl, rfl, ⟨_, rfl⟩, fun _ _ => rfl, fun _ h => h, fun k e h1 h2 => by omega⟩
  | succ n ih =>
    have h : (s.node i).applied + (n + 1) ≤ (s.node i).bb.lastCommitted := by
      rcases h with h | h
      · cases h
      · exact h
    obtain ⟨s1, e1, f1⟩ := cstep_fsm (p := p) (c0 := c0) (s := s) (i := i) (by omega)
    obtain ⟨sm1, q1⟩ := f1.eq
    obtain ⟨s2, e2, r2, f2⟩ := ih (s := s1) (Or.inr (by rw [q1]; dsimp only; omega))
    refine ⟨s2, ?_, ?_, ?_⟩
    · show (cstep p c0 s (.fsm i)).bind (fsmN p c0 i n) = _
      rw [e1]; exact e2
    · exact csteps_trans (.tail _ .refl e1) r2
    · obtain ⟨sm2, q2⟩ := f2.eq
      refine ⟨?_, ⟨sm2, ?_⟩, ?_, fun e h => f2.ev e (f1.ev e h), ?_⟩
      · rw [f2.ap, f1.ap]; omega
      · rw [q2, q1]; dsimp only; rw [show (s.node i).applied + 1 + n = (s.node i).applied + (n + 1) by omega]
      · intro j hj; rw [f2.ne j hj, f1.ne j hj]
      · intro k e a b d
        by_cases hk : k = (s.node i).applied + 1
        · exact f2.ev _ (f1.new k e (by omega) (by omega) d)
        · refine f2.new k e ?_ ?_ ?_
          · rw [f1.ap]; omega
          · rw [f1.ap]; omega
          · rw [q1]; exact d

/-- A round of the thread and the entries applied: `applied` finds a next state, and both sides agree. -/
theorem fsm_both {s : PSys N D C} {i : N} (h : Both c0 (s.cl.node i) (s.pn i)) {g : Fsm.State D C}
    (hf : FS (s.pn i).log (s.pn i).n.bb.lastCommitted (Pipe.fsmOf (s.pn i)) g) (hrun : Pipe.Run c0.peers (Pipe.putFsm (s.pn i) g)) :
    ∃ cl, fsmN p c0 i (g.applied - (s.pn i).f.applied) s.cl = some cl ∧ CSteps p c0 s.cl cl ∧
      FN i (g.applied - (s.pn i).f.applied) s.cl cl ∧ Both c0 (cl.node i) (Pipe.putFsm (s.pn i) g) := by
  have hap := h.half.core.ap
  have hlc := h.half.core.bb.lc
  have h0 : g.applied - (s.pn i).f.applied = 0 ∨ (s.cl.node i).applied + (g.applied - (s.pn i).f.applied) ≤ (s.cl.node i).bb.lastCommitted := by
    rcases hf.ap with h1 | ⟨h1, h2⟩
    · left; have h1 : g.applied = (s.pn i).f.applied := h1; omega
    · right
      have h1 : (s.pn i).f.applied < g.applied := h1
      rw [← hlc, ← hap]; omega
  obtain ⟨cl, e1, e2, e3⟩ := fsmN_some (p := p) (c0 := c0) _ h0
  refine ⟨cl, e1, e2, e3, ?_⟩
  obtain ⟨sm, q⟩ := e3.eq
  have hle : (s.pn i).f.applied ≤ g.applied := by
    rcases hf.ap with h1 | ⟨h1, h2⟩
    · exact Nat.le_of_eq h1.symm
    · exact Nat.le_of_lt h1
  refine put_both h hf hrun ?_ ?_ ?_ ?_ ?_
  · rw [q]
  · rw [q]
  · rw [e3.ap, ← hap]; omega
  · rw [q]
  · rw [q]

end Braft.Cl
