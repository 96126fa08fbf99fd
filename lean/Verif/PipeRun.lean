import Verif.PipeInv
/-
The invariant holds in every history.
-/
set_option linter.unusedSectionVars false
set_option linter.unusedSimpArgs false
set_option linter.unusedVariables false

namespace Braft.Pipe
open Readonly (Role)
open Apply (Task)
variable {P D C : Type} [DecidableEq P]

theorem silent_nil : silent ([] : List (Fsm.Ev D C)) := fun e h => by cases h

/-- A change of what the invariant does not look at. -/
theorem Inv.fields {s : State P D C} (h : Inv s) {g : Fsm.State D C} (h1 : g.ev = s.f.ev) (h2 : g.err = s.f.err)
    (h3 : ∀ c, g.pend = some c → c ≤ s.n.bb.lastCommitted) (h4 : g.applied = s.f.applied) : Inv { s with f := g } :=
  h.setF (x := []) (by rw [h1]; simp) silent_nil (by rw [h2]; exact fun h => h) h3 (by rw [h4]; exact h.ap) (by rw [h4]; exact h.apl)

theorem doCommitted_idle {s : State P D C} {e : Fsm.Env D} {c : Nat} (hi : s.f.err = true ∨ c ≤ s.f.applied) :
    (fsmOf s).doCommitted e c = fsmOf s := by
  unfold Fsm.State.doCommitted
  rcases hi with hi | hi
  · rw [if_pos (show (fsmOf s).err = true from hi)]
  · split
    · rfl
    · rw [if_pos (show (fsmOf s).applied ≥ c from hi)]

theorem Inv.doCommitted {s : State P D C} (h : Inv s) {e : Fsm.Env D} (hr : Reads s e) {c : Nat} (hc : c ≤ s.n.bb.lastCommitted) :
    Inv (putFsm s ((fsmOf s).doCommitted e c)) := by
  by_cases hi : s.f.err = true ∨ c ≤ s.f.applied
  · rw [doCommitted_idle hi, putFsm_same rfl]
    exact h.fields rfl rfl h.pend rfl
  · have he : s.f.err = false := by
      cases hx : s.f.err with
      | false => rfl
      | true => exact absurd (Or.inl hx) hi
    have hlt : s.f.applied < c := by
      apply Decidable.byContradiction
      intro hn; exact hi (Or.inr (by omega))
    exact h.committed hr hc he hlt

/-- After a flush the accumulated commit index is gone. -/
theorem Inv.flush {s : State P D C} (h : Inv s) {e : Fsm.Env D} (hr : Reads s e) :
    Inv (putFsm s ((fsmOf s).flush e)) ∧ ((fsmOf s).flush e).pend = none := by
  unfold Fsm.State.flush
  cases hp : (fsmOf s).pend with
  | none =>
    refine ⟨?_, hp⟩
    dsimp only
    rw [putFsm_same rfl]
    exact h.fields rfl rfl h.pend rfl
  | some c =>
    refine ⟨?_, rfl⟩
    dsimp only
    rw [putFsm_after (s := s) (g := (fsmOf s).doCommitted e c) (g' := { (fsmOf s).doCommitted e c with pend := none, counter := 0 }) rfl]
    exact (h.doCommitted hr (h.pend c hp)).fields rfl rfl (by intro c hc; cases hc) rfl

theorem setError_cq (f : Fsm.State D C) : f.setError.cq = f.cq := by
  unfold Fsm.State.setError; split <;> rfl

theorem Inv.setError {s : State P D C} (h : Inv s) : Inv { s with f := s.f.setError } := by
  unfold Fsm.State.setError
  split
  · exact h
  · refine h.setF (x := [.onError]) rfl ?_ (by intro h'; cases h') h.pend h.ap h.apl
    intro e he
    rw [List.mem_singleton] at he; subst he
    exact ⟨(by intro i d c h; cases h), (by intro c h; cases h), (by intro c h; cases h), (by intro n h; cases h)⟩

theorem Inv.take {s : State P D C} (h : Inv s) (i : Nat) (hi : i ≤ s.n.bb.lastCommitted) : Inv { s with f := s.f.take i } := by
  unfold Fsm.State.take
  split
  · split
    · exact h.fields rfl rfl (by intro c hc; cases hc; exact hi) rfl
    · exact h
  · exact h.fields rfl rfl (by intro c hc; cases hc; exact hi) rfl

theorem Inv.doSave {s : State P D C} (h : Inv s) (w : Bool) : Inv { s with f := s.f.doSave w } := by
  unfold Fsm.State.doSave
  split
  · exact h
  · split
    · refine h.setF (x := [.save s.f.applied s.f.term]) rfl ?_ (fun h => h) h.pend h.ap h.apl
      intro e he
      rw [List.mem_singleton] at he; subst he
      exact ⟨(by intro i d c h; cases h), (by intro c h; cases h), (by intro c h; cases h), (by intro n h; cases h)⟩
    · exact h

theorem Inv.doLoad {s : State P D C} (h : Inv s) (l : Fsm.Load)
    (hl : ∀ i t j, l = .snap i t j true → s.n.bb.closures.queue = [] ∧ i ≤ s.log.length) : Inv { s with f := s.f.doLoad l } := by
  unfold Fsm.State.doLoad
  split
  · exact h
  · cases l with
    | noReader => exact h
    | badMeta eio => cases eio with
      | true => exact h.setError
      | false => exact h
    | snap i t j ok =>
      dsimp only
      split
      · exact h
      · cases ok with
        | true =>
          obtain ⟨h1, h2⟩ := hl i t j rfl
          rw [if_pos rfl]
          refine h.setF (x := Fsm.Ev.load i true :: if j then [] else [.confCommitted i]) rfl ?_ (fun h => h) h.pend
            (fun hne => absurd h1 hne) h2
          intro e he
          rcases List.mem_cons.mp he with rfl | he
          · exact ⟨(by intro i d c h; cases h), (by intro c h; cases h), (by intro c h; cases h), (by intro n h; cases h)⟩
          · cases j with
            | true => simp at he
            | false =>
              simp at he; subst he
              exact ⟨(by intro i d c h; cases h), (by intro c h; cases h), (by intro c h; cases h), (by intro n h; cases h)⟩
        | false =>
          rw [if_neg (by simp)]
          have h3 : Inv { s with f := { s.f with ev := s.f.ev ++ [Fsm.Ev.load i false] } } := by
            refine h.setF (x := [.load i false]) rfl ?_ (fun h => h) h.pend h.ap h.apl
            intro e he
            rw [List.mem_singleton] at he; subst he
            exact ⟨(by intro i d c h; cases h), (by intro c h; cases h), (by intro c h; cases h), (by intro n h; cases h)⟩
          exact h3.setError

theorem take_cq (f : Fsm.State D C) (i : Nat) : (f.take i).cq = f.cq := by
  unfold Fsm.State.take
  split
  · split <;> rfl
  · rfl

theorem doSave_cq (f : Fsm.State D C) (w : Bool) : (f.doSave w).cq = f.cq := by
  unfold Fsm.State.doSave
  split
  · rfl
  · split <;> rfl

theorem doLoad_cq (f : Fsm.State D C) (l : Fsm.Load) : (f.doLoad l).cq = f.cq := by
  unfold Fsm.State.doLoad
  split
  · rfl
  · cases l with
    | noReader => rfl
    | badMeta eio => cases eio with
      | true => exact setError_cq f
      | false => rfl
    | snap i t j ok =>
      dsimp only
      split
      · rfl
      · cases ok with
        | true => rfl
        | false => exact setError_cq _

/-- A flush keeps an empty closure queue empty. -/
theorem flush_empty {s : State P D C} {e : Fsm.Env D} (h : s.n.bb.closures.queue = []) :
    ((fsmOf s).flush e).cq.queue = [] := by
  unfold Fsm.State.flush
  split
  · rename_i c hp
    show ((fsmOf s).doCommitted e c).cq.queue = []
    unfold Fsm.State.doCommitted
    split
    · exact h
    · split
      · exact h
      · have hq : ((fsmOf s).cq.popUntil c).1.queue = [] := by
          unfold ClosureQueue.popUntil
          rw [if_pos (by show (s.n.bb.closures.queue.isEmpty || _) = true; rw [h]; rfl)]
          exact h
        dsimp only
        split
        · show (Fsm.State.setError _).cq.queue = []
          rw [setError_cq]; exact hq
        · exact hq
  · exact h

theorem Inv.task {s : State P D C} (h : Inv s) (size : Nat) (e : Fsm.Env D) (t : Fsm.Task) (hok : Ok s (.fsm size e t)) :
    Inv (putFsm s ((fsmOf s).task size e t)) := by
  obtain ⟨hr, hok⟩ := hok
  obtain ⟨hf, hpn⟩ := h.flush hr
  cases t with
  | committed i =>
    have hi : i ≤ s.n.bb.lastCommitted := hok
    show Inv (putFsm s (if (fsmOf s).counter < size then (fsmOf s).take i else ((fsmOf s).flush e).take i))
    split
    · rw [putFsm_after (g := fsmOf s) (take_cq _ _), putFsm_same rfl]
      have h0 : Inv { s with f := fsmOf s } := h.fields rfl rfl h.pend rfl
      exact h0.take i hi
    · rw [putFsm_after (g := (fsmOf s).flush e) (take_cq _ _)]
      exact hf.take i hi
  | save w =>
    show Inv (putFsm s (((fsmOf s).flush e).doSave w))
    rw [putFsm_after (g := (fsmOf s).flush e) (doSave_cq _ _)]
    exact hf.doSave w
  | load l =>
    show Inv (putFsm s (((fsmOf s).flush e).doLoad l))
    rw [putFsm_after (g := (fsmOf s).flush e) (doLoad_cq _ _)]
    refine hf.doLoad l ?_
    intro i t j hl
    subst hl
    exact ⟨flush_empty (hok rfl).1, (hok rfl).2⟩
  | leader =>
    show Inv (putFsm s { (fsmOf s).flush e with ev := ((fsmOf s).flush e).ev ++ [.leader] })
    rw [putFsm_after (g := (fsmOf s).flush e) (g' := { (fsmOf s).flush e with ev := ((fsmOf s).flush e).ev ++ [.leader] }) rfl]
    refine hf.setF (x := [.leader]) rfl ?_ (fun h => h) hf.pend hf.ap hf.apl
    intro e he
    rw [List.mem_singleton] at he; subst he
    exact ⟨(by intro i d c h; cases h), (by intro c h; cases h), (by intro c h; cases h), (by intro n h; cases h)⟩
  | error =>
    show Inv (putFsm s ((fsmOf s).flush e).setError)
    rw [putFsm_after (g := (fsmOf s).flush e) (setError_cq _)]
    exact hf.setError

theorem Inv.step {s : State P D C} (h : Inv s) (op : Op P D C) (ok : Ok s op) : Inv (step s op) := by
  cases op with
  | submit t => exact h.submit t
  | stop =>
    exact { h with
      mt := fun k c h1 h2 => (h.mt k c h1 h2).mono rfl (fun _ h => h) (fun _ h => h)
      pm := fun p hp => (h.pm p hp).mono rfl (fun _ h => h) (fun _ h => h) }
  | batch k => exact h.batch k
  | elect t => exact h.elect t ok
  | confEntry c conf old => exact h.confEntry c conf old ok.1 ok.2.1 ok.2.2
  | stepDown => exact h.stepDown
  | ack a b p => exact h.ack a b p ok
  | follow log => exact h.follow log ok.1 ok.2.1 ok.2.2.1 ok.2.2.2
  | setCommitted i => exact h.setCommitted i ok
  | fsm size e t => exact h.task size e t ok
  | fsmEnd e => exact (h.flush ok).1
  | env role term nodeRo majRo conf old logErr =>
    exact h.quiet h.box rfl Iff.rfl ok.1 ⟨ok.2.1, ok.2.2.1⟩ rfl (Nat.le_refl _) h.lc ok.2.2.2

theorem Run.inv {conf : List P} (hc : conf.Nodup) {s : State P D C} (h : Run conf s) : Inv s := by
  induction h with
  | init => exact inv_init conf hc
  | step op _ ok ih => exact ih.step op ok

end Braft.Pipe
