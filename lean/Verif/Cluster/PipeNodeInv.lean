import Verif.Cluster.PipeNodeSteps
/-
The two sides of a server in Cluster/PipeNode.lean agree, and the calls one side makes are within what the other side
requires: the calls one by one.
-/
set_option linter.unusedVariables false
set_option linter.unusedSimpArgs false
set_option linter.unusedSectionVars false

namespace Braft.Cl
open Braft.Raft
variable {N D C : Type} [DecidableEq N] [DecidableEq D] {c0 : Conf N} {p : CParams}

/-- Two ballot boxes with the same ballots; their closures may differ. -/
structure BBEq {C' : Type} (a : BallotBox N C) (b : BallotBox N C') : Prop where
  lc : a.lastCommitted = b.lastCommitted
  pe : a.pending = b.pending
  qu : a.queue = b.queue

theorem BBEq.commitAt {C' : Type} {a : BallotBox N C} {b : BallotBox N C'} (h : BBEq a b) (first last : Nat) (peer : N) :
    BBEq (a.commitAt first last peer).1 (b.commitAt first last peer).1 := by
  unfold BallotBox.commitAt
  dsimp only
  rw [h.pe, h.qu]
  split
  · exact h
  · split
    · exact h
    · split
      · exact h
      · split
        · exact ⟨h.lc, rfl, rfl⟩
        · exact ⟨rfl, rfl, rfl⟩

theorem BBEq.setCommitted {C' : Type} {a : BallotBox N C} {b : BallotBox N C'} (h : BBEq a b) (k : Nat) :
    BBEq (a.setLastCommittedIndex k).1 (b.setLastCommittedIndex k).1 := by
  unfold BallotBox.setLastCommittedIndex
  rw [h.pe, h.qu, h.lc]
  split
  · exact h
  · split
    · exact h
    · split
      · exact ⟨rfl, rfl, rfl⟩
      · exact h

theorem BBEq.clear {C' : Type} {a : BallotBox N C} {b : BallotBox N C'} (h : BBEq a b) :
    BBEq a.clearPendingTasks.1 b.clearPendingTasks.1 := ⟨h.lc, rfl, rfl⟩

theorem BBEq.append {C' : Type} {a : BallotBox N C} {b : BallotBox N C'} (h : BBEq a b) (conf : List N) (old : Option (List N))
    (x : Option C) (y : Option C') : BBEq (a.appendPendingTask conf old x) (b.appendPendingTask conf old y) :=
  ⟨h.lc, h.pe, by show a.queue ++ _ = b.queue ++ _; rw [h.qu]⟩

theorem BBEq.reset {C' : Type} {a : BallotBox N C} {b : BallotBox N C'} (h : BBEq a b) (k : Nat) :
    BBEq (a.resetPendingIndex k) (b.resetPendingIndex k) := ⟨h.lc, rfl, h.qu⟩

/-! ### Logs as FSMCaller sees them -/

theorem fents_append (a b : Log N D) : fents (a ++ b) = fents a ++ fents b := List.map_append ..
theorem fents_take (a : Log N D) (k : Nat) : fents (a.take k) = (fents a).take k := List.map_take ..
theorem fents_length (a : Log N D) : (fents a).length = a.length := List.length_map ..
theorem fents_get (a : Log N D) (k : Nat) : (fents a)[k]? = (a[k]?).map fent := List.getElem?_map ..

theorem fents_data {a : Log N D} {k t : Nat} {d : D} : (fents a)[k]? = some ⟨t, .data d⟩ ↔ a[k]? = some ⟨t, .data d⟩ := by
  rw [fents_get]
  cases a[k]? with
  | none => simp
  | some e =>
    obtain ⟨t', pl⟩ := e
    cases pl with
    | data d' => simp [fent, kindOf]
    | conf c => simp [fent, kindOf]

theorem entryAt_term (a : Log N D) {k : Nat} (hk : 1 ≤ k) : (Pipe.entryAt (fents a) k).term = termAt a k := by
  unfold Pipe.entryAt termAt
  rw [fents_get, if_neg (by omega)]
  cases a[k - 1]? <;> rfl

theorem termAt_take {a b : Log N D} {k : Nat} (h : a.take k = b.take k) : termAt a k = termAt b k := by
  unfold termAt
  by_cases hk : k = 0
  · rw [if_pos hk, if_pos hk]
  · rw [if_neg hk, if_neg hk]
    have : a[k - 1]? = b[k - 1]? := by
      have h1 := congrArg (fun l => l[k - 1]?) h
      simpa [List.getElem?_take, show k - 1 < k by omega] using h1
    rw [this]

/-! ### The agreement -/

/-- What both sides have. -/
structure Core (c : Srv N D) (x : PN N D C) : Prop where
  log : x.log = fents c.log
  bb : BBEq x.n.bb c.bb
  le : x.n.logErr = false
  ap : x.f.applied = c.applied
  ft : x.f.err = false → x.f.term = termAt c.log c.applied

/-- `_state`, `_current_term`, `_conf`. -/
structure Head (c0 : Conf N) (c : Srv N D) (x : PN N D C) : Prop where
  role : x.n.role = roleP c.state
  term : x.n.term = c.term
  conf : x.n.conf = (confOf c0 c.log).peers
  old : x.n.old = (confOf c0 c.log).old

structure Half (c0 : Conf N) (c : Srv N D) (x : PN N D C) : Prop where
  core : Core c x
  run : Pipe.Run c0.peers x

structure Both (c0 : Conf N) (c : Srv N D) (x : PN N D C) : Prop where
  half : Half c0 c x
  head : Head c0 c x

theorem Both.inv {c : Srv N D} {x : PN N D C} (h : Both c0 c x) : Pipe.Inv x := h.half.run.inv c0.nd
theorem Half.inv {c : Srv N D} {x : PN N D C} (h : Half c0 c x) : Pipe.Inv x := h.run.inv c0.nd

theorem runOps_append (x : PN N D C) (a b : List (POp N D C)) : runOps x (a ++ b) = runOps (runOps x a) b := List.foldl_append ..

/-- The end of a handler. -/
theorem Half.sync {c : Srv N D} {x : PN N D C} (h : Half c0 c x) (hb : BF c) (y : PN N D C) :
    Both c0 c (Pipe.step x (syncOp c0 y c)) where
  half :=
    { core := ⟨h.core.log, h.core.bb, rfl, h.core.ap, h.core.ft⟩
      run := .step _ h.run (show Pipe.Ok x (.env ..) from ⟨(by
        intro hr
        rw [h.core.bb.pe]
        apply hb.lead
        cases hs : c.state with
        | leader => rfl
        | transferring => rfl
        | candidate => rw [hs] at hr; cases hr
        | follower => rw [hs] at hr; cases hr), (confOf c0 c.log).nd, (confOf c0 c.log).ndo,
        (by intro h'; rw [h.core.le] at h'; cases h')⟩) }
  head := ⟨rfl, rfl, rfl, rfl⟩

theorem Core.congr {c c' : Srv N D} {x : PN N D C} (h : Core c x) (h1 : c'.log = c.log) (h2 : c'.applied = c.applied) (h3 : c'.bb = c.bb) :
    Core c' x where
  log := by rw [h1]; exact h.log
  bb := by rw [h3]; exact h.bb
  le := h.le
  ap := by rw [h2]; exact h.ap
  ft := by rw [h1, h2]; exact h.ft

theorem Half.congr {c c' : Srv N D} {x : PN N D C} (h : Half c0 c x) (h1 : c'.log = c.log) (h2 : c'.applied = c.applied) (h3 : c'.bb = c.bb) :
    Half c0 c' x := ⟨h.core.congr h1 h2 h3, h.run⟩

/-- Handlers that at most step down. -/
theorem Half.down {c c' : Srv N D} {x : PN N D C} (h : Half c0 c x) (hs : BSame c c') : Half c0 c' (runOps x (downOps c c')) := by
  unfold downOps
  have hbb := hs.bb
  split
  · rename_i hd
    rw [if_pos hd] at hbb
    refine ⟨⟨?_, ?_, h.core.le, ?_, ?_⟩, .step .stepDown h.run trivial⟩
    · rw [hs.log]; exact h.core.log
    · rw [hbb]; exact h.core.bb.clear
    · rw [hs.applied]; exact h.core.ap
    · rw [hs.log, hs.applied]; exact h.core.ft
  · rename_i hd
    rw [if_neg hd] at hbb
    exact h.congr hs.log hs.applied hbb

/-- append_pending_task and the entry, for a configuration. -/
theorem Half.conf {c c' : Srv N D} {x : PN N D C} (h : Half c0 c x) (cf : Conf N) (cc : C) (hp : c.bb.pending ≠ 0)
    (ht : x.n.term = c.term) (hap : c.applied ≤ c.log.length)
    (h1 : c'.log = c.log ++ [⟨c.term, .conf cf⟩]) (h2 : c'.applied = c.applied)
    (h3 : c'.bb = c.bb.appendPendingTask cf.peers (oldOf cf) none) :
    Half c0 c' (Pipe.step x (.confEntry cc cf.peers (oldOf cf))) := by
  have hc : Pipe.step x (.confEntry cc cf.peers (oldOf cf)) =
      { x with n := { x.n with bb := x.n.bb.appendPendingTask cf.peers (oldOf cf) (some cc), lastIndex := x.n.lastIndex + 1 }
               log := x.log ++ [⟨x.n.term, .conf (oldOf cf).isSome⟩]
               confs := x.confs ++ [cc] } := by
    show Pipe.confEntry _ _ _ _ = _
    unfold Pipe.confEntry
    rw [if_neg (by rw [h.core.le]; simp)]
  refine ⟨?_, .step _ h.run ⟨by rw [h.core.bb.pe]; exact hp, cf.nd, fun o ho => oldOf_nd o ho⟩⟩
  rw [hc]
  refine ⟨?_, ?_, h.core.le, ?_, ?_⟩
  · show x.log ++ _ = _
    rw [h1, fents_append, h.core.log, ht]
    rfl
  · rw [h3]; exact h.core.bb.append ..
  · rw [h2]; exact h.core.ap
  · intro he
    rw [h2, h1]
    rw [show termAt (c.log ++ [⟨c.term, .conf cf⟩]) c.applied = termAt c.log c.applied from termAt_take (by rw [List.take_append_of_le_length hap])]
    exact h.core.ft he

/-- become_leader. -/
theorem Half.lead {c c' : Srv N D} {x : PN N D C} (h : Half c0 c x) (cc : C) (hb : BF c) (hf : c.state.leads = false)
    (hlog : c'.log = c.log ++ [⟨c.term, .conf (confOf c0 c.log)⟩]) (hap : c'.applied = c.applied)
    (hbb : c'.bb = (c.bb.resetPendingIndex (c.log.length + 1)).appendPendingTask (confOf c0 c.log).peers (oldOf (confOf c0 c.log)) none) :
    Half c0 c' (runOps x [.elect c.term, .confEntry cc (confOf c0 c.log).peers (oldOf (confOf c0 c.log))]) := by
  let c1 : Srv N D := { c with bb := c.bb.resetPendingIndex (c.log.length + 1) }
  have hh : Half c0 c1 (Pipe.step x (.elect c.term)) := by
    refine ⟨⟨h.core.log, ?_, h.core.le, h.core.ap, h.core.ft⟩, .step _ h.run ?_⟩
    · show BBEq (x.n.bb.resetPendingIndex (x.log.length + 1)) (c.bb.resetPendingIndex (c.log.length + 1))
      rw [h.core.log, fents_length]
      exact h.core.bb.reset _
    · show x.n.bb.pending = 0
      rw [h.core.bb.pe]
      exact (hb.fol hf).1
  exact hh.conf (confOf c0 c.log) cc (Nat.succ_ne_zero _) rfl hb.ap hlog hap hbb

/-- commit_at. -/
theorem Half.ack {c c' : Srv N D} {x : PN N D C} (h : Half c0 c x) (first last : Nat) (peer : N)
    (h1 : c'.log = c.log) (h2 : c'.applied = c.applied) (h3 : c'.bb = (c.bb.commitAt first last peer).1) :
    Half c0 c' (Pipe.step x (.ack first last peer)) := by
  refine ⟨⟨?_, ?_, h.core.le, ?_, ?_⟩, .step _ h.run ?_⟩
  · rw [h1]; exact h.core.log
  · rw [h3]; exact h.core.bb.commitAt ..
  · rw [h2]; exact h.core.ap
  · rw [h1, h2]; exact h.core.ft
  · intro he; rw [h.core.le] at he; cases he

/-- set_last_committed_index of a follower. -/
theorem Half.setCommitted {c c' : Srv N D} {x : PN N D C} (h : Half c0 c x) (k : Nat)
    (h1 : c'.log = c.log) (h2 : c'.applied = c.applied) (h3 : c'.bb = (c.bb.setLastCommittedIndex k).1)
    (hb : BF c) (hb' : BF c') : Half c0 c' (Pipe.step x (.setCommitted k)) := by
  refine ⟨⟨?_, ?_, h.core.le, ?_, ?_⟩, .step _ h.run ?_⟩
  · rw [h1]; exact h.core.log
  · rw [h3]; exact h.core.bb.setCommitted ..
  · rw [h2]; exact h.core.ap
  · rw [h1, h2]; exact h.core.ft
  · intro hpe
    have hl : c.state.leads = false := by
      cases hl : c.state.leads with
      | false => rfl
      | true => exact absurd (h.core.bb.pe.symm.trans hpe) (hb.lead hl)
    have := hb'.cl
    rw [h1, h3] at this
    rw [h.core.log, fents_length]
    obtain ⟨f1, f2⟩ := hb.fol hl
    unfold BallotBox.setLastCommittedIndex at this
    rw [if_neg (by rw [f1, f2]; simp)] at this
    have hc := hb.cl
    split at this
    · omega
    · split at this
      · exact this
      · omega

/-- append_entries of a follower. -/
theorem Half.follow {c c' : Srv N D} {x : PN N D C} (h : Half c0 c x)
    (h2 : c'.applied = c.applied) (h3 : c'.bb = c.bb) (hb : BF c) (hcl : c.bb.lastCommitted ≤ c'.log.length)
    (hap : c.applied ≤ c'.log.length) (hl : c.state.leads = false)
    (ht : c'.log.take c.bb.lastCommitted = c.log.take c.bb.lastCommitted)
    (hta : c'.log.take c.applied = c.log.take c.applied) : Half c0 c' (Pipe.step x (.follow (fents c'.log))) := by
  refine ⟨⟨rfl, ?_, h.core.le, ?_, ?_⟩, .step _ h.run ⟨?_, ?_, ?_, ?_⟩⟩
  · rw [h3]; exact h.core.bb
  · rw [h2]; exact h.core.ap
  · intro he
    rw [h2, termAt_take hta]
    exact h.core.ft he
  · rw [h.core.bb.pe]; exact (hb.fol hl).1
  · rw [h.core.bb.lc, fents_length]; exact hcl
  · rw [h.core.ap, fents_length]; exact hap
  · rw [h.core.bb.lc, h.core.log, ← fents_take, ← fents_take, ht]

/-- The state machine's thread loads a snapshot. -/
theorem Half.load {c c' : Srv N D} {x : PN N D C} (h : Half c0 c x) (K : Log N D) (us : Nat → List Fsm.UOp) (bad : Nat → Bool)
    (j : Bool) (h1 : c'.log = c.log) (h3 : c'.bb = c.bb) (hp : c.bb.pending = 0)
    (hpd : x.f.pend = none) (he : x.f.err = false) (hK : K.length ≤ c.log.length)
    (hnew : idLe (termAt c.log c.applied, c.applied) (lastId K) = true → c'.applied = K.length ∧ termAt c.log K.length = lastTerm K)
    (hold : idLe (termAt c.log c.applied, c.applied) (lastId K) = false → c'.applied = c.applied) :
    Half c0 c' (Pipe.step x (.fsm 0 (envOf (fents c.log) us bad) (.load (.snap K.length (lastTerm K) j true)))) := by
  have hcq : x.n.bb.closures.queue = [] := by
    obtain ⟨hh, hre⟩ := h.inv.box
    exact ((BallotBox.reach_inv hre).follower (by rw [h.core.bb.pe]; exact hp)).2
  have hfl : (Pipe.fsmOf x).flush (envOf (fents c.log) us bad) = Pipe.fsmOf x := by
    unfold Fsm.State.flush
    rw [show (Pipe.fsmOf x).pend = none from hpd]
  have hst : Pipe.step x (.fsm 0 (envOf (fents c.log) us bad) (.load (.snap K.length (lastTerm K) j true))) =
      { x with f := (Pipe.fsmOf x).doLoad (.snap K.length (lastTerm K) j true) } := by
    show Pipe.putFsm x (((Pipe.fsmOf x).flush _).doLoad _) = _
    rw [hfl]
    exact Pipe.putFsm_same (Pipe.doLoad_cq ..)
  refine ⟨?_, .step _ h.run ⟨?_, ?_⟩⟩
  · rw [hst]
    have hid : Fsm.idGt (x.f.applied, x.f.term) (K.length, lastTerm K) = !idLe (termAt c.log c.applied, c.applied) (lastId K) := by
      rw [h.core.ap, h.core.ft he]
      unfold Fsm.idGt idLe lastId
      dsimp only
      by_cases e : termAt c.log c.applied = lastTerm K
      · rw [if_pos e, if_pos e]
        rw [← decide_not]
        exact decide_eq_decide.mpr (by omega)
      · rw [if_neg e, if_neg e]
        rw [← decide_not]
        exact decide_eq_decide.mpr (by omega)
    unfold Fsm.State.doLoad
    rw [if_neg (by show ¬ x.f.err = true; rw [he]; simp)]
    dsimp only
    have hid' : Fsm.idGt ((Pipe.fsmOf x).applied, (Pipe.fsmOf x).term) (K.length, lastTerm K) = !idLe (termAt c.log c.applied, c.applied) (lastId K) := hid
    rw [hid']
    cases hi : idLe (termAt c.log c.applied, c.applied) (lastId K) with
    | true =>
      obtain ⟨n1, n2⟩ := hnew hi
      rw [if_neg (by simp), if_pos rfl]
      refine ⟨?_, ?_, h.core.le, n1.symm, fun _ => ?_⟩
      · rw [h1]; exact h.core.log
      · rw [h3]; exact h.core.bb
      · rw [n1, h1, n2]
    | false =>
      have n1 := hold hi
      rw [if_pos (by simp)]
      refine ⟨?_, ?_, h.core.le, ?_, fun _ => ?_⟩
      · rw [h1]; exact h.core.log
      · rw [h3]; exact h.core.bb
      · rw [n1]; exact h.core.ap
      · rw [n1, h1]; exact h.core.ft he
  · rw [← h.core.log]
    intro i h1 h2
    refine ⟨?_, rfl⟩
    show (if bad i then none else x.log[i - 1]?) = _ ∨ (if bad i then none else x.log[i - 1]?) = _
    split
    · exact Or.inr rfl
    · exact Or.inl rfl
  · intro _
    exact ⟨hcq, by rw [h.core.log, fents_length]; exact hK⟩

end Braft.Cl
