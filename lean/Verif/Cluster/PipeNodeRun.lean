import Verif.Cluster.PipeNodeFsm
/-
The two sides of a server in Cluster/PipeNode.lean agree in every reachable state.
-/
set_option linter.unusedVariables false
set_option linter.unusedSimpArgs false
set_option linter.unusedSectionVars false

namespace Braft.Cl
open Braft.Raft
variable {N D C : Type} [DecidableEq N] [DecidableEq D] {c0 : Conf N} {p : CParams}

/-! ### Batches of tasks -/

theorem BBEq.fold (cf : Conf N) (ds : List (Option C)) (es : List (Entry N D)) (hl : ds.length = es.length) :
    ∀ {a : BallotBox N C} {b : BallotBox N Unit}, BBEq a b →
      BBEq (ds.foldl (fun b d => b.appendPendingTask cf.peers (oldOf cf) d) a)
        (es.foldl (fun b _ => b.appendPendingTask cf.peers (oldOf cf) none) b) := by
  induction ds generalizing es with
  | nil =>
    intro a b h
    have : es = [] := List.length_eq_zero_iff.mp hl.symm
    subst this
    exact h
  | cons d ds ih =>
    intro a b h
    cases es with
    | nil => cases hl
    | cons e es =>
      exact ih es (by simpa using hl) (h.append ..)

/-- `_conf` and `Ballot::init`'s argument. -/
theorem old_arg (cf : Conf N) : (if cf.old.isEmpty then none else some cf.old) = oldOf cf := by
  unfold oldOf
  cases cf.old <;> simp

/-- The tasks of a batch that are accepted. -/
def accepted (x : PN N D C) (k : Nat) : List (Apply.Task D C) :=
  if x.n.role = .leader ∧ (x.n.nodeRo || x.n.majRo) = false then (x.queued.take k).filter (Apply.Accepts x.n.term) else []

theorem assign_data (last term : Nat) (ds : List D) : (Apply.assign last term ds).map (·.data) = ds := by
  induction ds generalizing last with
  | nil => rfl
  | cons d ds ih => simp [Apply.assign, ih]

theorem assign_entry (last term : Nat) (ds : List D) :
    (Apply.assign last term ds).map Pipe.dataEntry = ds.map (fun d => (⟨term, .data d⟩ : Fsm.Entry D)) := by
  induction ds generalizing last with
  | nil => rfl
  | cons d ds ih => simp [Apply.assign, ih, Pipe.dataEntry]

/-- A batch, by its accepted tasks. -/
theorem batch_eq (x : PN N D C) (hle : x.n.logErr = false) (k : Nat) :
    ∃ li errs, Pipe.step x (.batch k) =
      { x with
        queued := x.queued.drop k
        n := { x.n with
          bb := ((accepted x k).map (·.done)).foldl (fun b d => b.appendPendingTask x.n.conf (if x.n.old.isEmpty then none else some x.n.old) d) x.n.bb
          lastIndex := li
          log := x.n.log ++ Apply.assign x.n.lastIndex x.n.term ((accepted x k).map (·.data)) }
        log := x.log ++ ((accepted x k).map (·.data)).map (fun d => (⟨x.n.term, .data d⟩ : Fsm.Entry D))
        errs := errs } := by
  by_cases hr : x.n.role = .leader ∧ (x.n.nodeRo || x.n.majRo) = false
  · have hacc : accepted x k = (x.queued.take k).filter (Apply.Accepts x.n.term) := by unfold accepted; rw [if_pos hr]
    have hnr : ¬ (x.n.role ≠ .leader ∨ (x.n.nodeRo || x.n.majRo) = true) := by simp [hr.1, hr.2]
    obtain ⟨l1, l2, l3⟩ := Apply.loop_spec x.n.term x.n.conf x.n.old (x.queued.take k) x.n.bb
    have hb : (Apply.applyBatch x.n (x.queued.take k)).1 =
        { x.n with
          bb := ((accepted x k).map (·.done)).foldl (fun b d => b.appendPendingTask x.n.conf (if x.n.old.isEmpty then none else some x.n.old) d) x.n.bb
          lastIndex := x.n.lastIndex + ((accepted x k).map (·.data)).length
          log := x.n.log ++ Apply.assign x.n.lastIndex x.n.term ((accepted x k).map (·.data)) } := by
      unfold Apply.applyBatch
      simp only [if_neg hnr]
      rw [hle]
      simp only [Bool.false_eq_true, if_false]
      rw [l2, l3, hacc]
    refine ⟨x.n.lastIndex + ((accepted x k).map (·.data)).length, x.errs ++ (Apply.applyBatch x.n (x.queued.take k)).2.map Prod.fst, ?_⟩
    show Pipe.batch x k = _
    unfold Pipe.batch
    dsimp only
    rw [hb]
    dsimp only
    rw [List.drop_left, assign_entry]
  · have hacc : accepted x k = [] := by unfold accepted; rw [if_neg hr]
    have hrr : x.n.role ≠ .leader ∨ (x.n.nodeRo || x.n.majRo) = true ∧ True := by
      by_cases h1 : x.n.role = .leader
      · right
        refine ⟨?_, trivial⟩
        cases h2 : (x.n.nodeRo || x.n.majRo) with
        | true => rfl
        | false => exact absurd ⟨h1, h2⟩ hr
      · exact Or.inl h1
    have hb := ((Apply.applyBatch_spec x.n (x.queued.take k)).1 hrr).1
    refine ⟨x.n.lastIndex, x.errs ++ (Apply.applyBatch x.n (x.queued.take k)).2.map Prod.fst, ?_⟩
    show Pipe.batch x k = _
    unfold Pipe.batch
    dsimp only
    rw [hb, hacc]
    simp [Apply.assign]

theorem batch_newData (x : PN N D C) (hle : x.n.logErr = false) (k : Nat) :
    newData x (Pipe.step x (.batch k)) = (accepted x k).map (·.data) := by
  obtain ⟨li, er, h⟩ := batch_eq x hle k
  unfold newData
  rw [h]
  dsimp only
  rw [List.drop_left, assign_data]

/-- The agreement after a batch. -/
theorem batch_both {c c' : Srv N D} {x : PN N D C} (h : Both c0 c x) (hb : BF c) (k : Nat)
    (h1 : c'.log = c.log ++ ((accepted x k).map (·.data)).map (fun d => ⟨c.term, .data d⟩)) (h2 : c'.applied = c.applied)
    (h3 : c'.bb = (((accepted x k).map (·.data)).map (fun d => (⟨c.term, .data d⟩ : Entry N D))).foldl
      (fun b _ => b.appendPendingTask (confOf c0 c.log).peers (oldOf (confOf c0 c.log)) none) c.bb)
    (h4 : c'.state = c.state) (h5 : c'.term = c.term) : Both c0 c' (Pipe.step x (.batch k)) := by
  have hrun : Pipe.Run c0.peers (Pipe.step x (.batch k)) := .step _ h.half.run trivial
  obtain ⟨li, er, he⟩ := batch_eq x h.half.core.le k
  rw [he] at hrun ⊢
  have hcf : confOf c0 c'.log = confOf c0 c.log := by
    rw [h1]
    apply confOf_datas
    intro e he
    obtain ⟨d, _, rfl⟩ := List.mem_map.mp he
    rfl
  refine ⟨⟨⟨?_, ?_, h.half.core.le, ?_, ?_⟩, hrun⟩, ⟨?_, ?_, ?_, ?_⟩⟩
  · show x.log ++ _ = _
    rw [h1, fents_append, h.half.core.log, h.head.term]
    unfold fents
    simp [fent, kindOf]
  · show BBEq (List.foldl _ x.n.bb _) _
    rw [h3, h.head.conf, h.head.old, old_arg]
    exact BBEq.fold _ _ _ (by simp) h.half.core.bb
  · rw [h2]; exact h.half.core.ap
  · intro hf
    rw [h2, h1]
    rw [termAt_take (show (c.log ++ ((accepted x k).map (·.data)).map (fun d => (⟨c.term, .data d⟩ : Entry N D))).take c.applied = c.log.take c.applied by
      rw [List.take_append_of_le_length hb.ap])]
    exact h.half.core.ft hf
  · rw [h4]; exact h.head.role
  · rw [h5]; exact h.head.term
  · rw [hcf]; exact h.head.conf
  · rw [hcf]; exact h.head.old

/-- The server can append what a batch appends. -/
theorem batch_enabled {s : CSys N D} {i : N} {x : PN N D C} (h : Both c0 (s.node i) x) (k : Nat) (hne : accepted x k ≠ []) :
    ∃ s', cstep p c0 s (.apply i ((accepted x k).map (·.data))) = some s' := by
  unfold cstep
  have hl : x.n.role = .leader := by
    apply Classical.byContradiction
    intro hn
    apply hne
    unfold accepted
    rw [if_neg (by intro h; exact hn h.1)]
  have hst : (s.node i).state = .leader := by
    rw [h.head.role] at hl
    cases hs : (s.node i).state <;> rw [hs] at hl <;> first | rfl | cases hl
  have : cpre p c0 s (.apply i ((accepted x k).map (·.data))) = true := by
    simp only [cpre, Bool.and_eq_true, decide_eq_true_eq]
    exact ⟨hst, by simpa using hne⟩
  rw [if_pos this]
  exact ⟨_, rfl⟩

/-! ### Loading a snapshot -/

theorem prefix_le {a b : Log N D} (h : a <+: b) : a.length ≤ b.length := h.length_le

/-- Terms do not decrease in a snapshot that is being installed. -/
theorem dl_mono (hp : COk p) {s : CSys N D} (h : CReachable p c0 s) {i : N} {K : Log N D} (hd : (s.node i).dl = some K)
    {j : Nat} (hj : j ≤ K.length) : termAt K j ≤ termAt K K.length := by
  obtain ⟨a, ha, hr⟩ := sim_reach hp h
  have hI := inv_reachable ha
  have hg := hI.g.toGBase
  have hc := ((hI.n i).dlc K (by rw [(hr.node i).dl]; exact hd)).1
  exact good_mono hg (hc.good hg).1 hj (Nat.le_refl _)

/-- The decision to load compares the snapshot with what is applied. -/
theorem load_cmp {c : Srv N D} (f : SF c) {K : Log N D} (hd : c.dl = some K)
    (hmono : ∀ j, j ≤ K.length → termAt K j ≤ termAt K K.length) :
    (idLe (termAt c.log c.applied, c.applied) (lastId K) = true → c.applied ≤ K.length) ∧
    (idLe (termAt c.log c.applied, c.applied) (lastId K) = false → K.length ≤ c.applied) := by
  obtain ⟨h1, h2, h3⟩ := f.dl K hd
  have hap := f.ap
  rcases h3 with h3 | h3
  · have hle : K.length ≤ c.applied := by
      have := prefix_le h3
      rw [List.length_take] at this
      omega
    refine ⟨?_, fun _ => hle⟩
    have hK : c.log.take K.length = K := by
      have := List.prefix_iff_eq_take.mp (h3.trans (List.take_prefix c.applied c.log))
      exact this.symm
    have hm := f.mono K.length c.applied hle hap
    rw [termAt_last hK h2] at hm
    unfold idLe lastId
    dsimp only
    split
    · rename_i he; intro h; simpa using h
    · rename_i he; intro h; simp only [decide_eq_true_eq] at h; omega
  · have hle : c.applied ≤ K.length := by
      have := prefix_le h3
      rw [List.length_take] at this
      omega
    refine ⟨fun _ => hle, ?_⟩
    have hK : K.take c.applied = c.log.take c.applied := by
      have := List.prefix_iff_eq_take.mp h3
      rw [List.length_take, Nat.min_eq_left hap] at this
      exact this.symm
    intro hi
    apply Classical.byContradiction
    intro hlt
    -- K is longer, its last term is at least that of the applied entry
    have hlt : c.applied < K.length := by omega
    have hm := hmono c.applied hle
    rw [termAt_take hK, termAt_last (List.take_length) h2] at hm
    unfold idLe lastId at hi
    dsimp only at hi
    split at hi
    · simp only [decide_eq_false_iff_not] at hi; omega
    · simp only [decide_eq_false_iff_not] at hi; omega

theorem sLoaded_old {c : Srv N D} (hi : idLe (termAt c.log c.applied, c.applied) (lastId c.psnap) = false) :
    sLoaded c = { c with dl := none } := by
  unfold sLoaded
  dsimp only
  rw [if_neg (by rw [hi]; simp)]

theorem sLoaded_new {c : Srv N D} (hi : idLe (termAt c.log c.applied, c.applied) (lastId c.psnap) = true) :
    (sLoaded c).applied = c.psnap.length ∧ (sLoaded c).sm = c.psnap := by
  unfold sLoaded
  dsimp only
  rw [if_pos hi]
  split <;> exact ⟨rfl, rfl⟩

theorem sLoaded_same (c : Srv N D) : (sLoaded c).bb = c.bb ∧ (sLoaded c).psnap = c.psnap := by
  unfold sLoaded
  dsimp only
  split
  · split <;> exact ⟨rfl, rfl⟩
  · exact ⟨rfl, rfl⟩

/-- The agreement after the snapshot is loaded. -/
theorem load_both (hp : COk p) {s s' : CSys N D} {i : N} (h : CReachable p c0 s) (hs : cstep p c0 s (.loaded i) = some s') {x : PN N D C}
    (hj : Both c0 (s.node i) x) (hpd : x.f.pend = none) (he : x.f.err = false) :
    Both c0 (s'.node i) (runOps x (loadOps c0 x (s'.node i))) := by
  obtain ⟨hpre, hn, _⟩ := cstep_some hs
  have hn : s'.node i = sLoaded (s.node i) := hn
  have h' : CReachable p c0 s' := .tail _ h hs
  have hb := bf_reach hp h i
  have hb' := bf_reach hp h' i
  have f := (facts_reach hp h).1 i
  have f' := (facts_reach hp h').1 i
  have hct := @committed_take N D _ _ c0 p hp s s' h (.tail _ .refl hs) i i
  have hd : (s.node i).dl = some (s.node i).psnap := by simpa [cpre] using hpre
  have hmono := fun j hj => dl_mono hp h hd (j := j) hj
  generalize s.node i = c at *
  obtain ⟨hbb, hps⟩ := sLoaded_same c
  obtain ⟨cmp1, cmp2⟩ := load_cmp f hd hmono
  obtain ⟨_, hKne, _⟩ := f.dl _ hd
  have hl : c.state.leads = false := hb.dl (by rw [hd]; simp)
  rw [hn] at hb' f' hct ⊢
  have hap : c.applied ≤ (sLoaded c).applied := by
    cases hi : idLe (termAt c.log c.applied, c.applied) (lastId c.psnap) with
    | true => rw [(sLoaded_new hi).1]; exact cmp1 hi
    | false => rw [sLoaded_old hi]; exact Nat.le_refl _
  let cm : Srv N D := { c with log := (sLoaded c).log }
  have hm : Half c0 cm (Pipe.step x (.follow (fents cm.log))) := by
    refine hj.half.follow rfl rfl hb ?_ ?_ hl ?_ ?_
    · have := hb'.cl; rw [hbb] at this; exact this
    · exact Nat.le_trans hap hb'.ap
    · exact (hct (Or.inl (Nat.le_refl _)) (Or.inl (by rw [hbb]; exact Nat.le_refl _))).symm
    · exact (hct (Or.inr (Nat.le_refl _)) (Or.inr hap)).symm
  have ht : termAt cm.log cm.applied = termAt c.log c.applied :=
    termAt_take (hct (Or.inr (Nat.le_refl _)) (Or.inr hap)).symm
  have hfin : Half c0 (sLoaded c) (Pipe.step (Pipe.step x (.follow (fents cm.log)))
      (.fsm 0 (envOf (fents cm.log) (fun _ => []) (fun _ => false))
        (.load (.snap c.psnap.length (lastTerm c.psnap) (oldOf (confOf c0 c.psnap)).isSome true)))) := by
    refine hm.load c.psnap _ _ _ rfl hbb (hb.fol hl).1 hpd he ?_ ?_ ?_
    · cases hi : idLe (termAt c.log c.applied, c.applied) (lastId c.psnap) with
      | true => rw [← (sLoaded_new hi).1]; exact hb'.ap
      | false => exact Nat.le_trans (cmp2 hi) (Nat.le_trans hap hb'.ap)
    · rw [ht]
      intro hi
      obtain ⟨n1, n2⟩ := sLoaded_new hi
      refine ⟨n1, termAt_last ?_ hKne⟩
      have := f'.sm
      rw [n1, n2] at this
      exact this.symm
    · rw [ht]
      intro hi
      rw [sLoaded_old hi]
  have := hfin.sync hb' x
  unfold loadOps
  rw [hps]
  exact this

/-- A snapshot that could not be loaded. -/
theorem loadFail_both {c : Srv N D} {x : PN N D C} (hj : Both c0 c x) (hpd : x.f.pend = none) (us : Nat → List Fsm.UOp) (bad : Nat → Bool)
    (i t : Nat) (j : Bool) : Both c0 c (Pipe.step x (.fsm 0 (envOf x.log us bad) (.load (.snap i t j false)))) := by
  have hrun : Pipe.Run c0.peers (Pipe.step x (.fsm 0 (envOf x.log us bad) (.load (.snap i t j false)))) :=
    .step _ hj.half.run ⟨reads_envOf x us bad, by intro h; cases h⟩
  have hf := task_fs hj.inv (reads_envOf x us bad) 0 (.load (.snap i t j false)) (by intro a b d e h; cases h; rfl)
  refine put_both hj hf hrun rfl rfl ?_ rfl rfl
  have hfl : (Pipe.fsmOf x).flush (envOf x.log us bad) = Pipe.fsmOf x := by
    unfold Fsm.State.flush
    rw [show (Pipe.fsmOf x).pend = none from hpd]
  show c.applied = (((Pipe.fsmOf x).flush (envOf x.log us bad)).doLoad _).applied
  rw [hfl, ← hj.half.core.ap]
  unfold Fsm.State.doLoad
  split
  · rfl
  · dsimp only
    split
    · rfl
    · rw [if_neg (by simp)]
      unfold Fsm.State.setError
      split <;> rfl

end Braft.Cl
