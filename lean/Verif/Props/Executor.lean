import Verif.Snap.ExecutorPub
/-
C34 and C35: SnapshotExecutor. `Hist A` ranges over all interleavings of snapshot requests, installs and their retries,
the threads that finish them, interrupts by new terms, shutdown, and over all failures (Verif/Snap/Executor.lean). With
`A.weird = false` the two failures that LocalSnapshotStorage::close does not report are left out, with
`A.loadFail = false` the copied snapshot can always be opened and loaded.

In a state: `jobs` the saves in progress, `sess` the installs in progress, `last` the recorded last snapshot index, `pub`
the snapshots published in the storage, `compacted` the snapshots the log was compacted with, `saved` and `answered` the
closures run and requests answered (requests are numbered in the order they come), `ended` the saves that ended.
-/
set_option linter.unusedSectionVars false
set_option linter.unusedVariables false

namespace Braft.Props
open Braft.SnapExec
open Braft.Snap (Err closeRet)
variable {A : Allow} {s t : SnapExec.State}

/-- C35. At most one save, at most one install, never both. -/
theorem executor_exclusive (h : Hist A s) : s.jobs.length ≤ 1 ∧ s.sess.length ≤ 1 ∧ (s.jobs = [] ∨ s.sess = []) := by
  refine ⟨?_, ?_, h.inv.excl⟩
  · rcases h.inv.jobs1 with e | ⟨j, e, -⟩ <;> rw [e] <;> simp
  · rcases h.inv.sess1 with e | ⟨j, e, -⟩ <;> rw [e] <;> simp

/-- C35. While a save or an install is in progress a snapshot request gets EBUSY and changes nothing. -/
theorem executor_busy_save (h : Hist A s) (hb : s.jobs ≠ [] ∨ s.sess ≠ []) (hs : s.stopped = false) (applied gap c f) :
    s.doSnapshot true applied gap c f = { s with nsave := s.nsave + 1, saved := s.saved ++ [(s.nsave, .ebusy)] } := by
  unfold State.doSnapshot
  dsimp only
  rw [if_neg (by simp [hs])]
  split
  · rfl
  rename_i hd
  rw [if_pos ?_]
  · rfl
  rcases hb with hb | hb
  · rcases h.inv.jobs1 with e | ⟨j, e, hsv⟩
    · exact absurd e hb
    · exact hsv
  · rcases h.inv.sess1 with e | ⟨x, e, -, id, hdl⟩
    · exact absurd e hb
    · exact absurd (by show s.dl.isSome = true; rw [hdl]; rfl) hd

/-- C35. While a save is in progress an install (admitted by the throttle, of the node's term, newer than the last
snapshot) gets EBUSY and changes nothing. -/
theorem executor_busy_install (h : Hist A s) (hb : s.jobs ≠ []) (hs : s.stopped = false) {idx : Nat} (hi : s.last < idx) (b) :
    s.install s.term idx true b = { s with ninst := s.ninst + 1, answered := s.answered ++ [(s.ninst, .ebusy)] } := by
  unfold State.install
  dsimp only
  rw [if_neg (by decide), if_neg (by simp [hs]), if_neg (by simp), if_neg (by omega), if_pos ?_]
  · rfl
  · rcases h.inv.jobs1 with e | ⟨j, e, hsv⟩
    · exact absurd e hb
    · exact hsv

/-- C35. An install that is not newer than the last snapshot is refused: it changes nothing and is answered as done. -/
theorem executor_stale_install {idx : Nat} (hi : idx ≤ s.last) (hs : s.stopped = false) (b) :
    s.install s.term idx true b = { s with ninst := s.ninst + 1, answered := s.answered ++ [(s.ninst, .already)] } := by
  unfold State.install
  dsimp only
  rw [if_neg (by decide), if_neg (by simp [hs]), if_neg (by simp), if_pos hi]
  rfl

/-- C35. An install of another term than the node's is refused: it changes nothing. -/
theorem executor_term_install {term idx : Nat} (ht : term ≠ s.term) (hs : s.stopped = false) (b) :
    s.install term idx true b = { s with ninst := s.ninst + 1, answered := s.answered ++ [(s.ninst, .term)] } := by
  unfold State.install
  dsimp only
  rw [if_neg (by decide), if_neg (by simp [hs]), if_pos ht]
  rfl

/-- C35. While an install of snapshot `x.idx` is in progress, a newer install than the last snapshot
* of the same snapshot takes the place of the request that waits for the answer, which gets EINTR,
* of an older one gets EINVAL,
* of a newer one gets EBUSY, and if the snapshot is not being loaded yet the copier is cancelled.
In no case is there a second install or another copier. -/
theorem executor_install_install (h : Hist A s) {x : Sess} (hx : s.sess = [x]) (hs : s.stopped = false) {idx : Nat} (hi : s.last < idx) (b) :
    ∃ old, s.dl = some (x.idx, old) ∧
      s.install s.term idx true b =
        if idx = x.idx then { s with ninst := s.ninst + 1, dl := some (idx, s.ninst), answered := s.answered ++ [(old, .eintr)] }
        else if idx < x.idx then { s with ninst := s.ninst + 1, answered := s.answered ++ [(s.ninst, .einval)] }
        else if x.pc = .copying then
          { s with ninst := s.ninst + 1, answered := s.answered ++ [(s.ninst, .ebusy)],
                   copier := s.copier.map (fun c => { c with cancelled := true }) }
        else { s with ninst := s.ninst + 1, answered := s.answered ++ [(s.ninst, .ebusy)] } := by
  rcases h.inv.sess1 with e | ⟨x', e, hsv, id, hdl⟩
  · rw [e] at hx; cases hx
  · rw [e] at hx
    cases hx
    have h2 := h.inv.ses
    rw [e] at h2
    have hbad := h.inv.good
    refine ⟨id, hdl, ?_⟩
    unfold State.install
    dsimp only
    rw [if_neg (by decide), if_neg (by simp [hs]), if_neg (by simp), if_neg (by omega), if_neg (by simp [hsv])]
    obtain ⟨stopped, term, last, saving, dl, copier, loading, loadIdx, jobs, sess, sLast, pub, nsave, saved, ninst, answered,
      compacted, loads, first, ended, installed, older, bad⟩ := s
    dsimp only at hdl hbad
    subst hdl
    dsimp only
    by_cases h1 : idx = x.idx
    · rw [if_pos h1.symm, if_pos h1]; rfl
    · rw [if_neg (fun h => h1 h.symm), if_neg h1]
      by_cases h3 : idx < x.idx
      · rw [if_pos h3, if_pos h3]; rfl
      · rw [if_neg h3, if_neg h3]
        obtain ⟨xi, pc⟩ := x
        cases pc with
        | copying =>
          obtain ⟨-, ⟨c, y, hcop⟩, hld, -, -⟩ := h2
          dsimp only at hcop hld
          rw [if_neg (by simp [hld]), if_pos rfl]
          subst hcop
          simp [State.cancel, State.reply, hbad]
        | loading r =>
          obtain ⟨-, -, hld, -⟩ := h2
          dsimp only at hld
          rw [if_pos (by simp [hld]), if_neg (by simp)]; rfl
        | loaded r =>
          obtain ⟨-, -, hld, -⟩ := h2
          dsimp only at hld
          rw [if_pos (by simp [hld]), if_neg (by simp)]; rfl

/-- C35. The recorded last snapshot index never decreases. -/
theorem executor_last_monotone (h : Hist A s) (hs : Step A s t) : s.last ≤ t.last := by
  have hp : ∀ (x : SnapExec.State) i o, (x.published i o).last = x.last := by
    intro x i o; unfold State.published; split <;> rfl
  cases hs with
  | doSnapshot d applied gap c f =>
    refine Nat.le_of_eq ?_
    unfold State.doSnapshot
    dsimp only
    repeat' split
    all_goals rfl
  | saveBegin k st idx => unfold State.saveBegin; split <;> exact Nat.le_refl _
  | saveClose k e a b c hw =>
    unfold State.saveClose
    split
    · dsimp only
      rw [hp]
      exact Nat.le_refl _
    · exact Nat.le_refl _
  | saveSet k =>
    unfold State.saveSet
    split
    · rename_i hk
      obtain ⟨-, hj, -, -⟩ := h.inv.job_at hk
      have h1 := h.inv.job
      rw [hj] at h1
      split
      · rename_i hr
        exact Nat.le_of_lt (h1.2 hr).1
      · exact Nat.le_refl _
    · exact Nat.le_refl _
  | saveCompact k => unfold State.saveCompact; split <;> exact Nat.le_refl _
  | saveEnd k => unfold State.saveEnd; split <;> exact Nat.le_refl _
  | install t i a b =>
    refine Nat.le_of_eq ?_
    unfold State.install
    dsimp only
    repeat' split
    all_goals rfl
  | copyEnd a b c d e f hw hl =>
    unfold State.copyEnd
    split
    · dsimp only
      split
      · exact Nat.le_of_eq (hp ..).symm
      · exact Nat.le_refl _
    · exact Nat.le_refl _
  | loadBegin k =>
    refine Nat.le_of_eq ?_
    unfold State.loadBegin
    split
    · dsimp only
      split
      · rfl
      · split <;> rfl
    · rfl
  | loadDone k ok hl =>
    unfold State.loadDone
    split
    · rename_i hk
      obtain ⟨-, hj, -, -⟩ := h.inv.sess_at hk
      have h1 := h.inv.ses
      rw [hj] at h1
      obtain ⟨-, -, -, hli, -, hlt⟩ := h1
      dsimp only
      split
      · show s.last ≤ s.loadIdx
        rw [hli]; exact Nat.le_of_lt hlt
      · exact Nat.le_refl _
    · exact Nat.le_refl _
  | loadEnd k =>
    refine Nat.le_of_eq ?_
    unfold State.loadEnd
    repeat' split
    all_goals rfl
  | interrupt t ht =>
    refine Nat.le_of_eq ?_
    unfold State.interrupt
    dsimp only
    repeat' split
    all_goals rfl
  | shutdown =>
    refine Nat.le_of_eq ?_
    unfold State.shutdown State.interrupt
    dsimp only
    repeat' split
    all_goals rfl

/-- C35. The closure of a snapshot request runs at most once; it has run, or it is the one of the save in progress. -/
theorem executor_save_answers (h : Hist A s) : (s.saved.map Prod.fst).Nodup ∧
    ∀ i, i < s.nsave ↔ (i ∈ s.saved.map Prod.fst ∨ ∃ j ∈ s.jobs, j.closure = some i) := by
  have hp := h.inv.saves
  refine ⟨(List.nodup_append.mp (hp.symm.nodup List.nodup_range)).1, fun i => ?_⟩
  rw [← List.mem_range, ← hp.mem_iff, List.mem_append, List.mem_filterMap]

/-- C35. An install request is answered at most once; it has been answered, or it is the one the install in progress
will answer. -/
theorem executor_install_answers (h : Hist A s) : (s.answered.map Prod.fst).Nodup ∧
    ∀ i, i < s.ninst ↔ (i ∈ s.answered.map Prod.fst ∨ s.dl.map Prod.snd = some i) := by
  have hp := h.inv.insts
  refine ⟨(List.nodup_append.mp (hp.symm.nodup List.nodup_range)).1, fun i => ?_⟩
  rw [← List.mem_range, ← hp.mem_iff, List.mem_append, Option.mem_toList]
  try exact Iff.rfl

/-- C35. A request can only be waiting while there is an install in progress. -/
theorem executor_install_waiting (h : Hist A s) : s.dl.isSome ↔ s.sess ≠ [] := by
  constructor
  · intro hd he
    have h2 := h.inv.ses
    rw [he] at h2
    rw [h2.1] at hd
    cases hd
  · intro hne
    rcases h.inv.sess1 with e | ⟨x, e, -, id, hd⟩
    · exact absurd e hne
    · rw [hd]; rfl

/-- C34/C35. When the state machine has loaded snapshot `i` for an install, and only then, the last index moves to `i` and
the log is compacted with it. -/
theorem executor_load_done (h : Hist A s) {i r : Nat} (hx : s.sess = [⟨i, .loading r⟩]) (ok : Bool) :
    s.last < i ∧ (s.loadDone 0 ok).last = (if ok then i else s.last) ∧
    (s.loadDone 0 ok).compacted = (if ok then i :: s.compacted else s.compacted) ∧ (s.loadDone 0 ok).sess = [⟨i, .loaded ok⟩] := by
  have h2 := h.inv.ses
  rw [hx] at h2
  obtain ⟨-, -, hld, hli, -, hlt⟩ := h2
  dsimp only at hli hlt
  refine ⟨hlt, ?_⟩
  have hk : s.sess[0]? = some ⟨i, .loading r⟩ := by rw [hx]; rfl
  unfold State.loadDone
  rw [hk]
  dsimp only
  cases ok with
  | true =>
    rw [if_pos rfl, if_pos rfl, if_pos rfl]
    refine ⟨hli, ?_, ?_⟩
    · show s.loadIdx :: s.compacted = _
      rw [hli]
    · show s.sess.set 0 _ = _
      rw [hx]; rfl
  | false =>
    rw [if_neg (by decide), if_neg (by decide), if_neg (by decide)]
    refine ⟨rfl, rfl, ?_⟩
    show s.sess.set 0 _ = _
    rw [hx]; rfl

/-- C34/C35. Then the request that waits is answered: with success if the state machine loaded the snapshot, else with
its error; and the install is over. -/
theorem executor_load_end (h : Hist A s) {i : Nat} {ok : Bool} (hx : s.sess = [⟨i, .loaded ok⟩]) :
    ∃ id, s.dl = some (i, id) ∧ (s.loadEnd 0).answered = s.answered ++ [(id, if ok then .success else .failed)] ∧
      (s.loadEnd 0).last = s.last ∧ (s.loadEnd 0).compacted = s.compacted ∧ (s.loadEnd 0).sess = [] ∧ (s.loadEnd 0).dl = none := by
  have h2 := h.inv.ses
  rw [hx] at h2
  obtain ⟨⟨id, hd⟩, -⟩ := h2
  have hk : s.sess[0]? = some ⟨i, .loaded ok⟩ := by rw [hx]; rfl
  refine ⟨id, hd, ?_⟩
  unfold State.loadEnd
  rw [hk]
  dsimp only
  rw [hd]
  dsimp only
  refine ⟨rfl, rfl, rfl, ?_, rfl⟩
  show s.sess.eraseIdx 0 = []
  rw [hx]; rfl

/-- C35. No CHECK of the executor fails. -/
theorem executor_checks (h : Hist A s) : s.bad = false := h.inv.good

/-- C35/C32. If copied snapshots can always be opened and loaded, the storage publishes only snapshots newer than its last
one (what C32 needs). -/
theorem executor_publishes_newer (hA : A.loadFail = false) (h : Hist A s) : s.older = false := (h.newer hA).old

/-- C34. The log is compacted only behind published snapshots, and the recorded last snapshot is published, if the storage
reports all failures. -/
theorem executor_compacts_published_partial (hA : A.weird = false) (h : Hist A s) :
    (∀ i ∈ s.compacted, i ∈ s.pub) ∧ (s.last = 0 ∨ s.last ∈ s.pub) :=
  ⟨(h.pub hA).comp, (h.pub hA).last⟩

/-- C34. The log is compacted exactly once for each save that ended with success, each load that did, and the snapshot
found at the start, and not otherwise; at rest. -/
theorem executor_compacts_iff_ok (h : Hist A s) (hj : s.jobs = []) (hs : s.sess = []) :
    s.compacted.Perm (((s.ended.filter (fun x => decide (x.2.1 = Code.ok))).map (fun x => x.2.2)) ++
      (((s.installed.filter (fun x => x.2)).map Prod.fst) ++ if s.first = 0 then [] else [s.first])) := by
  have := h.inv.comp
  rw [hj, hs] at this
  exact this

/-- C34. A save whose snapshot is not in the storage ends with an error, and its snapshot does not compact the log, if the
storage reports all failures. -/
theorem executor_failed_save_partial (hA : A.weird = false) (h : Hist A s) {c : Option Nat} {code : Code} {idx : Nat}
    (he : (c, code, idx) ∈ s.ended) (hn : idx ∉ s.pub) : code ≠ .ok ∧ idx ∉ s.compacted := by
  have hc : idx ∉ s.compacted := fun hm => hn ((h.pub hA).comp _ hm)
  refine ⟨fun hok => hc ?_, hc⟩
  subst hok
  rw [h.inv.comp.mem_iff, List.mem_append]
  refine Or.inr (List.mem_append_left _ ?_)
  exact List.mem_map_of_mem (f := fun x : Option Nat × Code × Nat => x.2.2) (List.mem_filter.mpr ⟨he, rfl⟩)

theorem install_ended (s : SnapExec.State) (t i a b) : (s.install t i a b).ended = s.ended := by
  unfold State.install
  dsimp only
  repeat' split
  all_goals rfl

theorem install_saved (s : SnapExec.State) (t i a b) : (s.install t i a b).saved = s.saved := by
  unfold State.install
  dsimp only
  repeat' split
  all_goals rfl

/-- C34. The status of the closure of a snapshot request is that of the save. -/
theorem executor_closure_status (h : Hist A s) {c : Nat} {code : Code} {idx : Nat} (he : (some c, code, idx) ∈ s.ended) :
    (c, code) ∈ s.saved := by
  have hsub : ∀ (x : SnapExec.State) i o, (x.published i o).ended = x.ended ∧ (x.published i o).saved = x.saved := by
    intro x i o; unfold State.published; split <;> exact ⟨rfl, rfl⟩
  induction h with
  | init => cases he
  | @step s t h hs ih =>
    have keep : t.ended = s.ended → (∃ l, t.saved = s.saved ++ l) → (c, code) ∈ t.saved := by
      rintro h1 ⟨l, h2⟩
      rw [h1] at he
      rw [h2]
      exact List.mem_append_left _ (ih he)
    have same : t.ended = s.ended → t.saved = s.saved → (c, code) ∈ t.saved :=
      fun h1 h2 => keep h1 ⟨[], by rw [h2, List.append_nil]⟩
    cases hs with
    | doSnapshot d applied gap cc f =>
      refine keep ?_ ?_
      · unfold State.doSnapshot
        dsimp only
        repeat' split
        all_goals rfl
      · unfold State.doSnapshot
        dsimp only
        repeat' split
        all_goals first | exact ⟨_, rfl⟩ | exact ⟨[], (List.append_nil _).symm⟩
    | saveBegin k st idx => refine same ?_ ?_ <;> (unfold State.saveBegin; split <;> rfl)
    | saveClose k e a b c hw =>
      refine same ?_ ?_ <;> unfold State.saveClose <;> split
      · exact (hsub ..).1
      · rfl
      · exact (hsub ..).2
      · rfl
    | saveSet k => refine same ?_ ?_ <;> (unfold State.saveSet; repeat' split) <;> rfl
    | saveCompact k => refine same ?_ ?_ <;> (unfold State.saveCompact; split <;> rfl)
    | saveEnd k =>
      revert he
      unfold State.saveEnd
      split
      · rename_i cl st ret idx' hk
        intro he
        rcases List.mem_cons.mp he with e | he
        · simp only [Prod.mk.injEq] at e
          obtain ⟨rfl, rfl, -⟩ := e
          exact List.mem_append_right _ (List.mem_singleton.mpr rfl)
        · exact List.mem_append_left _ (ih he)
      · exact ih
    | install t i a b => exact same (install_ended ..) (install_saved ..)
    | copyEnd a b c d e f hw hl =>
      refine same ?_ ?_ <;> unfold State.copyEnd <;> split
      · dsimp only; split
        · exact (hsub ..).1
        · rfl
      · rfl
      · dsimp only; split
        · exact (hsub ..).2
        · rfl
      · rfl
    | loadBegin k =>
      refine same ?_ ?_ <;> unfold State.loadBegin <;> split <;> first | rfl | (dsimp only; split <;> first | rfl | (split <;> rfl))
    | loadDone k ok hl => refine same ?_ ?_ <;> (unfold State.loadDone; dsimp only; repeat' split) <;> rfl
    | loadEnd k => refine same ?_ ?_ <;> (unfold State.loadEnd; dsimp only; repeat' split) <;> rfl
    | interrupt t ht => refine same ?_ ?_ <;> (unfold State.interrupt; dsimp only; repeat' split) <;> rfl
    | shutdown => refine same ?_ ?_ <;> (unfold State.shutdown State.interrupt; dsimp only; repeat' split) <;> rfl

/-- C34. For an install the state machine is given the snapshot asked for, if the storage reports all failures. -/
theorem executor_loads_right_partial (hA : A.weird = false) (h : Hist A s) {i r : Nat} (hl : (i, r) ∈ s.loads) : r = i ∧ i ∈ s.pub :=
  (h.pub hA).loads _ hl

/-! The storage's close (Verif/Snap/Storage.lean) ends like `closeOutcome`. -/

/-- All of close(writer), with nothing else between its steps. -/
def closeAll {N B : Type} [DecidableEq N] (w : Snap.State N B) (syncOk delOk renOk keep : Bool) : Snap.State N B :=
  ((((((w.close syncOk keep).clearNewDone delOk keep).rename renOk keep).closeRef).closeLast).closeUnref).dropDone true

/-- What close(writer) returns, whether it published, and the last index afterwards. -/
theorem close_outcome {N B : Type} [DecidableEq N] (w : Snap.State N B) {idx : Nat} {table : List N} {err : Err}
    (hw : w.w = .writing idx table err) (syncOk delOk renOk keep : Bool) :
    let o := closeOutcome err syncOk (decide (idx = w.last)) delOk renOk
    let t := closeAll w syncOk delOk renOk keep
    t.closed = (decide (o = .none), closeRet o) :: w.closed ∧ t.last = (if o = .none then idx else w.last) ∧
    t.pub.map Prod.fst = (if o = .none then idx :: w.pub.map Prod.fst else w.pub.map Prod.fst) ∧ t.w = .idle := by
  obtain ⟨proc, temp, snaps, last, refs, readers, nextId, dels, ww, pub, left, closed⟩ := w
  dsimp only at hw
  subst hw
  have hun : ∀ (x : Snap.State N B) i, (x.doUnref i).closed = x.closed ∧ (x.doUnref i).last = x.last ∧ (x.doUnref i).pub = x.pub := by
    intro x i
    unfold Snap.State.doUnref
    split
    · exact ⟨rfl, rfl, rfl⟩
    · split <;> exact ⟨rfl, rfl, rfl⟩
  dsimp only
  by_cases he : err = .none
  · subst he
    cases syncOk with
    | false => cases keep <;> exact ⟨rfl, rfl, rfl, rfl⟩
    | true =>
      by_cases hi : idx = last
      · rw [decide_eq_true hi]
        have hc : Snap.State.close (⟨proc, temp, snaps, last, refs, readers, nextId, dels, .writing idx table .none, pub, left, closed⟩ : Snap.State N B) true keep =
            Snap.State.giveUp ⟨proc, some ⟨some ⟨idx, table⟩, (temp.map Snap.Dir.files).getD []⟩, snaps, last, refs, readers, nextId, dels, .writing idx table .none, pub, left, closed⟩ .eexist keep := by
          unfold Snap.State.close
          dsimp only
          rw [if_neg (by simp), if_neg (by simp), if_pos hi]
        unfold closeAll
        rw [hc]
        cases keep <;> exact ⟨rfl, rfl, rfl, rfl⟩
      · rw [decide_eq_false hi]
        have hc : Snap.State.close (⟨proc, temp, snaps, last, refs, readers, nextId, dels, .writing idx table .none, pub, left, closed⟩ : Snap.State N B) true keep =
            ⟨proc, some ⟨some ⟨idx, table⟩, (temp.map Snap.Dir.files).getD []⟩, snaps, last, refs, readers, nextId, dels, .clearNew idx last ⟨some ⟨idx, table⟩, (temp.map Snap.Dir.files).getD []⟩, pub, left, closed⟩ := by
          unfold Snap.State.close
          dsimp only
          rw [if_neg (by simp), if_neg (by simp), if_neg hi]
        unfold closeAll
        rw [hc]
        cases delOk with
        | false => cases keep <;> exact ⟨rfl, rfl, rfl, rfl⟩
        | true =>
          cases renOk with
          | false => cases keep <;> exact ⟨rfl, rfl, rfl, rfl⟩
          | true => exact ⟨rfl, (hun _ _).2.1, congrArg (List.map Prod.fst) (hun _ _).2.2, rfl⟩
  · have hc : Snap.State.close (⟨proc, temp, snaps, last, refs, readers, nextId, dels, .writing idx table err, pub, left, closed⟩ : Snap.State N B) syncOk keep =
        Snap.State.giveUp ⟨proc, temp, snaps, last, refs, readers, nextId, dels, .writing idx table err, pub, left, closed⟩ err keep := by
      unfold Snap.State.close
      dsimp only
      rw [if_pos he]
    unfold closeAll closeOutcome
    rw [hc, if_pos he, if_neg he, if_neg he, decide_eq_false he]
    cases keep <;> exact ⟨rfl, rfl, rfl, rfl⟩

/-! Examples and witnesses. -/

/-- A save of 5 that goes well. -/
def ex1 : SnapExec.State :=
  ((((((State.init 1 3).doSnapshot true 5 1 true true).saveBegin 0 .ok 5).saveClose 0 .none true true true).saveSet 0).saveCompact 0).saveEnd 0

theorem ex1_hist : Hist ⟨false, false⟩ ex1 :=
  ((((((Hist.init 1 3).step (.doSnapshot _ true 5 1 true true)).step (.saveBegin _ 0 .ok 5)).step (.saveClose _ 0 .none true true true (by simp))).step
    (.saveSet _ 0)).step (.saveCompact _ 0)).step (.saveEnd _ 0)

example : ex1.saved = [(0, .ok)] ∧ ex1.last = 5 ∧ ex1.compacted = [5, 3] ∧ ex1.pub = [5, 3] ∧ ex1.jobs = [] := by decide

/-- An install of 9 meets a retry, then an install of 12, which cancels it; its copier has already copied everything. -/
def ex2 : SnapExec.State :=
  ((((ex1.install 1 9 true true).install 1 9 true true).install 1 12 true true).copyEnd true true true true true true).loadBegin 0

theorem ex2_hist : Hist ⟨false, false⟩ ex2 :=
  (((((ex1_hist.step (.install _ 1 9 true true)).step (.install _ 1 9 true true)).step (.install _ 1 12 true true)).step
    (.copyEnd _ true true true true true true (by simp) (by simp))).step (.loadBegin _ 0))

example : ex2.sess = [⟨9, .loading 9⟩] ∧ ex2.answered = [(0, .eintr), (2, .ebusy)] ∧ ex2.dl = some (9, 1) ∧ ex2.last = 5 ∧ ex2.pub = [9, 5, 3] := by decide
example : ex2.sess = [⟨9, .loading 9⟩] ∧ (ex2.loadDone 0 false).sess = [⟨9, .loaded false⟩] ∧ (ex2.loadDone 0 false).last = 5 := by decide
example : (ex2.doSnapshot true 20 1 true true).saved = [(0, .ok), (1, .ebusy)] := by decide
example : ((ex2.loadDone 0 true).loadEnd 0).answered = [(0, .eintr), (2, .ebusy), (1, .success)] ∧ (ex2.loadDone 0 true).last = 9 := by decide
/-- A save whose rename fails, and one that is stale. -/
example : let s := ((((((State.init 1 3).doSnapshot true 5 1 true true).saveBegin 0 .ok 5).saveClose 0 .none true true false).saveSet 0).saveEnd 0)
    s.saved = [(0, .eio)] ∧ s.last = 3 ∧ s.compacted = [3] ∧ s.ended = [(some 0, .eio, 5)] := by decide
example : let s := ((((((State.init 1 3).doSnapshot true 5 1 true true).saveBegin 0 .ok 3).saveClose 0 .none true true true).saveSet 0).saveEnd 0)
    s.saved = [(0, .estale)] ∧ s.compacted = [3] ∧ s.pub = [3] := by decide
/-- The save in progress makes an install wait. -/
example : (((State.init 1 3).doSnapshot true 5 1 true true).install 1 8 true true).answered = [(0, .ebusy)] := by decide

/-- C34, what is missing: close fails because the meta file cannot be written (sync returns -1), the writer is thrown away, but
close returns 0 as the error is not EIO (snapshot.cpp:622-624, 670). The save is reported as a success and the log is
compacted with a snapshot that does not exist. -/
theorem executor_sync_failure_witness : ∃ s, Hist ⟨true, false⟩ s ∧ s.saved = [(0, .ok)] ∧ s.compacted = [5] ∧ s.last = 5 ∧ s.pub = [] :=
  ⟨_, ((((((Hist.init 1 0).step (.doSnapshot _ true 5 1 true true)).step (.saveBegin _ 0 .ok 5)).step (.saveClose _ 0 .none false true true (by simp))).step
    (.saveSet _ 0)).step (.saveCompact _ 0)).step (.saveEnd _ 0), by decide⟩

/-- C34, the same if the state machine sets an error on the writer and runs its closure without one. -/
theorem executor_user_error_witness : ∃ s, Hist ⟨true, false⟩ s ∧ s.saved = [(0, .ok)] ∧ s.compacted = [5] ∧ s.pub = [] :=
  ⟨_, ((((((Hist.init 1 0).step (.doSnapshot _ true 5 1 true true)).step (.saveBegin _ 0 .ok 5)).step (.saveClose _ 0 .other true true true (by simp))).step
    (.saveSet _ 0)).step (.saveCompact _ 0)).step (.saveEnd _ 0), by decide⟩

/-- C34, the same failure of sync when a snapshot is installed: the copier opens the old snapshot 3, the state machine
loads it in place of 7, and the log is compacted with 7. -/
theorem executor_wrong_load_witness : ∃ s, Hist ⟨true, false⟩ s ∧ s.loads = [(7, 3)] ∧ s.last = 7 ∧ s.compacted = [7, 3] ∧ s.pub = [3] ∧
    s.answered = [(0, .success)] :=
  ⟨_, (((((Hist.init 1 3).step (.install _ 1 7 true true)).step (.copyEnd _ true true false true true true (by simp) (by simp))).step
    (.loadBegin _ 0)).step (.loadDone _ 0 true (by simp))).step (.loadEnd _ 0), by decide⟩

/-- Why `executor_publishes_newer` needs its assumption: the load of 7 fails, so the storage is at 7 and the executor at 3;
then 5 is installed, and the storage goes back. -/
theorem executor_older_witness : ∃ s, Hist ⟨false, true⟩ s ∧ s.older = true ∧ s.pub = [5, 7, 3] ∧ s.last = 5 :=
  ⟨_, ((((((((Hist.init 1 3).step (.install _ 1 7 true true)).step (.copyEnd _ true true true true true true (by simp) (by simp))).step
    (.loadBegin _ 0)).step (.loadDone _ 0 false (by simp))).step (.loadEnd _ 0)).step (.install _ 1 5 true true)).step
    (.copyEnd _ true true true true true true (by simp) (by simp))).step (.loadBegin _ 0) |>.step (.loadDone _ 0 true (by simp)), by decide⟩

/-- A request without closure that FSMCaller refuses (it is shutting down) leaves the executor saving for ever. -/
theorem executor_stuck_witness : ∃ s, Hist ⟨false, false⟩ s ∧ s.saving = true ∧ s.jobs = [] :=
  ⟨_, (Hist.init 1 3).step (.doSnapshot _ false 5 1 true false), by decide⟩

end Braft.Props
