import Verif.Snap.StorageSteps
/-
C32 and C33: LocalSnapshotStorage. `Hist` ranges over all interleavings of the thread that writes snapshots with
threads that open and close readers and delete superseded snapshots, with the process dying at any step, and over all
contents, failures of system calls and restarts (Verif/Snap/Storage.lean). `Later s t`: `t` comes after `s`.

In a state, `pub` lists the snapshots published so far (newest first) with the contents they had when their writer was
closed; `get s.snaps i` is what the directory of snapshot `i` holds now.
-/
set_option linter.unusedSectionVars false
set_option linter.unusedVariables false

namespace Braft.Props
open Braft.Snap
variable {N B : Type} [DecidableEq N]

/-- Snapshot `i` is on disk, complete: its directory holds what its writer was closed with, with a meta file of its
index. -/
def Complete (s : Snap.State N B) (i : Nat) : Prop :=
  ∃ d t, get s.snaps i = some d ∧ (i, d) ∈ s.pub ∧ d.info = some ⟨i, t⟩

/-- C32. Whenever the storage is open, after any number of crashes at any point, the snapshot that it reports as the
last one is complete. -/
theorem snapshot_last_complete {s : Snap.State N B} (h : Hist s) (hp : s.proc = .up) : s.last = 0 ∨ Complete s s.last := by
  by_cases hl : s.last = 0
  · exact Or.inl hl
  · refine Or.inr ?_
    have hup := h.inv.phase.up hp
    obtain ⟨d, h1, h2⟩ := hup.live s.last (by rw [hup.refEq]; unfold own; rw [if_pos ⟨rfl, hl⟩]; omega)
    obtain ⟨t, ht⟩ := h.inv.disk.info _ h2
    exact ⟨d, t, h1, h2, ht⟩

/-- C32. With no snapshot being closed, in particular after a restart, the last snapshot is the newest one published
(0 if none was): a snapshot whose publication was cut short is either there entirely or not at all, and then the one
before it is. -/
theorem snapshot_recovered {s : Snap.State N B} (h : Hist s) (hp : s.proc = .up) (hw : s.w = .idle) :
    s.last = (s.pub.head?.map Prod.fst).getD 0 := by
  have hup := h.inv.phase.up hp
  exact hup.wok.calm_last (by rw [hw]; rfl)

theorem pub_step {s t : Snap.State N B} (h : Step s t) :
    t.pub = s.pub ∨ ∃ n o d, s.w = .renaming n o d ∧ t.pub = (n, d) :: s.pub := by
  have hu : ∀ (x : Snap.State N B) (i : Nat), (x.doUnref i).pub = x.pub := by
    intro x i; unfold State.doUnref; split
    · rfl
    · split <;> rfl
  have hg : ∀ (x : Snap.State N B) e k, (x.giveUp e k).pub = x.pub := by
    intro x e k; unfold State.giveUp; split <;> rfl
  cases h with
  | crash => exact Or.inl rfl
  | init => unfold State.init; split <;> exact Or.inl rfl
  | initTempStep d => unfold State.initTempStep; split <;> exact Or.inl rfl
  | initScan b => unfold State.initScan; split <;> exact Or.inl rfl
  | initOldStep d =>
    unfold State.initOldStep; split
    · exact Or.inl (rot_same ..).1
    · exact Or.inl rfl
  | initOldDone => unfold State.initOldDone; split <;> exact Or.inl rfl
  | initDone =>
    unfold State.initDone; split
    · split <;> exact Or.inl rfl
    · exact Or.inl rfl
  | create => unfold State.create; split <;> exact Or.inl rfl
  | createStep d => unfold State.createStep; split <;> exact Or.inl rfl
  | createFail => unfold State.createFail; split <;> exact Or.inl rfl
  | createDone b =>
    unfold State.createDone; split
    · split
      · exact Or.inl rfl
      · split <;> exact Or.inl rfl
    · exact Or.inl rfl
  | write d i t e => unfold State.write; split <;> exact Or.inl rfl
  | close a b hn =>
    unfold State.close; split
    · split
      · exact Or.inl (hg ..)
      split
      · exact Or.inl (hg ..)
      dsimp only
      split
      · exact Or.inl (hg ..)
      · exact Or.inl rfl
    · exact Or.inl rfl
  | clearNewStep d =>
    unfold State.clearNewStep; split
    · exact Or.inl (rot_same ..).1
    · exact Or.inl rfl
  | clearNewDone a b =>
    unfold State.clearNewDone; split
    · split
      · exact Or.inl rfl
      · exact Or.inl (hg ..)
    · exact Or.inl rfl
  | rename a b =>
    unfold State.rename; split
    · rename_i n o d hw
      split
      · split
        · exact Or.inl (hg ..)
        · exact Or.inr ⟨n, o, d, hw, rfl⟩
      · exact Or.inl (hg ..)
    · exact Or.inl rfl
  | closeRef => unfold State.closeRef; split <;> exact Or.inl rfl
  | closeLast => unfold State.closeLast; split <;> exact Or.inl rfl
  | closeUnref =>
    unfold State.closeUnref; split
    · exact Or.inl (hu ..)
    · exact Or.inl rfl
  | dropStep d => unfold State.dropStep; split <;> exact Or.inl rfl
  | dropDone a => unfold State.dropDone; split <;> exact Or.inl rfl
  | «open» => unfold State.open; split <;> exact Or.inl rfl
  | closeReader i =>
    unfold State.closeReader; split
    · exact Or.inl rfl
    · exact Or.inl (hu ..)
  | delStep i d =>
    unfold State.delStep; split
    · exact Or.inl (rot_same ..).1
    · exact Or.inl rfl
  | delDone i a =>
    unfold State.delDone; split
    · split <;> exact Or.inl rfl
    · exact Or.inl rfl

theorem pub_later {s t : Snap.State N B} (h : Later s t) : ∃ l, t.pub = l ++ s.pub := by
  induction h with
  | refl => exact ⟨[], rfl⟩
  | step _ hs ih =>
    obtain ⟨l, hl⟩ := ih
    rcases pub_step hs with e | ⟨n, o, d, _, e⟩
    · exact ⟨l, by rw [e, hl]⟩
    · exact ⟨(n, d) :: l, by rw [e, hl]; rfl⟩

theorem top_later {s t : Snap.State N B} (hs : Hist s) (h : Later s t) : top s ≤ top t := by
  have hd := (h.hist hs).inv.disk.dec
  obtain ⟨l, hl⟩ := pub_later h
  by_cases ht : top s = 0
  · omega
  · obtain ⟨d, rest, hp, _⟩ := hs.inv.disk.topPos ht
    rw [hl] at hd
    unfold top
    rw [hl]
    cases l with
    | nil => exact Nat.le_refl _
    | cons x l =>
      simp only [List.cons_append, List.head?_cons, Option.map_some, Option.getD_some]
      have : (top s, d) ∈ l ++ s.pub := by rw [hp]; exact List.mem_append_right _ (List.mem_cons_self ..)
      have := List.rel_of_pairwise_cons hd this
      unfold top at this
      exact Nat.le_of_lt this

/-- Steps of a running process do not take the last index back. -/
theorem last_step {s t : Snap.State N B} (h : Hist s) (hp : s.proc = .up) (hs : Step s t) (hp' : t.proc = .up) : s.last ≤ t.last := by
  have hu : ∀ (x : Snap.State N B) (i : Nat), (x.doUnref i).last = x.last := by
    intro x i; unfold State.doUnref; split
    · rfl
    · split <;> rfl
  have hg : ∀ (x : Snap.State N B) e k, (x.giveUp e k).last = x.last := by
    intro x e k; unfold State.giveUp; split <;> rfl
  have hup := h.inv.phase.up hp
  suffices hx : t.last = s.last ∨ ∃ n o, s.w = .reffed n o ∧ t.last = n by
    rcases hx with e | ⟨n, o, hw, e⟩
    · omega
    · have := hup.wok
      unfold WOk at this
      rw [hw] at this
      dsimp only at this
      omega
  cases hs with
  | crash => cases hp'
  | init => unfold State.init; split <;> exact Or.inl rfl
  | initTempStep d => unfold State.initTempStep; split <;> exact Or.inl rfl
  | initScan b => unfold State.initScan; split <;> exact Or.inl rfl
  | initOldStep d => unfold State.initOldStep; rw [hp]; exact Or.inl rfl
  | initOldDone => unfold State.initOldDone; rw [hp]; exact Or.inl rfl
  | initDone => unfold State.initDone; rw [hp]; exact Or.inl rfl
  | create => unfold State.create; split <;> exact Or.inl rfl
  | createStep d => unfold State.createStep; split <;> exact Or.inl rfl
  | createFail => unfold State.createFail; split <;> exact Or.inl rfl
  | createDone b =>
    unfold State.createDone; split
    · split
      · exact Or.inl rfl
      · split <;> exact Or.inl rfl
    · exact Or.inl rfl
  | write d i t e => unfold State.write; split <;> exact Or.inl rfl
  | close a b hn =>
    unfold State.close; split
    · split
      · exact Or.inl (hg ..)
      split
      · exact Or.inl (hg ..)
      dsimp only
      split
      · exact Or.inl (hg ..)
      · exact Or.inl rfl
    · exact Or.inl rfl
  | clearNewStep d =>
    unfold State.clearNewStep; split
    · exact Or.inl (rot_same ..).2.2.1
    · exact Or.inl rfl
  | clearNewDone a b =>
    unfold State.clearNewDone; split
    · split
      · exact Or.inl rfl
      · exact Or.inl (hg ..)
    · exact Or.inl rfl
  | rename a b =>
    unfold State.rename; split
    · split
      · split
        · exact Or.inl (hg ..)
        · exact Or.inl rfl
      · exact Or.inl (hg ..)
    · exact Or.inl rfl
  | closeRef => unfold State.closeRef; split <;> exact Or.inl rfl
  | closeLast =>
    unfold State.closeLast; split
    · rename_i n o hw; exact Or.inr ⟨n, o, hw, rfl⟩
    · exact Or.inl rfl
  | closeUnref =>
    unfold State.closeUnref; split
    · exact Or.inl (hu ..)
    · exact Or.inl rfl
  | dropStep d => unfold State.dropStep; split <;> exact Or.inl rfl
  | dropDone a => unfold State.dropDone; split <;> exact Or.inl rfl
  | «open» => unfold State.open; split <;> exact Or.inl rfl
  | closeReader i =>
    unfold State.closeReader; split
    · exact Or.inl rfl
    · exact Or.inl (hu ..)
  | delStep i d =>
    unfold State.delStep; split
    · exact Or.inl (rot_same ..).2.2.1
    · exact Or.inl rfl
  | delDone i a =>
    unfold State.delDone; split
    · split <;> exact Or.inl rfl
    · exact Or.inl rfl

/-- A step that opens the storage is the end of init. -/
theorem up_step {s t : Snap.State N B} (hs : Step s t) (hp : s.proc ≠ .up) (hp' : t.proc = .up) (h : Inv s) : t.w = .idle := by
  have hi : Inv t := h.step hs
  have hb : s.w = .idle := by
    have := h.phase
    unfold Phase at this
    cases hq : s.proc <;> rw [hq] at this <;> dsimp only at this
    · exact this.w
    · exact this.w
    · exact this.1.w
    · exact absurd hq hp
  have hu : ∀ (x : Snap.State N B) (i : Nat), (x.doUnref i).w = x.w := by
    intro x i; unfold State.doUnref; split
    · rfl
    · split <;> rfl
  cases hs with
  | crash => cases hp'
  | init => unfold State.init; split <;> exact hb
  | initTempStep d => unfold State.initTempStep; split <;> exact hb
  | initScan b => unfold State.initScan; split <;> exact hb
  | initOldStep d =>
    unfold State.initOldStep; split
    · rw [(rot_same ..).2.2.2.2.2.2.2.1]; exact hb
    · exact hb
  | initOldDone => unfold State.initOldDone; split <;> exact hb
  | initDone =>
    unfold State.initDone; split
    · split <;> exact hb
    · exact hb
  | create =>
    unfold State.create; split
    · rename_i hq _; exact absurd hq hp
    · exact hb
  | createStep d => unfold State.createStep; rw [hb]; exact hb
  | createFail => unfold State.createFail; rw [hb]; exact hb
  | createDone b => unfold State.createDone; rw [hb]; exact hb
  | write d i t e => unfold State.write; rw [hb]; exact hb
  | close a b hn => unfold State.close; rw [hb]; exact hb
  | clearNewStep d => unfold State.clearNewStep; rw [hb]; exact hb
  | clearNewDone a b => unfold State.clearNewDone; rw [hb]; exact hb
  | rename a b => unfold State.rename; rw [hb]; exact hb
  | closeRef => unfold State.closeRef; rw [hb]; exact hb
  | closeLast => unfold State.closeLast; rw [hb]; exact hb
  | closeUnref => unfold State.closeUnref; rw [hb]; exact hb
  | dropStep d => unfold State.dropStep; rw [hb]; exact hb
  | dropDone a => unfold State.dropDone; rw [hb]; exact hb
  | «open» => unfold State.open; split <;> exact hb
  | closeReader i =>
    unfold State.closeReader; split
    · exact hb
    · rw [hu]; exact hb
  | delStep i d =>
    unfold State.delStep; split
    · rw [(rot_same ..).2.2.2.2.2.2.2.1]; exact hb
    · exact hb
  | delDone i a =>
    unfold State.delDone; split
    · split <;> exact hb
    · exact hb

/-- C32. The index reported as last never goes back, crashes and restarts included. -/
theorem snapshot_index_monotone {s t : Snap.State N B} (h : Hist s) (hp : s.proc = .up) (hl : Later s t) (hp' : t.proc = .up) :
    s.last ≤ t.last := by
  induction hl with
  | refl => exact Nat.le_refl _
  | @step t u hst hs ih =>
    have ht := hst.hist h
    by_cases hq : t.proc = .up
    · exact Nat.le_trans (ih hq) (last_step ht hq hs hp')
    · have hu := ht.step hs
      have hw := up_step hs hq hp' ht.inv
      rw [show u.last = top u from snapshot_recovered hu hp' hw]
      exact Nat.le_trans (h.inv.phase.up hp).wok.last_le (top_later h (hst.step hs))

/-- C32. What is published: closing a writer without error publishes the files in its directory, with a meta file of
its index and its table, and makes it the last snapshot. -/
theorem snapshot_publish {s : Snap.State N B} (h : Hist s) {index : Nat} {table : List N} {d : Dir N B}
    (hw : s.w = .writing index table .none) (hd : s.temp = some d) (hnew : s.last < index) (keep : Bool) :
    let t := (((((s.close true keep).clearNewDone true keep).rename true keep).closeRef).closeLast).closeUnref
    t.last = index ∧ get t.snaps index = some ⟨some ⟨index, table⟩, d.files⟩ ∧ t.temp = none ∧ t.w = .idle ∧
    t.closed = (true, 0) :: s.closed ∧ Hist t := by
  intro t
  have e1 : s.close true keep = { s with temp := some ⟨some ⟨index, table⟩, d.files⟩, w := .clearNew index s.last ⟨some ⟨index, table⟩, d.files⟩ } := by
    unfold State.close
    rw [hw]
    dsimp only
    rw [if_neg (by simp), if_neg (by simp), hd, if_neg (by omega)]
    rfl
  have hu : ∀ (x : Snap.State N B) (i : Nat), (x.doUnref i).last = x.last ∧ (x.doUnref i).snaps = x.snaps ∧ (x.doUnref i).temp = x.temp ∧ (x.doUnref i).closed = x.closed := by
    intro x i; unfold State.doUnref; split
    · exact ⟨rfl, rfl, rfl, rfl⟩
    · split <;> exact ⟨rfl, rfl, rfl, rfl⟩
  have hist : Hist t :=
    (((((h.step (Step.close s true keep (by intro i t he; rw [hw] at he; injection he with a _ _; omega))).step (Step.clearNewDone _ true keep)).step
      (Step.rename _ true keep)).step (Step.closeRef _)).step (Step.closeLast _)).step (Step.closeUnref _)
  have ht : t = State.closeUnref (State.closeLast (State.closeRef (State.rename (State.clearNewDone (s.close true keep) true keep) true keep))) := rfl
  rw [e1] at ht
  unfold State.clearNewDone at ht
  dsimp only at ht
  rw [if_pos rfl] at ht
  unfold State.rename at ht
  dsimp only at ht
  rw [if_pos rfl] at ht
  unfold State.closeRef at ht
  dsimp only at ht
  unfold State.closeLast at ht
  dsimp only at ht
  unfold State.closeUnref at ht
  dsimp only at ht
  refine ⟨?_, ?_, ?_, ?_, ?_, hist⟩
  · rw [ht]; exact (hu _ _).1
  · rw [ht]
    show get (State.doUnref _ _).snaps index = _
    rw [(hu _ _).2.1]
    show get (put _ index _) index = _
    rw [get_put, if_pos rfl]
  · rw [ht]; exact (hu _ _).2.2.1
  · rw [ht]
  · rw [ht]; exact rfl

/-- C32. A writer that goes on with what an earlier one left finds no file that its table does not list; whatever it publishes
comes from the listed files and from what it writes. -/
theorem snapshot_resumed_listed {s : Snap.State N B} {index : Nat} {table : List N} {e : Snap.Err} {d : Dir N B} (b : Bool)
    (hc : s.w = .clearing) (h : (s.createDone b).w = .writing index table e) (hd : (s.createDone b).temp = some d) :
    (∀ f ∈ d.files, f.1 ∈ table) ∧ e = .none ∧
    (b = false → ∀ d0 m, s.temp = some d0 → d0.info = some m → index = m.index ∧ table = m.table ∧
      ∀ f ∈ d0.files, f.1 ∈ table → f ∈ d.files) := by
  revert h hd
  unfold State.createDone
  rw [hc]
  dsimp only
  cases b with
  | true =>
    intro h hd
    cases h; cases hd
    exact ⟨by simp, rfl, fun h => by cases h⟩
  | false =>
    simp only [Bool.false_eq_true, if_false]
    cases ht : s.temp with
    | none =>
      intro h hd
      cases h; cases hd
      exact ⟨by simp, rfl, fun _ d0 m h => by cases h⟩
    | some d0 =>
      dsimp only
      cases hm : d0.info with
      | none =>
        intro h hd
        cases h; cases hd
        refine ⟨by simp, rfl, fun _ d1 m h1 h2 => ?_⟩
        cases h1
        rw [hm] at h2
        cases h2
      | some m =>
        intro h hd
        cases h; cases hd
        refine ⟨fun f hf => by simpa using (List.mem_filter.mp hf).2, rfl, fun _ d1 m1 h1 h2 => ?_⟩
        cases h1
        rw [hm] at h2
        cases h2
        exact ⟨rfl, rfl, fun f hf h3 => List.mem_filter.mpr ⟨hf, by simpa using h3⟩⟩

example : let s : Snap.State Nat Nat := { Snap.State.empty with w := .clearing, temp := some ⟨some ⟨4, [1, 2]⟩, [(1, 7), (3, 8)]⟩ }
    (s.createDone false).temp = some ⟨some ⟨4, [1, 2]⟩, [(1, 7)]⟩ := rfl

/-- C33. As long as a reader is open, the directory of its snapshot is complete, and nobody is deleting it. -/
theorem snapshot_reader_safe {s : Snap.State N B} (h : Hist s) {id i : Nat} (hr : (id, i) ∈ s.readers) :
    Complete s i ∧ i ∉ s.dels := by
  have hp : s.proc = .up := by
    have hph := h.inv.phase
    unfold Phase at hph
    cases hq : s.proc <;> rw [hq] at hph <;> dsimp only at hph
    · rw [hph.readers] at hr; cases hr
    · rw [hph.readers] at hr; cases hr
    · rw [hph.1.readers] at hr; cases hr
  have hup := h.inv.phase.up hp
  have hpos : 0 < s.ref i := by
    rw [hup.refEq]
    have : 0 < s.readers.countP (fun r => decide (r.2 = i)) := List.countP_pos_iff.mpr ⟨_, hr, by simp⟩
    omega
  obtain ⟨d, h1, h2⟩ := hup.live i hpos
  obtain ⟨t, ht⟩ := h.inv.disk.info _ h2
  refine ⟨⟨d, t, h1, h2, ht⟩, ?_⟩
  intro hd
  have := (hup.dead i hd).1
  omega

/-- C33. What a reader sees does not change while it is open. -/
theorem snapshot_reader_stable {s t : Snap.State N B} (h : Hist s) (hl : Later s t) {id i : Nat} (hr : (id, i) ∈ s.readers)
    (hr' : (id, i) ∈ t.readers) : get t.snaps i = get s.snaps i := by
  obtain ⟨d, _, h1, h2, _⟩ := (snapshot_reader_safe h hr).1
  have ht := hl.hist h
  obtain ⟨d', _, h1', h2', _⟩ := (snapshot_reader_safe ht hr').1
  obtain ⟨l, hpl⟩ := pub_later hl
  have hdec := ht.inv.disk.dec
  have h3 : (i, d) ∈ t.pub := by rw [hpl]; exact List.mem_append_right _ h2
  have : ∀ (l : List (Nat × Dir N B)), l.Pairwise (fun a b => b.1 < a.1) → (i, d) ∈ l → (i, d') ∈ l → d = d' := by
    intro l
    induction l with
    | nil => intro _ hx; cases hx
    | cons x l ih =>
      intro hp hx hy
      rw [List.pairwise_cons] at hp
      rcases List.mem_cons.mp hx with e1 | e1 <;> rcases List.mem_cons.mp hy with e2 | e2
      · have := e1.trans e2.symm; injection this
      · have := hp.1 _ e2; rw [← e1] at this; exact absurd this (Nat.lt_irrefl _)
      · have := hp.1 _ e1; rw [← e2] at this; exact absurd this (Nat.lt_irrefl _)
      · exact ih hp.2 e1 e2
  rw [h1, h1', this t.pub hdec h3 h2']

/-- C33. A superseded snapshot that is still on disk while nothing is being published has an open reader, or is being
deleted, or could not be deleted. -/
theorem snapshot_superseded_deleted {s : Snap.State N B} (h : Hist s) (hp : s.proc = .up) (hw : s.w = .idle) {i : Nat}
    (hi : (get s.snaps i).isSome = true) (hl : i ≠ s.last) : (∃ id, (id, i) ∈ s.readers) ∨ i ∈ s.dels ∨ i ∈ s.left := by
  have hup := h.inv.phase.up hp
  rcases hup.rest i hi with g | g | g | g | ⟨o, g⟩
  · exact absurd g hl
  · rw [hup.refEq, own_calm (by rw [hw]; rfl), if_neg (by omega), Nat.zero_add, List.countP_pos_iff] at g
    obtain ⟨r, h1, h2⟩ := g
    obtain ⟨a, b⟩ := r
    simp at h2
    subst h2
    exact Or.inl ⟨a, h1⟩
  · exact Or.inr (Or.inl g)
  · exact Or.inr (Or.inr g)
  · rw [hw] at g; cases g

/-- C33. Closing the last reader of a superseded snapshot starts its deletion. -/
theorem snapshot_last_close_deletes {s : Snap.State N B} (h : Hist s) (hw : s.w = .idle) {id i : Nat} (hr : get s.readers id = some i)
    (hl : i ≠ s.last) (hone : ∀ r ∈ s.readers, r.2 = i → r.1 = id) : i ∈ (s.closeReader id).dels := by
  have ht : Hist (s.closeReader id) := h.step (Step.closeReader s id)
  obtain ⟨⟨d, t, h1, h2, h3⟩, _⟩ := snapshot_reader_safe h (get_mem hr)
  have hu : ∀ (x : Snap.State N B) (i : Nat), (x.doUnref i).last = x.last ∧ (x.doUnref i).snaps = x.snaps ∧ (x.doUnref i).w = x.w ∧ (x.doUnref i).readers = x.readers ∧ (x.doUnref i).proc = x.proc := by
    intro x i; unfold State.doUnref; split
    · exact ⟨rfl, rfl, rfl, rfl, rfl⟩
    · split <;> exact ⟨rfl, rfl, rfl, rfl, rfl⟩
  have hp : s.proc = .up := by
    have hph := h.inv.phase
    have hm := get_mem hr
    unfold Phase at hph
    cases hq : s.proc <;> rw [hq] at hph <;> dsimp only at hph
    · rw [hph.readers] at hm; cases hm
    · rw [hph.readers] at hm; cases hm
    · rw [hph.1.readers] at hm; cases hm
  have hup := h.inv.phase.up hp
  have hc : s.readers.countP (fun r => decide (r.2 = i)) = 1 := by
    have := countP_del hup.rid (get_mem hr) (fun x => decide (x = i))
    rw [this, if_pos (by simp)]
    have hz : (del s.readers id).countP (fun r => decide (r.2 = i)) = 0 := by
      rw [List.countP_eq_zero]
      intro r hr1
      have h5 := mem_del hr1
      simp
      intro he
      exact h5.2 (hone r h5.1 he)
    rw [hz]
  have hone' : s.ref i = 1 := by
    rw [hup.refEq, own_calm (by rw [hw]; rfl), if_neg (by omega), hc]
  unfold State.closeReader
  rw [hr]
  dsimp only
  have := (doUnref_cases (s := { s with readers := del s.readers id }) hup.refPos (i := i) (by show 0 < s.ref i; omega)).2.2.1
  rw [this, if_pos (by exact hone')]
  exact List.mem_cons_self ..

/-! ### Concrete histories -/

abbrev SN := Snap.State Nat Nat

def boot (s : SN) : SN := ((s.init).initScan false).initOldDone.initOldDone.initDone

theorem boot_hist {s : SN} (h : Hist s) : Hist (boot s) :=
  ((((h.step (.init _)).step (.initScan _ _)).step (.initOldDone _)).step (.initOldDone _)).step (.initDone _)

/-- A writer with two files. -/
def wr (s : SN) (i : Nat) : SN := (s.create.createDone true).write ⟨none, [(1, 10 * i), (2, 20 * i)]⟩ i [1, 2] .none

theorem wr_hist {s : SN} (h : Hist s) (i : Nat) : Hist (wr s i) := ((h.step (.create _)).step (.createDone _ _)).step (.write _ _ _ _ _)

def pubd (s : SN) : SN := (((((s.close true false).clearNewDone true false).rename true false).closeRef).closeLast).closeUnref

def s1 : SN := pubd (wr (boot State.empty) 5)
theorem s1_hist : Hist s1 := (snapshot_publish (wr_hist (boot_hist .empty) 5) rfl rfl (by decide) false).2.2.2.2.2

/-- A reader on 5; 9 is published. -/
def s2 : SN := pubd (wr s1.open 9)
theorem s2_hist : Hist s2 := (snapshot_publish (wr_hist (s1_hist.step (.open _)) 9) rfl rfl (by decide) false).2.2.2.2.2

example : s2.last = 9 ∧ s2.readers = [(0, 5)] ∧ get s2.snaps 5 = some ⟨some ⟨5, [1, 2]⟩, [(1, 50), (2, 100)]⟩ ∧ s2.dels = [] ∧
    (s2.closeReader 0).dels = [5] ∧ (boot s2.crash).last = 9 ∧ (boot s2.crash).snaps.map Prod.fst = [9] := by decide

/-- The process dies in the middle of publishing 12: before the rename 9 is the last one, after it 12. -/
example : (boot (((wr s2 12).close true false).clearNewDone true false).crash).last = 9 ∧
    (boot ((((wr s2 12).close true false).clearNewDone true false).rename true false).crash).last = 12 ∧
    get (boot ((((wr s2 12).close true false).clearNewDone true false).rename true false).crash).snaps 12 = some ⟨some ⟨12, [1, 2]⟩, [(1, 120), (2, 240)]⟩ := by decide

/-- That a snapshot is newer than the last one is necessary: 3 is published after 5, and the process dies while 5 is
being deleted. After the restart the last snapshot is the remains of 5, without a meta file. -/
theorem snapshot_older_witness :
    let s := boot ((pubd (wr s1 3)).delStep 5 ⟨none, []⟩).crash
    s.proc = .up ∧ s.last = 5 ∧ get s.snaps 5 = some ⟨none, []⟩ ∧ get s.snaps 3 = none := by decide

end Braft.Props
