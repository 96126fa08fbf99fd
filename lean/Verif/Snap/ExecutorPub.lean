import Verif.Snap.ExecutorInv
set_option linter.unusedSectionVars false
set_option linter.unusedSimpArgs false
set_option linter.unusedVariables false

/- SnapshotExecutor and the snapshots published in the storage. -/
namespace Braft.SnapExec
open Braft.Snap (Err closeRet)

theorem published_none {s : State} {idx o} (h : o = Err.none) : s.published idx o =
    { s with sLast := idx, pub := idx :: s.pub, older := s.older || decide (idx < s.sLast) } := by
  unfold State.published; rw [if_pos h]

theorem published_ne {s : State} {idx o} (h : o ≠ Err.none) : s.published idx o = s := by
  unfold State.published; rw [if_neg h]

/-- Everything used is published (if the storage reports its failures). -/
structure Pub (s : State) : Prop where
  top : s.sLast = 0 ∨ s.sLast ∈ s.pub
  last : s.last = 0 ∨ s.last ∈ s.pub
  comp : ∀ i ∈ s.compacted, i ∈ s.pub
  clo : ∀ c st idx, ⟨c, .closed st .ok idx⟩ ∈ s.jobs → idx ∈ s.pub
  cmp : ∀ c st idx, ⟨c, .compacting st idx⟩ ∈ s.jobs → idx ∈ s.pub
  cop : ∀ i c r, s.copier = some ⟨i, c, some (true, some r)⟩ → r = i ∧ i ∈ s.pub
  load : ∀ i r, ⟨i, .loading r⟩ ∈ s.sess → r = i ∧ i ∈ s.pub
  loads : ∀ x ∈ s.loads, x.2 = x.1 ∧ x.1 ∈ s.pub

theorem Pub.congr {s t : State} (h : Pub s) (h1 : t.sLast = s.sLast) (h2 : t.pub = s.pub) (h3 : t.last = s.last)
    (h4 : t.compacted = s.compacted) (h5 : t.jobs = s.jobs) (h6 : t.copier = s.copier) (h7 : t.sess = s.sess)
    (h8 : t.loads = s.loads) : Pub t := by
  obtain ⟨a, b, c, d, e, f, g, i⟩ := h
  constructor
  · rw [h1, h2]; exact a
  · rw [h3, h2]; exact b
  · rw [h4, h2]; exact c
  · rw [h5, h2]; exact d
  · rw [h5, h2]; exact e
  · rw [h6, h2]; exact f
  · rw [h7, h2]; exact g
  · rw [h8, h2]; exact i

theorem Pub.cancel {s : State} (h : Pub s) : Pub s.cancel := by
  obtain ⟨a, b, c, d, e, f, g, i⟩ := h
  refine ⟨a, b, c, d, e, ?_, g, i⟩
  intro i c r hc
  unfold State.cancel at hc
  dsimp only at hc
  cases hcop : s.copier with
  | none => rw [hcop] at hc; cases hc
  | some x =>
    obtain ⟨i', c', res⟩ := x
    rw [hcop] at hc
    simp only [Option.map_some, Option.some.injEq, Copier.mk.injEq] at hc
    obtain ⟨rfl, -, rfl⟩ := hc
    exact f _ _ _ hcop

theorem Pub.init (term n : Nat) : Pub (State.init term n) := by
  have hn : n = 0 ∨ n ∈ (if n = 0 then [] else [n]) := by
    by_cases h : n = 0
    · exact Or.inl h
    · rw [if_neg h]; exact Or.inr (List.mem_singleton.mpr rfl)
  constructor
  · exact hn
  · exact hn
  · intro i hi; exact hi
  · intro _ _ _ h; cases h
  · intro _ _ _ h; cases h
  · intro _ _ _ h; cases h
  · intro _ _ h; cases h
  · intro _ h; cases h

theorem Pub.addJob {s : State} (h : Pub s) {sv : Bool} {n : Nat} {c : Option Nat} {pc : JPc} (hpc : pc = .fsm ∨ pc = .down) :
    Pub { s with nsave := n, saving := sv, jobs := s.jobs ++ [⟨c, pc⟩] } := by
  obtain ⟨a, b, cc, d, e, f, g, i⟩ := h
  refine ⟨a, b, cc, ?_, ?_, f, g, i⟩
  · intro c' st idx hm
    rcases List.mem_append.mp hm with hm | hm
    · exact d _ _ _ hm
    · rcases hpc with rfl | rfl <;> simp at hm
  · intro c' st idx hm
    rcases List.mem_append.mp hm with hm | hm
    · exact e _ _ _ hm
    · rcases hpc with rfl | rfl <;> simp at hm

theorem Pub.doSnapshot {s : State} (h : Pub s) (d applied gap c f) : Pub (s.doSnapshot d applied gap c f) := by
  unfold State.doSnapshot
  dsimp only
  have ans : ∀ n c code, Pub (({ s with nsave := n } : State).save c code) := fun n c code =>
    h.congr rfl rfl rfl rfl rfl rfl rfl rfl
  split
  · exact ans ..
  split
  · exact ans ..
  split
  · exact ans ..
  split
  · exact ans ..
  split
  · exact ans ..
  split
  · exact h.addJob (Or.inl rfl)
  split
  · exact h.addJob (Or.inr rfl)
  · exact h.congr rfl rfl rfl rfl rfl rfl rfl rfl

theorem Pub.saveBegin {s : State} (h : Pub s) (hi : Inv s) (k st idx) : Pub (s.saveBegin k st idx) := by
  unfold State.saveBegin
  split
  · rename_i c hk
    obtain ⟨hk0, hjobs, hsv, hss⟩ := hi.job_at hk
    subst hk0
    obtain ⟨a, b, cc, d, e, f, g, i⟩ := h
    rw [hjobs]
    exact ⟨a, b, cc, by intro _ _ _ hm; simp at hm, by intro _ _ _ hm; simp at hm, f, g, i⟩
  · rename_i c hk
    obtain ⟨hk0, hjobs, hsv, hss⟩ := hi.job_at hk
    subst hk0
    obtain ⟨a, b, cc, d, e, f, g, i⟩ := h
    rw [hjobs]
    exact ⟨a, b, cc, by intro _ _ _ hm; simp at hm, by intro _ _ _ hm; simp at hm, f, g, i⟩
  · exact h

theorem Pub.published {s : State} (h : Pub s) (idx o) : Pub (s.published idx o) := by
  by_cases ho : o = Err.none
  · rw [published_none ho]
    obtain ⟨a, b, cc, d, e, f, g, i⟩ := h
    have up : ∀ x, x ∈ s.pub → x ∈ idx :: s.pub := fun x hx => List.mem_cons_of_mem _ hx
    exact ⟨Or.inr (List.mem_cons_self ..), b.imp id (up _), fun i hi => up _ (cc i hi), fun _ _ _ hm => up _ (d _ _ _ hm),
      fun _ _ _ hm => up _ (e _ _ _ hm), fun _ _ _ hm => ⟨(f _ _ _ hm).1, up _ (f _ _ _ hm).2⟩,
      fun _ _ hm => ⟨(g _ _ hm).1, up _ (g _ _ hm).2⟩, fun x hm => ⟨(i x hm).1, up _ (i x hm).2⟩⟩
  · rw [published_ne ho]; exact h

/-- If close succeeds with everything reported, the snapshot is there. -/
theorem close_ok {s : State} (h : Pub s) {idx : Nat} (hpos : 0 < idx) {delOk renOk : Bool} {o : Err}
    (ho : o = closeOutcome .none true (decide (idx = s.sLast)) delOk renOk) (hr : closeRet o = 0) :
    (s.published idx o).sLast = idx ∧ idx ∈ (s.published idx o).pub := by
  unfold closeOutcome at ho
  rw [if_neg (by simp), if_neg (by decide)] at ho
  by_cases hs : idx = s.sLast
  · have : o = .eexist := by rw [ho, if_pos (by simpa using hs)]
    subst this
    rw [published_ne (by decide)]
    refine ⟨hs.symm, ?_⟩
    rcases h.top with h0 | hm
    · omega
    · rw [hs]; exact hm
  · rw [if_neg (by simpa using hs)] at ho
    cases delOk
    · rw [ho] at hr; cases renOk <;> exact absurd hr (by decide)
    · cases renOk
      · rw [ho] at hr; exact absurd hr (by decide)
      · rw [published_none (by rw [ho]; rfl)]
        exact ⟨rfl, List.mem_cons_self ..⟩

theorem Pub.saveClose {s : State} (h : Pub s) (hi : Inv s) (k b c) : Pub (s.saveClose k .none true b c) := by
  unfold State.saveClose
  split
  · rename_i cl st ret idx hk
    obtain ⟨hk0, hjobs, hsv, hss⟩ := hi.job_at hk
    subst hk0
    dsimp only
    generalize ho : closeOutcome (writerErr ret .none) true (decide (idx = s.sLast)) b c = o
    have hj1 := hi.job
    rw [hjobs] at hj1
    rw [hjobs]
    have hp := h.published idx o
    have hfix : ∀ (l : List Job), ({ s with jobs := l } : State).published idx o = { s.published idx o with jobs := l } := by
      intro l
      unfold State.published
      split <;> rfl
    rw [hfix]
    obtain ⟨a, b, cc, d, e, f, g, i⟩ := hp
    refine ⟨a, b, cc, ?_, ?_, f, g, i⟩
    · intro c' st' idx' hm
      simp only [List.set_cons_zero, List.mem_singleton, Job.mk.injEq, JPc.closed.injEq] at hm
      obtain ⟨-, -, hr, rfl⟩ := hm
      split at hr
      · cases hr
      · rename_i hcr
        have hret : ret = .ok := hr.symm
        subst hret
        have hpos : 0 < idx' := by have := (hj1.2 rfl).1; omega
        exact (close_ok h hpos ho.symm (by simpa using hcr)).2
    · intro _ _ _ hm; simp at hm
  · exact h

theorem Pub.saveSet {s : State} (h : Pub s) (hi : Inv s) (k) : Pub (s.saveSet k) := by
  unfold State.saveSet
  split
  · rename_i cl st ret idx hk
    obtain ⟨hk0, hjobs, hsv, hss⟩ := hi.job_at hk
    subst hk0
    obtain ⟨a, b, cc, d, e, f, g, i⟩ := h
    rw [hjobs]
    split
    · rename_i hr
      subst hr
      have hp := d cl st idx (by rw [hjobs]; exact List.mem_singleton.mpr rfl)
      refine ⟨a, Or.inr hp, cc, by intro _ _ _ hm; simp at hm, ?_, f, g, i⟩
      intro _ _ _ hm
      simp only [List.set_cons_zero, List.mem_singleton, Job.mk.injEq, JPc.compacting.injEq] at hm
      obtain ⟨-, -, rfl⟩ := hm
      exact hp
    · exact ⟨a, b, cc, by intro _ _ _ hm; simp at hm, by intro _ _ _ hm; simp at hm, f, g, i⟩
  · exact h

theorem Pub.saveCompact {s : State} (h : Pub s) (hi : Inv s) (k) : Pub (s.saveCompact k) := by
  unfold State.saveCompact
  split
  · rename_i cl st idx hk
    obtain ⟨hk0, hjobs, hsv, hss⟩ := hi.job_at hk
    subst hk0
    obtain ⟨a, b, cc, d, e, f, g, i⟩ := h
    have hp := e cl st idx (by rw [hjobs]; exact List.mem_singleton.mpr rfl)
    rw [hjobs]
    refine ⟨a, b, ?_, by intro _ _ _ hm; simp at hm, by intro _ _ _ hm; simp at hm, f, g, i⟩
    intro x hx
    rcases List.mem_cons.mp hx with rfl | hx
    · exact hp
    · exact cc x hx
  · exact h

theorem Pub.saveEnd {s : State} (h : Pub s) (hi : Inv s) (k) : Pub (s.saveEnd k) := by
  unfold State.saveEnd
  split
  · rename_i cl st ret idx hk
    obtain ⟨hk0, hjobs, hsv, hss⟩ := hi.job_at hk
    subst hk0
    obtain ⟨a, b, cc, d, e, f, g, i⟩ := h
    unfold State.save
    dsimp only
    rw [hjobs]
    exact ⟨a, b, cc, by intro _ _ _ hm; simp at hm, by intro _ _ _ hm; simp at hm, f, g, i⟩
  · exact h

theorem Pub.install {s : State} (h : Pub s) (t i a b) : Pub (s.install t i a b) := by
  unfold State.install
  dsimp only
  have h0 : Pub { s with ninst := s.ninst + 1 } := h.congr rfl rfl rfl rfl rfl rfl rfl rfl
  have ans : ∀ (s' : State) id x, Pub s' → Pub (s'.reply id x) := fun s' id x h => h.congr rfl rfl rfl rfl rfl rfl rfl rfl
  split
  · exact ans _ _ _ h0
  split
  · exact ans _ _ _ h0
  split
  · exact ans _ _ _ h0
  split
  · exact ans _ _ _ h0
  split
  · exact ans _ _ _ h0
  split
  · split
    · obtain ⟨a, b, cc, d, e, f, g, i⟩ := h
      refine ⟨a, b, cc, d, e, ?_, ?_, i⟩
      · intro _ _ _ hm; simp at hm
      · intro i' r hm
        have hm : _ ∈ s.sess ++ [_] := hm
        rcases List.mem_append.mp hm with hm | hm
        · exact g _ _ hm
        · simp at hm
    · exact h.congr rfl rfl rfl rfl rfl rfl rfl rfl
  · split
    · exact h.congr rfl rfl rfl rfl rfl rfl rfl rfl
    split
    · exact ans _ _ _ h0
    split
    · exact ans _ _ _ h0
    · exact ans _ _ _ h0.cancel

theorem Pub.copyEnd {s : State} (h : Pub s) (hi : Inv s) (a b d e f) : Pub (s.copyEnd a b true d e f) := by
  unfold State.copyEnd
  split
  · rename_i idx cancelled hc
    dsimp only
    have hpos : 0 < idx := by
      have h2 := hi.ses
      revert h2
      rcases s.sess with _ | ⟨⟨x, pc⟩, _ | ⟨y, l⟩⟩
      · rintro ⟨-, h2, -⟩; rw [hc] at h2; cases h2
      · cases pc with
        | copying => rintro ⟨-, ⟨cc, y, h2⟩, -, -, h3⟩; rw [hc] at h2; cases h2; exact Nat.lt_of_le_of_lt (Nat.zero_le _) h3
        | loading r => rintro ⟨h1, h2, h3⟩; rw [hc] at h2; cases h2
        | loaded r => rintro ⟨h1, h2, h3⟩; rw [hc] at h2; cases h2
      · exact False.elim
    generalize ho : closeOutcome (if a && b then Err.none else Err.other) true (decide (idx = s.sLast)) d e = o
    have hp : Pub (if b = true then s.published idx o else s) := by
      split
      · exact h.published _ _
      · exact h
    obtain ⟨pa, pb, pc, pd, pe, pf, pg, pi⟩ := hp
    refine ⟨pa, pb, pc, pd, pe, ?_, pg, pi⟩
    intro i c r hm
    simp only [Option.some.injEq, Copier.mk.injEq, Prod.mk.injEq] at hm
    obtain ⟨rfl, rfl, hok, hrd⟩ := hm
    simp only [Bool.and_eq_true, decide_eq_true_eq] at hok
    obtain ⟨⟨ha, hb⟩, hcr⟩ := hok
    subst ha hb
    have := close_ok h hpos ho.symm hcr
    rw [if_pos rfl] at hrd ⊢
    split at hrd
    · cases hrd
      exact this
    · cases hrd
  · exact h

theorem Pub.loadBegin {s : State} (h : Pub s) (hi : Inv s) (k) : Pub (s.loadBegin k) := by
  unfold State.loadBegin
  split
  · rename_i idx j1 j2 ok reader hk hc
    obtain ⟨hk0, hsess, hsv, hjj⟩ := hi.sess_at hk
    subst hk0
    have h2 := hi.ses
    rw [hsess] at h2
    obtain ⟨⟨id, hd⟩, ⟨cc, y, hcop⟩, hld, -, hlt⟩ := h2
    obtain ⟨a, b, cc, d, e, f, g, i⟩ := h
    dsimp only
    split
    · rename_i r
      have hf := f _ _ _ hc
      rw [hc] at hcop
      cases hcop
      dsimp only at hf
      refine ⟨a, b, cc, d, e, (by intro _ _ _ hm; cases hm), ?_, ?_⟩
      · intro i' r' hm
        have hm : _ ∈ s.sess.set 0 _ := hm
        rw [hsess] at hm
        simp only [List.set_cons_zero, List.mem_singleton, Sess.mk.injEq, IPc.loading.injEq] at hm
        obtain ⟨rfl, rfl⟩ := hm
        exact hf
      · intro x hx
        rcases List.mem_cons.mp hx with rfl | hx
        · exact hf
        · exact i x hx
    · have hdl : (s.check s.dl.isSome).dl = some (idx, id) := hd
      rw [hdl]
      dsimp only
      refine ⟨a, b, cc, d, e, (by intro _ _ _ hm; cases hm), ?_, i⟩
      intro i' r' hm
      have hm : _ ∈ s.sess.eraseIdx 0 := hm
      rw [hsess] at hm
      simp at hm
  · exact h

theorem Pub.loadDone {s : State} (h : Pub s) (hi : Inv s) (k ok) : Pub (s.loadDone k ok) := by
  unfold State.loadDone
  split
  · rename_i idx r hk
    obtain ⟨hk0, hsess, hsv, hjj⟩ := hi.sess_at hk
    subst hk0
    have h2 := hi.ses
    rw [hsess] at h2
    obtain ⟨hd, hcop, hld, hli, -, hlt⟩ := h2
    obtain ⟨a, b, cc, d, e, f, g, i⟩ := h
    have hp := (g idx r (by rw [hsess]; exact List.mem_singleton.mpr rfl)).2
    have hnone : ∀ ok' i' r', (⟨i', IPc.loading r'⟩ : Sess) ∈ s.sess.set 0 ⟨idx, .loaded ok'⟩ → False := by
      intro ok' i' r' hm
      rw [hsess] at hm
      simp at hm
    dsimp only
    split
    · refine ⟨a, Or.inr (by show s.loadIdx ∈ s.pub; rw [hli]; exact hp), ?_, d, e, f, fun i' r' hm => (hnone _ _ _ hm).elim, i⟩
      intro x hx
      rcases List.mem_cons.mp hx with rfl | hx
      · show s.loadIdx ∈ s.pub; rw [hli]; exact hp
      · exact cc x hx
    · exact ⟨a, b, cc, d, e, f, fun i' r' hm => (hnone _ _ _ hm).elim, i⟩
  · exact h

theorem Pub.loadEnd {s : State} (h : Pub s) (hi : Inv s) (k) : Pub (s.loadEnd k) := by
  unfold State.loadEnd
  split
  · rename_i idx ok hk
    obtain ⟨hk0, hsess, hsv, hjj⟩ := hi.sess_at hk
    subst hk0
    obtain ⟨a, b, cc, d, e, f, g, i⟩ := h
    have h1 : Pub { s with loading := false, dl := none, sess := s.sess.eraseIdx 0, installed := (idx, ok) :: s.installed } := by
      refine ⟨a, b, cc, d, e, f, ?_, i⟩
      intro i' r' hm
      have hm : _ ∈ s.sess.eraseIdx 0 := hm
      rw [hsess] at hm
      simp at hm
    dsimp only
    split
    · exact h1.congr rfl rfl rfl rfl rfl rfl rfl rfl
    · exact h1
  · exact h

theorem Pub.interrupt {s : State} (h : Pub s) (t) : Pub (s.interrupt t) := by
  unfold State.interrupt
  dsimp only
  have h0 : Pub { s with term := t, bad := s.bad || !decide (s.term ≤ t) } := h.congr rfl rfl rfl rfl rfl rfl rfl rfl
  split
  · exact h0
  split
  · exact h0
  · exact h0.cancel

theorem Step.pub {A : Allow} (hA : A.weird = false) {s t : State} (hs : Step A s t) (hi : Inv s) (h : Pub s) : Pub t := by
  cases hs with
  | doSnapshot => exact h.doSnapshot ..
  | saveBegin => exact h.saveBegin hi ..
  | saveClose k e a b c hw =>
    obtain ⟨rfl, rfl⟩ := hw hA
    exact h.saveClose hi ..
  | saveSet => exact h.saveSet hi ..
  | saveCompact => exact h.saveCompact hi ..
  | saveEnd => exact h.saveEnd hi ..
  | install => exact h.install ..
  | copyEnd a b c d e f hw hl =>
    obtain rfl := hw hA
    exact h.copyEnd hi ..
  | loadBegin => exact h.loadBegin hi ..
  | loadDone => exact h.loadDone hi ..
  | loadEnd => exact h.loadEnd hi ..
  | interrupt _ ht => exact h.interrupt _
  | shutdown => exact Pub.interrupt (s := { s with stopped := true }) (h.congr rfl rfl rfl rfl rfl rfl rfl rfl) _

theorem Hist.pub {A : Allow} (hA : A.weird = false) {s : State} (h : Hist A s) : Pub s := by
  induction h with
  | init => exact Pub.init ..
  | step h hs ih => exact hs.pub hA h.inv ih

/-- The storage is not ahead of what the executor has used or is about to use. -/
def Near (s : State) : Prop :=
  s.sLast ≤ s.last ∨ (∃ c st idx, s.jobs = [⟨c, .closed st .ok idx⟩] ∧ s.sLast ≤ idx) ∨
  (∃ i c r, s.copier = some ⟨i, c, some (true, some r)⟩ ∧ s.sLast ≤ i) ∨ ∃ i r, s.sess = [⟨i, .loading r⟩] ∧ s.sLast ≤ i

structure Newer (s : State) : Prop where
  old : s.older = false
  near : Near s

theorem Newer.congr {s t : State} (h : Newer s) (h0 : t.older = s.older) (h1 : t.sLast = s.sLast) (h3 : t.last = s.last)
    (h5 : t.jobs = s.jobs) (h6 : t.copier = s.copier) (h7 : t.sess = s.sess) : Newer t := by
  obtain ⟨a, b⟩ := h
  refine ⟨h0.trans a, ?_⟩
  unfold Near
  rw [h1, h3, h5, h6, h7]
  exact b

theorem Newer.cancel {s : State} (h : Newer s) : Newer s.cancel := by
  obtain ⟨a, b⟩ := h
  refine ⟨a, ?_⟩
  rcases b with b | b | ⟨i, c, r, hc, hl⟩ | b
  · exact Or.inl b
  · exact Or.inr (Or.inl b)
  · refine Or.inr (Or.inr (Or.inl ⟨i, true, r, ?_, hl⟩))
    unfold State.cancel
    dsimp only
    rw [hc]; rfl
  · exact Or.inr (Or.inr (Or.inr b))

/-- With a save that has not been closed, or a copier still at work, or nothing, the storage is not ahead. -/
theorem Newer.low {s : State} (h : Newer s) (hi : Inv s) (hj : ∀ c st ret idx, s.jobs ≠ [⟨c, .closed st ret idx⟩])
    (hc : ∀ i c x, s.copier ≠ some ⟨i, c, some x⟩) (hs : ∀ i r, s.sess ≠ [⟨i, .loading r⟩]) : s.sLast ≤ s.last := by
  rcases h.near with b | ⟨_, _, _, b, -⟩ | ⟨_, _, _, b, -⟩ | ⟨_, _, b, -⟩
  · exact b
  · exact absurd b (hj _ _ _ _)
  · exact absurd b (hc _ _ _)
  · exact absurd b (hs _ _)

/-- While a job is there, there is no copier. -/
theorem Inv.no_copier {s : State} (h : Inv s) (hs : s.sess = []) : s.copier = none := by
  have h2 := h.ses
  rw [hs] at h2
  exact h2.2.1

theorem Newer.init (term n : Nat) : Newer (State.init term n) := ⟨rfl, Or.inl (Nat.le_refl n)⟩

theorem Newer.doSnapshot {s : State} (h : Newer s) (hi : Inv s) (d applied gap c f) : Newer (s.doSnapshot d applied gap c f) := by
  unfold State.doSnapshot
  dsimp only
  have ans : ∀ n c code, Newer (({ s with nsave := n } : State).save c code) := fun n c code =>
    h.congr rfl rfl rfl rfl rfl rfl
  split
  · exact ans ..
  split
  · exact ans ..
  split
  · exact ans ..
  rename_i hdl hsv
  have hj : s.jobs = [] := by
    rcases hi.jobs1 with e | ⟨j, e, hs⟩
    · exact e
    · exact absurd hs hsv
  have hs : s.sess = [] := by
    rcases hi.sess1 with e | ⟨j, e, hs, id, hd⟩
    · exact e
    · exact absurd (by show s.dl.isSome = true; rw [hd]; rfl) hdl
  have hc := hi.no_copier hs
  have hlow : s.sLast ≤ s.last := h.low hi (by rw [hj]; intros; simp) (by rw [hc]; intros; simp) (by rw [hs]; intros; simp)
  split
  · exact ans ..
  split
  · exact ans ..
  split
  · exact ⟨h.old, Or.inl hlow⟩
  split
  · exact ⟨h.old, Or.inl hlow⟩
  · exact ⟨h.old, Or.inl hlow⟩

theorem Newer.saveStep {s : State} (h : Newer s) (hi : Inv s) {k : Nat} {c : Option Nat} {pc : JPc} (hk : s.jobs[k]? = some ⟨c, pc⟩)
    (hpc : ∀ st idx, pc ≠ .closed st .ok idx) : s.sLast ≤ s.last := by
  obtain ⟨hk0, hjobs, hsv, hss⟩ := hi.job_at hk
  have hc := hi.no_copier hss
  rcases h.near with b | ⟨_, st, idx, b, -⟩ | ⟨_, _, _, b, -⟩ | ⟨_, _, b, -⟩
  · exact b
  · rw [hjobs] at b
    simp only [List.cons.injEq, Job.mk.injEq, and_true] at b
    exact absurd b.2 (hpc _ _)
  · rw [hc] at b; cases b
  · rw [hss] at b; cases b

theorem Newer.saveBegin {s : State} (h : Newer s) (hi : Inv s) (k st idx) : Newer (s.saveBegin k st idx) := by
  unfold State.saveBegin
  split
  · rename_i c hk
    exact ⟨h.old, Or.inl (h.saveStep hi hk (by intros; simp))⟩
  · rename_i c hk
    exact ⟨h.old, Or.inl (h.saveStep hi hk (by intros; simp))⟩
  · exact h

theorem Newer.saveClose {s : State} (h : Newer s) (hi : Inv s) (k e a b c) : Newer (s.saveClose k e a b c) := by
  unfold State.saveClose
  split
  · rename_i cl st ret idx hk
    have hlow := h.saveStep hi hk (by intros; simp)
    obtain ⟨hk0, hjobs, hsv, hss⟩ := hi.job_at hk
    have hj1 := hi.job
    rw [hjobs] at hj1
    subst hk0
    dsimp only
    generalize ho : closeOutcome (writerErr ret e) a (decide (idx = s.sLast)) b c = o
    by_cases hn : o = .none
    · rw [published_none hn]
      have hret : ret = .ok := by
        subst hn
        unfold closeOutcome at ho
        by_cases hw : writerErr ret e ≠ .none
        · rw [if_pos hw] at ho; exact absurd ho hw
        · unfold writerErr at hw
          by_cases he : e = .none
          · subst he
            cases ret <;> first | rfl | exact absurd hw (by decide)
          · rw [if_pos he] at hw; exact absurd he hw
      subst hret
      have hlt := (hj1.2 rfl).1
      refine ⟨?_, Or.inr (Or.inl ⟨cl, st, idx, ?_, Nat.le_refl _⟩)⟩
      · show (s.older || decide (idx < s.sLast)) = false
        rw [h.old, decide_eq_false (by omega)]; rfl
      · show s.jobs.set 0 _ = _
        rw [hjobs, hn]
        rfl
    · rw [published_ne hn]
      exact ⟨h.old, Or.inl hlow⟩
  · exact h

theorem Newer.saveSet {s : State} (h : Newer s) (hi : Inv s) (k) : Newer (s.saveSet k) := by
  unfold State.saveSet
  split
  · rename_i cl st ret idx hk
    obtain ⟨hk0, hjobs, hsv, hss⟩ := hi.job_at hk
    have hj1 := hi.job
    rw [hjobs] at hj1
    subst hk0
    split
    · rename_i hr
      subst hr
      refine ⟨h.old, Or.inl ?_⟩
      show s.sLast ≤ idx
      rcases h.near with b | ⟨_, st', idx', b, hl⟩ | ⟨_, _, _, b, -⟩ | ⟨_, _, b, -⟩
      · have := (hj1.2 rfl).1; omega
      · rw [hjobs] at b
        simp only [List.cons.injEq, Job.mk.injEq, JPc.closed.injEq, and_true] at b
        omega
      · rw [hi.no_copier hss] at b; cases b
      · rw [hss] at b; cases b
    · rename_i hr
      refine ⟨h.old, Or.inl (h.saveStep hi hk ?_)⟩
      intro st' idx' he
      cases he
      exact hr rfl
  · exact h

theorem Newer.saveCompact {s : State} (h : Newer s) (hi : Inv s) (k) : Newer (s.saveCompact k) := by
  unfold State.saveCompact
  split
  · rename_i cl st idx hk
    exact ⟨h.old, Or.inl (h.saveStep hi hk (by intros; simp))⟩
  · exact h

theorem Newer.saveEnd {s : State} (h : Newer s) (hi : Inv s) (k) : Newer (s.saveEnd k) := by
  unfold State.saveEnd
  split
  · rename_i cl st ret idx hk
    exact ⟨h.old, Or.inl (h.saveStep hi hk (by intros; simp))⟩
  · exact h

theorem Newer.install {s : State} (h : Newer s) (hi : Inv s) (t i a b) : Newer (s.install t i a b) := by
  unfold State.install
  dsimp only
  have h0 : Newer { s with ninst := s.ninst + 1 } := h.congr rfl rfl rfl rfl rfl rfl
  have ans : ∀ (s' : State) id x, Newer s' → Newer (s'.reply id x) := fun s' id x h => h.congr rfl rfl rfl rfl rfl rfl
  split
  · exact ans _ _ _ h0
  split
  · exact ans _ _ _ h0
  split
  · exact ans _ _ _ h0
  split
  · exact ans _ _ _ h0
  split
  · exact ans _ _ _ h0
  rename_i hsv
  have hj : s.jobs = [] := by
    rcases hi.jobs1 with e | ⟨j, e, hs⟩
    · exact e
    · exact absurd hs hsv
  split
  · rename_i hdl
    have hdl : s.dl = none := hdl
    split
    · have hs : s.sess = [] := by
        rcases hi.sess1 with e | ⟨j, e, hs, id, hd⟩
        · exact e
        · rw [hdl] at hd; cases hd
      exact ⟨h.old, Or.inl (h.low hi (by rw [hj]; intros; simp) (by rw [hi.no_copier hs]; intros; simp) (by rw [hs]; intros; simp))⟩
    · exact h.congr rfl rfl rfl rfl rfl rfl
  · split
    · exact h.congr rfl rfl rfl rfl rfl rfl
    split
    · exact ans _ _ _ h0
    split
    · exact ans _ _ _ h0
    · exact ans _ _ _ h0.cancel

theorem Inv.copier_sess {s : State} (h : Inv s) {i c x} (hc : s.copier = some ⟨i, c, x⟩) : s.sess = [⟨i, .copying⟩] ∧ s.last < i ∧ s.jobs = [] := by
  have h2 := h.ses
  have hx := h.excl
  revert h2 hx
  rcases s.sess with _ | ⟨⟨x, pc⟩, _ | ⟨y, l⟩⟩
  · rintro ⟨-, h2, -⟩; rw [hc] at h2; cases h2
  · cases pc with
    | copying =>
      rintro ⟨-, ⟨cc, y, h2⟩, -, -, h3⟩ hx; rw [hc] at h2; cases h2
      exact ⟨rfl, h3, by simpa using hx⟩
    | loading r => rintro ⟨h1, h2, h3⟩; rw [hc] at h2; cases h2
    | loaded r => rintro ⟨h1, h2, h3⟩; rw [hc] at h2; cases h2
  · exact False.elim

theorem Newer.copyEnd {s : State} (h : Newer s) (hi : Inv s) (a b c d e) : Newer (s.copyEnd a b c d e true) := by
  unfold State.copyEnd
  split
  · rename_i idx cancelled hc
    obtain ⟨hss, hlt, hjj⟩ := hi.copier_sess hc
    have hlow : s.sLast ≤ s.last := h.low hi (by rw [hjj]; intros; simp) (by rw [hc]; intros; simp) (by rw [hss]; intros; simp)
    dsimp only
    generalize ho : closeOutcome (if a && b then Err.none else Err.other) c (decide (idx = s.sLast)) d e = o
    by_cases hp : b = true ∧ o = .none
    · obtain ⟨rfl, rfl⟩ := hp
      have ha : a = true := by
        cases a
        · exact absurd ho (by unfold closeOutcome; simp)
        · rfl
      subst ha
      rw [if_pos rfl, published_none rfl]
      refine ⟨?_, Or.inr (Or.inr (Or.inl ⟨idx, cancelled, idx, ?_, Nat.le_refl _⟩))⟩
      · show (s.older || decide (idx < s.sLast)) = false
        rw [h.old, decide_eq_false (by omega)]; rfl
      · have : idx ≠ 0 := by omega
        simp [closeRet, this]
    · have : (if b = true then s.published idx o else s) = s := by
        split
        · rename_i hb
          exact published_ne (fun h => hp ⟨hb, h⟩)
        · rfl
      rw [this]
      exact ⟨h.old, Or.inl hlow⟩
  · exact h

theorem Newer.loadBegin {s : State} (h : Newer s) (hi : Inv s) (k) : Newer (s.loadBegin k) := by
  unfold State.loadBegin
  split
  · rename_i idx j1 j2 ok reader hk hc
    obtain ⟨hk0, hsess, hsv, hjj⟩ := hi.sess_at hk
    subst hk0
    obtain ⟨hs2, hlt, -⟩ := hi.copier_sess hc
    rw [hsess] at hs2
    cases hs2
    dsimp only
    split
    · rename_i r
      refine ⟨h.old, Or.inr (Or.inr (Or.inr ⟨idx, r, ?_, ?_⟩))⟩
      · show s.sess.set 0 _ = _
        rw [hsess]; rfl
      · show s.sLast ≤ _
        rcases h.near with b | ⟨_, st', idx', b, hl⟩ | ⟨_, _, _, b, hl⟩ | ⟨_, _, b, -⟩
        · omega
        · rw [hjj] at b; cases b
        · rw [hc] at b; cases b; exact hl
        · rw [hsess] at b; cases b
    · rename_i hne
      have hlow : s.sLast ≤ s.last := by
        rcases h.near with b | ⟨_, st', idx', b, hl⟩ | ⟨_, _, r, b, hl⟩ | ⟨_, _, b, -⟩
        · exact b
        · rw [hjj] at b; cases b
        · rw [hc] at b; cases b; exact (hne r rfl rfl).elim
        · rw [hsess] at b; cases b
      split
      · exact ⟨h.old, Or.inl hlow⟩
      · exact ⟨h.old, Or.inl hlow⟩
  · exact h

theorem Newer.loadDone {s : State} (h : Newer s) (hi : Inv s) (k) : Newer (s.loadDone k true) := by
  unfold State.loadDone
  split
  · rename_i idx r hk
    obtain ⟨hk0, hsess, hsv, hjj⟩ := hi.sess_at hk
    subst hk0
    have h2 := hi.ses
    rw [hsess] at h2
    obtain ⟨hd, hcop, hld, hli, -, hlt⟩ := h2
    dsimp only at hli hlt
    refine ⟨h.old, Or.inl ?_⟩
    show s.sLast ≤ s.loadIdx
    rcases h.near with b | ⟨_, st', idx', b, hl⟩ | ⟨_, _, _, b, hl⟩ | ⟨_, _, b, hl⟩
    · omega
    · rw [hjj] at b; cases b
    · rw [hcop] at b; cases b
    · rw [hsess] at b; cases b; omega
  · exact h

theorem Newer.loadEnd {s : State} (h : Newer s) (hi : Inv s) (k) : Newer (s.loadEnd k) := by
  unfold State.loadEnd
  split
  · rename_i idx ok hk
    obtain ⟨hk0, hsess, hsv, hjj⟩ := hi.sess_at hk
    have h2 := hi.ses
    rw [hsess] at h2
    obtain ⟨hd, hcop, hld, -, hlt⟩ := h2
    have hlow : s.sLast ≤ s.last := h.low hi (by rw [hjj]; intros; simp) (by rw [hcop]; intros; simp) (by rw [hsess]; intros; simp)
    dsimp only
    split
    · exact ⟨h.old, Or.inl hlow⟩
    · exact ⟨h.old, Or.inl hlow⟩
  · exact h

theorem Newer.interrupt {s : State} (h : Newer s) (t) : Newer (s.interrupt t) := by
  unfold State.interrupt
  dsimp only
  have h0 : Newer { s with term := t, bad := s.bad || !decide (s.term ≤ t) } := h.congr rfl rfl rfl rfl rfl rfl
  split
  · exact h0
  split
  · exact h0
  · exact h0.cancel

theorem Step.newer {A : Allow} (hA : A.loadFail = false) {s t : State} (hs : Step A s t) (hi : Inv s) (h : Newer s) : Newer t := by
  cases hs with
  | doSnapshot => exact h.doSnapshot hi ..
  | saveBegin => exact h.saveBegin hi ..
  | saveClose k e a b c hw => exact h.saveClose hi ..
  | saveSet => exact h.saveSet hi ..
  | saveCompact => exact h.saveCompact hi ..
  | saveEnd => exact h.saveEnd hi ..
  | install => exact h.install hi ..
  | copyEnd a b c d e f hw hl =>
    obtain rfl := hl hA
    exact h.copyEnd hi ..
  | loadBegin => exact h.loadBegin hi ..
  | loadDone k ok hl =>
    obtain rfl := hl hA
    exact h.loadDone hi ..
  | loadEnd => exact h.loadEnd hi ..
  | interrupt _ ht => exact h.interrupt _
  | shutdown => exact Newer.interrupt (s := { s with stopped := true }) (h.congr rfl rfl rfl rfl rfl rfl) _

theorem Hist.newer {A : Allow} (hA : A.loadFail = false) {s : State} (h : Hist A s) : Newer s := by
  induction h with
  | init => exact Newer.init ..
  | step h hs ih => exact hs.newer hA h.inv ih

end Braft.SnapExec
