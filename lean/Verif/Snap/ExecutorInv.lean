import Verif.Snap.Executor
set_option linter.unusedSectionVars false
set_option linter.unusedSimpArgs false
set_option linter.unusedVariables false

/- Invariants of SnapshotExecutor (Verif/Snap/Executor.lean). -/
namespace Braft.SnapExec
open Braft.Snap (Err closeRet)

/-- What holds of the save in progress. -/
def J1 (s : State) : JPc → Prop
  | .fsm => s.saving = true
  | .down => s.saving = true
  | .closing st ret idx => s.saving = true ∧ (ret = .ok → s.last < idx ∧ st = .ok)
  | .closed st ret idx => s.saving = true ∧ (ret = .ok → s.last < idx ∧ st = .ok)
  | .compacting st idx => s.saving = true ∧ s.last = idx ∧ st = .ok
  | .ending st ret idx => s.saving = true ∧ (ret = .ok → s.last = idx ∧ st = .ok)

/-- There is at most one. -/
def JOk (s : State) : List Job → Prop
  | [] => True
  | [j] => J1 s j.pc
  | _ :: _ :: _ => False

/-- What holds of the install in progress. -/
def S1 (s : State) (i : Nat) : IPc → Prop
  | .copying => (∃ id, s.dl = some (i, id)) ∧ (∃ c x, s.copier = some ⟨i, c, x⟩) ∧ s.loading = false ∧ s.saving = false ∧ s.last < i
  | .loading _ => (∃ id, s.dl = some (i, id)) ∧ s.copier = none ∧ s.loading = true ∧ s.loadIdx = i ∧ s.saving = false ∧ s.last < i
  | .loaded ok => (∃ id, s.dl = some (i, id)) ∧ s.copier = none ∧ s.loading = true ∧ s.saving = false ∧ (ok = true → s.last = i)

/-- There is at most one. -/
def SOk (s : State) : List Sess → Prop
  | [] => s.dl = none ∧ s.copier = none ∧ s.loading = false
  | [x] => S1 s x.idx x.pc
  | _ :: _ :: _ => False

/-- The indexes of saves and loads that ended well. -/
def okOf (e : List (Option Nat × Code × Nat)) : List Nat := (e.filter (fun x => decide (x.2.1 = Code.ok))).map (fun x => x.2.2)
def okLoads (l : List (Nat × Bool)) : List Nat := (l.filter (fun x => x.2)).map Prod.fst
/-- The save in progress has compacted the log. -/
def jobIdx : List Job → List Nat
  | [⟨_, .ending _ .ok idx⟩] => [idx]
  | _ => []
/-- The install in progress has. -/
def sessIdx : List Sess → List Nat
  | [⟨i, .loaded true⟩] => [i]
  | _ => []

structure Inv (s : State) : Prop where
  job : JOk s s.jobs
  ses : SOk s s.sess
  good : s.bad = false
  saves : (s.saved.map Prod.fst ++ s.jobs.filterMap Job.closure).Perm (List.range s.nsave)
  insts : (s.answered.map Prod.fst ++ (s.dl.map Prod.snd).toList).Perm (List.range s.ninst)
  comp : s.compacted.Perm (jobIdx s.jobs ++ sessIdx s.sess ++ (okOf s.ended ++ (okLoads s.installed ++ if s.first = 0 then [] else [s.first])))

/-- jobs and sess do not overlap. -/
theorem Inv.excl {s : State} (h : Inv s) : s.jobs = [] ∨ s.sess = [] := by
  have hj := h.job
  have hs := h.ses
  cases hjobs : s.jobs with
  | nil => exact Or.inl rfl
  | cons j js =>
    refine Or.inr ?_
    have hsv : s.saving = true := by
      rw [hjobs] at hj
      obtain ⟨c, pc⟩ := j
      cases js with
      | nil => cases pc <;> simp only [JOk, J1] at hj <;> first | exact hj | exact hj.1
      | cons a b => exact False.elim hj
    cases hsess : s.sess with
    | nil => rfl
    | cons x xs =>
      rw [hsess] at hs
      obtain ⟨i, pc⟩ := x
      cases xs with
      | nil => cases pc <;> simp only [SOk, S1] at hs <;> simp_all
      | cons a b => exact False.elim hs

theorem Inv.jobs1 {s : State} (h : Inv s) : s.jobs = [] ∨ ∃ j, s.jobs = [j] ∧ s.saving = true := by
  have hj := h.job
  cases hjobs : s.jobs with
  | nil => exact Or.inl rfl
  | cons j js =>
    refine Or.inr ⟨j, ?_⟩
    rw [hjobs] at hj
    obtain ⟨c, pc⟩ := j
    cases js with
    | nil => refine ⟨rfl, ?_⟩; cases pc <;> simp only [JOk, J1] at hj <;> first | exact hj | exact hj.1
    | cons a b => exact False.elim hj

theorem Inv.sess1 {s : State} (h : Inv s) : s.sess = [] ∨ ∃ x, s.sess = [x] ∧ s.saving = false ∧ ∃ id, s.dl = some (x.idx, id) := by
  have hj := h.ses
  cases hsess : s.sess with
  | nil => exact Or.inl rfl
  | cons x xs =>
    refine Or.inr ⟨x, ?_⟩
    rw [hsess] at hj
    obtain ⟨i, pc⟩ := x
    cases xs with
    | nil =>
      refine ⟨rfl, ?_⟩
      cases pc <;> simp only [SOk, S1] at hj
      · exact ⟨hj.2.2.2.1, hj.1⟩
      · exact ⟨hj.2.2.2.2.1, hj.1⟩
      · exact ⟨hj.2.2.2.1, hj.1⟩
    | cons a b => exact False.elim hj

/-- A job at position k. -/
theorem Inv.job_at {s : State} (h : Inv s) {k : Nat} {j : Job} (hk : s.jobs[k]? = some j) :
    k = 0 ∧ s.jobs = [j] ∧ s.saving = true ∧ s.sess = [] := by
  rcases h.jobs1 with e | ⟨j', e, hs⟩
  · rw [e] at hk; cases hk
  · have hx := h.excl
    rw [e] at hk hx
    cases k with
    | zero =>
      cases hk
      exact ⟨rfl, e, hs, by simpa using hx⟩
    | succ k => cases hk

theorem Inv.sess_at {s : State} (h : Inv s) {k : Nat} {x : Sess} (hk : s.sess[k]? = some x) :
    k = 0 ∧ s.sess = [x] ∧ s.saving = false ∧ s.jobs = [] := by
  rcases h.sess1 with e | ⟨j', e, hs, _⟩
  · rw [e] at hk; cases hk
  · have hx := h.excl
    rw [e] at hk hx
    cases k with
    | zero =>
      cases hk
      exact ⟨rfl, e, hs, by simpa using hx⟩
    | succ k => cases hk

theorem Inv.init (term n : Nat) : Inv (State.init term n) := by
  constructor
  · trivial
  · exact ⟨rfl, rfl, rfl⟩
  · rfl
  · exact List.Perm.refl _
  · exact List.Perm.refl _
  · exact List.Perm.refl _

theorem perm_range_snoc {l : List Nat} {n : Nat} (h : l.Perm (List.range n)) : (l ++ [n]).Perm (List.range (n + 1)) := by
  rw [List.range_succ]; exact h.append_right [n]

theorem perm_mid {l m : List Nat} {n : Nat} (h : (l ++ m).Perm (List.range n)) : (l ++ [n] ++ m).Perm (List.range (n + 1)) := by
  refine List.Perm.trans ?_ (perm_range_snoc h)
  rw [List.append_assoc, List.append_assoc]
  exact (List.perm_append_comm).append_left l

theorem Inv.doSnapshot {s : State} (h : Inv s) (d applied gap c f) : Inv (s.doSnapshot d applied gap c f) := by
  obtain ⟨stopped, term, last, saving, dl, copier, loading, loadIdx, jobs, sess, sLast, pub, nsave, saved, ninst, answered,
    compacted, loads, first, ended, installed, older, bad⟩ := s
  have ans : ∀ code, Inv ((State.mk stopped term last saving dl copier loading loadIdx jobs sess sLast pub
      (if d then nsave + 1 else nsave) saved ninst answered compacted loads first ended installed older bad).save (if d then some nsave else none) code) := by
    intro code
    obtain ⟨h1, h2, h3, h4, h5, h6⟩ := h
    cases d with
    | false =>
      refine ⟨h1, h2, h3, ?_, h5, h6⟩
      simpa [State.save] using h4
    | true =>
      refine ⟨h1, h2, h3, ?_, h5, h6⟩
      have := perm_mid h4
      simpa [State.save] using this
  unfold State.doSnapshot
  dsimp only
  split
  · exact ans _
  split
  · exact ans _
  split
  · exact ans _
  rename_i hdl hsv
  have hj : jobs = [] := by
    rcases h.jobs1 with e | ⟨j, e, hs⟩
    · exact e
    · exact absurd hs hsv
  have hs : sess = [] := by
    rcases h.sess1 with e | ⟨j, e, hs, id, hd⟩
    · exact e
    · dsimp only at hd; rw [hd] at hdl; exact absurd rfl hdl
  subst hj hs
  have h2 := h.ses
  obtain ⟨h1, -, h3, h4, h5, h6⟩ := h
  split
  · exact ans _
  split
  · exact ans _
  split
  · refine ⟨rfl, h2, h3, ?_, h5, h6⟩
    cases d with
    | false => simpa using h4
    | true => have := perm_range_snoc h4; simpa using this
  split
  · rename_i hd
    cases d with
    | false => exact absurd hd (by decide)
    | true =>
      refine ⟨rfl, h2, h3, ?_, h5, h6⟩
      have := perm_range_snoc h4; simpa using this
  · rename_i hd
    cases d with
    | true => exact absurd rfl hd
    | false => exact ⟨trivial, h2, h3, by simpa using h4, h5, h6⟩

theorem Inv.saveBegin {s : State} (h : Inv s) (k st idx) : Inv (s.saveBegin k st idx) := by
  unfold State.saveBegin
  split
  · rename_i c hk
    obtain ⟨hk0, hjobs, hsv, hss⟩ := h.job_at hk
    subst hk0
    obtain ⟨h1, h2, h3, h4, h5, h6⟩ := h
    rw [hjobs] at h1 h4 h6
    rw [hjobs]
    rw [hss] at h2 h6
    refine ⟨⟨hsv, ?_⟩, by rw [hss]; exact h2, h3, h4, h5, by rw [hss]; exact h6⟩
    intro hr
    split at hr
    · cases hr
    · rename_i hc
      refine ⟨?_, hr⟩
      have : ¬ idx ≤ s.last := fun hl => hc ⟨hr, hl⟩
      show s.last < idx
      omega
  · rename_i c hk
    obtain ⟨hk0, hjobs, hsv, hss⟩ := h.job_at hk
    subst hk0
    obtain ⟨h1, h2, h3, h4, h5, h6⟩ := h
    rw [hjobs] at h1 h4 h6
    rw [hjobs]
    rw [hss] at h2 h6
    exact ⟨⟨hsv, by intro hr; cases hr⟩, by rw [hss]; exact h2, h3, h4, h5, by rw [hss]; exact h6⟩
  · exact h

theorem Inv.published {s : State} (h : Inv s) (idx o) : Inv (s.published idx o) := by
  unfold State.published
  split
  · obtain ⟨h1, h2, h3, h4, h5, h6⟩ := h
    refine ⟨?_, ?_, h3, h4, h5, h6⟩
    · dsimp only
      revert h1
      rcases s.jobs with _ | ⟨⟨c, pc⟩, _ | ⟨b, l⟩⟩
      · exact id
      · cases pc <;> exact id
      · exact id
    · dsimp only
      revert h2
      rcases s.sess with _ | ⟨⟨c, pc⟩, _ | ⟨b, l⟩⟩
      · exact id
      · cases pc <;> exact id
      · exact id
  · exact h

theorem Inv.saveClose {s : State} (h : Inv s) (k e a b c) : Inv (s.saveClose k e a b c) := by
  unfold State.saveClose
  split
  · rename_i cl st ret idx hk
    dsimp only
    refine Inv.published ?_ _ _
    obtain ⟨hk0, hjobs, hsv, hss⟩ := h.job_at hk
    subst hk0
    obtain ⟨h1, h2, h3, h4, h5, h6⟩ := h
    rw [hjobs] at h1 h4 h6
    rw [hjobs]
    rw [hss] at h2 h6
    refine ⟨⟨hsv, ?_⟩, by rw [hss]; exact h2, h3, h4, h5, by rw [hss]; exact h6⟩
    intro hr
    split at hr
    · cases hr
    · exact h1.2 hr
  · exact h

theorem Inv.saveSet {s : State} (h : Inv s) (k) : Inv (s.saveSet k) := by
  unfold State.saveSet
  split
  · rename_i cl st ret idx hk
    obtain ⟨hk0, hjobs, hsv, hss⟩ := h.job_at hk
    subst hk0
    obtain ⟨h1, h2, h3, h4, h5, h6⟩ := h
    rw [hjobs] at h1 h4 h6
    rw [hjobs]
    rw [hss] at h2 h6
    split
    · rename_i hr
      exact ⟨⟨hsv, rfl, (h1.2 hr).2⟩, by rw [hss]; exact h2, h3, h4, h5, by rw [hss]; exact h6⟩
    · rename_i hr
      refine ⟨⟨hsv, fun hr' => absurd hr' hr⟩, by rw [hss]; exact h2, h3, h4, h5, ?_⟩
      rw [hss]
      cases ret <;> first | exact absurd rfl hr | exact h6
  · exact h

theorem Inv.saveCompact {s : State} (h : Inv s) (k) : Inv (s.saveCompact k) := by
  unfold State.saveCompact
  split
  · rename_i cl st idx hk
    obtain ⟨hk0, hjobs, hsv, hss⟩ := h.job_at hk
    subst hk0
    obtain ⟨h1, h2, h3, h4, h5, h6⟩ := h
    rw [hjobs] at h1 h4 h6
    rw [hjobs]
    rw [hss] at h2 h6
    refine ⟨⟨hsv, fun _ => h1.2⟩, by rw [hss]; exact h2, h3, h4, h5, ?_⟩
    rw [hss]
    exact h6.cons idx
  · exact h

theorem Inv.saveEnd {s : State} (h : Inv s) (k) : Inv (s.saveEnd k) := by
  unfold State.saveEnd
  split
  · rename_i cl st ret idx hk
    obtain ⟨hk0, hjobs, hsv, hss⟩ := h.job_at hk
    subst hk0
    obtain ⟨h1, h2, h3, h4, h5, h6⟩ := h
    rw [hjobs] at h1 h4 h6
    rw [hss] at h2 h6
    unfold State.save
    dsimp only
    rw [hjobs]
    refine ⟨trivial, by rw [hss]; exact h2, h3, ?_, h5, ?_⟩
    · cases cl <;> simpa using h4
    · dsimp only
      rw [hss]
      refine h6.trans ?_
      simp only [jobIdx, sessIdx, List.nil_append, okOf, List.filter_cons]
      cases ret <;> cases st <;> first
        | exact absurd (h1.2 rfl).2 (by decide)
        | exact List.Perm.refl _
  · exact h

theorem SOk.cancel {s : State} (h : SOk s s.sess) : SOk s.cancel s.sess := by
  revert h
  unfold State.cancel
  rcases s.sess with _ | ⟨⟨c, pc⟩, _ | ⟨b, l⟩⟩
  · rintro ⟨h1, h2, h3⟩; exact ⟨h1, by rw [h2]; rfl, h3⟩
  · cases pc with
    | copying =>
      rintro ⟨h1, ⟨cc, x, h2⟩, h3⟩
      exact ⟨h1, ⟨true, x, by rw [h2]; rfl⟩, h3⟩
    | loading r => rintro ⟨h1, h2, h3⟩; exact ⟨h1, by rw [h2]; rfl, h3⟩
    | loaded r => rintro ⟨h1, h2, h3⟩; exact ⟨h1, by rw [h2]; rfl, h3⟩
  · exact id

/-- Downloading and not loading: there is a copier. -/
theorem Inv.copier_some {s : State} (h : Inv s) (hd : s.dl.isSome = true) (hl : s.loading = false) : s.copier.isSome = true := by
  have h2 := h.ses
  revert h2
  rcases s.sess with _ | ⟨⟨c, pc⟩, _ | ⟨b, l⟩⟩
  · rintro ⟨h1, -⟩; rw [h1] at hd; cases hd
  · cases pc with
    | copying => rintro ⟨h1, ⟨cc, x, h2⟩, h3⟩; rw [h2]; rfl
    | loading r => rintro ⟨h1, h2, h3, -⟩; rw [h3] at hl; cases hl
    | loaded r => rintro ⟨h1, h2, h3, -⟩; rw [h3] at hl; cases hl
  · exact False.elim

theorem Inv.cancel {s : State} (h : Inv s) (hd : s.dl.isSome = true) (hl : s.loading = false) : Inv s.cancel := by
  have hc := h.copier_some hd hl
  obtain ⟨h1, h2, h3, h4, h5, h6⟩ := h
  refine ⟨?_, h2.cancel, ?_, h4, h5, h6⟩
  · show JOk s.cancel s.jobs
    revert h1
    unfold State.cancel
    rcases s.jobs with _ | ⟨⟨c, pc⟩, _ | ⟨b, l⟩⟩
    · exact id
    · cases pc <;> exact id
    · exact id
  · show (s.bad || !s.copier.isSome) = false
    rw [h3, hc]; rfl

theorem JOk.congr {s t : State} (h1 : t.saving = s.saving) (h2 : t.last = s.last) {l : List Job} (h : JOk s l) : JOk t l := by
  revert h
  rcases l with _ | ⟨⟨c, pc⟩, _ | ⟨b, l⟩⟩
  · exact id
  · cases pc <;> simp only [JOk, J1, h1, h2] <;> exact id
  · exact id

theorem SOk.congr {s t : State} (h1 : t.saving = s.saving) (h2 : t.last = s.last) (h3 : t.dl = s.dl) (h4 : t.copier = s.copier)
    (h5 : t.loading = s.loading) (h6 : t.loadIdx = s.loadIdx) {l : List Sess} (h : SOk s l) : SOk t l := by
  revert h
  rcases l with _ | ⟨⟨c, pc⟩, _ | ⟨b, l⟩⟩
  · simp only [SOk, S1, h1, h2, h3, h4, h5]; exact id
  · cases pc <;> simp only [SOk, S1, h1, h2, h3, h4, h5, h6] <;> exact id
  · exact id

theorem Inv.install {s : State} (h : Inv s) (t i a b) : Inv (s.install t i a b) := by
  obtain ⟨stopped, term, last, saving, dl, copier, loading, loadIdx, jobs, sess, sLast, pub, nsave, saved, ninst, answered,
    compacted, loads, first, ended, installed, older, bad⟩ := s
  have ans : ∀ x, Inv ((State.mk stopped term last saving dl copier loading loadIdx jobs sess sLast pub
      nsave saved (ninst + 1) answered compacted loads first ended installed older bad).reply ninst x) := by
    intro x
    obtain ⟨h1, h2, h3, h4, h5, h6⟩ := h
    refine ⟨h1.congr rfl rfl, h2.congr rfl rfl rfl rfl rfl rfl, h3, h4, ?_, h6⟩
    have := perm_mid h5
    simpa [State.reply] using this
  unfold State.install
  dsimp only
  split
  · exact ans _
  split
  · exact ans _
  split
  · exact ans _
  split
  · exact ans _
  split
  · exact ans _
  rename_i hst htm hlast hsv
  have hsv' : saving = false := by simpa using hsv
  have hlt : last < i := by omega
  have hj : jobs = [] := by
    rcases h.jobs1 with e | ⟨j, e, hs⟩
    · exact e
    · exact absurd hs hsv
  subst hj
  split
  · have hs : sess = [] := by
      rcases h.sess1 with e | ⟨j, e, hs, id, hd⟩
      · exact e
      · cases hd
    subst hs
    have hcop := h.ses.2.1
    have hld := h.ses.2.2
    dsimp only at hcop hld
    subst hcop
    have hb := h.good
    dsimp only at hb
    subst hb
    split
    · obtain ⟨h1, h2, h3, h4, h5, h6⟩ := h
      refine ⟨trivial, ⟨⟨_, rfl⟩, ⟨_, _, rfl⟩, hld, hsv', hlt⟩, rfl, h4, ?_, h6⟩
      have := perm_range_snoc h5
      simpa [State.check] using this
    · exact ans _
  · rename_i j old
    split
    · rename_i hji
      subst hji
      obtain ⟨h1, h2, h3, h4, h5, h6⟩ := h
      refine ⟨trivial, ?_, h3, h4, ?_, h6⟩
      · show SOk _ sess
        revert h2
        rcases sess with _ | ⟨⟨c, pc⟩, _ | ⟨b, l⟩⟩
        · rintro ⟨h, -⟩; cases h
        · cases pc with
          | copying => rintro ⟨⟨id, h⟩, h2⟩; cases h; exact ⟨⟨_, rfl⟩, h2⟩
          | loading r => rintro ⟨⟨id, h⟩, h2⟩; cases h; exact ⟨⟨_, rfl⟩, h2⟩
          | loaded r => rintro ⟨⟨id, h⟩, h2⟩; cases h; exact ⟨⟨_, rfl⟩, h2⟩
        · exact False.elim
      · have := perm_range_snoc h5
        simpa [State.reply] using this
    split
    · exact ans _
    split
    · exact ans _
    · rename_i hld
      have := Inv.cancel (ans .ebusy) rfl (by show loading = false; simpa using hld)
      exact this

theorem Inv.copyEnd {s : State} (h : Inv s) (a b c d e f) : Inv (s.copyEnd a b c d e f) := by
  unfold State.copyEnd
  split
  · rename_i idx cancelled hc
    dsimp only
    have key : ∀ (s1 : State), s1.copier = s.copier → Inv s1 → ∀ x, Inv { s1 with copier := some ⟨idx, cancelled, x⟩ } := by
      intro s1 hs1 h1 x
      obtain ⟨h1, h2, h3, h4, h5, h6⟩ := h1
      refine ⟨h1.congr rfl rfl, ?_, h3, h4, h5, h6⟩
      show SOk _ s1.sess
      revert h2
      rcases s1.sess with _ | ⟨⟨c, pc⟩, _ | ⟨b, l⟩⟩
      · rintro ⟨h1, h2, h3⟩; rw [hs1, hc] at h2; cases h2
      · cases pc with
        | copying =>
          rintro ⟨h1, ⟨cc, y, h2⟩, h3⟩
          rw [hs1, hc] at h2
          cases h2
          exact ⟨h1, ⟨_, _, rfl⟩, h3⟩
        | loading r => rintro ⟨h1, h2, h3⟩; rw [hs1, hc] at h2; cases h2
        | loaded r => rintro ⟨h1, h2, h3⟩; rw [hs1, hc] at h2; cases h2
      · exact id
    refine key _ ?_ ?_ _
    · split
      · unfold State.published
        generalize closeOutcome _ c _ d e = o
        split <;> rfl
      · rfl
    · split
      · exact h.published _ _
      · exact h
  · exact h

theorem Inv.loadBegin {s : State} (h : Inv s) (k) : Inv (s.loadBegin k) := by
  unfold State.loadBegin
  split
  · rename_i idx j1 j2 ok reader hk hc
    obtain ⟨hk0, hsess, hsv, hjj⟩ := h.sess_at hk
    subst hk0
    obtain ⟨h1, h2, h3, h4, h5, h6⟩ := h
    have h2' := h2
    rw [hsess] at h2 h6
    obtain ⟨⟨id, hd⟩, ⟨cc, y, hcop⟩, hld, -, hlt⟩ := h2
    rw [hjj] at h4 h6
    dsimp only
    split
    · refine ⟨by show JOk _ s.jobs; rw [hjj]; trivial, ?_, ?_, ?_, h5, ?_⟩
      · show SOk _ (s.sess.set 0 _)
        rw [hsess]
        exact ⟨⟨id, hd⟩, rfl, rfl, rfl, hsv, hlt⟩
      · show (s.bad || !s.dl.isSome) = false
        rw [h3, hd]; rfl
      · show (s.saved.map Prod.fst ++ s.jobs.filterMap Job.closure).Perm _
        rw [hjj]; exact h4
      · show s.compacted.Perm (jobIdx s.jobs ++ sessIdx (s.sess.set 0 _) ++ _)
        rw [hjj, hsess]; exact h6
    · have hdl : (s.check s.dl.isSome).dl = some (idx, id) := hd
      rw [hdl]
      dsimp only
      refine ⟨by show JOk _ s.jobs; rw [hjj]; trivial, ?_, ?_, ?_, ?_, ?_⟩
      · show SOk _ (s.sess.eraseIdx 0)
        rw [hsess]
        exact ⟨rfl, rfl, hld⟩
      · show (s.bad || !s.dl.isSome) = false
        rw [h3, hd]; rfl
      · show (s.saved.map Prod.fst ++ s.jobs.filterMap Job.closure).Perm _
        rw [hjj]; exact h4
      · rw [hd] at h5
        show ((s.answered ++ [(id, Ans.failed)]).map Prod.fst ++ []).Perm (List.range s.ninst)
        simpa using h5
      · show s.compacted.Perm (jobIdx s.jobs ++ sessIdx (s.sess.eraseIdx 0) ++ _)
        rw [hjj, hsess]; exact h6
  · exact h

theorem Inv.loadDone {s : State} (h : Inv s) (k ok) : Inv (s.loadDone k ok) := by
  unfold State.loadDone
  split
  · rename_i idx r hk
    obtain ⟨hk0, hsess, hsv, hjj⟩ := h.sess_at hk
    subst hk0
    obtain ⟨h1, h2, h3, h4, h5, h6⟩ := h
    rw [hsess] at h2 h6
    obtain ⟨hd, hcop, hld, hli, -, hlt⟩ := h2
    rw [hjj] at h4 h6
    dsimp only
    have hb : (s.bad || !s.loading) = false := by rw [h3, hld]; rfl
    split
    · refine ⟨by show JOk _ s.jobs; rw [hjj]; trivial, ?_, hb, by show (s.saved.map Prod.fst ++ s.jobs.filterMap Job.closure).Perm _; rw [hjj]; exact h4, h5, ?_⟩
      · show SOk _ (s.sess.set 0 _)
        rw [hsess]
        exact ⟨hd, hcop, hld, hsv, fun _ => hli⟩
      · show (s.loadIdx :: s.compacted).Perm (jobIdx s.jobs ++ sessIdx (s.sess.set 0 _) ++ _)
        rw [hjj, hsess, hli]
        exact h6.cons idx
    · refine ⟨by show JOk _ s.jobs; rw [hjj]; trivial, ?_, hb, by show (s.saved.map Prod.fst ++ s.jobs.filterMap Job.closure).Perm _; rw [hjj]; exact h4, h5, ?_⟩
      · show SOk _ (s.sess.set 0 _)
        rw [hsess]
        exact ⟨hd, hcop, hld, hsv, fun h => by cases h⟩
      · show (s.compacted).Perm (jobIdx s.jobs ++ sessIdx (s.sess.set 0 _) ++ _)
        rw [hjj, hsess]
        exact h6
  · exact h

theorem Inv.loadEnd {s : State} (h : Inv s) (k) : Inv (s.loadEnd k) := by
  unfold State.loadEnd
  split
  · rename_i idx ok hk
    obtain ⟨hk0, hsess, hsv, hjj⟩ := h.sess_at hk
    subst hk0
    obtain ⟨h1, h2, h3, h4, h5, h6⟩ := h
    rw [hsess] at h2 h6
    obtain ⟨⟨id, hd⟩, hcop, hld, -, hlt⟩ := h2
    rw [hjj] at h4 h6
    dsimp only
    rw [hd]
    dsimp only
    refine ⟨by show JOk _ s.jobs; rw [hjj]; trivial, ?_, h3, by show (s.saved.map Prod.fst ++ s.jobs.filterMap Job.closure).Perm _; rw [hjj]; exact h4, ?_, ?_⟩
    · show SOk _ (s.sess.eraseIdx 0)
      rw [hsess]
      exact ⟨rfl, hcop, rfl⟩
    · rw [hd] at h5
      show ((s.answered ++ [(id, _)]).map Prod.fst ++ []).Perm (List.range s.ninst)
      simpa using h5
    · show s.compacted.Perm (jobIdx s.jobs ++ sessIdx (s.sess.eraseIdx 0) ++ (okOf s.ended ++ (okLoads ((idx, ok) :: s.installed) ++ _)))
      rw [hjj, hsess]
      refine h6.trans ?_
      cases ok with
      | false => exact List.Perm.refl _
      | true =>
        show (idx :: (okOf s.ended ++ (okLoads s.installed ++ if s.first = 0 then [] else [s.first]))).Perm
          (okOf s.ended ++ (idx :: (okLoads s.installed ++ if s.first = 0 then [] else [s.first])))
        exact List.perm_middle.symm
  · exact h

theorem Inv.interrupt {s : State} (h : Inv s) (t) (ht : s.term ≤ t) : Inv (s.interrupt t) := by
  unfold State.interrupt
  dsimp only
  have h0 : Inv { s with term := t, bad := s.bad || !decide (s.term ≤ t) } := by
    obtain ⟨h1, h2, h3, h4, h5, h6⟩ := h
    refine ⟨h1.congr rfl rfl, h2.congr rfl rfl rfl rfl rfl rfl, ?_, h4, h5, h6⟩
    show (s.bad || !decide (s.term ≤ t)) = false
    rw [h3, decide_eq_true ht]; rfl
  split
  · exact h0
  split
  · exact h0
  · rename_i hd hl
    exact h0.cancel (by simpa [Option.isSome_iff_ne_none] using hd) (by simpa using hl)

theorem Step.inv {A : Allow} {s t : State} (hs : Step A s t) (h : Inv s) : Inv t := by
  cases hs with
  | doSnapshot => exact h.doSnapshot ..
  | saveBegin => exact h.saveBegin ..
  | saveClose => exact h.saveClose ..
  | saveSet => exact h.saveSet ..
  | saveCompact => exact h.saveCompact ..
  | saveEnd => exact h.saveEnd ..
  | install => exact h.install ..
  | copyEnd => exact h.copyEnd ..
  | loadBegin => exact h.loadBegin ..
  | loadDone => exact h.loadDone ..
  | loadEnd => exact h.loadEnd ..
  | interrupt _ ht => exact h.interrupt _ ht
  | shutdown =>
    refine Inv.interrupt ?_ _ (Nat.le_refl _)
    obtain ⟨h1, h2, h3, h4, h5, h6⟩ := h
    exact ⟨h1.congr rfl rfl, h2.congr rfl rfl rfl rfl rfl rfl, h3, h4, h5, h6⟩

theorem Hist.inv {A : Allow} {s : State} (h : Hist A s) : Inv s := by
  induction h with
  | init => exact Inv.init ..
  | step _ hs ih => exact hs.inv ih

end Braft.SnapExec
