import Verif.Log.ManagerOps
/-
Histories of LogManager, and what all of them satisfy.
-/
set_option linter.unusedVariables false
set_option linter.unusedSimpArgs false

namespace Braft.LogMgr
open Braft.MemLog (Ent Consec)

variable {α : Type}

theorem Id.lt_iff {a b : Id} : a.lt b = true ↔ a.term < b.term ∨ (a.term = b.term ∧ a.index < b.index) := by
  unfold Id.lt
  split
  · rename_i h; simp only [decide_eq_true_eq]; omega
  · rename_i h; simp only [decide_eq_true_eq]; omega

theorem Id.lt_false {a b : Id} : a.lt b = false ↔ b.term < a.term ∨ (a.term = b.term ∧ b.index ≤ a.index) := by
  rw [← Bool.not_eq_true, Id.lt_iff]; omega

/-- Every entry id is greater than all before it. -/
def Increasing (l : List Id) : Prop := l.Pairwise (fun a b => a.lt b = true)

/-- A history of LogManager: the state `s` it led to, the ids of all entries (and of all foreign
snapshots) that ever were in the log, in order of their arrival, and the jobs of the disk thread done so
far. `a` is the content of the storage at the start. -/
inductive Run (a : Sto α) : State α → List Id → List (Job α) → Prop where
  /-- start without a snapshot: the log must begin at 1 (node.cpp:423-470 refuses anything else) -/
  | start (h : StoOk a) (ht : ∀ e ∈ a.ents, 1 ≤ e.term) (h1 : a.first = 1) : Run a (init a) (a.ents.map entId) []
  /-- start with a snapshot that covers everything below the log's first index -/
  | startSnap (h : StoOk a) (ht : ∀ e ∈ a.ents, 1 ≤ e.term) (m : Id) (hm : 0 < m.index) (hok : SnapOk (init a) m) :
      Run a ((init a).setSnapshot m)
        (a.ents.map entId ++ if (init a).getTerm m.index = m.term then [] else [m]) []
  /-- the leader's own entries -/
  | leader {s ev dn} (r : Run a s ev dn) (vs : List (Int × α)) (cid : Nat) (ht : ∀ v ∈ vs, 1 ≤ v.1) :
      Run a (s.appendLeader vs cid)
        (ev ++ if s.err then [] else (number (s.last + 1) vs).map entId) dn
  /-- entries from a leader. Those at or below the applied index, if the request is neither refused
  nor known already, are the same as in the log. -/
  | append {s ev dn} (r : Run a s ev dn) (es : List (Ent α)) (cid : Nat) (f : Int) (hc : Consec f es) (hne : es ≠ [])
      (ht : ∀ e ∈ es, 1 ≤ e.term)
      (hnc : (∃ b, es.getLast? = some b ∧ s.applied.index < b.index) → f ≤ s.last + 1 →
        ∀ e ∈ es, e.index ≤ s.applied.index → s.getTerm e.index = e.term) :
      Run a (s.append es cid) (ev ++ (s.newOf es).map entId) dn
  /-- an append without entries -/
  | appendNone {s ev dn} (r : Run a s ev dn) (cid : Nat) : Run a (s.append [] cid) ev dn
  /-- last_log_id(is_flush = true) -/
  | lastId {s ev dn} (r : Run a s ev dn) (cid : Nat) (h : s.last ≠ s.snap.index) : Run a (s.askLastId cid) ev dn
  | setSnapshot {s ev dn} (r : Run a s ev dn) (m : Id) (hok : s.snap.index < m.index → SnapOk s m) :
      Run a (s.setSnapshot m)
        (ev ++ if m.index ≤ s.snap.index ∨ s.getTerm m.index = m.term then [] else [m]) dn
  | clearBuffered {s ev dn} (r : Run a s ev dn) : Run a s.clearBuffered ev dn
  | setApplied {s ev dn} (r : Run a s ev dn) (i : Id) (h1 : i.lt s.applied = false → s.applied.index ≤ i.index)
      (h2 : i.index ≤ s.last) : Run a (s.setApplied i) ev dn
  /-- a step of one of the calls of clear_memory_logs -/
  | clear {s ev dn} (r : Run a s ev dn) (c : Id) (hc : c ∈ s.clears) (h : Increasing ev ∨ SafeClear s c) :
      Run a (s.clear c) ev dn
  | roundStart {s ev dn} (r : Run a s ev dn) (h : s.round = none) : Run a s.roundStart ev dn
  | roundEnd {s ev dn} (r : Run a s ev dn) (l : Id) (h : s.round = some l) : Run a (s.roundEnd l) ev dn
  /-- a batch of appends is written, perhaps not completely -/
  | flush {s ev dn} (r : Run a s ev dn) (js rest : List (Job α)) (l : Id) (n : Nat) (late : Bool)
      (hq : s.queue = js ++ rest) (hj : AllAppends js) (h : s.round = some l) (hn : n ≤ (jobEnts js).length) :
      Run a (s.flush js rest l n late) ev (dn ++ js)
  /-- another job is done -/
  | execOk {s ev dn} (r : Run a s ev dn) (j : Job α) (rest : List (Job α)) (l : Id) (hq : s.queue = j :: rest)
      (hj : ∀ es c, j = .append es c → es = []) (h : s.round = some l) : Run a (s.execOk j rest l) ev (dn ++ [j])
  | execFails {s ev dn} (r : Run a s ev dn) (j : Job α) (rest : List (Job α)) (b : Sto α) (hq : s.queue = j :: rest)
      (h : s.round.isSome) : Run a (s.execFails b rest) ev dn
  /-- an error reported by somebody else (FSMCaller::on_error) -/
  | error {s ev dn} (r : Run a s ev dn) : Run a { s with err := true } ev dn

/-! ### Errors stay -/

theorem setDisk_err (s : State α) (i : Id) : (s.setDisk i).err = s.err := by
  unfold State.setDisk; cases i.lt s.disk <;> rfl

theorem setSnapshot_err (s : State α) (m : Id) : (s.setSnapshot m).err = s.err := by
  unfold State.setSnapshot State.truncatePrefix State.resetLog
  split
  · rfl
  · dsimp only
    split
    · rfl
    · split
      · split <;> rfl
      · rfl

theorem truncateSuffix_err (s : State α) (k : Int) : (s.truncateSuffix k).err = s.err := by
  unfold State.truncateSuffix; split <;> rfl

/-- What an append does, in terms of fields. -/
theorem append_cases (s : State α) (es : List (Ent α)) (cid : Nat) (he : s.err = false) :
    (s.newOf es = [] ∧ ∃ r, s.append es cid = { s with ran := r }) ∨
    (∃ s1 : State α, (s1 = s ∨ ∃ k, s1 = s.truncateSuffix k) ∧ ∃ b,
      s.append es cid = ({ s1 with last := b }).enqueue (s.newOf es) cid) := by
  unfold State.append State.newOf
  rw [if_neg (by rw [he]; simp), if_neg (by rw [he]; simp)]
  cases hf : es.head? with
  | none => exact Or.inr ⟨s, Or.inl rfl, s.last, rfl⟩
  | some f =>
    cases hb : es.getLast? with
    | none => exact Or.inr ⟨s, Or.inl rfl, s.last, rfl⟩
    | some b =>
      dsimp only
      unfold State.check
      by_cases h1 : f.index > s.last + 1
      · rw [if_pos h1]; exact Or.inl ⟨rfl, _, rfl⟩
      · rw [if_neg h1]
        by_cases h2 : b.index ≤ s.applied.index
        · rw [if_pos h2]; exact Or.inl ⟨rfl, _, rfl⟩
        · rw [if_neg h2]
          by_cases h3 : f.index = s.last + 1
          · rw [if_pos h3]; exact Or.inr ⟨s, Or.inl rfl, _, rfl⟩
          · rw [if_neg h3]
            cases hu : s.unmatched es with
            | nil => exact Or.inr ⟨s, Or.inl rfl, s.last, rfl⟩
            | cons e rest =>
              dsimp only
              by_cases h4 : e.index ≤ s.last
              · rw [if_pos h4]; exact Or.inr ⟨_, Or.inr ⟨_, rfl⟩, _, rfl⟩
              · rw [if_neg h4]; exact Or.inr ⟨s, Or.inl rfl, _, rfl⟩

theorem append_err (s : State α) (es : List (Ent α)) (cid : Nat) : (s.append es cid).err = s.err := by
  cases he : s.err with
  | true => unfold State.append; rw [if_pos he]; exact he
  | false =>
    rcases append_cases s es cid he with ⟨_, r, hr⟩ | ⟨s1, hs1, b, hb⟩
    · rw [hr]; exact he
    · rw [hb]
      show s1.err = false
      rcases hs1 with rfl | ⟨k, rfl⟩
      · exact he
      · rw [truncateSuffix_err, he]

/-! ### Ids on disk and in the queue -/

def jobIds : Job α → List Id
  | .append es _ => es.map entId
  | .truncSuffix k t => [⟨k, t⟩]
  | _ => []

/-- Not beyond everything that was ever in the log. -/
def Bnd (ev : List Id) (d : Id) : Prop := d.term ≤ 0 ∨ ∃ x ∈ ev, x.lt d = false

theorem Bnd.mono {ev : List Id} {d : Id} (h : Bnd ev d) (w : List Id) : Bnd (ev ++ w) d := by
  rcases h with h | ⟨x, hx, h⟩
  · exact Or.inl h
  · exact Or.inr ⟨x, List.mem_append_left _ hx, h⟩

theorem Bnd.lt {ev : List Id} {d y : Id} (h : Bnd ev d) (hy : 1 ≤ y.term) (hl : ∀ x ∈ ev, x.lt y = true) :
    d.lt y = true := by
  rcases h with h | ⟨x, hx, h⟩
  · rw [Id.lt_iff]; omega
  · have := hl x hx
    rw [Id.lt_iff] at this ⊢
    rw [Id.lt_false] at h
    omega

theorem Bnd.mem {ev : List Id} {d : Id} (h : d ∈ ev) : Bnd ev d :=
  Or.inr ⟨d, h, by rw [Id.lt_false]; omega⟩

theorem Bnd.min {ev : List Id} {a : Id} (b : Id) (h : Bnd ev a) : Bnd ev (a.min b) := by
  unfold Id.min
  by_cases hb : b.lt a = true
  · rw [if_pos hb]
    rw [Id.lt_iff] at hb
    rcases h with h | ⟨x, hx, h⟩
    · left; omega
    · right; refine ⟨x, hx, ?_⟩
      rw [Id.lt_false] at h ⊢
      omega
  · rw [if_neg hb]; exact h

theorem Id.min_lt {a y : Id} (b : Id) (h : a.lt y = true) : (a.min b).lt y = true := by
  unfold Id.min
  by_cases hb : b.lt a = true
  · rw [if_pos hb]
    rw [Id.lt_iff] at hb h ⊢
    omega
  · rw [if_neg hb]; exact h

/-- `j` comes before `j'` in the queue. -/
def JobLt (j j' : Job α) : Prop := ∀ a ∈ jobIds j, ∀ x ∈ jobEnts [j'], a.lt (entId x) = true

/-- Everything waiting for the disk is beyond every id that decides what may leave the memory. -/
structure Fresh (s : State α) (ev : List Id) : Prop where
  snapB : Bnd ev s.snap
  virtB : Bnd ev s.virt
  diskB : Bnd ev s.disk
  roundB : ∀ l, s.round = some l → Bnd ev l
  clearB : ∀ c ∈ s.clears, Bnd ev c
  jobB : ∀ j ∈ s.queue, ∀ a ∈ jobIds j, Bnd ev a
  diskQ : ∀ x ∈ jobEnts s.queue, s.disk.lt (entId x) = true
  roundQ : ∀ l, s.round = some l → ∀ x ∈ jobEnts s.queue, l.lt (entId x) = true
  clearQ : ∀ c ∈ s.clears, ∀ x ∈ jobEnts s.queue, c.lt (entId x) = true
  ord : s.queue.Pairwise JobLt

theorem jobEnts_append (x y : List (Job α)) : jobEnts (x ++ y) = jobEnts x ++ jobEnts y := by
  induction x with
  | nil => rfl
  | cons j x ih => cases j <;> simp [jobEnts, ih]

theorem mem_jobEnts {q : List (Job α)} {x : Ent α} : x ∈ jobEnts q ↔ ∃ es c, Job.append es c ∈ q ∧ x ∈ es := by
  induction q with
  | nil => simp [jobEnts]
  | cons j q ih =>
    cases j with
    | append es c =>
      simp only [jobEnts, List.mem_append, ih, List.mem_cons, Job.append.injEq]
      constructor
      · rintro (h | ⟨es', c', h1, h2⟩)
        · exact ⟨es, c, Or.inl ⟨rfl, rfl⟩, h⟩
        · exact ⟨es', c', Or.inr h1, h2⟩
      · rintro ⟨es', c', ⟨rfl, rfl⟩ | h1, h2⟩
        · exact Or.inl h2
        · exact Or.inr ⟨es', c', h1, h2⟩
    | _ => simp [jobEnts, ih]

theorem jobEnts_ids {j : Job α} {x : Ent α} (h : x ∈ jobEnts [j]) : entId x ∈ jobIds j := by
  cases j with
  | append es c =>
    simp only [jobEnts, List.append_nil] at h
    exact List.mem_map_of_mem h
  | _ => simp [jobEnts] at h

/-- A job is added to the queue. -/
theorem Fresh.push {s s' : State α} {ev : List Id} (h : Fresh s ev) (w : List Id) {j : Job α}
    (hq : s'.queue = s.queue ++ [j]) (hd : s'.disk = s.disk) (hr : s'.round = s.round) (hc : s'.clears = s.clears)
    (hs : Bnd (ev ++ w) s'.snap) (hv : Bnd (ev ++ w) s'.virt)
    (hj : ∀ a ∈ jobIds j, Bnd (ev ++ w) a)
    (hx : ∀ x ∈ jobEnts [j], 1 ≤ x.term ∧ ∀ y ∈ ev, y.lt (entId x) = true) : Fresh s' (ev ++ w) := by
  have hlt : ∀ d, Bnd ev d → ∀ x ∈ jobEnts [j], d.lt (entId x) = true :=
    fun d hd x hxm => hd.lt (hx x hxm).1 (hx x hxm).2
  have hmem : ∀ x ∈ jobEnts s'.queue, x ∈ jobEnts s.queue ∨ x ∈ jobEnts [j] := by
    intro x hxm
    rw [hq, jobEnts_append] at hxm
    exact List.mem_append.mp hxm
  refine ⟨hs, hv, by rw [hd]; exact h.diskB.mono w, ?_, ?_, ?_, ?_, ?_, ?_, ?_⟩
  · intro l hl; rw [hr] at hl; exact (h.roundB l hl).mono w
  · intro c hcm; rw [hc] at hcm; exact (h.clearB c hcm).mono w
  · intro i hi a ha
    rw [hq] at hi
    rcases List.mem_append.mp hi with hi | hi
    · exact (h.jobB i hi a ha).mono w
    · simp only [List.mem_singleton] at hi; subst hi; exact hj a ha
  · intro x hxm
    rw [hd]
    rcases hmem x hxm with hxm | hxm
    · exact h.diskQ x hxm
    · exact hlt _ h.diskB x hxm
  · intro l hl x hxm
    rw [hr] at hl
    rcases hmem x hxm with hxm | hxm
    · exact h.roundQ l hl x hxm
    · exact hlt _ (h.roundB l hl) x hxm
  · intro c hcm x hxm
    rw [hc] at hcm
    rcases hmem x hxm with hxm | hxm
    · exact h.clearQ c hcm x hxm
    · exact hlt _ (h.clearB c hcm) x hxm
  · rw [hq, List.pairwise_append]
    refine ⟨h.ord, List.pairwise_singleton _ _, ?_⟩
    intro i hi k hk a ha x hxm
    simp only [List.mem_singleton] at hk; subst hk
    exact hlt _ (h.jobB i hi a ha) x hxm

/-- Jobs leave the queue, and the running disk id may become that of one of them. -/
theorem Fresh.pop {s s' : State α} {ev : List Id} (h : Fresh s ev) {js rest : List (Job α)}
    (hq : s.queue = js ++ rest) (hq' : s'.queue = rest) (hd : s'.disk = s.disk) (hc : s'.clears = s.clears)
    (hs : s'.snap = s.snap) (hv : s'.virt = s.virt)
    (hr : s'.round = s.round ∨ ∃ j ∈ js, ∃ a ∈ jobIds j, s'.round = some a) : Fresh s' ev := by
  have hsub : ∀ x ∈ jobEnts rest, x ∈ jobEnts s.queue := by
    intro x hx; rw [hq, jobEnts_append]; exact List.mem_append_right _ hx
  have hord := h.ord
  rw [hq, List.pairwise_append] at hord
  refine ⟨by rw [hs]; exact h.snapB, by rw [hv]; exact h.virtB, by rw [hd]; exact h.diskB, ?_, ?_, ?_, ?_, ?_, ?_, ?_⟩
  · intro l hl
    rcases hr with hr | ⟨j, hj, b, hb, hr⟩
    · rw [hr] at hl; exact h.roundB l hl
    · rw [hr] at hl; cases hl
      exact h.jobB j (by rw [hq]; exact List.mem_append_left _ hj) _ hb
  · rw [hc]; exact h.clearB
  · intro j hj
    rw [hq'] at hj
    exact h.jobB j (by rw [hq]; exact List.mem_append_right _ hj)
  · intro x hx; rw [hq'] at hx; rw [hd]; exact h.diskQ x (hsub x hx)
  · intro l hl x hx
    rw [hq'] at hx
    rcases hr with hr | ⟨j, hj, b, hb, hr⟩
    · rw [hr] at hl; exact h.roundQ l hl x (hsub x hx)
    · rw [hr] at hl; cases hl
      obtain ⟨es, c, hm, hxe⟩ := mem_jobEnts.mp hx
      exact hord.2.2 j hj _ hm _ hb x (by simp [jobEnts, hxe])
  · intro c hcm x hx
    rw [hq'] at hx; rw [hc] at hcm
    exact h.clearQ c hcm x (hsub x hx)
  · rw [hq']; exact hord.2.1

/-- Nothing that matters changes. -/
theorem Fresh.congr {s s' : State α} {ev : List Id} (h : Fresh s ev) (w : List Id)
    (hq : s'.queue = s.queue) (hd : s'.disk = s.disk) (hr : s'.round = s.round) (hc : s'.clears = s.clears)
    (hs : Bnd (ev ++ w) s'.snap) (hv : Bnd (ev ++ w) s'.virt) : Fresh s' (ev ++ w) :=
  ⟨hs, hv, by rw [hd]; exact h.diskB.mono w, fun l hl => (h.roundB l (by rw [← hr]; exact hl)).mono w,
    fun c hcm => (h.clearB c (by rw [← hc]; exact hcm)).mono w,
    fun j hj a ha => (h.jobB j (by rw [← hq]; exact hj) a ha).mono w,
    fun x hx => by rw [hd]; exact h.diskQ x (by rw [← hq]; exact hx),
    fun l hl x hx => h.roundQ l (by rw [← hr]; exact hl) x (by rw [← hq]; exact hx),
    fun c hcm x hx => h.clearQ c (by rw [← hc]; exact hcm) x (by rw [← hq]; exact hx),
    by rw [hq]; exact h.ord⟩

/-- What is in the log at an index of a waiting entry was written by a waiting append. -/
theorem runAll_written {a b : Sto α} {q : List (Job α)} (h : a.runAll q = some b) (ha : StoOk a) (hq : JobsOk q)
    {i : Int} {e : Ent α} (he : b.at i = some e) (hx : ∃ x ∈ jobEnts q, x.index = i) : e ∈ jobEnts q := by
  induction q generalizing a with
  | nil => obtain ⟨x, hx, _⟩ := hx; simp [jobEnts] at hx
  | cons j q ih =>
    have hqt : JobsOk q := fun es c hm => hq es c (List.mem_cons_of_mem _ hm)
    obtain ⟨m, hm, h2⟩ := runAll_split (x := [j]) (y := q) h
    have hj1 : JobsOk [j] := fun es c hmm => by
      simp only [List.mem_singleton] at hmm
      exact hq es c (by rw [hmm]; exact List.mem_cons_self)
    have hmok : StoOk m := runAll_ok hm ha hj1
    rw [show j :: q = [j] ++ q from rfl, jobEnts_append] at hx ⊢
    by_cases hex : ∃ x ∈ jobEnts q, x.index = i
    · exact List.mem_append_right _ (ih h2 hmok hqt hex)
    · obtain ⟨x, hxm, hxi⟩ := hx
      rcases List.mem_append.mp hxm with hxm | hxm
      · apply List.mem_append_left
        have hme : m.at i = some e := by
          apply runAll_at h2 hmok hqt he
          intro es c hes y hy hyi
          exact hex ⟨y, mem_jobEnts.mpr ⟨es, c, hes, hy⟩, hyi⟩
        cases j with
        | append es c =>
          simp only [jobEnts, List.append_nil] at hxm ⊢
          have hmm := runAll_appends (js := [Job.append es c])
            (by intro k hk; simp only [List.mem_singleton] at hk
                exact ⟨es, c, hk, by intro h0; rw [h0] at hxm; simp at hxm⟩) hm
          subst hmm
          rw [Sto.at_iff hmok.idx] at hme
          have : x = e := consec_inj hmok.idx (by
            show x ∈ a.ents ++ jobEnts [Job.append es c]
            simp [jobEnts, hxm]) hme.1 (by omega)
          rw [← this]; exact hxm
        | _ => simp [jobEnts] at hxm
      · exact absurd ⟨x, hxm, hxi⟩ hex

theorem Fresh.safe {s : State α} {L} {ev : List Id} (h : Fresh s ev) (hc : Core s L) {c : Id} (hcm : c ∈ s.clears) :
    SafeClear s c := by
  intro e rest hmem hlt es cid hjob x hx hxi
  have heL : e ∈ L := hc.suf.subset (by rw [hmem]; exact List.mem_cons_self)
  have hat : (⟨s.first, L⟩ : Sto α).at e.index = some e := (Sto.at_iff hc.idx).mpr ⟨heL, rfl⟩
  have := runAll_written hc.pend hc.sto hc.jobs hat ⟨x, mem_jobEnts.mpr ⟨es, cid, hjob, hx⟩, hxi⟩
  rw [h.clearQ c hcm e this] at hlt
  simp at hlt

/-! ### All histories -/

theorem getTerm_cases (s : State α) (i : Int) :
    s.getTerm i = 0 ∨ (i = s.virt.index ∧ s.getTerm i = s.virt.term) ∨ (i = s.snap.index ∧ s.getTerm i = s.snap.term) ∨
      ∃ e, s.getEntry i = some e ∧ s.getTerm i = e.term := by
  unfold State.getTerm State.getEntry
  by_cases h0 : i = 0
  · rw [if_pos h0]; exact Or.inl rfl
  · rw [if_neg h0]
    by_cases hv : i = s.virt.index
    · rw [if_pos hv]; exact Or.inr (Or.inl ⟨hv, rfl⟩)
    · rw [if_neg hv]
      by_cases hs : i = s.snap.index
      · rw [if_pos hs]; exact Or.inr (Or.inr (Or.inl ⟨hs, rfl⟩))
      · rw [if_neg hs]
        by_cases hr : i > s.last ∨ i < s.first
        · rw [if_pos hr]; exact Or.inl rfl
        · rw [if_neg hr, if_neg hr]
          cases s.memAt i with
          | some e => exact Or.inr (Or.inr (Or.inr ⟨e, rfl, rfl⟩))
          | none =>
            dsimp only
            unfold Sto.termAt
            cases s.store.at i with
            | none => exact Or.inl rfl
            | some e => exact Or.inr (Or.inr (Or.inr ⟨e, rfl, rfl⟩))

theorem Core.getTerm_bnd {s : State α} {L} {ev : List Id} (h : Core s L) (hev : ∀ e ∈ L, entId e ∈ ev)
    (hs : Bnd ev s.snap) (hv : Bnd ev s.virt) (i : Int) : Bnd ev ⟨i, s.getTerm i⟩ := by
  rcases getTerm_cases s i with ht | ⟨hi, ht⟩ | ⟨hi, ht⟩ | ⟨e, he, ht⟩
  · left; show s.getTerm i ≤ 0; omega
  · rw [ht, hi]; exact hv
  · rw [ht, hi]; exact hs
  · rw [h.getEntry] at he
    obtain ⟨hm, hi⟩ := (Sto.at_iff (a := logOf s L) h.idx).mp he
    rw [ht, ← hi]
    exact Bnd.mem (hev e hm)

theorem SnapRes.sub {s : State α} {L L'} {m : Id} (h : SnapRes s L m L') : ∀ e ∈ L', e ∈ L := by
  intro e he
  cases h with
  | beyond _ => exact List.mem_of_mem_drop he
  | same _ _ => exact List.mem_of_mem_drop he
  | sameFirst _ _ => exact he
  | differs _ _ => simp at he

theorem Fresh.setSnapshot {s : State α} {ev : List Id} (h : Fresh s ev) (m : Id) (w : List Id) (hm : Bnd (ev ++ w) m) :
    Fresh (s.setSnapshot m) (ev ++ w) := by
  unfold State.setSnapshot
  by_cases h1 : m.index ≤ s.snap.index
  · rw [if_pos h1]; exact h.congr w rfl rfl rfl rfl (h.snapB.mono w) (h.virtB.mono w)
  · rw [if_neg h1]
    dsimp only
    by_cases h2 : s.getTerm m.index = 0
    · rw [if_pos h2]
      exact h.push w rfl rfl rfl rfl hm hm (by simp [jobIds]) (by simp [jobEnts])
    · rw [if_neg h2]
      by_cases h3 : s.getTerm m.index = m.term
      · rw [if_pos h3]
        by_cases h4 : s.snap.index > 0
        · rw [if_pos h4]
          exact h.push w rfl rfl rfl rfl hm (h.snapB.mono w) (by simp [jobIds]) (by simp [jobEnts])
        · rw [if_neg h4]
          exact h.congr w rfl rfl rfl rfl hm (h.virtB.mono w)
      · rw [if_neg h3]
        exact h.push w rfl rfl rfl rfl hm hm (by simp [jobIds]) (by simp [jobEnts])

theorem init_fresh {a : Sto α} (ha : StoOk a) : Fresh (init a) (a.ents.map entId) := by
  have hp := ha.pos
  refine ⟨Or.inl (Int.le_refl 0), Or.inl (Int.le_refl 0), ?_, by simp [init], by simp [init], by simp [init],
    by simp [init, jobEnts], by simp [init], by simp [init], List.Pairwise.nil⟩
  show Bnd _ ⟨a.last, a.termAt a.last⟩
  unfold Sto.termAt
  cases hl : a.at a.last with
  | none => exact Or.inl (Int.le_refl 0)
  | some e =>
    obtain ⟨hm, hi⟩ := (Sto.at_iff ha.idx).mp hl
    apply Bnd.mem
    rw [← hi]
    exact List.mem_map_of_mem hm

theorem Increasing.left {x y : List Id} (h : Increasing (x ++ y)) : Increasing x := (List.pairwise_append.mp h).1

theorem Increasing.cross {x y : List Id} (h : Increasing (x ++ y)) : ∀ a ∈ x, ∀ b ∈ y, a.lt b = true :=
  (List.pairwise_append.mp h).2.2

/-- What all histories without an error satisfy. -/
structure Good (a : Sto α) (s : State α) (ev : List Id) (dn : List (Job α)) (L : List (Ent α)) : Prop where
  inv : Inv s L
  ids : ∀ e ∈ L, entId e ∈ ev
  done : a.runAll dn = some s.store
  fresh : Increasing ev → Fresh s ev

theorem truncatePrefix_store (s : State α) (k : Int) : (s.truncatePrefix k).store = s.store := rfl

theorem setSnapshot_store (s : State α) (m : Id) : (s.setSnapshot m).store = s.store := by
  unfold State.setSnapshot State.truncatePrefix State.resetLog
  split
  · rfl
  · dsimp only
    split
    · rfl
    · split
      · split <;> rfl
      · rfl

theorem truncateSuffix_store (s : State α) (k : Int) : (s.truncateSuffix k).store = s.store := by
  unfold State.truncateSuffix; split <;> rfl

theorem runAll_snocs {a b : Sto α} {x y : List (Job α)} {c : Sto α} (h : a.runAll x = some b) (h2 : b.runAll y = some c) :
    a.runAll (x ++ y) = some c := by
  rw [runAll_append, h]; exact h2

theorem lastOf_ids (l : Id) (js : List (Job α)) (n : Nat) :
    lastOf l (jobEnts js) n = l ∨ ∃ j ∈ js, lastOf l (jobEnts js) n ∈ jobIds j := by
  unfold lastOf
  cases h : ((jobEnts js).take n).getLast? with
  | none => exact Or.inl rfl
  | some e =>
    right
    have he : e ∈ jobEnts js := List.mem_of_mem_take (List.mem_of_getLast? h)
    obtain ⟨es, c, hm, hx⟩ := mem_jobEnts.mp he
    exact ⟨_, hm, List.mem_map_of_mem hx⟩

theorem Run.good {a : Sto α} {s : State α} {ev : List Id} {dn : List (Job α)} (r : Run a s ev dn)
    (he : s.err = false) : ∃ L, Good a s ev dn L := by
  induction r with
  | start h ht h1 =>
    exact ⟨a.ents, init_inv h ht h1, fun e he => List.mem_map_of_mem he, rfl, fun _ => init_fresh h⟩
  | startSnap h ht m hm hok =>
    have hi := init_inv0 h ht
    obtain ⟨L, hL, hres⟩ := hi.setSnapshot m hm hok
    refine ⟨L, hL, fun e he => List.mem_append_left _ (List.mem_map_of_mem (hres.sub e he)), ?_, ?_⟩
    · rw [setSnapshot_store]; rfl
    · intro _
      have hf := init_fresh h
      apply hf.setSnapshot
      by_cases hg : (init a).getTerm m.index = m.term
      · rw [if_pos hg, List.append_nil]
        have := hi.toCore.getTerm_bnd (fun e he => List.mem_map_of_mem he) hf.snapB hf.virtB m.index
        rwa [hg] at this
      · rw [if_neg hg]; exact Bnd.mem (by simp)
  | @leader s ev dn r vs cid ht ih =>
    have hes : s.err = false := by
      cases h : s.err with
      | false => rfl
      | true => unfold State.appendLeader at he; rw [if_pos h] at he; simp [h] at he
    obtain ⟨L, hg⟩ := ih hes
    have h1 := hg.inv.appendLeader hes vs cid ht
    have hst : s.appendLeader vs cid = ({ s with last := s.last + vs.length }).enqueue (number (s.last + 1) vs) cid := by
      unfold State.appendLeader; rw [if_neg (by rw [hes]; simp)]
    rw [hes]
    simp only [Bool.false_eq_true, if_false]
    refine ⟨_, h1, ?_, by rw [hst]; exact hg.done, ?_⟩
    · intro e he
      rcases List.mem_append.mp he with he | he
      · exact List.mem_append_left _ (hg.ids e he)
      · exact List.mem_append_right _ (List.mem_map_of_mem he)
    · intro hinc
      rw [hst]
      have hf := hg.fresh hinc.left
      refine hf.push _ rfl rfl rfl rfl (hf.snapB.mono _) (hf.virtB.mono _) ?_ ?_
      · intro x hx; exact Bnd.mem (List.mem_append_right _ hx)
      · intro x hx
        simp only [jobEnts, List.append_nil] at hx
        refine ⟨?_, fun y hy => hinc.cross y hy _ (List.mem_map_of_mem hx)⟩
        have := h1.termPos x (List.mem_append_right _ hx)
        exact this
  | @append s ev dn r es cid f hc hne ht hnc ih =>
    have hes : s.err = false := by rw [append_err] at he; exact he
    obtain ⟨L, hg⟩ := ih hes
    obtain ⟨L', h1, hres⟩ := hg.inv.append hes es cid hc hne ht hnc
    refine ⟨L', h1, ?_, ?_, ?_⟩
    · intro e he
      cases hres with
      | from_ p x rest hp hm hcn hi1 hi2 b hs hn =>
        rw [hn]
        rcases List.mem_append.mp he with he | he
        · exact List.mem_append_left _ (hg.ids e (List.mem_of_mem_take he))
        · exact List.mem_append_right _ (List.mem_map_of_mem he)
      | _ => exact List.mem_append_left _ (hg.ids e he)
    · cases hres with
      | gap f hf h hs hn => rw [hs]; exact hg.done
      | known b hb h hs hn => rw [hs]; exact hg.done
      | allMatch hm hs hn => rw [hs]; exact hg.done
      | from_ p x rest hp hm hcn hi1 hi2 b hs hn =>
        rw [hs]
        show a.runAll dn = some (if x.index ≤ s.last then s.truncateSuffix (x.index - 1) else s).store
        split
        · rw [truncateSuffix_store]; exact hg.done
        · exact hg.done
    · intro hinc
      have hf := hg.fresh hinc.left
      cases hres with
      | gap f hf' h hs hn => rw [hs]; exact hf.congr _ rfl rfl rfl rfl (hf.snapB.mono _) (hf.virtB.mono _)
      | known b hb h hs hn => rw [hs]; exact hf.congr _ rfl rfl rfl rfl (hf.snapB.mono _) (hf.virtB.mono _)
      | allMatch hm hs hn =>
        rw [hs]
        exact hf.push _ rfl rfl rfl rfl (hf.snapB.mono _) (hf.virtB.mono _) (by simp [jobIds]) (by simp [jobEnts])
      | from_ p x rest hp hm hcn hi1 hi2 b hs hn =>
        rw [hs]
        have hnew : ∀ y ∈ x :: rest, 1 ≤ y.term ∧ ∀ z ∈ ev, z.lt (entId y) = true := by
          intro y hy
          refine ⟨ht y (by rw [hp]; exact List.mem_append_right _ hy), fun z hz => ?_⟩
          apply hinc.cross z hz
          rw [hn]; exact List.mem_map_of_mem hy
        have hids : ∀ i ∈ jobIds (Job.append (x :: rest) cid), Bnd (ev ++ (s.newOf es).map entId) i := by
          intro i hi
          rw [hn]; exact Bnd.mem (List.mem_append_right _ hi)
        have hlen := hg.inv.len
        have hpos := hg.inv.pos
        have haf := hg.inv.appFirst
        by_cases hle : x.index ≤ s.last
        · rw [if_pos hle]
          have htr : s.truncateSuffix (x.index - 1) =
              { s with mem := MemLog.popBack (x.index - 1) s.mem, last := x.index - 1,
                       queue := s.queue ++ [.truncSuffix (x.index - 1)
                         (State.getTerm { s with mem := MemLog.popBack (x.index - 1) s.mem, last := x.index - 1 } (x.index - 1))] } := by
            unfold State.truncateSuffix; rw [if_neg (by omega)]
          have hcore := hg.inv.toCore.truncateSuffix (k := x.index - 1)
            (t := State.getTerm { s with mem := MemLog.popBack (x.index - 1) s.mem, last := x.index - 1 } (x.index - 1))
            (by omega) (by omega)
          rw [← htr] at hcore
          have hb := hcore.getTerm_bnd (ev := ev) (fun e he => hg.ids e (List.mem_of_mem_take he))
            (by rw [htr]; exact hf.snapB) (by rw [htr]; exact hf.virtB) (x.index - 1)
          have hf1 : Fresh (s.truncateSuffix (x.index - 1)) (ev ++ []) := by
            refine hf.push [] (j := .truncSuffix (x.index - 1)
                         (State.getTerm { s with mem := MemLog.popBack (x.index - 1) s.mem, last := x.index - 1 } (x.index - 1)))
                         (by rw [htr]) (by rw [htr]) (by rw [htr]) (by rw [htr])
                (by rw [htr]; exact hf.snapB.mono _) (by rw [htr]; exact hf.virtB.mono _) ?_ (by simp [jobEnts])
            intro i hi
            simp only [jobIds, List.mem_singleton] at hi
            subst hi
            rw [htr] at hb
            rw [List.append_nil]
            exact hb
          rw [List.append_nil] at hf1
          refine hf1.push _ rfl rfl rfl rfl (hf1.snapB.mono _) (hf1.virtB.mono _) hids ?_
          intro y hy
          simp only [jobEnts, List.append_nil] at hy
          exact hnew y hy
        · rw [if_neg hle]
          refine hf.push _ rfl rfl rfl rfl (hf.snapB.mono _) (hf.virtB.mono _) hids ?_
          intro y hy
          simp only [jobEnts, List.append_nil] at hy
          exact hnew y hy
  | @appendNone s ev dn r cid ih =>
    have hes : s.err = false := by rw [append_err] at he; exact he
    obtain ⟨L, hg⟩ := ih hes
    have hst : s.append [] cid = s.enqueue [] cid := by
      unfold State.append; rw [if_neg (by rw [hes]; simp)]; rfl
    rw [hst]
    have hcore := hg.inv.toCore.enqueue (es := []) cid trivial (by simp)
    rw [List.append_nil] at hcore
    refine ⟨L, ?_, hg.ids, hg.done, ?_⟩
    · refine hg.inv.newTail (hcore.congr rfl ?_ rfl rfl rfl) rfl rfl rfl rfl hg.inv.appLast (fun e he _ => he)
      show s.last = s.last + ((0 : Nat) : Int); omega
    · intro hinc
      have hf := hg.fresh hinc
      have := hf.push (s' := s.enqueue [] cid) [] rfl rfl rfl rfl (hf.snapB.mono _) (hf.virtB.mono _) (by simp [jobIds]) (by simp [jobEnts])
      rwa [List.append_nil] at this
  | @lastId s ev dn r cid hne ih =>
    obtain ⟨L, hg⟩ := ih he
    have hI := hg.inv
    have hcore : Core (s.askLastId cid) L := by
      refine ⟨hI.pos, hI.idx, hI.len, hI.suf, hI.sto, ?_, ?_, ?_, hI.termPos⟩
      · intro es c hm
        apply hI.jobs es c
        rcases List.mem_append.mp hm with hm | hm
        · exact hm
        · simp at hm
      · show s.store.runAll (s.queue ++ [.lastId cid s.lastLogId]) = _
        rw [runAll_snoc _ _ _ _ hI.pend]; rfl
      · intro es c hm
        apply hI.npend es c
        rcases List.mem_append.mp hm with hm | hm
        · exact hm
        · simp at hm
    refine ⟨L, ⟨⟨hcore, hI.snapLast, hI.snapFirst, hI.snapPos, hI.snapTerm, hI.virtOk, hI.appSnap, hI.appLast⟩, hI.appFirst⟩,
      hg.ids, hg.done, ?_⟩
    intro hinc
    have hf := hg.fresh hinc
    have := hf.push (s' := (s.askLastId cid)) [] rfl rfl rfl rfl (hf.snapB.mono _) (hf.virtB.mono _) (by simp [jobIds]) (by simp [jobEnts])
    rwa [List.append_nil] at this
  | @setSnapshot s ev dn r m hok ih =>
    rw [setSnapshot_err] at he
    obtain ⟨L, hg⟩ := ih he
    by_cases hm : m.index ≤ s.snap.index
    · have hst : s.setSnapshot m = s := by unfold State.setSnapshot; rw [if_pos hm]
      rw [hst, if_pos (Or.inl hm), List.append_nil]
      exact ⟨L, hg⟩
    · obtain ⟨L', hL, hres⟩ := hg.inv.toInv0.setSnapshot m (by omega) (hok (by omega))
      refine ⟨L', hL, fun e he => List.mem_append_left _ (hg.ids e (hres.sub e he)), by rw [setSnapshot_store]; exact hg.done, ?_⟩
      intro hinc
      have hf := hg.fresh hinc.left
      apply hf.setSnapshot
      by_cases ht : s.getTerm m.index = m.term
      · rw [if_pos (Or.inr ht), List.append_nil]
        have := hg.inv.toCore.getTerm_bnd hg.ids hf.snapB hf.virtB m.index
        rwa [ht] at this
      · rw [if_neg (by intro h; rcases h with h | h; exact hm h; exact ht h)]; exact Bnd.mem (by simp)
  | @clearBuffered s ev dn r ih =>
    have hes : s.err = false := by
      unfold State.clearBuffered at he
      split at he <;> exact he
    obtain ⟨L, hg⟩ := ih hes
    refine ⟨_, hg.inv.clearBuffered, ?_, ?_, ?_⟩
    · intro e he
      apply hg.ids
      split at he
      · exact he
      · exact List.mem_of_mem_drop he
    · have : s.clearBuffered.store = s.store := by unfold State.clearBuffered; split <;> rfl
      rw [this]; exact hg.done
    · intro hinc
      have hf := hg.fresh hinc
      unfold State.clearBuffered
      split
      · have := hf.push (s' := ({ s with virt := s.snap } : State α).truncatePrefix (s.snap.index + 1)) [] rfl rfl rfl rfl
          (hf.snapB.mono _) (hf.snapB.mono _) (by simp [jobIds]) (by simp [jobEnts])
        rwa [List.append_nil] at this
      · exact hf
  | @setApplied s ev dn r i h1 h2 ih =>
    have hes : s.err = false := by
      unfold State.setApplied at he
      split at he <;> exact he
    obtain ⟨L, hg⟩ := ih hes
    refine ⟨L, hg.inv.setApplied i h1 h2, hg.ids, ?_, ?_⟩
    · have : (s.setApplied i).store = s.store := by unfold State.setApplied; split <;> rfl
      rw [this]; exact hg.done
    · intro hinc
      have hf := hg.fresh hinc
      unfold State.setApplied
      split
      · exact hf
      · refine ⟨hf.snapB, hf.virtB, hf.diskB, hf.roundB, ?_, hf.jobB, hf.diskQ, hf.roundQ, ?_, hf.ord⟩
        · intro c hc
          rcases List.mem_append.mp hc with hc | hc
          · exact hf.clearB c hc
          · simp only [List.mem_singleton] at hc; subst hc; exact hf.diskB.min i
        · intro c hc x hx
          rcases List.mem_append.mp hc with hc | hc
          · exact hf.clearQ c hc x hx
          · simp only [List.mem_singleton] at hc; subst hc; exact Id.min_lt i (hf.diskQ x hx)
  | @clear s ev dn r c hc h ih =>
    have heq : (s.clear c).err = s.err ∧ (s.clear c).store = s.store ∧ (s.clear c).queue = s.queue ∧
        (s.clear c).disk = s.disk ∧ (s.clear c).round = s.round ∧ (s.clear c).clears = s.clears ∧
        (s.clear c).snap = s.snap ∧ (s.clear c).virt = s.virt := by
      unfold State.clear
      cases s.mem with
      | nil => exact ⟨rfl, rfl, rfl, rfl, rfl, rfl, rfl, rfl⟩
      | cons e es => dsimp only; split <;> exact ⟨rfl, rfl, rfl, rfl, rfl, rfl, rfl, rfl⟩
    obtain ⟨e1, e2, e3, e4, e5, e6, e7, e8⟩ := heq
    rw [e1] at he
    obtain ⟨L, hg⟩ := ih he
    have hsafe : SafeClear s c := by
      rcases h with h | h
      · exact (hg.fresh h).safe hg.inv.toCore hc
      · exact h
    refine ⟨L, hg.inv.clear c hsafe, hg.ids, by rw [e2]; exact hg.done, ?_⟩
    intro hinc
    have hf := hg.fresh hinc
    have := hf.congr (s' := s.clear c) [] e3 e4 e5 e6 (by rw [e7]; exact hf.snapB.mono _) (by rw [e8]; exact hf.virtB.mono _)
    rwa [List.append_nil] at this
  | @roundStart s ev dn r h ih =>
    obtain ⟨L, hg⟩ := ih he
    refine ⟨L, hg.inv.congr rfl rfl rfl rfl rfl rfl rfl rfl, hg.ids, hg.done, ?_⟩
    intro hinc
    have hf := hg.fresh hinc
    refine ⟨hf.snapB, hf.virtB, hf.diskB, ?_, hf.clearB, hf.jobB, hf.diskQ, ?_, hf.clearQ, hf.ord⟩
    · intro l hl
      have hl' : some s.disk = some l := hl
      cases hl'; exact hf.diskB
    · intro l hl
      have hl' : some s.disk = some l := hl
      cases hl'; exact hf.diskQ
  | @roundEnd s ev dn r l h ih =>
    have hes : s.err = false := by
      have : (s.roundEnd l).err = (s.setDisk l).err := rfl
      rw [this, setDisk_err] at he; exact he
    obtain ⟨L, hg⟩ := ih hes
    refine ⟨L, (hg.inv.setDisk l).congr rfl rfl rfl rfl rfl rfl rfl rfl, hg.ids, ?_, ?_⟩
    · have : (s.roundEnd l).store = s.store := by
        show (s.setDisk l).store = s.store
        unfold State.setDisk; split <;> rfl
      rw [this]; exact hg.done
    · intro hinc
      have hf := hg.fresh hinc
      unfold State.roundEnd State.setDisk
      cases hlt : l.lt s.disk with
      | true =>
        exact ⟨hf.snapB, hf.virtB, hf.diskB, by intro l hl; simp at hl, hf.clearB, hf.jobB, hf.diskQ,
          by intro l hl; simp at hl, hf.clearQ, hf.ord⟩
      | false =>
        refine ⟨hf.snapB, hf.virtB, hf.roundB l h, by intro l hl; simp at hl, ?_, hf.jobB, hf.roundQ l h,
          by intro l hl; simp at hl, ?_, hf.ord⟩
        · intro c hc
          rcases List.mem_append.mp hc with hc | hc
          · exact hf.clearB c hc
          · simp only [List.mem_singleton] at hc; subst hc; exact (hf.roundB l h).min _
        · intro c hc x hx
          rcases List.mem_append.mp hc with hc | hc
          · exact hf.clearQ c hc x hx
          · simp only [List.mem_singleton] at hc; subst hc; exact Id.min_lt _ (hf.roundQ l h x hx)
  | @flush s ev dn r js rest l n late hq hj h hn ih =>
    have hes : s.err = false := by
      cases hs : s.err with
      | false => rfl
      | true => simp [State.flush, hs] at he
    obtain ⟨L, hg⟩ := ih hes
    have hlate : late = false := by simp [State.flush, hes] at he; exact he.2
    have hn' : n = (jobEnts js).length := by simp [State.flush, hes] at he; exact he.1
    subst hlate hn'
    obtain ⟨h1, h2, h3⟩ := hg.inv.flushOk hes hq hj l
    refine ⟨L, h1, hg.ids, by rw [h2]; exact runAll_snocs hg.done h3, ?_⟩
    intro hinc
    refine (hg.fresh hinc).pop hq (by simp [State.flush, hes]) (by simp [State.flush, hes]) (by simp [State.flush, hes])
      (by simp [State.flush, hes]) (by simp [State.flush, hes]) ?_
    have hr : (s.flush js rest l (jobEnts js).length false).round = some (lastOf l (jobEnts js) (jobEnts js).length) := by
      simp [State.flush, hes]
    rcases lastOf_ids l js (jobEnts js).length with hl | ⟨j, hjm, hl⟩
    · left; rw [hr, hl, h]
    · right; exact ⟨j, hjm, _, hl, hr⟩
  | @execOk s ev dn r j rest l hq hj h ih =>
    have hes : s.err = false := by
      have : (s.execOk j rest l).err = s.err := by cases j <;> rfl
      rw [this] at he; exact he
    obtain ⟨L, hg⟩ := ih hes
    obtain ⟨h1, h2⟩ := hg.inv.execOk hq l
    refine ⟨L, h1, hg.ids, by rw [runAll_snoc _ _ _ _ hg.done]; exact h2, ?_⟩
    intro hinc
    refine (hg.fresh hinc).pop (js := [j]) hq (by cases j <;> rfl) (by cases j <;> rfl) (by cases j <;> rfl)
      (by cases j <;> rfl) (by cases j <;> rfl) ?_
    cases j with
    | truncSuffix k t => right; exact ⟨_, List.mem_singleton.mpr rfl, ⟨k, t⟩, by simp [jobIds], rfl⟩
    | append es c => exact Or.inl rfl
    | truncPrefix k => exact Or.inl rfl
    | reset k => exact Or.inl rfl
    | lastId k w => exact Or.inl rfl
  | execFails r j rest b hq h ih => simp [State.execFails] at he
  | error r ih => simp at he

/-! ### Snapshot ids were ids of the log -/

def WasThere (ev : List Id) (d : Id) : Prop := d = ⟨0, 0⟩ ∨ d ∈ ev

theorem WasThere.mono {ev : List Id} {d : Id} (h : WasThere ev d) (w : List Id) : WasThere (ev ++ w) d := by
  rcases h with h | h
  · exact Or.inl h
  · exact Or.inr (List.mem_append_left _ h)

theorem Core.getTerm_ev {s : State α} {L} {ev : List Id} (h : Core s L) (hev : ∀ e ∈ L, entId e ∈ ev)
    (hs : WasThere ev s.snap) (hv : WasThere ev s.virt) (i : Int) : s.getTerm i = 0 ∨ (⟨i, s.getTerm i⟩ : Id) ∈ ev := by
  rcases getTerm_cases s i with ht | ⟨hi, ht⟩ | ⟨hi, ht⟩ | ⟨e, he, ht⟩
  · exact Or.inl ht
  · rw [ht, hi]
    rcases hv with hv | hv
    · left; rw [hv]
    · right; exact hv
  · rw [ht, hi]
    rcases hs with hs | hs
    · left; rw [hs]
    · right; exact hs
  · rw [h.getEntry] at he
    obtain ⟨hm, hi⟩ := (Sto.at_iff (a := logOf s L) h.idx).mp he
    rw [ht, ← hi]
    exact Or.inr (hev e hm)

theorem setSnapshot_ids (s : State α) (m : Id) :
    ((s.setSnapshot m).snap = s.snap ∧ (s.setSnapshot m).virt = s.virt) ∨
    (s.snap.index < m.index ∧ (s.setSnapshot m).snap = m ∧
      ((s.setSnapshot m).virt = s.virt ∨ (s.setSnapshot m).virt = m ∨ (s.setSnapshot m).virt = s.snap)) := by
  unfold State.setSnapshot State.truncatePrefix State.resetLog
  by_cases h1 : m.index ≤ s.snap.index
  · rw [if_pos h1]; exact Or.inl ⟨rfl, rfl⟩
  · rw [if_neg h1]
    right
    refine ⟨by omega, ?_⟩
    dsimp only
    split
    · exact ⟨rfl, Or.inr (Or.inl rfl)⟩
    · split
      · split
        · exact ⟨rfl, Or.inr (Or.inr rfl)⟩
        · exact ⟨rfl, Or.inl rfl⟩
      · exact ⟨rfl, Or.inr (Or.inl rfl)⟩

theorem setSnapshot_there {s : State α} {L} {ev : List Id} (h : Core s L) (hev : ∀ e ∈ L, entId e ∈ ev)
    (hs : WasThere ev s.snap) (hv : WasThere ev s.virt) (m : Id) (hok : s.snap.index < m.index → SnapOk s m) (w : List Id)
    (hw : s.snap.index < m.index → s.getTerm m.index ≠ m.term → m ∈ w) :
    WasThere (ev ++ w) (s.setSnapshot m).snap ∧ WasThere (ev ++ w) (s.setSnapshot m).virt := by
  rcases setSnapshot_ids s m with ⟨h1, h2⟩ | ⟨hlt, h1, h2⟩
  · rw [h1, h2]; exact ⟨hs.mono w, hv.mono w⟩
  · have hm : WasThere (ev ++ w) m := by
      by_cases ht : s.getTerm m.index = m.term
      · have := h.getTerm_ev hev hs hv m.index
        have hp := (hok hlt).term
        rw [ht] at this
        rcases this with h0 | h0
        · omega
        · exact Or.inr (List.mem_append_left _ h0)
      · exact Or.inr (List.mem_append_right _ (hw hlt ht))
    rw [h1]
    refine ⟨hm, ?_⟩
    rcases h2 with h2 | h2 | h2
    · rw [h2]; exact hv.mono w
    · rw [h2]; exact hm
    · rw [h2]; exact hs.mono w

theorem truncateSuffix_ids (s : State α) (k : Int) :
    (s.truncateSuffix k).snap = s.snap ∧ (s.truncateSuffix k).virt = s.virt ∧ (s.truncateSuffix k).applied = s.applied ∧
      (s.truncateSuffix k).ran = s.ran := by
  unfold State.truncateSuffix; split <;> exact ⟨rfl, rfl, rfl, rfl⟩

theorem append_ids (s : State α) (es : List (Ent α)) (cid : Nat) :
    (s.append es cid).snap = s.snap ∧ (s.append es cid).virt = s.virt ∧ (s.append es cid).applied = s.applied := by
  cases he : s.err with
  | true => unfold State.append; rw [if_pos he]; exact ⟨rfl, rfl, rfl⟩
  | false =>
    rcases append_cases s es cid he with ⟨_, r, hr⟩ | ⟨s1, hs1, b, hb⟩
    · rw [hr]; exact ⟨rfl, rfl, rfl⟩
    · rw [hb]
      show s1.snap = _ ∧ s1.virt = _ ∧ s1.applied = _
      rcases hs1 with rfl | ⟨k, rfl⟩
      · exact ⟨rfl, rfl, rfl⟩
      · obtain ⟨h1, h2, h3, _⟩ := truncateSuffix_ids s k
        exact ⟨h1, h2, h3⟩

theorem Run.there {a : Sto α} {s : State α} {ev : List Id} {dn : List (Job α)} (r : Run a s ev dn)
    (he : s.err = false) : WasThere ev s.snap ∧ WasThere ev s.virt := by
  induction r with
  | start h ht h1 => exact ⟨Or.inl rfl, Or.inl rfl⟩
  | startSnap h ht m hm hok =>
    have hi := init_inv0 h ht
    refine setSnapshot_there hi.toCore (fun e he => List.mem_map_of_mem he) (Or.inl rfl) (Or.inl rfl) m (fun _ => hok) _ ?_
    intro _ hne; rw [if_neg hne]; simp
  | @leader s ev dn r vs cid ht ih =>
    have hes : s.err = false := by
      cases h : s.err with
      | false => rfl
      | true => unfold State.appendLeader at he; rw [if_pos h] at he; simp [h] at he
    have : (s.appendLeader vs cid).snap = s.snap ∧ (s.appendLeader vs cid).virt = s.virt := by
      unfold State.appendLeader; split <;> exact ⟨rfl, rfl⟩
    rw [this.1, this.2]
    exact ⟨(ih hes).1.mono _, (ih hes).2.mono _⟩
  | @append s ev dn r es cid f hc hne ht hnc ih =>
    rw [append_err] at he
    obtain ⟨h1, h2, _⟩ := append_ids s es cid
    rw [h1, h2]
    exact ⟨(ih he).1.mono _, (ih he).2.mono _⟩
  | @appendNone s ev dn r cid ih =>
    rw [append_err] at he
    obtain ⟨h1, h2, _⟩ := append_ids s [] cid
    rw [h1, h2]
    exact ih he
  | lastId r cid hne ih => exact ih he
  | @setSnapshot s ev dn r m hok ih =>
    rw [setSnapshot_err] at he
    obtain ⟨L, hg⟩ := r.good he
    obtain ⟨h1, h2⟩ := ih he
    refine setSnapshot_there hg.inv.toCore hg.ids h1 h2 m hok _ ?_
    intro hlt hne
    rw [if_neg (by intro h; rcases h with h | h; omega; exact hne h)]; simp
  | @clearBuffered s ev dn r ih =>
    have hes : s.err = false := by unfold State.clearBuffered at he; split at he <;> exact he
    unfold State.clearBuffered
    split
    · exact ⟨(ih hes).1, (ih hes).1⟩
    · exact ih hes
  | @setApplied s ev dn r i h1 h2 ih =>
    have hes : s.err = false := by unfold State.setApplied at he; split at he <;> exact he
    have : (s.setApplied i).snap = s.snap ∧ (s.setApplied i).virt = s.virt := by
      unfold State.setApplied; split <;> exact ⟨rfl, rfl⟩
    rw [this.1, this.2]; exact ih hes
  | @clear s ev dn r c hc h ih =>
    have heq : (s.clear c).err = s.err ∧ (s.clear c).snap = s.snap ∧ (s.clear c).virt = s.virt := by
      unfold State.clear
      cases s.mem with
      | nil => exact ⟨rfl, rfl, rfl⟩
      | cons e es => dsimp only; split <;> exact ⟨rfl, rfl, rfl⟩
    rw [heq.1] at he
    rw [heq.2.1, heq.2.2]; exact ih he
  | roundStart r h ih => exact ih he
  | @roundEnd s ev dn r l h ih =>
    have hes : s.err = false := by
      have : (s.roundEnd l).err = (s.setDisk l).err := rfl
      rw [this, setDisk_err] at he; exact he
    have : (s.roundEnd l).snap = s.snap ∧ (s.roundEnd l).virt = s.virt := by
      show (s.setDisk l).snap = _ ∧ (s.setDisk l).virt = _
      unfold State.setDisk; split <;> exact ⟨rfl, rfl⟩
    rw [this.1, this.2]; exact ih hes
  | @flush s ev dn r js rest l n late hq hj h hn ih =>
    have hes : s.err = false := by
      cases hs : s.err with
      | false => rfl
      | true => simp [State.flush, hs] at he
    have : (s.flush js rest l n late).snap = s.snap ∧ (s.flush js rest l n late).virt = s.virt := by
      simp [State.flush, hes]
    rw [this.1, this.2]; exact ih hes
  | @execOk s ev dn r j rest l hq hj h ih =>
    have : (s.execOk j rest l).err = s.err ∧ (s.execOk j rest l).snap = s.snap ∧ (s.execOk j rest l).virt = s.virt := by
      cases j <;> exact ⟨rfl, rfl, rfl⟩
    rw [this.1] at he
    rw [this.2.1, this.2.2]; exact ih he
  | execFails r j rest b hq h ih => simp [State.execFails] at he
  | error r ih => simp at he

/-! ### Closures of the disk thread run in the order of the appends -/

/-- Every job's closure of the disk thread is in `ran`, in order; nothing else is OK. -/
theorem flush_ran (s : State α) (js rest : List (Job α)) (l : Id) (n : Nat) (late : Bool) :
    (s.flush js rest l n late).ran = s.ran ++ (jobCids js).map (fun c => (c, !(s.flush js rest l n late).err)) := by
  unfold State.flush
  dsimp only
  split <;> rfl

end Braft.LogMgr
