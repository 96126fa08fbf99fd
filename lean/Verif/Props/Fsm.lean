import Verif.FsmRun
/-
C13, C14 and C53: FSMCaller.

`clog` is the committed log (C02, C03: there is one), `Steps clog batch s s'` are the histories of the thread
that runs the user's state machine (FsmRun.lean), with arbitrary user code in on_apply and arbitrary
failures to read entries. `s.ev` is what the user sees.
-/
set_option linter.unusedSectionVars false
set_option linter.unusedSimpArgs false
set_option linter.unusedVariables false

namespace Braft.Props
open Braft.Fsm
variable {D C : Type}

/-! ### Specification -/

namespace FsmSpec

/-- The data entries of a log with `a < index ≤ b`, in order. -/
def dataEntries (clog : Nat → Entry D) (a b : Nat) : List (Nat × D) :=
  (List.range' (a + 1) (b - a)).filterMap fun i =>
    match (clog i).kind with
    | .data d => some (i, d)
    | _ => none

/-- The events after the last successful on_snapshot_load, and that snapshot's index (`b` if there was
none). -/
def sinceLoad (b : Nat) : List (Ev D C) → Nat × List (Ev D C)
  | [] => (b, [])
  | e :: r =>
    if r.any (fun x => match x with | .load _ true => true | _ => false) then sinceLoad b r
    else match e with
      | .load i true => (i, r)
      | _ => (b, e :: r)

/-- The entries passed to on_apply. -/
def applied : List (Ev D C) → List (Nat × D)
  | [] => []
  | .apply i d _ :: r => (i, d) :: applied r
  | _ :: r => applied r

end FsmSpec

theorem applied_append (x y : List (Ev D C)) : FsmSpec.applied (x ++ y) = FsmSpec.applied x ++ FsmSpec.applied y := by
  induction x with
  | nil => rfl
  | cons e x ih => cases e <;> simp [FsmSpec.applied, ih]

theorem view_noload {b : Nat} {l : List (Nat × D)} {x : List (Ev D C)}
    (h : x.any (fun x => match x with | .load _ true => true | _ => false) = false) :
    view (b, l) x = (b, l ++ FsmSpec.applied x) := by
  induction x generalizing l with
  | nil => simp [view, FsmSpec.applied]
  | cons e x ih =>
    rw [List.any_cons, Bool.or_eq_false_iff] at h
    cases e with
    | apply i d c => simp only [view, FsmSpec.applied]; rw [ih h.2]; simp
    | load i ok =>
      cases ok with
      | true => exact absurd h.1 (by simp)
      | false => exact ih h.2
    | _ => exact ih h.2

theorem view_load {b b' : Nat} {l l' : List (Nat × D)} {x : List (Ev D C)}
    (h : x.any (fun x => match x with | .load _ true => true | _ => false) = true) : view (b, l) x = view (b', l') x := by
  induction x generalizing b b' l l' with
  | nil => cases h
  | cons e x ih =>
    rw [List.any_cons, Bool.or_eq_true] at h
    cases e with
    | load i ok =>
      cases ok with
      | true => rfl
      | false =>
        rcases h with h | h
        · cases h
        · exact ih h
    | _ =>
      rcases h with h | h
      · cases h
      · exact ih h

theorem view_sinceLoad (b : Nat) (x : List (Ev D C)) :
    view (b, ([] : List (Nat × D))) x = ((FsmSpec.sinceLoad b x).1, FsmSpec.applied (FsmSpec.sinceLoad b x).2) := by
  induction x with
  | nil => rfl
  | cons e x ih =>
    unfold FsmSpec.sinceLoad
    by_cases h : x.any (fun x => match x with | .load _ true => true | _ => false) = true
    · rw [if_pos h, ← ih]
      cases e with
      | load i ok => cases ok <;> exact view_load h
      | _ => exact view_load h
    · rw [if_neg h]
      have h' : x.any (fun x => match x with | .load _ true => true | _ => false) = false := by simpa using h
      cases e with
      | load i ok =>
        cases ok with
        | true => show view (i, []) x = _; rw [view_noload h']; simp
        | false => show view (b, []) x = _; rw [view_noload h']; simp [FsmSpec.applied]
      | apply i d c => show view (b, [] ++ [(i, d)]) x = _; rw [view_noload h']; simp [FsmSpec.applied]
      | _ => show view (b, []) x = _; rw [view_noload h']; simp [FsmSpec.applied]

/-! ### C13 -/

/-- **C13.** In every history of a node that started with the snapshot `b` (0 if none): the entries passed to
on_apply since the last snapshot was loaded are exactly the data entries of the committed log behind that
snapshot up to some index `m`, in order, each once; and `m` is the applied index unless there was an error. -/
theorem on_apply_exact {clog : Nat → Entry D} (hmono : TermsMono clog) {batch b t : Nat} (ht : t = termAt clog b)
    {s : State D C} (h : Steps clog batch (State.init b t) s) :
    ∃ m, (FsmSpec.sinceLoad b s.ev).1 ≤ m ∧ m ≤ s.applied ∧ (s.err = false → m = s.applied) ∧
      FsmSpec.applied (FsmSpec.sinceLoad b s.ev).2 = FsmSpec.dataEntries clog (FsmSpec.sinceLoad b s.ev).1 m := by
  obtain ⟨m, h1, h2, h3, h4⟩ := (h.inv hmono (init_inv clog b t ht)).seen
  rw [view_sinceLoad] at h1 h4
  exact ⟨m, h1, h2, h3, h4⟩

theorem doCommitted_applied {e : Env D} {s : State D C} {c : Nat} :
    s.applied ≤ (s.doCommitted e c).applied ∧ ((s.doCommitted e c).err = false → s.err = false ∧ c ≤ (s.doCommitted e c).applied) ∧
    (s.err = true → (s.doCommitted e c).err = true) ∧ (s.doCommitted e c).pend = s.pend := by
  unfold State.doCommitted
  split
  · rename_i h
    exact ⟨Nat.le_refl _, (fun h' => by rw [h] at h'; cases h'), fun h' => h', rfl⟩
  · rename_i h
    have h' : s.err = false := by simpa using h
    split
    · rename_i hc; exact ⟨Nat.le_refl _, fun _ => ⟨h', hc⟩, fun h' => h', rfl⟩
    · rename_i hc
      dsimp only
      refine ⟨by omega, fun _ => ⟨h', Nat.le_refl _⟩, fun h2 => absurd h2 h, ?_⟩
      split
      · show (State.setError _).pend = s.pend
        unfold State.setError; split <;> rfl
      · rfl

theorem flush_applied {e : Env D} {s : State D C} :
    s.applied ≤ (s.flush e).applied ∧ (s.err = true → (s.flush e).err = true) ∧ (s.flush e).pend = none ∧
    ((s.flush e).err = false → ∀ c, s.pend = some c → c ≤ (s.flush e).applied) := by
  unfold State.flush
  cases hp : s.pend with
  | none => exact ⟨Nat.le_refl _, fun h => h, hp, fun _ c hc => by cases hc⟩
  | some c =>
    obtain ⟨h1, h2, h3, h4⟩ := doCommitted_applied (e := e) (s := s) (c := c)
    exact ⟨h1, h3, rfl, fun h c' hc => by cases hc; exact (h2 h).2⟩

/-- The notified index `i` is dealt with, or waits in the loop. -/
def Waits (i : Nat) (s : State D C) : Prop := s.err = true ∨ i ≤ s.applied ∨ ∃ p, s.pend = some p ∧ i ≤ p

theorem setError_fields (s : State D C) : s.setError.applied = s.applied ∧ s.setError.pend = s.pend ∧ s.setError.err = true ∧
    s.setError.term = s.term := by
  unfold State.setError
  split
  · rename_i h; exact ⟨rfl, rfl, h, rfl⟩
  · exact ⟨rfl, rfl, rfl, rfl⟩

theorem Waits.flush {i : Nat} {s : State D C} (h : Waits i s) (e : Env D) : (s.flush e).err = true ∨ i ≤ (s.flush e).applied := by
  obtain ⟨h1, h2, h3, h4⟩ := flush_applied (e := e) (s := s)
  rcases h with h | h | ⟨p, hp, hi⟩
  · exact Or.inl (h2 h)
  · exact Or.inr (by omega)
  · cases he : (s.flush e).err with
    | true => exact Or.inl rfl
    | false => right; have := h4 he p hp; omega

theorem take_waits {i j : Nat} {s : State D C} (h : Waits i s) : Waits i (s.take j) := by
  unfold State.take
  cases hp : s.pend with
  | none =>
    dsimp only
    rcases h with h | h | ⟨p, hp', hi⟩
    · exact Or.inl h
    · exact Or.inr (Or.inl h)
    · rw [hp] at hp'; cases hp'
  | some m =>
    dsimp only
    split
    · rcases h with h | h | ⟨p, hp', hi⟩
      · exact Or.inl h
      · exact Or.inr (Or.inl h)
      · rw [hp] at hp'; cases hp'; exact Or.inr (Or.inr ⟨j, rfl, by omega⟩)
    · exact h

theorem load_applied {clog : Nat → Entry D} (hmono : TermsMono clog) {b : Nat} {s : State D C} (hI : Inv clog b s) {l : Load}
    (hl : TaskOk clog (.load l)) : s.applied ≤ (s.doLoad l).applied ∧ (s.err = true → (s.doLoad l).err = true) := by
  unfold State.doLoad
  split
  · exact ⟨Nat.le_refl _, fun h => h⟩
  · rename_i he
    have he' : s.err = false := by simpa using he
    cases l with
    | noReader => exact ⟨Nat.le_refl _, fun h => h⟩
    | badMeta eio =>
      cases eio with
      | true => exact ⟨by show s.applied ≤ s.setError.applied; rw [(setError_fields s).1]; exact Nat.le_refl _, fun h => absurd h he⟩
      | false => exact ⟨Nat.le_refl _, fun h => h⟩
    | snap i t joint ok =>
      obtain ⟨hi, ht⟩ : 1 ≤ i ∧ t = (clog i).term := hl
      dsimp only
      split
      · exact ⟨Nat.le_refl _, fun h => h⟩
      · rename_i hst
        have hst' : idGt (s.applied, s.term) (i, t) = false := by simpa using hst
        rw [hI.term he', ht] at hst'
        have := not_stale hmono hi hst'
        split
        · exact ⟨this, fun h => absurd h he⟩
        · refine ⟨?_, fun h => absurd h he⟩
          rw [(setError_fields _).1]; exact Nat.le_refl _

theorem step_waits {clog : Nat → Entry D} (hmono : TermsMono clog) {batch b : Nat} {s s' : State D C} (hI : Inv clog b s)
    (hs : Step clog batch s s') : s.applied ≤ s'.applied ∧ ∀ i, Waits i s → Waits i s' := by
  have hfl : ∀ e : Env D, ∀ i, Waits i s → Waits i (s.flush e) := fun e i h =>
    (h.flush e).elim Or.inl (fun h => Or.inr (Or.inl h))
  have hap : ∀ e : Env D, s.applied ≤ (s.flush e).applied := fun e => (flush_applied (e := e) (s := s)).1
  have htk : ∀ (s : State D C) j, (s.take j).applied = s.applied := by
    intro s j; unfold State.take; split
    · split <;> rfl
    · rfl
  cases hs with
  | task e t he ht =>
    cases t with
    | committed j =>
      unfold State.task
      dsimp only
      split
      · exact ⟨by rw [htk]; exact Nat.le_refl _, fun i h => take_waits h⟩
      · exact ⟨by rw [htk]; exact hap e, fun i h => take_waits (hfl e i h)⟩
    | save w =>
      have : (s.task batch e (.save w)) = (s.flush e).doSave w := rfl
      rw [this]
      unfold State.doSave
      split
      · exact ⟨hap e, hfl e⟩
      · split
        · exact ⟨hap e, fun i h => hfl e i h⟩
        · exact ⟨hap e, hfl e⟩
    | load l =>
      have hl := load_applied hmono (hI.flush he) ht
      refine ⟨Nat.le_trans (hap e) hl.1, ?_⟩
      intro i h
      rcases h.flush e with h | h
      · exact Or.inl (hl.2 h)
      · exact Or.inr (Or.inl (Nat.le_trans h hl.1))
    | leader => exact ⟨hap e, fun i h => hfl e i h⟩
    | error =>
      refine ⟨?_, fun i h => ?_⟩
      · show s.applied ≤ (s.flush e).setError.applied
        rw [(setError_fields _).1]; exact hap e
      · exact Or.inl (setError_fields (s.flush e)).2.2.1
  | finish e he => exact ⟨hap e, hfl e⟩
  | queue q => exact ⟨Nat.le_refl _, fun i h => h⟩

theorem steps_waits {clog : Nat → Entry D} (hmono : TermsMono clog) {batch b : Nat} {s s' : State D C} (hI : Inv clog b s)
    (hs : Steps clog batch s s') : s.applied ≤ s'.applied ∧ ∀ i, Waits i s → Waits i s' := by
  induction hs with
  | refl => exact ⟨Nat.le_refl _, fun i h => h⟩
  | @step s1 s2 h h' ih =>
    obtain ⟨h1, h2⟩ := step_waits hmono (h.inv hmono hI) h'
    exact ⟨Nat.le_trans ih.1 h1, fun i h => h2 i (ih.2 i h)⟩

/-- **C13, progress.** An index that was notified as committed is applied at the end of the loop's round at
the latest, whatever happens in between, unless an error was reported; and the applied index never goes
back. -/
theorem committed_gets_applied {clog : Nat → Entry D} (hmono : TermsMono clog) {batch b t : Nat} (ht : t = termAt clog b)
    {s s2 : State D C} (h : Steps clog batch (State.init b t) s) (e e2 : Env D) (i : Nat)
    (he : ∀ c, s.pend = some c → EnvOk clog e s.cq c) (h2 : Steps clog batch (s.task batch e (.committed i)) s2) :
    ((s2.flush e2).err = true ∨ i ≤ (s2.flush e2).applied) ∧ s.applied ≤ s2.applied := by
  have hI := h.inv hmono (init_inv clog b t ht)
  have hst : Step clog batch s (s.task batch e (.committed i)) := .task s e _ he trivial
  have hI2 := hI.step hmono hst
  have htk : ∀ s : State D C, Waits i (s.take i) := by
    intro s
    unfold State.take
    cases hp : s.pend with
    | none => exact Or.inr (Or.inr ⟨i, rfl, Nat.le_refl _⟩)
    | some m =>
      dsimp only
      split
      · exact Or.inr (Or.inr ⟨i, rfl, Nat.le_refl _⟩)
      · exact Or.inr (Or.inr ⟨m, hp, by omega⟩)
  have hw : Waits i (s.task batch e (.committed i)) := by
    unfold State.task
    dsimp only
    split <;> exact htk _
  exact ⟨((steps_waits hmono hI2 h2).2 i hw).flush e2,
    Nat.le_trans (step_waits hmono hI hst).1 (steps_waits hmono hI2 h2).1⟩

/-- **C13, one call.** do_committed(c) passes to on_apply exactly the data entries in (applied, c], each with
the closure registered for its index, tells the state machine about exactly the stable (not joint) configurations in
this range, at their place among the entries, runs the closures of the other entries, and c is the applied index
afterwards, unless there is an error. -/
theorem do_committed_exact {clog : Nat → Entry D} {e : Env D} {s : State D C} {c : Nat} (he : s.err = false)
    (hc : s.applied < c) (hok : EnvOk clog e s.cq c) (hn : (s.doCommitted e c).err = false) :
    ∃ evs, (s.doCommitted e c).ev = s.ev ++ evs ∧ (s.doCommitted e c).applied = c ∧
      (s.doCommitted e c).term = (clog c).term ∧
      seen evs = dataOf clog (closureAt s.cq) s.applied c ∧
      told evs = expect clog (closureAt s.cq) s.applied c ∧ ∀ x ∈ evs, x ≠ .onError ∧ ∀ cc, x ≠ .failed cc := by
  obtain ⟨evs, m, ⟨h1, ht⟩, h2, h3, h4, h5, _, _, _, h6⟩ := doCommitted_spec he hc hok
  rcases h6 with ⟨_, e2, e3, e4, _, _⟩ | ⟨e1, _⟩
  · subst e2
    exact ⟨evs, e3, h5, e4, h4, ht, fun x hx => ⟨(by intro h; subst h; have := h1 _ hx; cases this),
      (by intro cc h; subst h; have := h1 _ hx; cases this)⟩⟩
  · rw [hn] at e1; cases e1

/-! ### C14 -/

/-- **C14, first part.** Once on_error was called, nothing but failed closures (of the same do_committed) and
leader-change callbacks follow: no entry, no snapshot load or save, no configuration; and it is called at
most once, namely if and only if the error is recorded. -/
theorem nothing_after_error {clog : Nat → Entry D} (hmono : TermsMono clog) {batch b t : Nat} (ht : t = termAt clog b)
    {s : State D C} (h : Steps clog batch (State.init b t) s) :
    (Ev.onError ∈ s.ev ↔ s.err = true) ∧
    ∀ pre post, s.ev = pre ++ .onError :: post → Ev.onError ∉ pre ∧ ∀ e ∈ post, e = .leader ∨ ∃ c, e = .failed c := by
  have hI := h.inv hmono (init_inv clog b t ht)
  constructor
  · constructor
    · intro hm
      cases he : s.err with
      | true => rfl
      | false => exact absurd hm (hI.noErr he)
    · intro he
      obtain ⟨pre, post, h1, _⟩ := hI.hasErr he
      rw [h1]; simp
  · intro pre post hs
    have he : s.err = true := by
      cases he : s.err with
      | true => rfl
      | false => exact absurd (by rw [hs]; simp) (hI.noErr he)
    obtain ⟨pre', post', h1, h2, h3⟩ := hI.hasErr he
    have hpost : Ev.onError ∉ post' := by
      intro hm
      rcases h3 _ hm with h | ⟨c, h⟩ <;> cases h
    have heq : pre ++ .onError :: post = pre' ++ .onError :: post' := by rw [← hs, h1]
    have : pre = pre' := by
      rcases List.append_eq_append_iff.mp heq with ⟨u, h4, h5⟩ | ⟨u, h4, h5⟩
      · cases u with
        | nil => rw [h4]; simp
        | cons a u =>
          rw [List.cons_append] at h5
          cases h5
          exact absurd (by rw [h4]; simp) h2
      · cases u with
        | nil => rw [h4]; simp
        | cons a u =>
          rw [List.cons_append] at h5
          cases h5
          exact absurd (by simp) hpost
    subst this
    have h6 := List.append_cancel_left heq
    cases h6
    exact ⟨h2, h3⟩

/-- **C14, second part.** If do_committed(c) ends with an error, then everything it passed to on_apply is the
committed entries in (applied, m], and either reading the entry m + 1 failed, or the user asked to roll
back (`rolled evs` entries in all) right after the data entry m; on_error is called after that, and then the
closures of exactly the indexes that were rolled back or not applied, m + 1 - rolled .. c, are run with
the error; the log manager is told m - rolled as the applied index. Partial: see `applied_index_after_error`
for what FSMCaller itself reports. -/
theorem error_fails_the_rest_partial {clog : Nat → Entry D} {e : Env D} {s : State D C} {c : Nat} (he : s.err = false)
    (hc : s.applied < c) (hok : EnvOk clog e s.cq c) (hn : (s.doCommitted e c).err = true) :
    ∃ evs m, s.applied ≤ m ∧ m ≤ c ∧ seen evs = dataOf clog (closureAt s.cq) s.applied m ∧
      told evs = expect clog (closureAt s.cq) s.applied m ∧
      (s.doCommitted e c).ev = s.ev ++ evs ++ [.onError] ++
        ((List.range' (m + 1 - rolled evs) (c + 1 - (m + 1 - rolled evs))).filterMap (closureAt s.cq)).map .failed ∧
      (rolled evs = 0 → m < c ∧ e.log (m + 1) = none) ∧ (0 < rolled evs → ∃ d, (clog m).kind = .data d) ∧
      (s.doCommitted e c).setApplied = s.setApplied ++ [(m - rolled evs, e.term (m - rolled evs))] := by
  obtain ⟨evs, m, ⟨h1, ht⟩, h2, h3, h4, h5, _, _, _, h6⟩ := doCommitted_spec he hc hok
  rcases h6 with ⟨e1, _⟩ | ⟨e1, e2, e3, e4, e5⟩
  · rw [hn] at e1; cases e1
  · exact ⟨evs, m, h2, h3, h4, ht, e2, e4, e3, e5⟩

/-! ### C53 -/

/-- **C53.** Whenever on_snapshot_save is called, for a snapshot with the id (i, t), the entries passed to
on_apply since the last loaded snapshot are exactly the data entries of the committed log up to i, and t is
the term of entry i: the snapshot's id says exactly what it contains. -/
theorem snapshot_id_exact {clog : Nat → Entry D} (hmono : TermsMono clog) {batch b t : Nat} (ht : t = termAt clog b)
    {s : State D C} (h : Steps clog batch (State.init b t) s) {pre post : List (Ev D C)} {i t' : Nat}
    (hs : s.ev = pre ++ .save i t' :: post) :
    t' = (if i = 0 then 0 else (clog i).term) ∧ (FsmSpec.sinceLoad b pre).1 ≤ i ∧
      FsmSpec.applied (FsmSpec.sinceLoad b pre).2 = FsmSpec.dataEntries clog (FsmSpec.sinceLoad b pre).1 i := by
  obtain ⟨h1, h2, h3⟩ := (h.inv hmono (init_inv clog b t ht)).saves pre i t' post hs
  rw [view_sinceLoad] at h2 h3
  exact ⟨h1, h2, h3⟩

/-! ### Examples -/

/-- A log: entry 2 is a configuration, entry 5 an empty one, the others are data. -/
def fsLog : Nat → Entry Nat := fun i =>
  ⟨if i ≤ 2 then 1 else 2, if i = 2 then .conf false else if i = 5 then .noop else .data (10 * i)⟩

theorem fsLog_mono : TermsMono fsLog := by
  intro i j _ h
  simp only [fsLog]
  split <;> split <;> omega

/-- The log manager reads everything; the user goes on to the end. -/
def fsEnv (us : List UOp) : Env Nat :=
  { log := fun i => some (fsLog i), term := fun i => (fsLog i).term, user := fun _ => us }

theorem fsEnv_ok (us : List UOp) (c : Nat) (q : ClosureQueue Nat) (h : (q.popUntil c).2.rc = 0) : EnvOk fsLog (fsEnv us) q c :=
  ⟨fun i _ _ => Or.inl rfl, fun i _ _ => rfl, h⟩

def fsQueue : ClosureQueue Nat := ⟨3, [some 3, some 4, some 5, some 6]⟩

def fs1 : State Nat Nat := ((State.init 0 0).task 512 (fsEnv []) (.committed 2)).task 512 (fsEnv []) (.committed 4)
def fs2 : State Nat Nat := ({ fs1 with cq := fsQueue }).task 512 (fsEnv [.next, .next, .next]) (.save true)
def fs3 : State Nat Nat := (fs2.task 512 (fsEnv []) (.committed 6)).flush (fsEnv [.next])

theorem fs3_steps : Steps fsLog 512 (State.init 0 0) fs3 := by
  have h1 : Steps fsLog 512 (State.init 0 0) fs1 :=
    .step (.step (.refl _) (.task _ (fsEnv []) (.committed 2) (by intro c h; cases h) trivial))
      (.task _ (fsEnv []) (.committed 4) (by intro c h; cases h; exact fsEnv_ok _ _ _ (by decide)) trivial)
  have h2 : Steps fsLog 512 (State.init 0 0) fs2 :=
    .step (.step h1 (.queue _ fsQueue))
      (.task _ (fsEnv [.next, .next, .next]) (.save true) (by intro c h; cases h; exact fsEnv_ok _ _ _ (by decide)) trivial)
  have hp : fs2.pend = none := by decide
  exact .step (.step h2 (.task _ (fsEnv []) (.committed 6) (by intro c h; rw [hp] at h; cases h) trivial))
    (.finish _ (fsEnv [.next]) (by
      intro c h
      rw [show (fs2.task 512 (fsEnv []) (.committed 6)).pend = some 6 by decide] at h
      cases h; exact fsEnv_ok _ _ _ (by decide)))

/-- The hypotheses are met: two notifications are merged, a snapshot is taken, and a third is done. -/
example : Steps fsLog 512 (State.init 0 0) fs3 ∧ fs3.err = false ∧ fs3.applied = 6 ∧
    fs3.ev = [.apply 1 10 none, .confCommitted 2, .apply 3 30 (some 3), .apply 4 40 (some 4), .save 4 2, .ran 5, .apply 6 60 (some 6)] :=
  ⟨fs3_steps, by decide, by decide, by decide⟩

/-- The user rolls back the last two of 3, 4 and 6 when it sees entry 4. -/
def fsBad : Env Nat := { fsEnv [] with user := fun i => if i = 3 then [.next, .rollback 2] else [.next] }
def fs4 : State Nat Nat := ({ State.init 2 1 with cq := fsQueue }).doCommitted fsBad 6

/-- The closures of 3 to 6 fail. -/
example : EnvOk fsLog fsBad fsQueue 6 ∧ fs4.err = true ∧
    fs4.ev = [.apply 3 30 (some 3), .apply 4 40 (some 4), .rollback 2, .onError, .failed 3, .failed 4, .failed 5, .failed 6] :=
  ⟨⟨fun i _ _ => Or.inl rfl, fun i _ _ => rfl, by decide⟩, by decide, by decide⟩

/-- **C14, missing part.** After the user has rolled back entries 3 and 4 (and 5 and 6 were never applied),
FSMCaller's last applied index is 6 (fsm_caller.cpp:316 stores the committed index), so that
read_committed_user_log returns entries that the state machine does not contain; the log manager was told
2. -/
theorem applied_index_after_error :
    ∃ (e : Env Nat) (s : State Nat Nat), EnvOk fsLog e s.cq 6 ∧ s.err = false ∧ s.applied = 2 ∧
      (s.doCommitted e 6).err = true ∧ (s.doCommitted e 6).applied = 6 ∧ (s.doCommitted e 6).setApplied = [(2, 1)] ∧
      rolled (s.doCommitted e 6).ev = 2 ∧ seen (s.doCommitted e 6).ev = [(3, 30, some 3), (4, 40, some 4)] :=
  ⟨fsBad, { State.init 2 1 with cq := fsQueue }, ⟨fun i _ _ => Or.inl rfl, fun i _ _ => rfl, by decide⟩, by decide, by decide,
    by decide, by decide, by decide, by decide, by decide⟩

end Braft.Props
