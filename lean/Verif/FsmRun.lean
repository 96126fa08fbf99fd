import Verif.FsmInv
/-
Histories of FSMCaller.
-/
set_option linter.unusedSectionVars false
set_option linter.unusedSimpArgs false
set_option linter.unusedVariables false

namespace Braft.Fsm
variable {D C : Type}

/-- Term of the entry before which nothing was applied. -/
def termAt (clog : Nat → Entry D) (i : Nat) : Nat := if i = 0 then 0 else (clog i).term

/-- What a task needs of the outside: snapshots are of the committed log. -/
def TaskOk (clog : Nat → Entry D) : Task → Prop
  | .load (.snap i t _ _) => 1 ≤ i ∧ t = (clog i).term
  | _ => True

/-- The steps: the loop of FSMCaller::run takes a task or ends; other threads change the closure queue. -/
inductive Step (clog : Nat → Entry D) (batch : Nat) : State D C → State D C → Prop where
  | task (s : State D C) (e : Env D) (t : Task) (he : ∀ c, s.pend = some c → EnvOk clog e s.cq c) (ht : TaskOk clog t) :
      Step clog batch s (s.task batch e t)
  | finish (s : State D C) (e : Env D) (he : ∀ c, s.pend = some c → EnvOk clog e s.cq c) : Step clog batch s (s.flush e)
  | queue (s : State D C) (q : ClosureQueue C) : Step clog batch s { s with cq := q }

inductive Steps (clog : Nat → Entry D) (batch : Nat) : State D C → State D C → Prop where
  | refl (s) : Steps clog batch s s
  | step {s s' s''} (h : Steps clog batch s s') (h' : Step clog batch s' s'') : Steps clog batch s s''

/-- Terms do not decrease in the log. -/
def TermsMono (clog : Nat → Entry D) : Prop := ∀ i j, 1 ≤ i → i ≤ j → (clog i).term ≤ (clog j).term

/-- Where the state machine's view starts: the index of the last snapshot loaded (or `b`), and the entries
passed to on_apply since. -/
def view (b : Nat × List (Nat × D)) : List (Ev D C) → Nat × List (Nat × D)
  | [] => b
  | .apply i d _ :: r => view (b.1, b.2 ++ [(i, d)]) r
  | .load i true :: r => view (i, []) r
  | _ :: r => view b r

theorem view_append (b : Nat × List (Nat × D)) (x y : List (Ev D C)) : view b (x ++ y) = view (view b x) y := by
  induction x generalizing b with
  | nil => rfl
  | cons e x ih =>
    cases e with
    | load i ok => cases ok <;> exact ih _
    | _ => exact ih _

theorem view_plain {b : Nat × List (Nat × D)} {x : List (Ev D C)} (h : ∀ e ∈ x, e.plain = true) :
    view b x = (b.1, b.2 ++ (seen x).map (fun p => (p.1, p.2.1))) := by
  induction x generalizing b with
  | nil => simp [view, seen]
  | cons e x ih =>
    have hx := fun b => ih (b := b) (fun e he => h e (List.mem_cons_of_mem _ he))
    have h0 := h e (List.mem_cons_self ..)
    cases e with
    | apply i d c => simp only [view, seen, hx, List.map_cons]; simp
    | rollback n => exact hx b
    | confCommitted i => exact hx b
    | ran c => exact hx b
    | failed c => cases h0
    | onError => cases h0
    | load i ok => cases h0
    | save i t => cases h0
    | leader => cases h0

theorem view_silent {b : Nat × List (Nat × D)} {x : List (Ev D C)}
    (h : ∀ e ∈ x, (∀ i d c, e ≠ .apply i d c) ∧ ∀ i, e ≠ .load i true) : view b x = b := by
  induction x generalizing b with
  | nil => rfl
  | cons e x ih =>
    have hx := ih (b := b) (fun e he => h e (List.mem_cons_of_mem _ he))
    have h0 := h e (List.mem_cons_self ..)
    cases e with
    | apply i d c => exact absurd rfl (h0.1 i d c)
    | load i ok =>
      cases ok with
      | true => exact absurd rfl (h0.2 i)
      | false => exact hx
    | _ => exact hx

/-- The data entries with `a < index ≤ b`. -/
def entriesOf (clog : Nat → Entry D) (a b : Nat) : List (Nat × D) :=
  (List.range' (a + 1) (b - a)).filterMap fun i =>
    match (clog i).kind with
    | .data d => some (i, d)
    | _ => none

theorem dataOf_entries (clog : Nat → Entry D) (cl : Nat → Option C) (a b : Nat) :
    (dataOf clog cl a b).map (fun p => (p.1, p.2.1)) = entriesOf clog a b := by
  unfold dataOf entriesOf
  rw [List.map_filterMap]
  apply filterMap_congr'
  intro i hi
  cases (clog i).kind <;> rfl

theorem entriesOf_append (clog : Nat → Entry D) {a b c : Nat} (h1 : a ≤ b) (h2 : b ≤ c) :
    entriesOf clog a b ++ entriesOf clog b c = entriesOf clog a c := by
  have := dataOf_append clog (fun _ => (none : Option Unit)) h1 h2
  rw [← dataOf_entries clog (fun _ => (none : Option Unit)), ← dataOf_entries clog (fun _ => (none : Option Unit)) b,
    ← List.map_append, this, dataOf_entries]

theorem entriesOf_self (clog : Nat → Entry D) (a : Nat) : entriesOf clog a a = [] := by simp [entriesOf]

/-- Invariant of histories that start at `b`. -/
structure Inv (clog : Nat → Entry D) (b : Nat) (s : State D C) : Prop where
  term : s.err = false → s.term = termAt clog s.applied
  seen : ∃ m, (view (b, []) s.ev).1 ≤ m ∧ m ≤ s.applied ∧ (s.err = false → m = s.applied) ∧
    (view (b, []) s.ev).2 = entriesOf clog (view (b, []) s.ev).1 m
  noErr : s.err = false → Ev.onError ∉ s.ev
  hasErr : s.err = true → ∃ pre post, s.ev = pre ++ .onError :: post ∧ Ev.onError ∉ pre ∧
    ∀ e ∈ post, e = .leader ∨ ∃ c, e = .failed c
  saves : ∀ pre i t post, s.ev = pre ++ .save i t :: post → t = termAt clog i ∧ (view (b, []) pre).1 ≤ i ∧
    (view (b, []) pre).2 = entriesOf clog (view (b, []) pre).1 i

theorem split_tail {β : Type} {x y z w : List β} {a : β} (h : x ++ y = z ++ a :: w) (hy : a ∉ y) :
    ∃ w', w = w' ++ y ∧ x = z ++ a :: w' := by
  rcases List.append_eq_append_iff.mp h with ⟨u, h1, h2⟩ | ⟨u, h1, h2⟩
  · exfalso
    apply hy; rw [h2]; simp
  · cases u with
    | nil =>
      exfalso
      simp only [List.nil_append] at h2
      apply hy; rw [← h2]; simp
    | cons a' u =>
      rw [List.cons_append] at h2
      cases h2
      exact ⟨u, rfl, h1⟩

/-- Adding events that contain no snapshot save. -/
theorem saves_push {clog : Nat → Entry D} {b : Nat} {ev x : List (Ev D C)}
    (h : ∀ pre i t post, ev = pre ++ .save i t :: post → t = termAt clog i ∧ (view (b, []) pre).1 ≤ i ∧
      (view (b, []) pre).2 = entriesOf clog (view (b, []) pre).1 i)
    (hx : ∀ i t, Ev.save i t ∉ x) :
    ∀ pre i t post, ev ++ x = pre ++ .save i t :: post → t = termAt clog i ∧ (view (b, []) pre).1 ≤ i ∧
      (view (b, []) pre).2 = entriesOf clog (view (b, []) pre).1 i := by
  intro pre i t post hs
  obtain ⟨w', _, h2⟩ := split_tail hs (hx i t)
  exact h pre i t w' h2

theorem Inv.setError {clog : Nat → Entry D} {b : Nat} {s : State D C} (h : Inv clog b s) : Inv clog b s.setError := by
  unfold State.setError
  split
  · exact h
  · rename_i he
    have he' : s.err = false := by simpa using he
    obtain ⟨m, h1, h2, h3, h4⟩ := h.seen
    have hv : view (b, []) (s.ev ++ [Ev.onError]) = view (b, []) s.ev := by
      rw [view_append]; rfl
    refine ⟨fun h0 => (by cases h0), ⟨m, ?_, h2, fun h0 => (by cases h0), ?_⟩, fun h0 => (by cases h0),
      fun _ => ⟨s.ev, [], rfl, h.noErr he', by simp⟩, ?_⟩
    · show (view (b, []) (s.ev ++ [Ev.onError])).1 ≤ m
      rw [hv]; exact h1
    · show (view (b, []) (s.ev ++ [Ev.onError])).2 = entriesOf clog (view (b, []) (s.ev ++ [Ev.onError])).1 m
      rw [hv]; exact h4
    · exact saves_push h.saves (by simp)

theorem Inv.doCommitted {clog : Nat → Entry D} {b : Nat} {s : State D C} (h : Inv clog b s) {e : Env D} {c : Nat}
    (hok : EnvOk clog e s.cq c) : Inv clog b (s.doCommitted e c) := by
  cases he : s.err with
  | true =>
    have : s.doCommitted e c = s := by unfold State.doCommitted; rw [if_pos he]
    rw [this]; exact h
  | false =>
    by_cases hc : s.applied < c
    · obtain ⟨evs, m, ⟨h1, _⟩, h2, h3, h4, h5, h5p, h5c, h5q, h6⟩ := doCommitted_spec he hc hok
      obtain ⟨m0, v1, v2, v3, v4⟩ := h.seen
      have hm0 := v3 he
      subst hm0
      have hview : view (b, []) (s.ev ++ evs) = ((view (b, []) s.ev).1, entriesOf clog (view (b, []) s.ev).1 m) := by
        rw [view_append, view_plain h1, h4, dataOf_entries, v4, entriesOf_append clog v1 h2]
      have hno : Ev.onError ∉ evs := fun hm => by have := h1 _ hm; cases this
      have hns : ∀ i t, Ev.save i t ∉ evs := fun i t hm => by have := h1 _ hm; cases this
      rcases h6 with ⟨e1, e2, e3, e4, e5, e6⟩ | ⟨e1, e2, e3, e4, e5⟩
      · subst e2
        refine ⟨?_, ⟨m, ?_, by rw [h5]; exact Nat.le_refl _, fun _ => h5.symm, ?_⟩, ?_, ?_, ?_⟩
        · intro _; rw [h5, e4]; unfold termAt; rw [if_neg (by omega)]
        · rw [e3, hview]; show (view (b, []) s.ev).1 ≤ m; omega
        · rw [e3, hview]
        · intro _; rw [e3]
          intro hm
          rcases List.mem_append.mp hm with hm | hm
          · exact h.noErr he hm
          · exact hno hm
        · intro h0; rw [e1] at h0; cases h0
        · rw [e3]; exact saves_push h.saves hns
      · have hsil : view (b, []) (s.doCommitted e c).ev = view (b, []) (s.ev ++ evs) := by
          rw [e2, List.append_assoc, view_append]
          apply view_silent
          intro x hx
          rcases List.mem_append.mp hx with hx | hx
          · rw [List.mem_singleton] at hx; subst hx
            exact ⟨(by intro i d c h; cases h), (by intro i h; cases h)⟩
          · obtain ⟨cc, _, rfl⟩ := List.mem_map.mp hx
            exact ⟨(by intro i d c h; cases h), (by intro i h; cases h)⟩
        refine ⟨fun h0 => (by rw [e1] at h0; cases h0), ⟨m, ?_, by rw [h5]; exact h3, fun h0 => (by rw [e1] at h0; cases h0), ?_⟩,
          fun h0 => (by rw [e1] at h0; cases h0), ?_, ?_⟩
        · rw [hsil, hview]; show (view (b, []) s.ev).1 ≤ m; omega
        · rw [hsil, hview]
        · intro _
          refine ⟨s.ev ++ evs, (closuresFrom s.cq (m + 1 - rolled evs) c).map .failed, by rw [e2]; simp, ?_, ?_⟩
          · intro hm
            rcases List.mem_append.mp hm with hm | hm
            · exact h.noErr he hm
            · exact hno hm
          · intro x hx
            obtain ⟨cc, _, rfl⟩ := List.mem_map.mp hx
            exact Or.inr ⟨cc, rfl⟩
        · rw [e2, List.append_assoc, List.append_assoc]
          refine saves_push h.saves ?_
          intro i t hm
          simp only [List.mem_append, List.mem_singleton, List.mem_map] at hm
          rcases hm with hm | hm | ⟨cc, _, hm⟩
          · exact hns i t hm
          · cases hm
          · cases hm
    · have : s.doCommitted e c = s := by
        unfold State.doCommitted; rw [if_neg (by rw [he]; simp), if_pos (by omega)]
      rw [this]; exact h

theorem Inv.congr {clog : Nat → Entry D} {b : Nat} {s s' : State D C} (h : Inv clog b s) (h1 : s'.applied = s.applied)
    (h2 : s'.term = s.term) (h3 : s'.err = s.err) (h4 : s'.ev = s.ev) : Inv clog b s' := by
  refine ⟨?_, ?_, ?_, ?_, ?_⟩
  · rw [h1, h2, h3]; exact h.term
  · rw [h1, h3, h4]; exact h.seen
  · rw [h3, h4]; exact h.noErr
  · rw [h3, h4]; exact h.hasErr
  · rw [h4]; exact h.saves

theorem Inv.flush {clog : Nat → Entry D} {b : Nat} {s : State D C} (h : Inv clog b s) {e : Env D}
    (hok : ∀ c, s.pend = some c → EnvOk clog e s.cq c) : Inv clog b (s.flush e) := by
  unfold State.flush
  cases hp : s.pend with
  | none => exact h
  | some c => exact (h.doCommitted (hok c hp)).congr rfl rfl rfl rfl

theorem Inv.take {clog : Nat → Entry D} {b : Nat} {s : State D C} (h : Inv clog b s) (i : Nat) : Inv clog b (s.take i) := by
  unfold State.take
  split
  · split
    · exact h.congr rfl rfl rfl rfl
    · exact h
  · exact h.congr rfl rfl rfl rfl

/-- A snapshot that is not stale is not behind. -/
theorem not_stale {clog : Nat → Entry D} (hmono : TermsMono clog) {a i : Nat} (hi : 1 ≤ i)
    (h : idGt (a, termAt clog a) (i, (clog i).term) = false) : a ≤ i := by
  apply Decidable.byContradiction
  intro hn
  have ha : termAt clog a = (clog a).term := by unfold termAt; rw [if_neg (by omega)]
  rw [ha] at h
  have := hmono i a hi (by omega)
  unfold idGt at h
  split at h
  · simp only [decide_eq_false_iff_not] at h; omega
  · simp only [decide_eq_false_iff_not] at h
    rename_i hne
    have hne' : (clog a).term ≠ (clog i).term := hne
    omega

theorem Inv.doLoad {clog : Nat → Entry D} {b : Nat} {s : State D C} (h : Inv clog b s) (hmono : TermsMono clog) {l : Load}
    (hl : TaskOk clog (.load l)) : Inv clog b (s.doLoad l) := by
  unfold State.doLoad
  split
  · exact h
  · rename_i he
    have he' : s.err = false := by simpa using he
    cases l with
    | noReader => exact h
    | badMeta eio => cases eio with | true => exact h.setError | false => exact h
    | snap i t joint ok =>
      dsimp only
      obtain ⟨hi, ht⟩ : 1 ≤ i ∧ t = (clog i).term := hl
      split
      · exact h
      · rename_i hst
        have hst' : idGt (s.applied, s.term) (i, t) = false := by simpa using hst
        obtain ⟨m, v1, v2, v3, v4⟩ := h.seen
        cases ok with
        | true =>
          rw [if_pos rfl]
          have hv : view (b, []) (s.ev ++ (Ev.load i true :: if joint = true then [] else [.confCommitted i])) = (i, []) := by
            rw [view_append]
            cases joint <;> rfl
          refine ⟨fun _ => ?_, ⟨i, ?_, Nat.le_refl _, fun _ => rfl, ?_⟩, ?_, ?_, ?_⟩
          · show t = termAt clog i
            unfold termAt; rw [if_neg (by omega), ht]
          · show (view (b, []) (s.ev ++ (Ev.load i true :: if joint = true then [] else [.confCommitted i]))).1 ≤ i
            rw [hv]; exact Nat.le_refl _
          · show (view (b, []) (s.ev ++ (Ev.load i true :: if joint = true then [] else [.confCommitted i]))).2 =
              entriesOf clog (view (b, []) (s.ev ++ (Ev.load i true :: if joint = true then [] else [.confCommitted i]))).1 i
            rw [hv, entriesOf_self]
          · intro _ hm
            rcases List.mem_append.mp hm with hm | hm
            · exact h.noErr he' hm
            · cases joint <;> simp at hm
          · intro h0; rw [show ({ s with ev := _, applied := i, term := t } : State D C).err = s.err from rfl, he'] at h0; cases h0
          · refine saves_push h.saves ?_
            intro i' t' hm
            cases joint <;> simp at hm
        | false =>
          rw [if_neg (by simp)]
          apply Inv.setError
          have hv : view (b, []) (s.ev ++ [Ev.load i false]) = view (b, []) s.ev := by rw [view_append]; rfl
          refine ⟨h.term, ⟨m, ?_, v2, v3, ?_⟩, ?_, ?_, ?_⟩
          · show (view (b, []) (s.ev ++ [Ev.load i false])).1 ≤ m
            rw [hv]; exact v1
          · show (view (b, []) (s.ev ++ [Ev.load i false])).2 = entriesOf clog (view (b, []) (s.ev ++ [Ev.load i false])).1 m
            rw [hv]; exact v4
          · intro _ hm
            rcases List.mem_append.mp hm with hm | hm
            · exact h.noErr he' hm
            · simp at hm
          · intro h0; rw [show ({ s with ev := _ } : State D C).err = s.err from rfl, he'] at h0; cases h0
          · exact saves_push h.saves (by simp)

theorem Inv.doSave {clog : Nat → Entry D} {b : Nat} {s : State D C} (h : Inv clog b s) (w : Bool) : Inv clog b (s.doSave w) := by
  unfold State.doSave
  split
  · exact h
  · rename_i he
    have he' : s.err = false := by simpa using he
    split
    · obtain ⟨m, v1, v2, v3, v4⟩ := h.seen
      have hm0 := v3 he'
      have hv : view (b, []) (s.ev ++ [Ev.save s.applied s.term]) = view (b, []) s.ev := by rw [view_append]; rfl
      refine ⟨h.term, ⟨m, ?_, v2, v3, ?_⟩, ?_, ?_, ?_⟩
      · show (view (b, []) (s.ev ++ [Ev.save s.applied s.term])).1 ≤ m
        rw [hv]; exact v1
      · show (view (b, []) (s.ev ++ [Ev.save s.applied s.term])).2 = entriesOf clog (view (b, []) (s.ev ++ [Ev.save s.applied s.term])).1 m
        rw [hv]; exact v4
      · intro _ hm
        rcases List.mem_append.mp hm with hm | hm
        · exact h.noErr he' hm
        · simp at hm
      · intro h0; rw [show ({ s with ev := _ } : State D C).err = s.err from rfl, he'] at h0; cases h0
      · intro pre i t post hs
        rcases List.eq_nil_or_concat post with rfl | ⟨post', z, rfl⟩
        · have := List.append_inj' hs rfl
          obtain ⟨h1, h2⟩ := this
          cases h2
          subst h1 
          rw [hm0] at v1 v4
          exact ⟨h.term he', v1, v4⟩
        · rw [List.concat_eq_append] at hs
          have hs' : s.ev ++ [Ev.save s.applied s.term] = (pre ++ .save i t :: post') ++ [z] := by
            rw [List.append_assoc]; exact hs
          exact h.saves pre i t post' (List.append_inj' hs' rfl).1
    · exact h

theorem Inv.step {clog : Nat → Entry D} (hmono : TermsMono clog) {batch b : Nat} {s s' : State D C} (h : Inv clog b s)
    (hs : Step clog batch s s') : Inv clog b s' := by
  cases hs with
  | task e t he ht =>
    cases t with
    | committed i =>
      unfold State.task
      dsimp only
      split
      · exact h.take i
      · exact (h.flush he).take i
    | save w => exact (h.flush he).doSave w
    | load l => exact (h.flush he).doLoad hmono ht
    | leader =>
      have hf := h.flush he
      show Inv clog b { s.flush e with ev := (s.flush e).ev ++ [.leader] }
      generalize s.flush e = s1 at *
      obtain ⟨m, v1, v2, v3, v4⟩ := hf.seen
      have hv : view (b, []) (s1.ev ++ [Ev.leader]) = view (b, []) s1.ev := by rw [view_append]; rfl
      refine ⟨hf.term, ⟨m, ?_, v2, v3, ?_⟩, ?_, ?_, ?_⟩
      · show (view (b, []) (s1.ev ++ [Ev.leader])).1 ≤ m
        rw [hv]; exact v1
      · show (view (b, []) (s1.ev ++ [Ev.leader])).2 = entriesOf clog (view (b, []) (s1.ev ++ [Ev.leader])).1 m
        rw [hv]; exact v4
      · intro h0 hm
        rcases List.mem_append.mp hm with hm | hm
        · exact hf.noErr h0 hm
        · simp at hm
      · intro h0
        obtain ⟨pre, post, h1, h2, h3⟩ := hf.hasErr h0
        refine ⟨pre, post ++ [.leader], by show s1.ev ++ [.leader] = _; rw [h1]; simp, h2, ?_⟩
        intro x hx
        rcases List.mem_append.mp hx with hx | hx
        · exact h3 x hx
        · rw [List.mem_singleton] at hx; exact Or.inl hx
      · exact saves_push hf.saves (by simp)
    | error => exact (h.flush he).setError
  | finish e he => exact h.flush he
  | queue q => exact h.congr rfl rfl rfl rfl

theorem init_inv (clog : Nat → Entry D) (b t : Nat) (ht : t = termAt clog b) : Inv clog b (State.init b t : State D C) :=
  ⟨fun _ => ht, ⟨b, Nat.le_refl _, Nat.le_refl _, fun _ => rfl, by rw [show (view (b, []) (State.init b t : State D C).ev) = (b, []) from rfl, entriesOf_self]⟩,
    fun _ h => by simp [State.init] at h, fun h => by simp [State.init] at h,
    fun pre i t' post h => by simp [State.init] at h⟩

theorem Steps.inv {clog : Nat → Entry D} (hmono : TermsMono clog) {batch b : Nat} {s s' : State D C} (hs : Steps clog batch s s')
    (h : Inv clog b s) : Inv clog b s' := by
  induction hs with
  | refl => exact h
  | step _ h' ih => exact ih.step hmono h'

end Braft.Fsm
