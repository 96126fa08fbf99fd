import Verif.Node.LifeSpec
/- Invariant of the callback model. -/
set_option linter.unusedVariables false
set_option linter.unusedSimpArgs false
set_option linter.unusedSectionVars false
namespace Braft.Life
variable {L : Type} [DecidableEq L]

theorem watch_append (a b : List (Ev L)) : ∀ v : View L, v.watch (a ++ b) = (v.watch a).bind (fun w => w.watch b) := by
  induction a with
  | nil => intro v; rfl
  | cons e a ih =>
    intro v
    simp only [List.cons_append, View.watch]
    cases v.see e with
    | none => rfl
    | some w => exact ih w

theorem watch_snoc {a : List (Ev L)} {e : Ev L} {v w x : View L} (h : v.watch a = some w) (hs : w.see e = some x) :
    v.watch (a ++ [e]) = some x := by
  rw [watch_append, h]
  simp only [Option.bind_some, View.watch, hs]

/-- The calls that a task will make, apart from the closure. -/
def tev : Task L → List (Ev L)
  | .committed _ => []
  | .leaderStop => [.leaderStop]
  | .leaderStart t => [.leaderStart t]
  | .startFollowing l t => [.startFollowing l t]
  | .stopFollowing l t => [.stopFollowing l t]
  | .stop => [.shutdown]

def rev : Option (Nat × Bool) → List (Ev L)
  | none => []
  | some (t, _) => [.leaderStart t]

/-- The calls made and those that are certain. -/
def State.full (s : State L) : List (Ev L) := s.out ++ rev s.run ++ s.queue.flatMap tev

def isCommitted : Task L → Bool
  | .committed _ => true
  | _ => false

/-- Behind a task that reaches entry `i` there are only tasks COMMITTED. -/
def tailOk (i : Nat) : List (Task L) → Prop
  | [] => True
  | .committed k :: q => if i ≤ k then ∀ t ∈ q, isCommitted t = true else tailOk i q
  | _ :: q => tailOk i q

theorem tailOk_of_all {i : Nat} {q : List (Task L)} (h : ∀ t ∈ q, isCommitted t = true) : tailOk i q := by
  induction q with
  | nil => trivial
  | cons t q ih =>
    cases t with
    | committed k =>
      unfold tailOk
      split
      · intro t ht; exact h t (List.mem_cons_of_mem _ ht)
      · exact ih (fun t ht => h t (List.mem_cons_of_mem _ ht))
    | _ => exact absurd (h _ (List.mem_cons_self ..)) (by simp [isCommitted])

theorem tailOk_snoc {i k : Nat} {q : List (Task L)} (h : tailOk i q) : tailOk i (q ++ [.committed k]) := by
  induction q with
  | nil => exact tailOk_of_all (by intro t ht; simp at ht; rw [ht]; rfl)
  | cons t q ih =>
    cases t with
    | committed j =>
      simp only [List.cons_append, tailOk] at h ⊢
      split
      · rename_i hj
        rw [if_pos hj] at h
        intro t ht
        rcases List.mem_append.1 ht with ht | ht
        · exact h t ht
        · simp at ht; rw [ht]; rfl
      · rename_i hj
        rw [if_neg hj] at h
        exact ih h
    | _ => simp only [List.cons_append, tailOk] at h ⊢; exact ih h

theorem tailOk_small {i : Nat} {q : List (Task L)} (h : ∀ k, Task.committed k ∈ q → k < i) : tailOk i q := by
  induction q with
  | nil => trivial
  | cons t q ih =>
    have ih' := ih (fun k hk => h k (List.mem_cons_of_mem _ hk))
    cases t with
    | committed k =>
      unfold tailOk
      rw [if_neg (by have := h k (List.mem_cons_self ..); omega)]
      exact ih'
    | _ => exact ih'

theorem tailOk_cons {i : Nat} {t : Task L} {q : List (Task L)} (h : tailOk i (t :: q)) : tailOk i q := by
  cases t with
  | committed k =>
    simp only [tailOk] at h
    split at h
    · exact tailOk_of_all h
    · exact h
  | _ => exact h

theorem flat_all {q : List (Task L)} (h : ∀ t ∈ q, isCommitted t = true) : q.flatMap tev = [] := by
  induction q with
  | nil => rfl
  | cons t q ih =>
    rw [List.flatMap_cons, ih (fun t ht => h t (List.mem_cons_of_mem _ ht))]
    cases t with
    | committed k => rfl
    | _ => exact absurd (h _ (List.mem_cons_self ..)) (by simp [isCommitted])

/-- What the state machine should think when all tasks are done. -/
def State.expect (s : State L) : Now L :=
  match s.role with
  | .leader => if s.pend = none ∧ s.lost = false then .leading s.term else .idle
  | .transferring => .idle
  | .candidate => .idle
  | .follower => match s.lid with
    | none => .idle
    | some l => .following l s.term
  | .error => .idle
  | .shutting => .down

def Reached (s : State L) (t : Nat) : Prop := ∃ c, (t, c) ∈ s.elected ∧ c < s.applied

structure Inv (s : State L) (v : View L) : Prop where
  ok : View.init.watch s.full = some v
  now : v.now = s.expect
  lead : v.lead ≤ s.term
  follow : v.follow ≤ s.term
  below : s.role.leads = true ∨ s.role = .candidate → v.follow < s.term
  stop : s.stopped = true ↔ s.role = .shutting
  pend : ∀ t i, s.pend = some (t, i) → s.role = .leader ∧ s.first = true ∧ t = s.term ∧ tailOk i s.queue ∧
    ∃ c, (t, c) ∈ s.elected ∧ c < i
  comm : ∀ k, Task.committed k ∈ s.queue → k ≤ s.committed
  lid : s.role ≠ .leader → s.role ≠ .transferring → s.role ≠ .follower → s.lid = none
  runR : ∀ t b, s.run = some (t, b) → Reached s t
  firstR : s.role.leads = true → s.first = false → Reached s s.term
  queueR : ∀ t, Task.leaderStart t ∈ s.queue → Reached s t
  outR : ∀ t, Ev.leaderStart t ∈ s.out → Reached s t
  el : ∀ t c, (t, c) ∈ s.elected → t ≤ s.term ∧ (s.role = .candidate → t < s.term)
  pendL : s.pend ≠ none → s.lost = false
  runL : ∀ t b, s.run = some (t, b) → s.role.leads = true → t = s.term → s.lost = false ∧ s.pend = none
  firstL : s.role.leads = true → s.first = false → s.lost = false ∧ s.pend = none
  trans : s.role = .transferring → s.first = false

theorem Inv.start (term committed : Nat) : Inv (State.init term committed : State L) View.init := by
  refine ⟨rfl, rfl, Nat.zero_le _, Nat.zero_le _, ?_, ?_, ?_, ?_, ?_, ?_, ?_, ?_, ?_, ?_, ?_, ?_, ?_, ?_⟩ <;>
    simp [State.init, Role.leads]

theorem enq_eq {s : State L} (h : s.stopped = false) (t : Task L) : s.enq t = { s with queue := s.queue ++ [t] } := by
  unfold State.enq; rw [if_neg (by simp [h])]

theorem full_snoc (s : State L) (q : List (Task L)) (t : Task L) :
    s.out ++ rev s.run ++ (q ++ [t]).flatMap tev = s.out ++ rev s.run ++ q.flatMap tev ++ tev t := by
  rw [List.flatMap_append]; simp [List.append_assoc]

/-- The task that step_down adds. -/
def State.downTask (s : State L) : List (Task L) :=
  match s.role with
  | .leader => [.leaderStop]
  | .transferring => []
  | _ => match s.lid with
    | none => []
    | some l => [.stopFollowing l s.term]

theorem stepDown_eq {s : State L} (ha : s.role.active = true) (hs : s.stopped = false) (t : Nat) :
    s.stepDown t = { s with
      pend := if s.role.leads then none else s.pend
      queue := s.queue ++ s.downTask
      lid := none
      role := .follower
      first := false
      term := if t > s.term then t else s.term } := by
  obtain ⟨role, term, lid, first, committed, pend, queue, run, stopped, out, applied, elected, lost⟩ := s
  dsimp only at ha hs
  subst hs
  unfold State.stepDown State.dropLead State.clearLeader State.downTask State.enq
  cases role <;> cases lid <;> simp_all [Role.leads, Role.active]

theorem Inv.stopped_false {s : State L} {v : View L} (h : Inv s v) (ha : s.role.active = true) : s.stopped = false := by
  cases hs : s.stopped with
  | false => rfl
  | true => rw [h.stop.1 hs] at ha; cases ha

/-- The state machine is idle after the task of step_down. -/
theorem Inv.down {s : State L} {v : View L} (h : Inv s v) (ha : s.role.active = true) :
    ∃ w, View.init.watch (s.out ++ rev s.run ++ (s.queue ++ s.downTask).flatMap tev) = some w ∧ w.now = .idle ∧
      w.lead = v.lead ∧ w.follow = v.follow := by
  have hok := h.ok
  have hn := h.now
  unfold State.full at hok
  unfold State.expect at hn
  unfold State.downTask
  cases hr : s.role <;> rw [hr] at hn <;> dsimp only at hn ⊢
  · rw [full_snoc]
    by_cases hp : s.pend = none ∧ s.lost = false
    · rw [if_pos hp] at hn
      exact ⟨⟨.idle, v.lead, v.follow⟩, watch_snoc hok (by simp only [View.see, hn]), rfl, rfl, rfl⟩
    · rw [if_neg hp] at hn
      exact ⟨v, watch_snoc hok (by simp only [View.see, hn]), hn, rfl, rfl⟩
  · rw [List.append_nil]; exact ⟨v, hok, hn, rfl, rfl⟩
  · have hl := h.lid (by rw [hr]; decide) (by rw [hr]; decide) (by rw [hr]; decide)
    rw [hl]; dsimp only
    rw [List.append_nil]; exact ⟨v, hok, hn, rfl, rfl⟩
  · cases hl : s.lid with
    | none => rw [hl] at hn; dsimp only at hn ⊢; rw [List.append_nil]; exact ⟨v, hok, hn, rfl, rfl⟩
    | some l =>
      rw [hl] at hn; dsimp only at hn ⊢
      rw [full_snoc]
      exact ⟨⟨.idle, v.lead, v.follow⟩, watch_snoc hok (by simp only [View.see, hn, if_true]), rfl, rfl, rfl⟩
  · rw [hr] at ha; cases ha
  · rw [hr] at ha; cases ha

theorem downTask_committed {s : State L} {k : Nat} (h : Task.committed k ∈ s.downTask) : False := by
  unfold State.downTask at h
  split at h
  · simp at h
  · simp at h
  · split at h <;> simp at h

theorem downTask_start {s : State L} {k : Nat} (h : Task.leaderStart k ∈ s.downTask) : False := by
  unfold State.downTask at h
  split at h
  · simp at h
  · simp at h
  · split at h <;> simp at h

theorem Inv.stepDown {s : State L} {v : View L} (h : Inv s v) (t : Nat) :
    ∃ w, Inv (s.stepDown t) w ∧ w.lead = v.lead ∧ w.follow = v.follow := by
  by_cases ha : s.role.active = true
  · have hs := h.stopped_false ha
    obtain ⟨w, h1, h2, h3, h4⟩ := h.down ha
    rw [stepDown_eq ha hs]
    refine ⟨w, ⟨h1, by rw [h2]; rfl, ?_, ?_, ?_, ?_, ?_, ?_, ?_, ?_, ?_, ?_, h.outR, ?_, ?_, ?_, ?_, fun e => by cases e⟩, h3, h4⟩
    · dsimp only; rw [h3]; have := h.lead; split <;> omega
    · dsimp only; rw [h4]; have := h.follow; split <;> omega
    · intro e; rcases e with e | e <;> cases e
    · dsimp only; rw [hs]; simp
    · dsimp only
      intro t' i hp
      exfalso
      split at hp
      · cases hp
      · rename_i hl; rw [(h.pend _ _ hp).1] at hl; simp [Role.leads] at hl
    · dsimp only
      intro k hk
      rcases List.mem_append.1 hk with hk | hk
      · exact h.comm k hk
      · exact (downTask_committed hk).elim
    · intro _ _ e; exact absurd rfl e
    · exact h.runR
    · intro e; cases e
    · dsimp only
      intro t' hk
      rcases List.mem_append.1 hk with hk | hk
      · exact h.queueR t' hk
      · exact (downTask_start hk).elim
    · dsimp only
      intro t' c hc
      refine ⟨?_, fun e => by cases e⟩
      have := (h.el t' c hc).1
      split <;> omega
    · dsimp only
      intro hp
      apply h.pendL
      intro e; rw [e] at hp; simp at hp
    · intro _ _ _ e; cases e
    · intro e; cases e
  · have : s.stepDown t = s := by unfold State.stepDown; rw [if_neg ha]
    rw [this]; exact ⟨v, h, rfl, rfl⟩

/-- A follower without a leader begins to follow one. -/
theorem Inv.setLeader {s : State L} {v : View L} (h : Inv s v) (hr : s.role = .follower) (hl : s.lid = none) (l : L) :
    ∃ w, Inv (s.setLeader l) w := by
  have hs := h.stopped_false (by rw [hr]; rfl)
  have hn := h.now
  unfold State.expect at hn
  rw [hr, hl] at hn; dsimp only at hn
  have he : s.setLeader l = { s with queue := s.queue ++ [.startFollowing l s.term], lid := some l } := by
    unfold State.setLeader; rw [hl]; dsimp only; rw [enq_eq hs]
  rw [he]
  refine ⟨⟨.following l s.term, v.lead, s.term⟩, ⟨?_, ?_, h.lead, Nat.le_refl _, ?_, ?_, ?_, ?_, ?_, h.runR, ?_, ?_, h.outR, h.el, h.pendL, h.runL, h.firstL, h.trans⟩⟩
  · unfold State.full; dsimp only
    rw [full_snoc]
    exact watch_snoc h.ok (by
      simp only [View.see, hn]
      rw [if_pos ⟨trivial, h.lead, h.follow⟩])
  · unfold State.expect; dsimp only; rw [hr]
  · dsimp only; rw [hr]; intro e; rcases e with e | e <;> cases e
  · exact h.stop
  · dsimp only; intro t i hp; rw [(h.pend t i hp).1] at hr; cases hr
  · dsimp only
    intro k hk
    rcases List.mem_append.1 hk with hk | hk
    · exact h.comm k hk
    · simp at hk
  · dsimp only; intro _ _ e; exact absurd hr e
  · dsimp only; rw [hr]; intro e; cases e
  · dsimp only
    intro t hk
    rcases List.mem_append.1 hk with hk | hk
    · exact h.queueR t hk
    · simp at hk

theorem stepDown_role {s : State L} (ha : s.role.active = true) (hs : s.stopped = false) (t : Nat) :
    (s.stepDown t).role = .follower ∧ (s.stepDown t).lid = none ∧ (s.stepDown t).stopped = false := by
  rw [stepDown_eq ha hs]; exact ⟨rfl, rfl, hs⟩

theorem Inv.checkStepDown {s : State L} {v : View L} (h : Inv s v) (ha : s.role.active = true) (t : Nat) (l : L) :
    ∃ w, Inv (s.checkStepDown t l) w := by
  have hs := h.stopped_false ha
  obtain ⟨w, hw, _⟩ := h.stepDown t
  obtain ⟨r1, r2, r3⟩ := stepDown_role ha hs t
  have key : ∃ x, Inv (if (s.stepDown t).lid.isNone then (s.stepDown t).setLeader l else s.stepDown t) x := by
    rw [if_pos (by rw [r2]; rfl)]; exact hw.setLeader r1 r2 l
  unfold State.checkStepDown
  dsimp only
  by_cases h1 : t > s.term
  · rw [if_pos h1]; exact key
  · rw [if_neg h1]
    by_cases h2 : s.role ≠ .follower
    · rw [if_pos h2]; exact key
    · rw [if_neg h2]
      by_cases h3 : s.lid = none
      · rw [if_pos h3]; exact key
      · rw [if_neg h3]
        rw [if_neg (by cases hl : s.lid with | none => exact absurd hl h3 | some _ => simp)]
        exact ⟨v, h⟩

theorem Inv.recvLeader {s : State L} {v : View L} (h : Inv s v) (t : Nat) (l : L) : ∃ w, Inv (s.recvLeader t l) w := by
  unfold State.recvLeader
  by_cases ha : s.role.active = false
  · rw [if_pos ha]; exact ⟨v, h⟩
  · rw [if_neg ha]
    have ha' : s.role.active = true := by simpa using ha
    by_cases ht : t < s.term
    · rw [if_pos ht]; exact ⟨v, h⟩
    · rw [if_neg ht]
      dsimp only
      obtain ⟨w, hw⟩ := h.checkStepDown ha' t l
      split
      · exact ⟨w, hw⟩
      · obtain ⟨x, hx, _⟩ := hw.stepDown (t + 1); exact ⟨x, hx⟩

/-- A follower or candidate forgets its leader. -/
theorem Inv.clearLeader {s : State L} {v : View L} (h : Inv s v) (hr : s.role = .follower ∨ s.role = .candidate) :
    ∃ w, Inv s.clearLeader w ∧ s.clearLeader.lid = none ∧ s.clearLeader.role = s.role ∧ s.clearLeader.term = s.term ∧
      w.now = .idle ∧ s.clearLeader.stopped = false ∧ s.clearLeader.pend = none := by
  have ha : s.role.active = true := by rcases hr with e | e <;> rw [e] <;> rfl
  have hs := h.stopped_false ha
  have hp : s.pend = none := by
    cases hp : s.pend with
    | none => rfl
    | some x => have := (h.pend x.1 x.2 hp).1; rw [this] at hr; rcases hr with e | e <;> cases e
  have hn := h.now
  unfold State.expect at hn
  cases hl : s.lid with
  | none =>
    have he : s.clearLeader = s := by unfold State.clearLeader; rw [hl]
    rw [he]
    refine ⟨v, h, hl, rfl, rfl, ?_, hs, hp⟩
    rcases hr with e | e <;> rw [e] at hn <;> dsimp only at hn
    · rw [hl] at hn; exact hn
    · exact hn
  | some l =>
    have hf : s.role = .follower := by
      rcases hr with e | e
      · exact e
      · have := h.lid (by rw [e]; decide) (by rw [e]; decide) (by rw [e]; decide); rw [hl] at this; cases this
    rw [hf, hl] at hn; dsimp only at hn
    have he : s.clearLeader = { s with queue := s.queue ++ [.stopFollowing l s.term], lid := none } := by
      unfold State.clearLeader; rw [hl]; dsimp only; rw [if_neg (by rw [hf]; decide), enq_eq hs]
    rw [he]
    refine ⟨⟨.idle, v.lead, v.follow⟩, ⟨?_, ?_, h.lead, h.follow, ?_, ?_, ?_, ?_, ?_, h.runR, ?_, ?_, h.outR, h.el, h.pendL, h.runL, h.firstL, h.trans⟩, rfl, rfl, rfl, rfl, hs, hp⟩
    · unfold State.full; dsimp only
      rw [full_snoc]
      exact watch_snoc h.ok (by simp only [View.see, hn, if_true])
    · unfold State.expect; dsimp only; rw [hf]
    · dsimp only; rw [hf]; intro e; rcases e with e | e <;> cases e
    · exact h.stop
    · dsimp only; intro t i hp'; rw [hp] at hp'; cases hp'
    · dsimp only
      intro k hk
      rcases List.mem_append.1 hk with hk | hk
      · exact h.comm k hk
      · simp at hk
    · dsimp only; intro _ _ e; exact absurd hf e
    · dsimp only; rw [hf]; intro e; cases e
    · dsimp only
      intro t hk
      rcases List.mem_append.1 hk with hk | hk
      · exact h.queueR t hk
      · simp at hk

theorem Inv.electionTimeout {s : State L} {v : View L} (h : Inv s v) : ∃ w, Inv s.electionTimeout w := by
  unfold State.electionTimeout
  split
  · rename_i hr; obtain ⟨w, hw, _⟩ := h.clearLeader (Or.inl hr); exact ⟨w, hw⟩
  · exact ⟨v, h⟩

theorem Inv.electSelf {s : State L} {v : View L} (h : Inv s v) : ∃ w, Inv s.electSelf w := by
  unfold State.electSelf
  split
  · rename_i hr
    obtain ⟨w, hw, h1, h2, h3, h4, h5, h6⟩ := h.clearLeader hr
    dsimp only
    generalize hc : s.clearLeader = c at *
    refine ⟨w, ⟨hw.ok, ?_, ?_, ?_, ?_, ?_, ?_, hw.comm, fun _ _ _ => h1, hw.runR, ?_, hw.queueR, hw.outR, ?_, hw.pendL, ?_, ?_, fun e => by cases e⟩⟩
    · rw [h4]; rfl
    · have := hw.lead; dsimp only; omega
    · have := hw.follow; dsimp only; omega
    · intro _; have := hw.follow; dsimp only; omega
    · dsimp only; rw [h5]; simp
    · dsimp only; intro t i hp; rw [h6] at hp; cases hp
    · intro e; cases e
    · dsimp only; intro t c hc; have := (hw.el t c hc).1; exact ⟨by omega, fun _ => by omega⟩
    · intro _ _ _ e; cases e
    · intro e; cases e
  · exact ⟨v, h⟩

theorem Inv.becomeLeader {s : State L} {v : View L} (h : Inv s v) (self : L) (idx : Nat) :
    ∃ w, Inv (s.becomeLeader self idx) w := by
  unfold State.becomeLeader
  split
  · rename_i hr
    have hn := h.now
    unfold State.expect at hn
    rw [hr.1] at hn; dsimp only at hn
    have mono : ∀ t, Reached s t → ∃ c, (t, c) ∈ s.elected ++ [(s.term, s.committed)] ∧ c < s.applied :=
      fun t ⟨c, h1, h2⟩ => ⟨c, List.mem_append_left _ h1, h2⟩
    refine ⟨v, ⟨h.ok, ?_, h.lead, h.follow, ?_, ?_, ?_, h.comm, ?_, ?_, ?_, ?_, ?_, ?_, ?_, ?_, ?_, fun e => by cases e⟩⟩
    · rw [hn]; unfold State.expect; dsimp only; rw [if_neg (by simp)]
    · intro _; exact h.below (Or.inr hr.1)
    · dsimp only
      have := h.stopped_false (by rw [hr.1]; rfl)
      rw [this]; simp
    · dsimp only
      intro t i hp
      simp only [Option.some.injEq, Prod.mk.injEq] at hp
      obtain ⟨rfl, rfl⟩ := hp
      exact ⟨rfl, rfl, rfl, tailOk_small (fun k hk => by have := h.comm k hk; omega),
        s.committed, List.mem_append_right _ (by simp), hr.2⟩
    · intro e; exact absurd rfl e
    · intro t b hp; exact mono t (h.runR t b hp)
    · dsimp only; intro _ e; cases e
    · intro t hp; exact mono t (h.queueR t hp)
    · intro t hp; exact mono t (h.outR t hp)
    · dsimp only
      intro t c hc
      refine ⟨?_, fun e => by cases e⟩
      rcases List.mem_append.1 hc with hc | hc
      · exact (h.el t c hc).1
      · simp at hc; omega
    · intro _; rfl
    · dsimp only
      intro t b e _ e2
      obtain ⟨c, hc, _⟩ := h.runR t b e
      have := (h.el t c hc).2 hr.1
      omega
    · dsimp only; intro _ e; cases e
  · exact ⟨v, h⟩

theorem Inv.commit {s : State L} {v : View L} (h : Inv s v) (k : Nat) : ∃ w, Inv (s.commit k) w := by
  unfold State.commit
  split
  · rename_i hk
    by_cases hs : s.stopped = true
    · have he : ({ s with committed := k } : State L).enq (.committed k) = { s with committed := k } := by
        unfold State.enq; rw [if_pos hs]
      rw [he]
      exact ⟨v, { h with comm := fun j hj => by have := h.comm j hj; dsimp only; omega }⟩
    · have he : ({ s with committed := k } : State L).enq (.committed k) =
          { s with committed := k, queue := s.queue ++ [.committed k] } :=
        enq_eq (s := { s with committed := k }) (by simpa using hs) _
      rw [he]
      refine ⟨v, ⟨?_, h.now, h.lead, h.follow, h.below, h.stop, ?_, ?_, h.lid, h.runR, h.firstR, ?_, h.outR, h.el, h.pendL, h.runL, h.firstL, h.trans⟩⟩
      · unfold State.full; dsimp only
        rw [full_snoc]
        simpa [tev, State.full] using h.ok
      · dsimp only
        intro t i hp
        obtain ⟨a, b, c, d, e⟩ := h.pend t i hp
        exact ⟨a, b, c, tailOk_snoc d, e⟩
      · dsimp only
        intro j hj
        rcases List.mem_append.1 hj with hj | hj
        · have := h.comm j hj; omega
        · simp at hj; omega
      · dsimp only
        intro t hj
        rcases List.mem_append.1 hj with hj | hj
        · exact h.queueR t hj
        · simp at hj
  · exact ⟨v, h⟩

theorem Inv.transfer {s : State L} {v : View L} (h : Inv s v) : ∃ w, Inv s.transfer w := by
  unfold State.transfer
  split
  · rename_i hr
    have hs := h.stopped_false (by rw [hr.1]; rfl)
    have hp : s.pend = none := by
      cases hp : s.pend with
      | none => rfl
      | some x => have := (h.pend x.1 x.2 hp).2.1; rw [hr.2] at this; cases this
    have he : ({ s with role := .transferring } : State L).enq .leaderStop =
        { s with role := .transferring, queue := s.queue ++ [.leaderStop] } :=
      enq_eq (s := { s with role := .transferring }) hs _
    rw [he]
    obtain ⟨w, h1, h2, h3, h4⟩ := h.down (by rw [hr.1]; rfl)
    have hd : s.downTask = [.leaderStop] := by unfold State.downTask; rw [hr.1]
    rw [hd] at h1
    have hrl : s.role.leads = true := by rw [hr.1]; rfl
    refine ⟨w, ⟨h1, by rw [h2]; rfl, ?_, ?_, ?_, ?_, ?_, ?_, ?_, h.runR, ?_, ?_, h.outR, ?_, h.pendL,
      fun t b e1 _ e3 => h.runL t b e1 hrl e3, fun _ e => h.firstL hrl e, fun _ => hr.2⟩⟩
    · rw [h3]; exact h.lead
    · rw [h4]; exact h.follow
    · intro _; rw [h4]; exact h.below (Or.inl (by rw [hr.1]; rfl))
    · dsimp only; rw [hs]; simp
    · dsimp only; intro t i e; rw [hp] at e; cases e
    · dsimp only
      intro j hj
      rcases List.mem_append.1 hj with hj | hj
      · exact h.comm j hj
      · simp at hj
    · intro _ e; exact absurd rfl e
    · intro _ _; exact h.firstR (by rw [hr.1]; rfl) hr.2
    · dsimp only
      intro t hj
      rcases List.mem_append.1 hj with hj | hj
      · exact h.queueR t hj
      · simp at hj
    · intro t c hc; exact ⟨(h.el t c hc).1, fun e => by cases e⟩
  · exact ⟨v, h⟩

theorem Inv.transferTimeout {s : State L} {v : View L} (h : Inv s v) (t : Nat) : ∃ w, Inv (s.transferTimeout t) w := by
  unfold State.transferTimeout
  split
  · rename_i hr
    obtain ⟨rfl, hr⟩ := hr
    have hs := h.stopped_false (by rw [hr]; rfl)
    have hrl : s.role.leads = true := by rw [hr]; rfl
    have hf : s.first = false := by
      cases hf : s.first with
      | false => rfl
      | true => exact absurd (h.trans hr) (by rw [hf]; simp)
    obtain ⟨f1, f2⟩ := h.firstL hrl hf
    have hn := h.now
    unfold State.expect at hn
    rw [hr] at hn; dsimp only at hn
    have he : ({ s with role := .leader } : State L).enq (.leaderStart s.term) =
        { s with role := .leader, queue := s.queue ++ [.leaderStart s.term] } :=
      enq_eq (s := { s with role := .leader }) hs _
    rw [he]
    refine ⟨⟨.leading s.term, s.term, v.follow⟩, ⟨?_, ?_, Nat.le_refl _, h.follow, ?_, ?_, ?_, ?_, ?_, h.runR, ?_, ?_, h.outR,
      ?_, h.pendL, fun t b e1 _ e3 => h.runL t b e1 hrl e3, fun _ e => h.firstL hrl e, fun e => by cases e⟩⟩
    · unfold State.full; dsimp only
      rw [full_snoc]
      exact watch_snoc h.ok (by
        simp only [View.see, hn]
        rw [if_pos ⟨trivial, h.lead, h.below (Or.inl hrl)⟩])
    · unfold State.expect; dsimp only; rw [if_pos ⟨f2, f1⟩]
    · intro _; exact h.below (Or.inl hrl)
    · dsimp only; rw [hs]; simp
    · dsimp only; intro t i e; rw [f2] at e; cases e
    · dsimp only
      intro j hj
      rcases List.mem_append.1 hj with hj | hj
      · exact h.comm j hj
      · simp at hj
    · intro e; exact absurd rfl e
    · intro _ _; exact h.firstR hrl hf
    · dsimp only
      intro t hj
      rcases List.mem_append.1 hj with hj | hj
      · exact h.queueR t hj
      · simp at hj; rw [hj]; exact h.firstR hrl hf
    · intro t c hc; exact ⟨(h.el t c hc).1, fun e => by cases e⟩
  · exact ⟨v, h⟩

theorem Inv.onError {s : State L} {v : View L} (h : Inv s v) : ∃ w, Inv s.onError w := by
  unfold State.onError
  dsimp only
  by_cases ha : s.role.active = true
  · rw [if_pos ha]
    have hs := h.stopped_false ha
    obtain ⟨w, hw, _⟩ := h.stepDown s.term
    obtain ⟨r1, r2, r3⟩ := stepDown_role ha hs s.term
    generalize hc : s.stepDown s.term = c at *
    rw [if_neg (by rw [r1]; decide)]
    have hn := hw.now
    unfold State.expect at hn
    rw [r1, r2] at hn; dsimp only at hn
    refine ⟨w, ⟨hw.ok, ?_, hw.lead, hw.follow, ?_, ?_, ?_, hw.comm, fun _ _ _ => r2, hw.runR, ?_, hw.queueR, hw.outR, ?_,
      hw.pendL, ?_, ?_, fun e => by cases e⟩⟩
    · rw [hn]; rfl
    · intro e; rcases e with e | e <;> cases e
    · dsimp only; rw [r3]; simp
    · dsimp only; intro t i e; have := (hw.pend t i e).1; rw [r1] at this; cases this
    · intro e; cases e
    · intro t c' hc'; exact ⟨(hw.el t c' hc').1, fun e => by cases e⟩
    · intro _ _ _ e; cases e
    · intro e; cases e
  · rw [if_neg ha]
    split
    · exact ⟨v, h⟩
    · rename_i hr
      have hre : s.role = .error := by
        cases e : s.role <;> rw [e] at ha hr <;> simp_all [Role.active]
      have : ({ s with role := .error } : State L) = s := by rw [← hre]
      rw [this]; exact ⟨v, h⟩

theorem Inv.shutdown {s : State L} {v : View L} (h : Inv s v) : ∃ w, Inv s.shutdown w := by
  unfold State.shutdown
  split
  · exact ⟨v, h⟩
  · rename_i hr
    dsimp only
    have key : ∃ c : State L, ∃ w, (if s.role.active = true then s.stepDown s.term else s) = c ∧ Inv c w ∧ w.now = .idle ∧
        c.lid = none ∧ c.stopped = false ∧ c.role.leads = false ∧ c.role ≠ .candidate := by
      by_cases ha : s.role.active = true
      · rw [if_pos ha]
        have hs := h.stopped_false ha
        obtain ⟨w, hw, _⟩ := h.stepDown s.term
        obtain ⟨r1, r2, r3⟩ := stepDown_role ha hs s.term
        refine ⟨_, w, rfl, hw, ?_, r2, r3, by rw [r1]; rfl, by rw [r1]; decide⟩
        have hn := hw.now
        unfold State.expect at hn
        rw [r1, r2] at hn; exact hn
      · rw [if_neg ha]
        have hre : s.role = .error := by
          cases e : s.role <;> rw [e] at ha hr <;> simp_all [Role.active]
        refine ⟨s, v, rfl, h, ?_, ?_, ?_, by rw [hre]; rfl, by rw [hre]; decide⟩
        · have hn := h.now
          unfold State.expect at hn
          rw [hre] at hn; exact hn
        · exact h.lid (by rw [hre]; decide) (by rw [hre]; decide) (by rw [hre]; decide)
        · cases hs : s.stopped with
          | false => rfl
          | true => exact absurd (h.stop.1 hs) hr
    obtain ⟨c, w, he, hw, hn, hl, hs, hnl, hnc⟩ := key
    rw [he, enq_eq hs]
    have hp : c.pend = none := by
      cases hp : c.pend with
      | none => rfl
      | some x => have := (hw.pend x.1 x.2 hp).1; rw [this] at hnl; cases hnl
    refine ⟨⟨.down, w.lead, w.follow⟩, ⟨?_, rfl, hw.lead, hw.follow, ?_, ?_, ?_, ?_, fun _ _ _ => hl, hw.runR, ?_, ?_, hw.outR,
      ?_, hw.pendL, ?_, ?_, fun e => by cases e⟩⟩
    · unfold State.full; dsimp only
      rw [full_snoc]
      exact watch_snoc hw.ok (by simp only [View.see, hn, if_true])
    · intro e; rcases e with e | e <;> cases e
    · simp
    · dsimp only; intro t i e; rw [hp] at e; cases e
    · dsimp only
      intro j hj
      rcases List.mem_append.1 hj with hj | hj
      · exact hw.comm j hj
      · simp at hj
    · intro e; cases e
    · dsimp only
      intro t hj
      rcases List.mem_append.1 hj with hj | hj
      · exact hw.queueR t hj
      · simp at hj
    · intro t c' hc'; exact ⟨(hw.el t c' hc').1, fun e => by cases e⟩
    · intro _ _ _ e; cases e
    · intro e; cases e

theorem Inv.confDone {s : State L} {v : View L} (h : Inv s v) : Inv s.confDone v := by
  unfold State.confDone
  split
  · rename_i t hr
    have hR := h.runR t false hr
    refine ⟨?_, h.now, h.lead, h.follow, h.below, h.stop, ?_, h.comm, h.lid, ?_, ?_, h.queueR, h.outR, h.el, h.pendL, ?_, ?_, ?_⟩
    · have := h.ok; unfold State.full at this ⊢; rw [hr] at this; exact this
    · dsimp only
      intro t' i hp
      obtain ⟨a, b, c, d, e⟩ := h.pend t' i hp
      refine ⟨a, ?_, c, d, e⟩
      rw [if_neg]
      · exact b
      · rintro ⟨h1, h2⟩
        have := (h.runL t false hr h1 h2).2
        rw [hp] at this; cases this
    · dsimp only
      intro t' b hb
      simp only [Option.some.injEq, Prod.mk.injEq] at hb
      rw [← hb.1]; exact hR
    · dsimp only
      intro h1 h2
      by_cases hc : s.role.leads = true ∧ t = s.term
      · rw [← hc.2]; exact hR
      · rw [if_neg hc] at h2; exact h.firstR h1 h2
    · dsimp only
      intro t' b hb h1 h2
      simp only [Option.some.injEq, Prod.mk.injEq] at hb
      rw [← hb.1] at h2
      exact h.runL t false hr h1 h2
    · dsimp only
      intro h1 h2
      by_cases hc : s.role.leads = true ∧ t = s.term
      · exact h.runL t false hr hc.1 hc.2
      · rw [if_neg hc] at h2; exact h.firstL h1 h2
    · dsimp only
      intro e
      have := h.trans e
      split <;> simp_all
  · exact h

theorem Inv.callStart {s : State L} {v : View L} (h : Inv s v) : Inv s.callStart v := by
  unfold State.callStart
  split
  · rename_i t hr
    have hR := h.runR t true hr
    refine ⟨?_, h.now, h.lead, h.follow, h.below, h.stop, h.pend, h.comm, h.lid, ?_, h.firstR, h.queueR, ?_, h.el, h.pendL, ?_,
      h.firstL, h.trans⟩
    · have := h.ok; unfold State.full at this ⊢; rw [hr] at this
      simpa [rev] using this
    · intro t' b e; cases e
    · dsimp only
      intro t' ht
      rcases List.mem_append.1 ht with ht | ht
      · exact h.outR t' ht
      · simp at ht; rw [ht]; exact hR
    · intro t' b e; cases e
  · exact h

/-- A task that makes a call. -/
theorem Inv.pop {s : State L} {v : View L} (h : Inv s v) (hr : s.run = none) {t : Task L} {q : List (Task L)} {e : Ev L}
    (hq : s.queue = t :: q) (ht : tev t = [e]) (hst : ∀ x, e = .leaderStart x → t = .leaderStart x) :
    Inv { s with queue := q, out := s.out ++ [e] } v := by
  refine ⟨?_, h.now, h.lead, h.follow, h.below, h.stop, ?_, ?_, h.lid, h.runR, h.firstR, ?_, ?_, h.el, h.pendL, h.runL, h.firstL,
    h.trans⟩
  · have := h.ok
    unfold State.full at this ⊢
    rw [hr, hq, List.flatMap_cons, ht] at this
    dsimp only
    rw [hr]
    simpa [rev] using this
  · dsimp only
    intro t' i hp
    obtain ⟨a, b, c, d, f⟩ := h.pend t' i hp
    rw [hq] at d
    exact ⟨a, b, c, tailOk_cons d, f⟩
  · dsimp only; intro k hk; exact h.comm k (by rw [hq]; exact List.mem_cons_of_mem _ hk)
  · dsimp only; intro k hk; exact h.queueR k (by rw [hq]; exact List.mem_cons_of_mem _ hk)
  · dsimp only
    intro k hk
    rcases List.mem_append.1 hk with hk | hk
    · exact h.outR k hk
    · simp at hk
      exact h.queueR k (by rw [hq, hst k hk.symm]; exact List.mem_cons_self ..)

theorem Inv.popCommitted {s : State L} {v : View L} (h : Inv s v) {k : Nat} {q : List (Task L)}
    (hq : s.queue = .committed k :: q) : Inv { s with queue := q } v := by
  refine ⟨?_, h.now, h.lead, h.follow, h.below, h.stop, ?_, ?_, h.lid, h.runR, h.firstR, ?_, h.outR, h.el, h.pendL, h.runL,
    h.firstL, h.trans⟩
  · have := h.ok
    unfold State.full at this ⊢
    rw [hq, List.flatMap_cons] at this
    simpa [tev] using this
  · dsimp only
    intro t' i hp
    obtain ⟨a, b, c, d, f⟩ := h.pend t' i hp
    rw [hq] at d
    exact ⟨a, b, c, tailOk_cons d, f⟩
  · dsimp only; intro k hk; exact h.comm k (by rw [hq]; exact List.mem_cons_of_mem _ hk)
  · dsimp only; intro k hk; exact h.queueR k (by rw [hq]; exact List.mem_cons_of_mem _ hk)

theorem Inv.doCommitted {s : State L} {v : View L} (h : Inv s v) (hr : s.run = none) {k : Nat} {q : List (Task L)}
    (hq : s.queue = .committed k :: q) (m : Mode) : ∃ w, Inv (({ s with queue := q } : State L).doCommitted k m) w := by
  have h' := h.popCommitted hq
  unfold State.doCommitted
  dsimp only
  cases hp : s.pend with
  | none => dsimp only; rw [← hp]; exact ⟨v, h'⟩
  | some x =>
    obtain ⟨t, i⟩ := x
    dsimp only
    obtain ⟨a, b, c, d, e⟩ := h.pend t i hp
    have hn := h.now
    unfold State.expect at hn
    rw [a, hp] at hn
    dsimp only at hn
    rw [if_neg (by simp)] at hn
    have hrl : s.role.leads = true := by rw [a]; rfl
    by_cases hk : k < i
    · rw [if_pos hk]
      rw [← hp]; exact ⟨v, h'⟩
    · rw [if_neg hk]
      have hall : ∀ t ∈ q, isCommitted t = true := by
        rw [hq] at d; simp only [tailOk] at d; rw [if_pos (by omega)] at d; exact d
      cases m with
      | skip => dsimp only; rw [← hp]; exact ⟨v, h'⟩
      | fail =>
        dsimp only
        refine ⟨v, ⟨h'.ok, ?_, h.lead, h.follow, h.below, h.stop, ?_, h'.comm, h.lid, h.runR, h.firstR, h'.queueR, h.outR, h.el,
          ?_, ?_, ?_, h.trans⟩⟩
        · rw [hn]; unfold State.expect; dsimp only; rw [a]; dsimp only; rw [if_neg (by simp)]
        · intro _ _ e; cases e
        · intro e; exact absurd rfl e
        · dsimp only; intro t' b' e' _ _; rw [hr] at e'; cases e'
        · dsimp only; intro _ e2; rw [b] at e2; cases e2
      | ok =>
        dsimp only
        obtain ⟨c0, e1, e2⟩ := e
        have mono : ∀ t, Reached s t → ∃ c, (t, c) ∈ s.elected ∧ c < max s.applied i :=
          fun t ⟨c, h1, h2⟩ => ⟨c, h1, by omega⟩
        refine ⟨⟨.leading t, t, v.follow⟩, ⟨?_, ?_, ?_, h.follow, h.below, h.stop, ?_, h'.comm, h.lid, ?_, ?_, ?_, ?_, h.el, ?_, ?_, ?_,
          h.trans⟩⟩
        · have hok := h'.ok
          unfold State.full at hok ⊢
          dsimp only at hok ⊢
          rw [hr, flat_all hall] at hok
          rw [flat_all hall]
          simp only [rev, List.append_nil] at hok ⊢
          exact watch_snoc hok (by
            simp only [View.see, hn]
            rw [if_pos ⟨trivial, by rw [c]; exact h.lead, by rw [c]; exact h.below (Or.inl hrl)⟩])
        · unfold State.expect; dsimp only; rw [a]; dsimp only
          rw [if_pos ⟨rfl, h.pendL (by rw [hp]; simp)⟩, c]
        · dsimp only; omega
        · intro _ _ e; cases e
        · dsimp only
          intro t' b' e'
          simp only [Option.some.injEq, Prod.mk.injEq] at e'
          rw [← e'.1]
          exact ⟨c0, e1, by dsimp only; omega⟩
        · dsimp only; intro _ e'; rw [b] at e'; cases e'
        · intro t' ht'; exact mono t' (h'.queueR t' ht')
        · intro t' ht'; exact mono t' (h.outR t' ht')
        · intro e; exact absurd rfl e
        · intro t' b' _ _ _; exact ⟨h.pendL (by rw [hp]; simp), rfl⟩
        · dsimp only; intro _ e'; rw [b] at e'; cases e'

theorem Inv.take {s : State L} {v : View L} (h : Inv s v) (m : Mode) : ∃ w, Inv (s.take m) w := by
  unfold State.take
  split
  · exact ⟨v, h⟩
  · rename_i hr
    have hr' : s.run = none := by cases e : s.run with | none => rfl | some _ => rw [e] at hr; simp at hr
    split
    · exact ⟨v, h⟩
    · rename_i k q hq; exact h.doCommitted hr' hq m
    · rename_i q hq; exact ⟨v, h.pop hr' hq rfl (by intro x e; cases e)⟩
    · rename_i t q hq; exact ⟨v, h.pop hr' hq rfl (by intro x e; cases e; rfl)⟩
    · rename_i l t q hq; exact ⟨v, h.pop hr' hq rfl (by intro x e; cases e)⟩
    · rename_i l t q hq; exact ⟨v, h.pop hr' hq rfl (by intro x e; cases e)⟩
    · rename_i q hq; exact ⟨v, h.pop hr' hq rfl (by intro x e; cases e)⟩

theorem Run.inv {self : L} {s : State L} (h : Run self s) : ∃ v, Inv s v := by
  induction h with
  | init t c => exact ⟨_, Inv.start t c⟩
  | stepDown _ t ih => obtain ⟨v, h⟩ := ih; obtain ⟨w, hw, _⟩ := h.stepDown t; exact ⟨w, hw⟩
  | recvLeader _ t l ih => obtain ⟨v, h⟩ := ih; exact h.recvLeader t l
  | electionTimeout _ ih => obtain ⟨v, h⟩ := ih; exact h.electionTimeout
  | electSelf _ ih => obtain ⟨v, h⟩ := ih; exact h.electSelf
  | becomeLeader _ i ih => obtain ⟨v, h⟩ := ih; exact h.becomeLeader _ i
  | commit _ k ih => obtain ⟨v, h⟩ := ih; exact h.commit k
  | transfer _ ih => obtain ⟨v, h⟩ := ih; exact h.transfer
  | transferTimeout _ t ih => obtain ⟨v, h⟩ := ih; exact h.transferTimeout t
  | onError _ ih => obtain ⟨v, h⟩ := ih; exact h.onError
  | shutdown _ ih => obtain ⟨v, h⟩ := ih; exact h.shutdown
  | take _ m ih => obtain ⟨v, h⟩ := ih; exact h.take m
  | confDone _ ih => obtain ⟨v, h⟩ := ih; exact ⟨v, h.confDone⟩
  | callStart _ ih => obtain ⟨v, h⟩ := ih; exact ⟨v, h.callStart⟩

end Braft.Life
