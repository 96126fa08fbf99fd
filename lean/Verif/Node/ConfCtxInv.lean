import Verif.Node.ConfCtx
/-
Invariant of the model of ConfigurationCtx (Verif/Node/ConfCtx.lean) and its preservation.
-/
set_option linter.unusedSectionVars false
set_option linter.unusedSimpArgs false
set_option linter.unusedVariables false

namespace Braft.ConfCtx
variable {P : Type} [DecidableEq P]

/-- How many peers two configurations differ in. -/
def differ (a b : List P) : Nat := (minus a b).length + (minus b a).length

/-- Specification: `b` may follow `a` in a leader's log. After a joint entry comes its new configuration; after a
configuration comes a joint entry that contains it as the old one, or a configuration that differs in one peer. -/
def Legal (a b : Entry P) : Prop :=
  match a.old with
  | some _ => b = ⟨a.conf, none⟩
  | none => b.old = some a.conf ∨ (b.old = none ∧ differ b.conf a.conf ≤ 1)

/-- Entries, newest first: terms do not decrease; of consecutive entries of one term the older one is committed, and
the newer one may follow it. -/
def Chain (comm : List (Nat × Entry P)) : List (Nat × Entry P) → Prop
  | b :: a :: l => (a.1 ≤ b.1 ∧ (b.1 = a.1 → a ∈ comm ∧ Legal a.2 b.2)) ∧ Chain comm (a :: l)
  | _ => True

theorem Chain.mono {c c' : List (Nat × Entry P)} (hc : ∀ x ∈ c, x ∈ c') :
    ∀ (l : List (Nat × Entry P)), Chain c l → Chain c' l
  | [], _ => trivial
  | [_], _ => trivial
  | b :: a :: l, h => ⟨⟨h.1.1, fun he => ⟨hc _ (h.1.2 he).1, (h.1.2 he).2⟩⟩, Chain.mono hc (a :: l) h.2⟩

/-- The part of the invariant that does not depend on the stage. -/
structure Base (s : State P) : Prop where
  pendLe : ∀ p ∈ s.pend, p.term ≤ s.term
  subsLe : ∀ x ∈ s.subs, x.1 ≤ s.term
  chain : Chain s.comm s.subs
  oks : ∀ i, (i, Code.ok) ∈ s.ran → ∃ c t d, s.reqs[i]? = some c ∧ (t, (⟨d, none⟩ : Entry P)) ∈ s.comm ∧ sameSet d c = true
  perm : (s.ran.map Prod.fst ++ s.done.toList).Perm (List.range s.reqs.length)
  want : ∀ i, s.done = some i → s.reqs[i]? = some s.new
  good : s.bad = false
  waitLe : ∀ w ∈ s.waits, w.2.2 ≤ s.version
  waitNd : ((s.waits.filter (fun w => decide (w.2.2 = s.version))).map Prod.fst).Nodup

def NoPend (s : State P) : Prop := ∀ p ∈ s.pend, p.term < s.term
def NoWait (s : State P) : Prop := ∀ w ∈ s.waits, w.2.2 < s.version

/-- At most one closure of this term is outstanding: that of `e`. -/
structure OnePend (s : State P) (e : Entry P) : Prop where
  ent : ∀ p ∈ s.pend, p.term = s.term → p.entry = e ∧ (p.inLog = true → s.conf = e.conf ∧ s.old = e.olds)
  one : (s.pend.filter (fun p => decide (p.term = s.term))).length ≤ 1

/-- The configuration in force is this leader's last entry and is committed. -/
structure Settled (s : State P) : Prop where
  old : s.old = []
  head : ∃ rest, s.subs = (s.term, ⟨s.conf, none⟩) :: rest
  comm : (s.term, ⟨s.conf, none⟩) ∈ s.comm

/-- A leader, by the stage. -/
def Lead (s : State P) : Prop :=
  match s.stage with
  | .none => NoPend s ∧ Settled s ∧ (∀ p ∈ s.repl, p ≠ s.self → p ∈ s.conf) ∧ s.done = none ∧ NoWait s
  | .catching => s.role = .leader ∧ NoPend s ∧ Settled s ∧ s.olds = s.conf ∧ s.nchanges = differ s.new s.olds ∧
      (∀ w ∈ s.waits, w.2.2 = s.version → w.1 ∈ s.adding) ∧ s.adding ≠ [] ∧ (∀ p ∈ s.repl, p ≠ s.self → p ∈ s.new ∨ p ∈ s.olds)
  | .joint => s.role = .leader ∧ OnePend s ⟨s.new, some s.olds⟩ ∧ NoWait s ∧
      (∃ rest, s.subs = (s.term, ⟨s.new, some s.olds⟩) :: rest) ∧ (∀ p ∈ s.repl, p ≠ s.self → p ∈ s.new ∨ p ∈ s.olds)
  | .stable => s.role = .leader ∧ OnePend s ⟨s.new, none⟩ ∧ NoWait s ∧
      (∃ rest, s.subs = (s.term, ⟨s.new, none⟩) :: rest) ∧ (∀ p ∈ s.repl, p ≠ s.self → p ∈ s.new ∨ p ∈ s.olds)

/-- A node that is not leader has no change in progress. -/
structure Off (s : State P) : Prop where
  stage : s.stage = .none
  done : s.done = none
  noWait : NoWait s
  repl : s.repl = []

def Phase (s : State P) : Prop :=
  match s.role with
  | .leader | .transferring => Lead s
  | .candidate => Off s ∧ NoPend s ∧ ∀ x ∈ s.subs, x.1 < s.term
  | .follower | .down => Off s

structure Inv (s : State P) : Prop where
  base : Base s
  phase : Phase s

/-! ### reset and step_down -/

theorem filter_lt_nil {s : List (P × Nat × Nat)} {v : Nat} (h : ∀ w ∈ s, w.2.2 < v) :
    s.filter (fun w => decide (w.2.2 = v)) = [] := by
  rw [List.filter_eq_nil_iff]
  intro w hw; have := h w hw; simp; omega

theorem reset_none {s : State P} (h : s.stage = .none) (st : Option Code) : s.reset st = s := by
  unfold State.reset; rw [if_pos h]

/-- What reset leaves alone, and what it does when a change is in progress. -/
theorem reset_same (s : State P) (st : Option Code) :
    (s.reset st).role = s.role ∧ (s.reset st).term = s.term ∧ (s.reset st).conf = s.conf ∧ (s.reset st).old = s.old ∧
    (s.reset st).pend = s.pend ∧ (s.reset st).subs = s.subs ∧ (s.reset st).comm = s.comm ∧
    (s.reset st).stage = .none ∧ (s.reset st).self = s.self ∧ (s.reset st).waits = s.waits ∧ (s.reset st).reqs = s.reqs := by
  unfold State.reset
  by_cases h : s.stage = .none
  · rw [if_pos h]; exact ⟨rfl, rfl, rfl, rfl, rfl, rfl, rfl, h, rfl, rfl, rfl⟩
  · rw [if_neg h]
    dsimp only
    split <;> exact ⟨rfl, rfl, rfl, rfl, rfl, rfl, rfl, rfl, rfl, rfl, rfl⟩

/-- The end of reset (node.cpp:3345-3360). -/
def cleared (s s1 : State P) (st : Option Code) : State P :=
  { s1 with new := [], olds := [], adding := [], version := s.version + 1, stage := Stage.none, nchanges := 0,
            done := none, ran := s.ran ++ (s.done.map (fun i => (i, st.getD .eperm))).toList }

theorem reset_base {s : State P} (h : Base s) (st : Option Code) (hne : s.stage ≠ .none)
    (hok : st = some .ok → ∀ i, s.done = some i → ∃ t d, (t, (⟨d, none⟩ : Entry P)) ∈ s.comm ∧ sameSet d s.new = true) :
    Base (s.reset st) ∧ (s.reset st).done = none ∧ NoWait (s.reset st) := by
  have key : ∀ s1 : State P, s1.reqs = s.reqs → s1.comm = s.comm → s1.subs = s.subs → s1.pend = s.pend → s1.term = s.term →
      s1.bad = s.bad → s1.waits = s.waits →
      Base (cleared s s1 st) ∧ (cleared s s1 st).done = none ∧ NoWait (cleared s s1 st) := by
    intro s1 e1 e2 e3 e4 e5 e6 e7
    have hnw : NoWait (cleared s s1 st) := by
      intro w hw
      have hw' : w ∈ s.waits := by rw [← e7]; exact hw
      have := h.waitLe w hw'
      show w.2.2 < s.version + 1
      omega
    refine ⟨⟨?_, ?_, ?_, ?_, ?_, ?_, ?_, ?_, ?_⟩, rfl, hnw⟩
    · show ∀ p ∈ s1.pend, p.term ≤ s1.term; rw [e4, e5]; exact h.pendLe
    · show ∀ x ∈ s1.subs, x.1 ≤ s1.term; rw [e3, e5]; exact h.subsLe
    · show Chain s1.comm s1.subs; rw [e2, e3]; exact h.chain
    · intro i hi
      show ∃ c t d, s1.reqs[i]? = some c ∧ (t, (⟨d, none⟩ : Entry P)) ∈ s1.comm ∧ sameSet d c = true
      rw [e1, e2]
      rcases List.mem_append.mp hi with hi | hi
      · exact h.oks i hi
      · cases hd : s.done with
        | none => rw [hd] at hi; cases hi
        | some j =>
          rw [hd] at hi
          simp only [Option.map_some, Option.toList_some, List.mem_singleton, Prod.mk.injEq] at hi
          obtain ⟨rfl, hc⟩ := hi
          cases st with
          | none => cases hc
          | some c =>
            have hc' : c = .ok := hc.symm
            subst hc'
            obtain ⟨t, d, h1, h2⟩ := hok rfl i hd
            exact ⟨s.new, t, d, h.want i hd, h1, h2⟩
    · show ((s.ran ++ (s.done.map (fun i => (i, st.getD .eperm))).toList).map Prod.fst ++ (none : Option Nat).toList).Perm
        (List.range s1.reqs.length)
      rw [e1]
      have := h.perm
      cases hd : s.done with
      | none => rw [hd] at this; simpa using this
      | some j => rw [hd] at this; simpa using this
    · intro i hi; cases hi
    · show s1.bad = false; rw [e6]; exact h.good
    · intro w hw; exact Nat.le_of_lt (hnw w hw)
    · show (((cleared s s1 st).waits.filter (fun w => decide (w.2.2 = (cleared s s1 st).version))).map Prod.fst).Nodup
      rw [filter_lt_nil (fun w hw => hnw w hw)]; exact List.nodup_nil
  unfold State.reset
  rw [if_neg hne]
  dsimp only
  by_cases hs : st = some .ok
  · rw [if_pos hs]; exact key _ rfl rfl rfl rfl rfl rfl rfl
  · rw [if_neg hs]; exact key _ rfl rfl rfl rfl rfl rfl rfl

theorem Phase.busy_leader {s : State P} (h : Phase s) (hb : s.stage ≠ .none) : s.role = .leader := by
  unfold Phase at h
  cases hr : s.role <;> rw [hr] at h <;> dsimp only at h
  · unfold Lead at h
    cases hs : s.stage <;> rw [hs] at h <;> dsimp only at h
    · exact absurd hs hb
    · have h1 := h.1; rw [hr] at h1; cases h1
    · have h1 := h.1; rw [hr] at h1; cases h1
    · have h1 := h.1; rw [hr] at h1; cases h1
  · exact absurd h.1.stage hb
  · exact absurd h.stage hb
  · exact absurd h.stage hb

theorem Phase.idle {s : State P} (h : Phase s) (hb : s.stage = .none) : s.done = none ∧ NoWait s := by
  unfold Phase at h
  cases hr : s.role <;> rw [hr] at h <;> dsimp only at h
  · unfold Lead at h; rw [hb] at h; exact ⟨h.2.2.2.1, h.2.2.2.2⟩
  · unfold Lead at h; rw [hb] at h; exact ⟨h.2.2.2.1, h.2.2.2.2⟩
  · exact ⟨h.1.done, h.1.noWait⟩
  · exact ⟨h.done, h.noWait⟩
  · exact ⟨h.done, h.noWait⟩

/-- step_down from any state whose idle stage has no closure and no waits. -/
theorem stepDown_gen {s : State P} (hb : Base s) (hi : s.stage = .none → s.done = none ∧ NoWait s) (hr : s.role ≠ .down)
    (term : Nat) : Base (s.stepDown term) ∧ Off (s.stepDown term) ∧ (s.stepDown term).role = .follower ∧ s.term ≤ (s.stepDown term).term := by
  unfold State.stepDown
  rw [if_neg hr]
  dsimp only
  have hb' : Base ({ s with role := .follower } : State P) := ⟨hb.1, hb.2, hb.3, hb.4, hb.5, hb.6, hb.7, hb.8, hb.9⟩
  have h2 : Base (({ s with role := .follower } : State P).reset none) ∧ (({ s with role := .follower } : State P).reset none).done = none ∧
      NoWait (({ s with role := .follower } : State P).reset none) := by
    by_cases hs : s.stage = .none
    · rw [reset_none (by exact hs)]; exact ⟨hb', (hi hs).1, (hi hs).2⟩
    · exact reset_base hb' none hs (by simp)
  have hsame := reset_same ({ s with role := .follower } : State P) none
  generalize ({ s with role := .follower } : State P).reset none = s1 at *
  obtain ⟨e1, e2, e3, e4, e5, e6, e7, e8, e9, e10, e11⟩ := hsame
  obtain ⟨b, d, w⟩ := h2
  have e2' : s1.term = s.term := e2
  have hle : s.term ≤ (if term > s.term then term else s.term) := by split <;> omega
  refine ⟨⟨?_, ?_, b.chain, b.oks, b.perm, b.want, b.good, b.waitLe, b.waitNd⟩, ⟨e8, d, w, rfl⟩, e1, hle⟩
  · intro p hp; have := b.pendLe p hp; show p.term ≤ (if term > s.term then term else s.term); omega
  · intro p hp; have := b.subsLe p hp; show p.1 ≤ (if term > s.term then term else s.term); omega

theorem Off.phase {s : State P} (h : Off s) (hr : s.role = .follower ∨ s.role = .down) : Phase s := by
  unfold Phase; rcases hr with hr | hr <;> rw [hr] <;> exact h

theorem Inv.stepDown {s : State P} (h : Inv s) (term : Nat) : Inv (s.stepDown term) := by
  by_cases hr : s.role = .down
  · unfold State.stepDown; rw [if_pos hr]; exact h
  · obtain ⟨a, b, c, _⟩ := stepDown_gen h.base h.phase.idle hr term
    exact ⟨a, b.phase (Or.inl c)⟩

theorem Inv.goDown {s : State P} (h : Inv s) : Inv s.goDown := by
  have h' := h.stepDown s.term
  have hoff : Off (s.stepDown s.term) := by
    by_cases hr : s.role = .down
    · unfold State.stepDown; rw [if_pos hr]
      have := h.phase; unfold Phase at this; rw [hr] at this; exact this
    · exact (stepDown_gen h.base h.phase.idle hr s.term).2.1
  obtain ⟨⟨b1, b2, b3, b4, b5, b6, b7, b8, b9⟩, _⟩ := h'
  refine ⟨⟨b1, b2, b3, b4, b5, b6, b7, b8, b9⟩, ?_⟩
  exact Off.phase ⟨hoff.stage, hoff.done, hoff.noWait, hoff.repl⟩ (Or.inr rfl)

/-! ### Submitting an entry -/

theorem Chain.cons {comm : List (Nat × Entry P)} {x : Nat × Entry P} {l : List (Nat × Entry P)} (h : Chain comm l)
    (hle : ∀ a ∈ l, a.1 ≤ x.1) (hx : ∀ a rest, l = a :: rest → x.1 = a.1 → a ∈ comm ∧ Legal a.2 x.2) : Chain comm (x :: l) := by
  cases l with
  | nil => trivial
  | cons a l => exact ⟨⟨hle a (List.mem_cons_self ..), hx a l rfl⟩, h⟩

/-- A leader submits `e` when no closure of its term is outstanding and `e` may follow its last entry. -/
theorem submit_post {s : State P} (h : Base s) (hb : s.stage ≠ .none) (hp : NoPend s) (e : Entry P)
    (hx : ∀ a rest, s.subs = a :: rest → s.term = a.1 → a ∈ s.comm ∧ Legal a.2 e) (logOk : Bool) :
    Base (s.submit e logOk) ∧ OnePend (s.submit e logOk) e ∧ (s.submit e logOk).subs = (s.term, e) :: s.subs ∧
    (s.submit e logOk).role = s.role ∧ (s.submit e logOk).stage = s.stage ∧ (s.submit e logOk).new = s.new ∧
    (s.submit e logOk).olds = s.olds ∧ (s.submit e logOk).repl = s.repl ∧ (s.submit e logOk).waits = s.waits ∧
    (s.submit e logOk).version = s.version ∧ (s.submit e logOk).term = s.term ∧ (s.submit e logOk).self = s.self := by
  have hbusy : s.busy = true := by unfold State.busy; exact decide_eq_true hb
  have hc : s.check s.busy = { s with bad := s.bad } := by
    unfold State.check; rw [hbusy]; simp
  have hfil : (s.pend ++ [(⟨s.term, e, logOk⟩ : Pend P)]).filter (fun p => decide (p.term = s.term)) = [⟨s.term, e, logOk⟩] := by
    rw [List.filter_append, List.filter_eq_nil_iff.mpr (by intro p hp'; have := hp p hp'; simp; omega)]
    simp
  have hbase : ∀ s2 : State P, s2.pend = s.pend ++ [⟨s.term, e, logOk⟩] → s2.subs = (s.term, e) :: s.subs → s2.term = s.term →
      s2.comm = s.comm → s2.ran = s.ran → s2.done = s.done → s2.reqs = s.reqs → s2.new = s.new → s2.bad = s.bad →
      s2.waits = s.waits → s2.version = s.version → Base s2 := by
    intro s2 e1 e2 e3 e4 e5 e6 e7 e8 e9 e10 e11
    refine ⟨?_, ?_, ?_, ?_, ?_, ?_, ?_, ?_, ?_⟩
    · rw [e1, e3]; intro p hp'
      rcases List.mem_append.mp hp' with h1 | h1
      · exact h.pendLe p h1
      · rw [List.mem_singleton] at h1; subst h1; exact Nat.le_refl _
    · rw [e2, e3]; intro x hx'
      rcases List.mem_cons.mp hx' with rfl | h1
      · exact Nat.le_refl _
      · exact h.subsLe x h1
    · rw [e2, e4]; exact Chain.cons h.chain h.subsLe hx
    · rw [e5, e7, e4]; exact h.oks
    · rw [e5, e6, e7]; exact h.perm
    · rw [e6, e7, e8]; exact h.want
    · rw [e9]; exact h.good
    · rw [e10, e11]; exact h.waitLe
    · rw [e10, e11]; exact h.waitNd
  have hone : ∀ s2 : State P, s2.pend = s.pend ++ [⟨s.term, e, logOk⟩] → s2.term = s.term →
      (logOk = true → s2.conf = e.conf ∧ s2.old = e.olds) → OnePend s2 e := by
    intro s2 e1 e2 e3
    refine ⟨?_, ?_⟩
    · rw [e1, e2]; intro p hp' ht
      rcases List.mem_append.mp hp' with h1 | h1
      · have := hp p h1; omega
      · rw [List.mem_singleton] at h1; subst h1; exact ⟨rfl, e3⟩
    · rw [e1, e2, hfil]; simp
  unfold State.submit
  rw [hc]
  dsimp only
  cases logOk with
  | true =>
    rw [if_pos rfl]
    exact ⟨hbase _ rfl rfl rfl rfl rfl rfl rfl rfl rfl rfl rfl, hone _ rfl rfl (fun _ => ⟨rfl, rfl⟩), rfl, rfl, rfl, rfl, rfl, rfl, rfl, rfl, rfl, rfl⟩
  | false =>
    rw [if_neg (by decide)]
    exact ⟨hbase _ rfl rfl rfl rfl rfl rfl rfl rfl rfl rfl rfl, hone _ rfl rfl (by intro h; cases h), rfl, rfl, rfl, rfl, rfl, rfl, rfl, rfl, rfl, rfl⟩

/-! ### next_stage -/

theorem check_true (s : State P) {c : Bool} (h : c = true) : s.check c = s := by
  unfold State.check; subst h; simp

theorem mem_minus {a b : List P} {p : P} : p ∈ minus a b ↔ p ∈ a ∧ p ∉ b := by
  unfold minus; simp

/-- next_stage when all peers have caught up. -/
theorem nextStage_catching {s : State P} (h : Base s) (hs : s.stage = .catching) (hr : s.role = .leader) (hp : NoPend s)
    (hset : Settled s) (ho : s.olds = s.conf) (hn : s.nchanges = differ s.new s.olds) (hw : NoWait s)
    (hrep : ∀ p ∈ s.repl, p ≠ s.self → p ∈ s.new ∨ p ∈ s.olds) (logOk : Bool) : Inv (s.nextStage logOk) := by
  obtain ⟨rest, hhead⟩ := hset.head
  unfold State.nextStage
  rw [check_true s (by unfold State.busy; rw [hs]; decide)]
  dsimp only
  rw [hs]
  dsimp only
  have hb' : ∀ st : Stage, Base ({ s with stage := st } : State P) := fun st => ⟨h.1, h.2, h.3, h.4, h.5, h.6, h.7, h.8, h.9⟩
  by_cases hc : s.nchanges > 1
  · rw [if_pos hc]
    have hx : ∀ a rest', s.subs = a :: rest' → s.term = a.1 → a ∈ s.comm ∧ Legal a.2 ⟨s.new, some s.olds⟩ := by
      intro a rest' he _
      rw [hhead] at he
      cases he
      exact ⟨hset.comm, Or.inl (by rw [ho])⟩
    obtain ⟨a1, a2, a3, a4, a5, a6, a7, a8, a9, a10, a11, a12⟩ := submit_post (hb' .joint) (by simp) hp ⟨s.new, some s.olds⟩ hx logOk
    refine ⟨a1, ?_⟩
    unfold Phase
    rw [show _ = Role.leader from a4.trans hr]
    unfold Lead
    rw [a5]
    dsimp only
    rw [a6, a7, a8, a3, a11, a12]
    refine ⟨a4.trans hr, a2, ?_, ⟨_, rfl⟩, hrep⟩
    unfold NoWait; rw [a9, a10]; exact hw
  · rw [if_neg hc]
    have hx : ∀ a rest', s.subs = a :: rest' → s.term = a.1 → a ∈ s.comm ∧ Legal a.2 ⟨s.new, none⟩ := by
      intro a rest' he _
      rw [hhead] at he
      cases he
      refine ⟨hset.comm, Or.inr ⟨rfl, ?_⟩⟩
      rw [hn, ho] at hc
      show differ s.new s.conf ≤ 1
      omega
    obtain ⟨a1, a2, a3, a4, a5, a6, a7, a8, a9, a10, a11, a12⟩ := submit_post (hb' .stable) (by simp) hp ⟨s.new, none⟩ hx logOk
    refine ⟨a1, ?_⟩
    unfold Phase
    rw [show _ = Role.leader from a4.trans hr]
    unfold Lead
    rw [a5]
    dsimp only
    rw [a6, a7, a8, a3, a11, a12]
    refine ⟨a4.trans hr, a2, ?_, ⟨_, rfl⟩, hrep⟩
    unfold NoWait; rw [a9, a10]; exact hw

/-- next_stage when the joint entry has committed. -/
theorem nextStage_joint {s : State P} (h : Base s) (hs : s.stage = .joint) (hr : s.role = .leader) (hp : NoPend s)
    (hw : NoWait s) (hhead : ∃ rest, s.subs = (s.term, ⟨s.new, some s.olds⟩) :: rest)
    (hcomm : (s.term, ⟨s.new, some s.olds⟩) ∈ s.comm)
    (hrep : ∀ p ∈ s.repl, p ≠ s.self → p ∈ s.new ∨ p ∈ s.olds) (logOk : Bool) : Inv (s.nextStage logOk) := by
  obtain ⟨rest, hhead⟩ := hhead
  unfold State.nextStage
  rw [check_true s (by unfold State.busy; rw [hs]; decide)]
  dsimp only
  rw [hs]
  dsimp only
  have hb' : Base ({ s with stage := .stable } : State P) := ⟨h.1, h.2, h.3, h.4, h.5, h.6, h.7, h.8, h.9⟩
  have hx : ∀ a rest', s.subs = a :: rest' → s.term = a.1 → a ∈ s.comm ∧ Legal a.2 ⟨s.new, none⟩ := by
    intro a rest' he _
    rw [hhead] at he
    cases he
    exact ⟨hcomm, rfl⟩
  obtain ⟨a1, a2, a3, a4, a5, a6, a7, a8, a9, a10, a11, a12⟩ := submit_post hb' (by simp) hp ⟨s.new, none⟩ hx logOk
  refine ⟨a1, ?_⟩
  unfold Phase
  rw [show _ = Role.leader from a4.trans hr]
  unfold Lead
  rw [a5]
  dsimp only
  rw [a6, a7, a8, a3, a11, a12]
  refine ⟨a4.trans hr, a2, ?_, ⟨_, rfl⟩, hrep⟩
  unfold NoWait; rw [a9, a10]; exact hw

theorem sameSet_refl (c : List P) : sameSet c c = true := by unfold sameSet; simp

theorem reset_repl_ok {s : State P} (hne : s.stage ≠ .none) {p : P} (hp : p ∈ (s.reset (some .ok)).repl) :
    p ∈ s.repl ∧ (p ∈ s.olds → p ∈ s.new ∨ p = s.self) := by
  unfold State.reset at hp
  rw [if_neg hne] at hp
  dsimp only at hp
  rw [if_pos rfl] at hp
  unfold State.stopRepl at hp
  dsimp only at hp
  rw [List.mem_filter] at hp
  refine ⟨hp.1, fun ho => ?_⟩
  have := hp.2
  simp only [Bool.not_eq_true', Bool.and_eq_false_iff, decide_eq_false_iff_not] at this
  rcases this with (h1 | h1) | h1
  · exact absurd ho h1
  · left; exact Decidable.not_not.mp h1
  · right; exact Decidable.not_not.mp h1

theorem reset_repl_fail {s : State P} (hne : s.stage ≠ .none) {st : Option Code} (hst : st ≠ some .ok) {p : P}
    (hp : p ∈ (s.reset st).repl) : p ∈ s.repl ∧ (p ∈ s.new → p ∈ s.olds ∨ p = s.self) := by
  unfold State.reset at hp
  rw [if_neg hne] at hp
  dsimp only at hp
  rw [if_neg hst] at hp
  unfold State.stopRepl at hp
  dsimp only at hp
  rw [List.mem_filter] at hp
  refine ⟨hp.1, fun ho => ?_⟩
  have := hp.2
  simp only [Bool.not_eq_true', Bool.and_eq_false_iff, decide_eq_false_iff_not] at this
  rcases this with (h1 | h1) | h1
  · exact absurd ho h1
  · left; exact Decidable.not_not.mp h1
  · right; exact Decidable.not_not.mp h1


/-- next_stage when the last entry has committed: the change is over. -/
theorem nextStage_stable {s : State P} (h : Base s) (hs : s.stage = .stable) (hr : s.role = .leader) (hp : NoPend s)
    (hw : NoWait s) (hhead : ∃ rest, s.subs = (s.term, ⟨s.new, none⟩) :: rest)
    (hcomm : (s.term, ⟨s.new, none⟩) ∈ s.comm) (hconf : s.conf = s.new ∧ s.old = [])
    (hrep : ∀ p ∈ s.repl, p ≠ s.self → p ∈ s.new ∨ p ∈ s.olds) (logOk : Bool) : Inv (s.nextStage logOk) := by
  have hne : s.stage ≠ .none := by rw [hs]; simp
  obtain ⟨r1, r2, r3⟩ := reset_base h (some .ok) hne (fun _ i hi => ⟨s.term, s.new, hcomm, sameSet_refl _⟩)
  have hrr := fun p => reset_repl_ok (s := s) hne (p := p)
  obtain ⟨e1, e2, e3, e4, e5, e6, e7, e8, e9, e10, e11⟩ := reset_same s (some .ok)
  unfold State.nextStage
  rw [check_true s (by unfold State.busy; rw [hs]; decide)]
  dsimp only
  rw [hs]
  dsimp only
  generalize s.reset (some .ok) = s1 at *
  split
  · refine ⟨r1, ?_⟩
    unfold Phase
    rw [e1, hr]
    dsimp only
    unfold Lead
    rw [e8]
    dsimp only
    refine ⟨?_, ⟨?_, ?_, ?_⟩, ?_, r2, r3⟩
    · unfold NoPend; rw [e5, e2]; exact hp
    · rw [e4]; exact hconf.2
    · rw [e6, e2, e3, hconf.1]; exact hhead
    · rw [e7, e2, e3, hconf.1]; exact hcomm
    · intro p hpm hself
      obtain ⟨h1, h2⟩ := hrr p hpm
      rw [e3, hconf.1]
      rcases hrep p h1 (by rw [← e9]; exact hself) with h3 | h3
      · exact h3
      · rcases h2 h3 with h4 | h4
        · exact h4
        · rw [e9] at hself; exact absurd h4 hself
  · obtain ⟨a, b, c, _⟩ := stepDown_gen r1 (fun _ => ⟨r2, r3⟩) (by rw [e1, hr]; simp) s.term
    exact ⟨a, b.phase (Or.inl c)⟩

/-! ### Catching up -/

/-- A change that failed to bring a new peer up to date is over, and the configuration is as before. -/
theorem reset_catching {s : State P} (h : Base s) (hs : s.stage = .catching) (hr : s.role = .leader) (hp : NoPend s)
    (hset : Settled s) (ho : s.olds = s.conf) (hrep : ∀ p ∈ s.repl, p ≠ s.self → p ∈ s.new ∨ p ∈ s.olds) :
    Inv (s.reset (some .ecatchup)) := by
  have hne : s.stage ≠ .none := by rw [hs]; simp
  obtain ⟨r1, r2, r3⟩ := reset_base h (some .ecatchup) hne (by simp)
  have hrr := fun p => reset_repl_fail (s := s) hne (st := some .ecatchup) (by simp) (p := p)
  obtain ⟨e1, e2, e3, e4, e5, e6, e7, e8, e9, e10, e11⟩ := reset_same s (some .ecatchup)
  generalize s.reset (some .ecatchup) = s1 at *
  refine ⟨r1, ?_⟩
  unfold Phase
  rw [e1, hr]
  dsimp only
  unfold Lead
  rw [e8]
  dsimp only
  refine ⟨?_, ⟨?_, ?_, ?_⟩, ?_, r2, r3⟩
  · unfold NoPend; rw [e5, e2]; exact hp
  · rw [e4]; exact hset.old
  · rw [e6, e2, e3]; exact hset.head
  · rw [e7, e2, e3]; exact hset.comm
  · intro p hpm hself
    obtain ⟨h1, h2⟩ := hrr p hpm
    rw [e3, ← ho]
    rcases hrep p h1 (by rw [← e9]; exact hself) with h3 | h3
    · rcases h2 h3 with h4 | h4
      · exact h4
      · rw [e9] at hself; exact absurd h4 hself
    · exact h3

/-- The state while new peers catch up, with the waits possibly not all registered. -/
structure Catching (s : State P) : Prop where
  base : Base s
  stage : s.stage = .catching
  role : s.role = .leader
  noPend : NoPend s
  settled : Settled s
  olds : s.olds = s.conf
  nch : s.nchanges = differ s.new s.olds
  waits : ∀ w ∈ s.waits, w.2.2 = s.version → w.1 ∈ s.adding
  repl : ∀ p ∈ s.repl, p ≠ s.self → p ∈ s.new ∨ p ∈ s.olds

theorem Catching.inv {s : State P} (h : Catching s) (hne : s.adding ≠ []) : Inv s := by
  refine ⟨h.base, ?_⟩
  unfold Phase; rw [h.role]; dsimp only
  unfold Lead; rw [h.stage]
  exact ⟨h.role, h.noPend, h.settled, h.olds, h.nch, h.waits, hne, h.repl⟩

theorem Catching.fail {s : State P} (h : Catching s) (p : P) (logOk : Bool) :
    Inv (s.ctxCaughtUp s.version p false logOk) := by
  unfold State.ctxCaughtUp
  rw [if_neg (by simp), check_true s (by rw [h.stage]; decide)]
  dsimp only
  rw [if_neg (by decide)]
  exact reset_catching h.base h.stage h.role h.noPend h.settled h.olds h.repl

/-- A peer has caught up; its wait is gone. -/
theorem Catching.succ {s : State P} (h : Catching s) (p : P)
    (hp : ∀ w ∈ s.waits, w.2.2 = s.version → w.1 ≠ p) (logOk : Bool) :
    Inv (s.ctxCaughtUp s.version p true logOk) := by
  unfold State.ctxCaughtUp
  rw [if_neg (by simp), check_true s (by rw [h.stage]; decide)]
  dsimp only
  rw [if_pos rfl]
  have b := h.base
  have hc : Catching ({ s with adding := s.adding.filter (fun q => decide (q ≠ p)) } : State P) := by
    refine ⟨⟨b.1, b.2, b.3, b.4, b.5, b.6, b.7, b.8, b.9⟩, h.stage, h.role, h.noPend, ⟨h.settled.1, h.settled.2, h.settled.3⟩,
      h.olds, h.nch, ?_, h.repl⟩
    intro w hw hv
    show w.1 ∈ s.adding.filter (fun q => decide (q ≠ p))
    rw [List.mem_filter]
    exact ⟨h.waits w hw hv, decide_eq_true (hp w hw hv)⟩
  split
  · rename_i he
    have he' : s.adding.filter (fun q => decide (q ≠ p)) = [] := List.isEmpty_iff.mp he
    refine nextStage_catching hc.base hc.stage hc.role hc.noPend hc.settled hc.olds hc.nch ?_ hc.repl logOk
    intro w hw
    have h1 := hc.base.waitLe w hw
    rcases Nat.lt_or_eq_of_le h1 with h2 | h2
    · exact h2
    · have := hc.waits w hw h2
      have this' : w.1 ∈ s.adding.filter (fun q => decide (q ≠ p)) := this
      rw [he'] at this'; cases this'
  · rename_i he
    refine hc.inv ?_
    intro h0
    apply he
    show (s.adding.filter (fun q => decide (q ≠ p))).isEmpty = true
    rw [show s.adding.filter (fun q => decide (q ≠ p)) = [] from h0]; rfl

theorem startLoop_inv (addOk : P → Bool) (ps : List P) : ∀ {s : State P}, Catching s → s.adding ≠ [] →
    (∀ p ∈ ps, p ∈ s.adding ∧ p ∈ s.new) → ps.Nodup → (∀ w ∈ s.waits, w.2.2 = s.version → w.1 ∉ ps) →
    Inv (s.startLoop addOk ps) := by
  induction ps with
  | nil => intro s h hne _ _ _; exact h.inv hne
  | cons p ps ih =>
    intro s h hne hps hnd hw
    unfold State.startLoop
    split
    · have b := h.base
      refine ih ⟨⟨b.1, b.2, b.3, b.4, b.5, b.6, b.7, ?_, ?_⟩, h.stage, h.role, h.noPend, ⟨h.settled.1, h.settled.2, h.settled.3⟩, h.olds,
        h.nch, ?_, ?_⟩ hne (fun q hq => hps q (List.mem_cons_of_mem _ hq)) (List.nodup_cons.mp hnd).2 ?_
      · intro w hw'
        rcases List.mem_append.mp hw' with h1 | h1
        · exact b.waitLe w h1
        · rw [List.mem_singleton] at h1; subst h1; exact Nat.le_refl _
      · show (((s.waits ++ [(p, s.term, s.version)]).filter (fun w => decide (w.2.2 = s.version))).map Prod.fst).Nodup
        rw [List.filter_append, List.map_append, List.nodup_append]
        refine ⟨b.waitNd, by simp, ?_⟩
        intro a ha c hc
        simp at hc; subst hc
        rw [List.mem_map] at ha
        obtain ⟨w, hwm, rfl⟩ := ha
        rw [List.mem_filter] at hwm
        intro he
        exact hw w hwm.1 (of_decide_eq_true hwm.2) (by rw [he]; exact List.mem_cons_self ..)
      · intro w hw' hv
        rcases List.mem_append.mp hw' with h1 | h1
        · exact h.waits w h1 hv
        · rw [List.mem_singleton] at h1; subst h1; exact (hps p (List.mem_cons_self ..)).1
      · intro q hq hself
        have hq' : q ∈ (if p ∈ s.repl then s.repl else p :: s.repl) := hq
        split at hq'
        · exact h.repl q hq' hself
        · rcases List.mem_cons.mp hq' with rfl | h1
          · exact Or.inl (hps q (List.mem_cons_self ..)).2
          · exact h.repl q h1 hself
      · intro w hw' hv
        rcases List.mem_append.mp hw' with h1 | h1
        · exact fun hm => hw w h1 hv (List.mem_cons_of_mem _ hm)
        · rw [List.mem_singleton] at h1; subst h1; exact (List.nodup_cons.mp hnd).1
    · exact h.fail p true

/-! ### Requests -/

/-- The phase depends only on these fields. -/
theorem phase_of {s s' : State P} (h : Phase s) (e1 : s'.role = s.role) (e2 : s'.term = s.term) (e3 : s'.conf = s.conf)
    (e4 : s'.old = s.old) (e5 : s'.stage = s.stage) (e6 : s'.nchanges = s.nchanges) (e7 : s'.version = s.version)
    (e8 : s'.new = s.new) (e9 : s'.olds = s.olds) (e10 : s'.adding = s.adding) (e11 : s'.done = s.done)
    (e12 : s'.repl = s.repl) (e13 : s'.waits = s.waits) (e14 : s'.pend = s.pend) (e15 : s'.subs = s.subs)
    (e16 : s'.comm = s.comm) (e17 : s'.self = s.self) : Phase s' := by
  obtain ⟨self, role, term, conf, old, stage, nch, ver, new, olds, adding, dn, repl, waits, pend, reqs, ran, subs, comm, bad⟩ := s
  obtain ⟨self', role', term', conf', old', stage', nch', ver', new', olds', adding', dn', repl', waits', pend', reqs', ran', subs', comm', bad'⟩ := s'
  dsimp only at e1 e2 e3 e4 e5 e6 e7 e8 e9 e10 e11 e12 e13 e14 e15 e16 e17
  subst e1 e2 e3 e4 e5 e6 e7 e8 e9 e10 e11 e12 e13 e14 e15 e16 e17
  unfold Phase at h ⊢
  dsimp only at h ⊢
  cases role' <;> dsimp only at h ⊢
  · unfold Lead at h ⊢
    dsimp only at h ⊢
    cases stage' <;> dsimp only at h ⊢
    · exact ⟨h.1, ⟨h.2.1.1, h.2.1.2, h.2.1.3⟩, h.2.2.1, h.2.2.2.1, h.2.2.2.2⟩
    · exact ⟨h.1, h.2.1, ⟨h.2.2.1.1, h.2.2.1.2, h.2.2.1.3⟩, h.2.2.2⟩
    · exact ⟨h.1, ⟨h.2.1.1, h.2.1.2⟩, h.2.2⟩
    · exact ⟨h.1, ⟨h.2.1.1, h.2.1.2⟩, h.2.2⟩
  · unfold Lead at h ⊢
    dsimp only at h ⊢
    cases stage' <;> dsimp only at h ⊢
    · exact ⟨h.1, ⟨h.2.1.1, h.2.1.2, h.2.1.3⟩, h.2.2.1, h.2.2.2.1, h.2.2.2.2⟩
    · exact ⟨h.1, h.2.1, ⟨h.2.2.1.1, h.2.2.1.2, h.2.2.1.3⟩, h.2.2.2⟩
    · exact ⟨h.1, ⟨h.2.1.1, h.2.1.2⟩, h.2.2⟩
    · exact ⟨h.1, ⟨h.2.1.1, h.2.1.2⟩, h.2.2⟩
  · exact ⟨⟨h.1.1, h.1.2, h.1.3, h.1.4⟩, h.2.1, h.2.2⟩
  · exact ⟨h.1, h.2, h.3, h.4⟩
  · exact ⟨h.1, h.2, h.3, h.4⟩

theorem answer_inv {s : State P} (h : Inv s) (newc : List P) (c : Code)
    (hok : c = .ok → ∃ t d, (t, (⟨d, none⟩ : Entry P)) ∈ s.comm ∧ sameSet d newc = true) :
    Inv ({ s with reqs := s.reqs ++ [newc] }.answer s.reqs.length c) := by
  have b := h.base
  refine ⟨⟨b.1, b.2, b.3, ?_, ?_, ?_, b.7, b.8, b.9⟩, ?_⟩
  · intro i hi
    rcases List.mem_append.mp hi with h1 | h1
    · obtain ⟨c', t, d, h2, h3⟩ := b.oks i h1
      refine ⟨c', t, d, ?_, h3⟩
      show (s.reqs ++ [newc])[i]? = some c'
      rw [List.getElem?_append_left (by have := (List.getElem?_eq_some_iff.mp h2).1; exact this)]; exact h2
    · rw [List.mem_singleton] at h1
      cases h1
      obtain ⟨t, d, h2, h3⟩ := hok rfl
      refine ⟨newc, t, d, ?_, h2, h3⟩
      show (s.reqs ++ [newc])[s.reqs.length]? = some newc
      rw [List.getElem?_append_right (Nat.le_refl _)]; simp
  · show ((s.ran ++ [(s.reqs.length, c)]).map Prod.fst ++ s.done.toList).Perm (List.range (s.reqs ++ [newc]).length)
    rw [List.length_append, List.length_singleton, List.range_succ, List.map_append]
    have := b.perm
    refine List.Perm.trans ?_ (this.append_right [s.reqs.length])
    rw [List.append_assoc, List.append_assoc]
    exact List.Perm.append_left _ List.perm_append_comm
  · intro i hi
    show (s.reqs ++ [newc])[i]? = some s.new
    have h2 := b.want i hi
    rw [List.getElem?_append_left (by have := (List.getElem?_eq_some_iff.mp h2).1; exact this)]; exact h2
  · exact phase_of h.phase rfl rfl rfl rfl rfl rfl rfl rfl rfl rfl rfl rfl rfl rfl rfl rfl rfl

theorem Inv.change {s : State P} (h : Inv s) (newc : List P) (hnd : newc.Nodup) (addOk : P → Bool) (logOk : Bool) :
    Inv (s.change newc addOk logOk) := by
  unfold State.change
  dsimp only
  by_cases hr : s.role ≠ .leader
  · rw [if_pos hr]
    exact answer_inv h newc _ (by intro hc; split at hc <;> cases hc)
  rw [if_neg hr]
  have hr' : s.role = .leader := Decidable.not_not.mp hr
  by_cases hb : s.busy = true
  · rw [if_pos hb]
    exact answer_inv h newc _ (by intro hc; cases hc)
  rw [if_neg hb]
  have hst : s.stage = .none := by
    unfold State.busy at hb
    simpa using hb
  have hph := h.phase
  unfold Phase at hph
  rw [hr'] at hph
  dsimp only at hph
  unfold Lead at hph
  rw [hst] at hph
  dsimp only at hph
  obtain ⟨p1, p2, p3, p4, p5⟩ := hph
  by_cases hc : sameSet s.conf newc = true
  · rw [if_pos hc]
    exact answer_inv h newc _ (fun _ => ⟨s.term, s.conf, p2.comm, hc⟩)
  rw [if_neg hc]
  unfold State.start
  rw [check_true _ (show (!State.busy ({ s with reqs := s.reqs ++ [newc] } : State P)) = true by unfold State.busy; simp [hst]),
    check_true _ (show Option.isNone ({ s with reqs := s.reqs ++ [newc] } : State P).done = true by simp [p4])]
  dsimp only
  have b := h.base
  have hbase : ∀ ad : List P, Base ({ s with reqs := s.reqs ++ [newc], done := some s.reqs.length, stage := Stage.catching, olds := s.conf, new := newc, nchanges := (minus newc s.conf).length + (minus s.conf newc).length, adding := ad } : State P) := by
    intro ad
    refine ⟨b.1, b.2, b.3, ?_, ?_, ?_, b.7, b.8, b.9⟩
    · intro i hi
      obtain ⟨c', t, d, h2, h3⟩ := b.oks i hi
      refine ⟨c', t, d, ?_, h3⟩
      show (s.reqs ++ [newc])[i]? = some c'
      rw [List.getElem?_append_left (by have := (List.getElem?_eq_some_iff.mp h2).1; exact this)]; exact h2
    · show (s.ran.map Prod.fst ++ [s.reqs.length]).Perm (List.range (s.reqs ++ [newc]).length)
      rw [List.length_append, List.length_singleton, List.range_succ]
      have := b.perm
      rw [p4] at this
      exact List.Perm.append_right _ (by simpa using this)
    · intro i hi
      cases hi
      show (s.reqs ++ [newc])[s.reqs.length]? = some newc
      rw [List.getElem?_append_right (Nat.le_refl _)]; simp
  have hcat : ∀ ad : List P, Catching ({ s with reqs := s.reqs ++ [newc], done := some s.reqs.length, stage := Stage.catching, olds := s.conf, new := newc, nchanges := (minus newc s.conf).length + (minus s.conf newc).length, adding := ad } : State P) := by
    intro ad
    refine ⟨hbase ad, rfl, hr', p1, ⟨p2.1, p2.2, p2.3⟩, rfl, rfl, ?_, fun p hp hs => Or.inr (p3 p hp hs)⟩
    intro w hw hv
    have := p5 w hw
    have hv' : w.2.2 = s.version := hv
    omega
  by_cases he : (minus newc s.conf).isEmpty = true
  · rw [if_pos he]
    have hc := hcat s.adding
    exact nextStage_catching hc.base hc.stage hc.role hc.noPend hc.settled hc.olds hc.nch p5 hc.repl logOk
  · rw [if_neg he]
    refine startLoop_inv addOk (minus newc s.conf) (hcat (minus newc s.conf)) ?_ ?_ ?_ ?_
    · intro h0
      apply he
      have h0' : minus newc s.conf = [] := h0
      rw [h0']; rfl
    · intro p hp; exact ⟨hp, (mem_minus.mp hp).1⟩
    · unfold minus; exact hnd.filter _
    · intro w hw hv
      have := p5 w hw
      have hv' : w.2.2 = s.version := hv
      omega

/-! ### Closures -/

theorem eraseIdx_filter_one {α : Type} {l : List α} {q : α → Bool} {k : Nat} {x : α} (hx : l[k]? = some x) (hq : q x = true)
    (h1 : (l.filter q).length ≤ 1) : ∀ y ∈ l.eraseIdx k, q y = false := by
  induction l generalizing k with
  | nil => cases hx
  | cons a l ih =>
    cases k with
    | zero =>
      simp at hx; subst hx
      rw [List.filter_cons_of_pos hq] at h1
      intro y hy
      have h0 : l.filter q = [] := by
        have : (l.filter q).length ≤ 0 := by simpa using h1
        exact List.length_eq_zero_iff.mp (by omega)
      have := (List.filter_eq_nil_iff.mp h0) y (by simpa using hy)
      simpa using this
    | succ k =>
      simp at hx
      have hmem : x ∈ l := List.mem_of_getElem? hx
      have ha : q a = false := by
        cases hqa : q a with
        | false => rfl
        | true =>
          rw [List.filter_cons_of_pos hqa] at h1
          have h0 : l.filter q = [] := by
            have : (l.filter q).length ≤ 0 := by simpa using h1
            exact List.length_eq_zero_iff.mp (by omega)
          have := (List.filter_eq_nil_iff.mp h0) x hmem
          exact absurd hq this
      rw [List.filter_cons_of_neg (by rw [ha]; decide)] at h1
      intro y hy
      rw [List.eraseIdx_cons_succ] at hy
      rcases List.mem_cons.mp hy with rfl | hy
      · exact ha
      · exact ih hx h1 y hy

theorem wait_gone {l : List (P × Nat × Nat)} {v : Nat} {k : Nat} {p : P} {t : Nat} (hk : l[k]? = some (p, t, v))
    (hnd : ((l.filter (fun w => decide (w.2.2 = v))).map Prod.fst).Nodup) :
    ∀ w ∈ l.eraseIdx k, w.2.2 = v → w.1 ≠ p := by
  induction l generalizing k with
  | nil => cases hk
  | cons a l ih =>
    cases k with
    | zero =>
      simp at hk; subst hk
      rw [List.filter_cons_of_pos (by simp), List.map_cons, List.nodup_cons] at hnd
      intro w hw hv he
      apply hnd.1
      rw [List.mem_map]
      exact ⟨w, List.mem_filter.mpr ⟨by simpa using hw, decide_eq_true hv⟩, he⟩
    | succ k =>
      simp at hk
      intro w hw hv
      rw [List.eraseIdx_cons_succ] at hw
      by_cases hav : a.2.2 = v
      · rw [List.filter_cons_of_pos (by simpa using hav), List.map_cons, List.nodup_cons] at hnd
        rcases List.mem_cons.mp hw with rfl | hw
        · intro he
          apply hnd.1
          rw [List.mem_map]
          exact ⟨(p, t, v), List.mem_filter.mpr ⟨List.mem_of_getElem? hk, by simp⟩, he.symm⟩
        · exact ih hk hnd.2 w hw hv
      · rw [List.filter_cons_of_neg (by simpa using hav)] at hnd
        rcases List.mem_cons.mp hw with rfl | hw
        · exact absurd hv hav
        · exact ih hk hnd w hw hv

/-- A wait ends without effect. -/
theorem Inv.dropWait {s : State P} (h : Inv s) (k : Nat) : Inv { s with waits := s.waits.eraseIdx k } := by
  have b := h.base
  have hsub : (s.waits.eraseIdx k).Sublist s.waits := List.eraseIdx_sublist ..
  refine ⟨⟨b.1, b.2, b.3, b.4, b.5, b.6, b.7, fun w hw => b.8 w (hsub.subset hw), ?_⟩, ?_⟩
  · exact b.waitNd.sublist ((hsub.filter _).map _)
  · have hph := h.phase
    obtain ⟨self, role, term, conf, old, stage, nch, ver, new, olds, adding, dn, repl, waits, pend, reqs, ran, subs, comm, bad⟩ := s
    dsimp only at hsub ⊢
    unfold Phase at hph ⊢
    dsimp only at hph ⊢
    cases role <;> dsimp only at hph ⊢
    · unfold Lead at hph ⊢
      dsimp only at hph ⊢
      cases stage <;> dsimp only at hph ⊢
      · exact ⟨hph.1, ⟨hph.2.1.1, hph.2.1.2, hph.2.1.3⟩, hph.2.2.1, hph.2.2.2.1, fun w hw => hph.2.2.2.2 w (hsub.subset hw)⟩
      · exact ⟨hph.1, hph.2.1, ⟨hph.2.2.1.1, hph.2.2.1.2, hph.2.2.1.3⟩, hph.2.2.2.1, hph.2.2.2.2.1, fun w hw => hph.2.2.2.2.2.1 w (hsub.subset hw), hph.2.2.2.2.2.2⟩
      · exact ⟨hph.1, ⟨hph.2.1.1, hph.2.1.2⟩, fun w hw => hph.2.2.1 w (hsub.subset hw), hph.2.2.2⟩
      · exact ⟨hph.1, ⟨hph.2.1.1, hph.2.1.2⟩, fun w hw => hph.2.2.1 w (hsub.subset hw), hph.2.2.2⟩
    · unfold Lead at hph ⊢
      dsimp only at hph ⊢
      cases stage <;> dsimp only at hph ⊢
      · exact ⟨hph.1, ⟨hph.2.1.1, hph.2.1.2, hph.2.1.3⟩, hph.2.2.1, hph.2.2.2.1, fun w hw => hph.2.2.2.2 w (hsub.subset hw)⟩
      · exact ⟨hph.1, hph.2.1, ⟨hph.2.2.1.1, hph.2.2.1.2, hph.2.2.1.3⟩, hph.2.2.2.1, hph.2.2.2.2.1, fun w hw => hph.2.2.2.2.2.1 w (hsub.subset hw), hph.2.2.2.2.2.2⟩
      · exact ⟨hph.1, ⟨hph.2.1.1, hph.2.1.2⟩, fun w hw => hph.2.2.1 w (hsub.subset hw), hph.2.2.2⟩
      · exact ⟨hph.1, ⟨hph.2.1.1, hph.2.1.2⟩, fun w hw => hph.2.2.1 w (hsub.subset hw), hph.2.2.2⟩
    · exact ⟨⟨hph.1.1, hph.1.2, fun w hw => hph.1.3 w (hsub.subset hw), hph.1.4⟩, hph.2.1, hph.2.2⟩
    · exact ⟨hph.1, hph.2, fun w hw => hph.3 w (hsub.subset hw), hph.4⟩
    · exact ⟨hph.1, hph.2, fun w hw => hph.3 w (hsub.subset hw), hph.4⟩

/-- A wait of the present version exists only while new peers catch up. -/
theorem Inv.catching {s : State P} (h : Inv s) (hr : s.role = .leader) {w : P × Nat × Nat} (hw : w ∈ s.waits)
    (hv : w.2.2 = s.version) : Catching s ∧ s.adding ≠ [] := by
  have hph := h.phase
  unfold Phase at hph
  rw [hr] at hph
  dsimp only at hph
  unfold Lead at hph
  cases hs : s.stage <;> rw [hs] at hph <;> dsimp only at hph
  · have := hph.2.2.2.2 w hw; omega
  · obtain ⟨a1, a2, a3, a4, a5, a6, a7, a8⟩ := hph
    exact ⟨⟨h.base, hs, hr, a2, a3, a4, a5, a6, a8⟩, a7⟩
  · have := hph.2.2.1 w hw; omega
  · have := hph.2.2.1 w hw; omega

theorem Inv.caughtUp {s : State P} (h : Inv s) (k : Nat) (c : Caught) (logOk : Bool) : Inv (s.caughtUp k c logOk) := by
  unfold State.caughtUp
  cases hk : s.waits[k]? with
  | none => exact h
  | some x =>
    obtain ⟨p, t, v⟩ := x
    dsimp only
    have hd := h.dropWait k
    have hmem := List.mem_of_getElem? hk
    split
    · exact hd
    · rename_i hc
      have hrole : s.role = .leader := by
        apply Decidable.byContradiction; intro hx; exact hc (Or.inl hx)
      by_cases hv : v = s.version
      · subst hv
        obtain ⟨hcat, hne⟩ := h.catching hrole hmem rfl
        have hcat' : Catching ({ s with waits := s.waits.eraseIdx k } : State P) :=
          ⟨hd.base, hcat.stage, hcat.role, hcat.noPend, ⟨hcat.settled.1, hcat.settled.2, hcat.settled.3⟩, hcat.olds, hcat.nch,
            fun w hw => hcat.waits w ((List.eraseIdx_sublist ..).subset hw), hcat.repl⟩
        have hgone := wait_gone hk h.base.waitNd
        cases c with
        | ok => exact hcat'.succ p hgone logOk
        | fail => exact hcat'.fail p logOk
        | retry =>
          have b := hcat'.base
          refine Catching.inv ⟨⟨b.1, b.2, b.3, b.4, b.5, b.6, b.7, ?_, ?_⟩, hcat.stage, hcat.role, hcat.noPend,
            ⟨hcat.settled.1, hcat.settled.2, hcat.settled.3⟩, hcat.olds, hcat.nch, ?_, hcat.repl⟩ hne
          · intro w hw
            rcases List.mem_append.mp hw with h1 | h1
            · exact b.waitLe w h1
            · rw [List.mem_singleton] at h1; subst h1; exact Nat.le_refl _
          · show (((s.waits.eraseIdx k ++ [(p, s.term, s.version)]).filter (fun w => decide (w.2.2 = s.version))).map Prod.fst).Nodup
            rw [List.filter_append, List.map_append, List.nodup_append]
            refine ⟨b.waitNd, by simp, ?_⟩
            intro a ha c hc'
            simp at hc'; subst hc'
            rw [List.mem_map] at ha
            obtain ⟨w, hwm, rfl⟩ := ha
            rw [List.mem_filter] at hwm
            exact hgone w hwm.1 (of_decide_eq_true hwm.2)
          · intro w hw hv
            rcases List.mem_append.mp hw with h1 | h1
            · exact hcat'.waits w h1 hv
            · rw [List.mem_singleton] at h1; subst h1
              exact hcat.waits (p, t, s.version) hmem rfl
      · have hlt : v < s.version := by
          have := h.base.waitLe _ hmem
          have : v ≤ s.version := this
          omega
        have hskip : ∀ succ, (({ s with waits := s.waits.eraseIdx k } : State P).ctxCaughtUp v p succ logOk) = { s with waits := s.waits.eraseIdx k } := by
          intro succ; unfold State.ctxCaughtUp; rw [if_pos hv]
        cases c with
        | ok => show Inv (State.ctxCaughtUp _ v p true logOk); rw [hskip]; exact hd
        | fail => show Inv (State.ctxCaughtUp _ v p false logOk); rw [hskip]; exact hd
        | retry =>
          -- an old version again
          have hnf : ∀ l : List (P × Nat × Nat), (l ++ [(p, s.term, v)]).filter (fun w => decide (w.2.2 = s.version)) =
              l.filter (fun w => decide (w.2.2 = s.version)) := by
            intro l; rw [List.filter_append]; simp [hv]
          have b := hd.base
          have hwl : ∀ w ∈ s.waits.eraseIdx k ++ [(p, s.term, v)], w ∈ s.waits.eraseIdx k ∨ w.2.2 < s.version := by
            intro w hw
            rcases List.mem_append.mp hw with h1 | h1
            · exact Or.inl h1
            · rw [List.mem_singleton] at h1; subst h1; exact Or.inr hlt
          refine ⟨⟨b.1, b.2, b.3, b.4, b.5, b.6, b.7, ?_, ?_⟩, ?_⟩
          · intro w hw
            rcases hwl w hw with h1 | h1
            · exact b.waitLe w h1
            · exact Nat.le_of_lt h1
          · show (((s.waits.eraseIdx k ++ [(p, s.term, v)]).filter (fun w => decide (w.2.2 = s.version))).map Prod.fst).Nodup
            rw [hnf]; exact b.waitNd
          · have hph := hd.phase
            unfold Phase at hph ⊢
            dsimp only at hph ⊢
            rw [hrole] at hph ⊢
            dsimp only at hph ⊢
            unfold Lead at hph ⊢
            dsimp only at hph ⊢
            have hnw : NoWait ({ s with waits := s.waits.eraseIdx k } : State P) →
                NoWait ({ s with waits := s.waits.eraseIdx k ++ [(p, s.term, v)] } : State P) := by
              intro hn w hw
              rcases hwl w hw with h1 | h1
              · exact hn w h1
              · exact h1
            cases hs : s.stage <;> rw [hs] at hph <;> dsimp only at hph ⊢
            · exact ⟨hph.1, ⟨hph.2.1.1, hph.2.1.2, hph.2.1.3⟩, hph.2.2.1, hph.2.2.2.1, hnw hph.2.2.2.2⟩
            · refine ⟨rfl, hph.2.1, ⟨hph.2.2.1.1, hph.2.2.1.2, hph.2.2.1.3⟩, hph.2.2.2.1, hph.2.2.2.2.1, ?_, hph.2.2.2.2.2.2⟩
              intro w hw hv'
              rcases hwl w hw with h1 | h1
              · exact hph.2.2.2.2.2.1 w h1 hv'
              · omega
            · exact ⟨rfl, ⟨hph.2.1.1, hph.2.1.2⟩, hnw hph.2.2.1, hph.2.2.2⟩
            · exact ⟨rfl, ⟨hph.2.1.1, hph.2.1.2⟩, hnw hph.2.2.1, hph.2.2.2⟩

/-- A closure ends without effect. -/
theorem Inv.dropPend {s : State P} (h : Inv s) (k : Nat) : Inv { s with pend := s.pend.eraseIdx k } := by
  have b := h.base
  have hsub : (s.pend.eraseIdx k).Sublist s.pend := List.eraseIdx_sublist ..
  refine ⟨⟨fun w hw => b.1 w (hsub.subset hw), b.2, b.3, b.4, b.5, b.6, b.7, b.8, b.9⟩, ?_⟩
  have hph := h.phase
  obtain ⟨self, role, term, conf, old, stage, nch, ver, new, olds, adding, dn, repl, waits, pend, reqs, ran, subs, comm, bad⟩ := s
  dsimp only at hsub ⊢
  have hone : ∀ {e : Entry P}, OnePend (⟨self, role, term, conf, old, stage, nch, ver, new, olds, adding, dn, repl, waits, pend, reqs, ran, subs, comm, bad⟩ : State P) e →
      OnePend (⟨self, role, term, conf, old, stage, nch, ver, new, olds, adding, dn, repl, waits, pend.eraseIdx k, reqs, ran, subs, comm, bad⟩ : State P) e := by
    intro e ho
    refine ⟨fun q hq ht => ho.ent q (hsub.subset hq) ht, ?_⟩
    exact Nat.le_trans (hsub.filter _).length_le ho.one
  unfold Phase at hph ⊢
  dsimp only at hph ⊢
  cases role <;> dsimp only at hph ⊢
  · unfold Lead at hph ⊢
    dsimp only at hph ⊢
    cases stage <;> dsimp only at hph ⊢
    · exact ⟨fun w hw => hph.1 w (hsub.subset hw), ⟨hph.2.1.1, hph.2.1.2, hph.2.1.3⟩, hph.2.2.1, hph.2.2.2.1, hph.2.2.2.2⟩
    · exact ⟨hph.1, fun w hw => hph.2.1 w (hsub.subset hw), ⟨hph.2.2.1.1, hph.2.2.1.2, hph.2.2.1.3⟩, hph.2.2.2⟩
    · exact ⟨hph.1, hone hph.2.1, hph.2.2⟩
    · exact ⟨hph.1, hone hph.2.1, hph.2.2⟩
  · unfold Lead at hph ⊢
    dsimp only at hph ⊢
    cases stage <;> dsimp only at hph ⊢
    · exact ⟨fun w hw => hph.1 w (hsub.subset hw), ⟨hph.2.1.1, hph.2.1.2, hph.2.1.3⟩, hph.2.2.1, hph.2.2.2.1, hph.2.2.2.2⟩
    · exact ⟨hph.1, fun w hw => hph.2.1 w (hsub.subset hw), ⟨hph.2.2.1.1, hph.2.2.1.2, hph.2.2.1.3⟩, hph.2.2.2⟩
    · exact ⟨hph.1, hone hph.2.1, hph.2.2⟩
    · exact ⟨hph.1, hone hph.2.1, hph.2.2⟩
  · exact ⟨⟨hph.1.1, hph.1.2, hph.1.3, hph.1.4⟩, fun w hw => hph.2.1 w (hsub.subset hw), hph.2.2⟩
  · exact ⟨hph.1, hph.2, hph.3, hph.4⟩
  · exact ⟨hph.1, hph.2, hph.3, hph.4⟩

/-- More entries are known to be committed. -/
theorem Inv.addComm {s : State P} (h : Inv s) (x : Nat × Entry P) : Inv { s with comm := x :: s.comm } := by
  have b := h.base
  refine ⟨⟨b.1, b.2, b.3.mono (fun y hy => List.mem_cons_of_mem _ hy), ?_, b.5, b.6, b.7, b.8, b.9⟩, ?_⟩
  · intro i hi
    obtain ⟨c, t, d, h1, h2, h3⟩ := b.oks i hi
    exact ⟨c, t, d, h1, List.mem_cons_of_mem _ h2, h3⟩
  have hph := h.phase
  obtain ⟨self, role, term, conf, old, stage, nch, ver, new, olds, adding, dn, repl, waits, pend, reqs, ran, subs, comm, bad⟩ := s
  unfold Phase at hph ⊢
  dsimp only at hph ⊢
  cases role <;> dsimp only at hph ⊢
  · unfold Lead at hph ⊢
    dsimp only at hph ⊢
    cases stage <;> dsimp only at hph ⊢
    · exact ⟨hph.1, ⟨hph.2.1.1, hph.2.1.2, List.mem_cons_of_mem _ hph.2.1.3⟩, hph.2.2.1, hph.2.2.2.1, hph.2.2.2.2⟩
    · exact ⟨hph.1, hph.2.1, ⟨hph.2.2.1.1, hph.2.2.1.2, List.mem_cons_of_mem _ hph.2.2.1.3⟩, hph.2.2.2⟩
    · exact ⟨hph.1, ⟨hph.2.1.1, hph.2.1.2⟩, hph.2.2⟩
    · exact ⟨hph.1, ⟨hph.2.1.1, hph.2.1.2⟩, hph.2.2⟩
  · unfold Lead at hph ⊢
    dsimp only at hph ⊢
    cases stage <;> dsimp only at hph ⊢
    · exact ⟨hph.1, ⟨hph.2.1.1, hph.2.1.2, List.mem_cons_of_mem _ hph.2.1.3⟩, hph.2.2.1, hph.2.2.2.1, hph.2.2.2.2⟩
    · exact ⟨hph.1, hph.2.1, ⟨hph.2.2.1.1, hph.2.2.1.2, List.mem_cons_of_mem _ hph.2.2.1.3⟩, hph.2.2.2⟩
    · exact ⟨hph.1, ⟨hph.2.1.1, hph.2.1.2⟩, hph.2.2⟩
    · exact ⟨hph.1, ⟨hph.2.1.1, hph.2.1.2⟩, hph.2.2⟩
  · exact ⟨⟨hph.1.1, hph.1.2, hph.1.3, hph.1.4⟩, hph.2.1, hph.2.2⟩
  · exact ⟨hph.1, hph.2, hph.3, hph.4⟩
  · exact ⟨hph.1, hph.2, hph.3, hph.4⟩

theorem Inv.entryDone {s : State P} (h : Inv s) (k : Nat) (ok logOk : Bool) : Inv (s.entryDone k ok logOk) := by
  unfold State.entryDone
  cases hk : s.pend[k]? with
  | none => exact h
  | some p =>
    dsimp only
    have hd := h.dropPend k
    have hmem := List.mem_of_getElem? hk
    split
    · rename_i hok
      rw [Bool.and_eq_true] at hok
      have hc := hd.addComm (p.term, p.entry)
      split
      · rename_i hl
        obtain ⟨hrole, hterm⟩ := hl
        have hlead : Lead s := by
          have := h.phase
          unfold Phase at this
          rcases hrole with hr | hr <;> rw [hr] at this <;> exact this
        have hnp : ∀ {e : Entry P}, OnePend s e → NoPend ({ s with pend := s.pend.eraseIdx k, comm := (p.term, p.entry) :: s.comm } : State P) := by
          intro e ho q hq
          have h1 := eraseIdx_filter_one hk (decide_eq_true hterm) ho.one q hq
          have h2 := h.base.pendLe q ((List.eraseIdx_sublist ..).subset hq)
          have h3 : q.term ≠ s.term := of_decide_eq_false h1
          show q.term < s.term
          omega
        unfold Lead at hlead
        have hst : s.stage = .none ∨ s.stage = .catching ∨ s.stage = .joint ∨ s.stage = .stable := by
          cases s.stage <;> simp
        rcases hst with hs | hs | hs | hs <;> rw [hs] at hlead <;> dsimp only at hlead
        · have := hlead.1 p hmem; omega
        · have := hlead.2.1 p hmem; omega
        · obtain ⟨a1, a2, a3, a4, a5⟩ := hlead
          obtain ⟨e1, e2⟩ := a2.ent p hmem hterm
          exact nextStage_joint hc.base hs a1 (hnp a2) a3 a4
            (by show (s.term, (⟨s.new, some s.olds⟩ : Entry P)) ∈ (p.term, p.entry) :: s.comm; rw [hterm, e1]; exact List.mem_cons_self ..) a5 logOk
        · obtain ⟨a1, a2, a3, a4, a5⟩ := hlead
          obtain ⟨e1, e2⟩ := a2.ent p hmem hterm
          exact nextStage_stable hc.base hs a1 (hnp a2) a3 a4
            (by show (s.term, (⟨s.new, none⟩ : Entry P)) ∈ (p.term, p.entry) :: s.comm; rw [hterm, e1]; exact List.mem_cons_self ..)
            (e2 hok.2) a5 logOk
      · exact hc
    · exact hd

/-! ### The rest -/

theorem Inv.becomeLeader {s : State P} (h : Inv s) (addOk : P → Bool) (logOk : Bool) : Inv (s.becomeLeader addOk logOk) := by
  unfold State.becomeLeader
  split
  · rename_i hr
    have hph := h.phase
    unfold Phase at hph
    rw [hr] at hph
    obtain ⟨hoff, hp, hsl⟩ := hph
    have b := h.base
    rw [check_true _ (show (!State.busy s) = true by unfold State.busy; simp [hoff.stage])]
    unfold State.flush
    rw [check_true _ (show (!State.busy ({ s with role := .leader, repl := (s.conf ++ s.old).filter (fun p => decide (p ≠ s.self) && addOk p) } : State P)) = true by
      unfold State.busy; simp [hoff.stage])]
    dsimp only
    have hrep : ∀ p ∈ (s.conf ++ s.old).filter (fun p => decide (p ≠ s.self) && addOk p), p ∈ s.conf ∨ p ∈ s.old := by
      intro p hpm
      rw [List.mem_filter, List.mem_append] at hpm
      exact hpm.1
    have hx : ∀ (e : Entry P) (a : Nat × Entry P) (rest), s.subs = a :: rest → s.term = a.1 → a ∈ s.comm ∧ Legal a.2 e := by
      intro e a rest he ht
      have := hsl a (by rw [he]; exact List.mem_cons_self ..)
      omega
    have hw : ∀ i, s.done = some i → False := by intro i hi; rw [hoff.done] at hi; cases hi
    by_cases ho : s.old.isEmpty = true
    · rw [if_pos ho, if_pos ho]
      have hb' : Base ({ s with role := .leader, repl := (s.conf ++ s.old).filter (fun p => decide (p ≠ s.self) && addOk p), new := s.conf, stage := Stage.stable, olds := s.conf } : State P) :=
        ⟨b.1, b.2, b.3, b.4, b.5, fun i hi => absurd hi (fun h => hw i h), b.7, b.8, b.9⟩
      obtain ⟨a1, a2, a3, a4, a5, a6, a7, a8, a9, a10, a11, a12⟩ := submit_post hb' (by simp) hp ⟨s.conf, none⟩ (hx _) logOk
      refine ⟨a1, ?_⟩
      unfold Phase
      rw [a4]
      dsimp only
      unfold Lead
      rw [a5]
      dsimp only
      rw [a6, a7, a8, a3, a11, a12]
      refine ⟨a4, a2, ?_, ⟨_, rfl⟩, ?_⟩
      · unfold NoWait; rw [a9, a10]; exact hoff.noWait
      · intro p hpm hself
        rcases hrep p hpm with h1 | h1
        · exact Or.inl h1
        · rw [List.isEmpty_iff.mp ho] at h1; cases h1
    · rw [if_neg ho, if_neg ho]
      have hb' : Base ({ s with role := .leader, repl := (s.conf ++ s.old).filter (fun p => decide (p ≠ s.self) && addOk p), new := s.conf, stage := Stage.joint, olds := s.old } : State P) :=
        ⟨b.1, b.2, b.3, b.4, b.5, fun i hi => absurd hi (fun h => hw i h), b.7, b.8, b.9⟩
      obtain ⟨a1, a2, a3, a4, a5, a6, a7, a8, a9, a10, a11, a12⟩ := submit_post hb' (by simp) hp ⟨s.conf, some s.old⟩ (hx _) logOk
      refine ⟨a1, ?_⟩
      unfold Phase
      rw [a4]
      dsimp only
      unfold Lead
      rw [a5]
      dsimp only
      rw [a6, a7, a8, a3, a11, a12]
      refine ⟨a4, a2, ?_, ⟨_, rfl⟩, ?_⟩
      · unfold NoWait; rw [a9, a10]; exact hoff.noWait
      · intro p hpm hself; exact hrep p hpm
  · exact h

theorem Inv.elect {s : State P} (h : Inv s) : Inv s.elect := by
  unfold State.elect
  split
  · rename_i hr
    have b := h.base
    have hoff : Off s := by
      have hph := h.phase
      unfold Phase at hph
      rcases hr.1 with hr | hr <;> rw [hr] at hph
      · exact hph
      · exact hph.1
    refine ⟨⟨fun p hp => Nat.le_succ_of_le (b.1 p hp), fun p hp => Nat.le_succ_of_le (b.2 p hp), b.3, b.4, b.5, b.6, b.7, b.8, b.9⟩, ?_⟩
    exact ⟨⟨hoff.1, hoff.2, hoff.3, hoff.4⟩, fun p hp => Nat.lt_succ_of_le (b.1 p hp), fun p hp => Nat.lt_succ_of_le (b.2 p hp)⟩
  · exact h

theorem Inv.follow {s : State P} (h : Inv s) (conf old : List P) : Inv (s.follow conf old) := by
  unfold State.follow
  split
  · rename_i hr
    have b := h.base
    have hoff : Off s := by
      have hph := h.phase
      unfold Phase at hph
      rw [hr] at hph; exact hph
    exact ⟨⟨b.1, b.2, b.3, b.4, b.5, b.6, b.7, b.8, b.9⟩, Off.phase ⟨hoff.1, hoff.2, hoff.3, hoff.4⟩ (Or.inl hr)⟩
  · exact h

theorem Inv.transfer {s : State P} (h : Inv s) (ok : Bool) : Inv (s.transfer ok) := by
  unfold State.transfer
  split
  · rename_i hr
    obtain ⟨hr, hb, _⟩ := hr
    have hst : s.stage = .none := by unfold State.busy at hb; simpa using hb
    have b := h.base
    have hph := h.phase
    unfold Phase at hph
    rw [hr] at hph
    dsimp only at hph
    unfold Lead at hph
    rw [hst] at hph
    refine ⟨⟨b.1, b.2, b.3, b.4, b.5, b.6, b.7, b.8, b.9⟩, ?_⟩
    unfold Phase Lead
    dsimp only
    rw [hst]
    exact ⟨hph.1, ⟨hph.2.1.1, hph.2.1.2, hph.2.1.3⟩, hph.2.2.1, hph.2.2.2.1, hph.2.2.2.2⟩
  · exact h

theorem Inv.transferTimeout {s : State P} (h : Inv s) (term : Nat) : Inv (s.transferTimeout term) := by
  unfold State.transferTimeout
  split
  · rename_i hr
    have hr := hr.2
    have b := h.base
    have hst : s.stage = .none := by
      apply Decidable.byContradiction
      intro hne
      have := h.phase.busy_leader hne
      rw [hr] at this; cases this
    have hph := h.phase
    unfold Phase at hph
    rw [hr] at hph
    dsimp only at hph
    unfold Lead at hph
    rw [hst] at hph
    refine ⟨⟨b.1, b.2, b.3, b.4, b.5, b.6, b.7, b.8, b.9⟩, ?_⟩
    unfold Phase Lead
    dsimp only
    rw [hst]
    exact ⟨hph.1, ⟨hph.2.1.1, hph.2.1.2, hph.2.1.3⟩, hph.2.2.1, hph.2.2.2.1, hph.2.2.2.2⟩
  · exact h

theorem Inv.resetPeers {s : State P} (h : Inv s) (newc : List P) : Inv (s.resetPeers newc) := by
  have b := h.base
  have key : ∀ c o, s.role ≠ .down → Inv (({ s with conf := c, old := o } : State P).stepDown (s.term + 1)) := by
    intro c o hr
    obtain ⟨x, y, z, _⟩ := stepDown_gen (s := ({ s with conf := c, old := o } : State P))
      ⟨b.1, b.2, b.3, b.4, b.5, b.6, b.7, b.8, b.9⟩ h.phase.idle hr (s.term + 1)
    exact ⟨x, y.phase (Or.inl z)⟩
  unfold State.resetPeers
  split
  · exact h
  split
  · exact h
  · rename_i hr
    split
    · exact key newc s.old hr
    split
    · exact h
    split
    · exact h
    · exact key newc [] hr

/-! ### Sets -/

/-- The configurations are sets. -/
def Nd (s : State P) : Prop := s.conf.Nodup ∧ s.new.Nodup

theorem Nd.reset {s : State P} (h : Nd s) (st : Option Code) : Nd (s.reset st) := by
  refine ⟨by rw [(reset_same s st).2.2.1]; exact h.1, ?_⟩
  unfold State.reset
  split
  · exact h.2
  · exact List.nodup_nil

theorem Nd.stepDown {s : State P} (h : Nd s) (t : Nat) : Nd (s.stepDown t) := by
  unfold State.stepDown
  split
  · exact h
  · exact Nd.reset (s := { s with role := .follower }) h none

theorem Nd.submit {s : State P} (h : Nd s) {e : Entry P} (he : e.conf.Nodup) (b : Bool) : Nd (s.submit e b) := by
  unfold State.submit
  dsimp only
  split
  · exact ⟨he, h.2⟩
  · exact h

theorem Nd.nextStage {s : State P} (h : Nd s) (b : Bool) : Nd (s.nextStage b) := by
  unfold State.nextStage State.check
  dsimp only
  split
  · split
    · refine Nd.submit ?_ h.2 b; exact h
    · refine Nd.submit ?_ h.2 b; exact h
  · refine Nd.submit ?_ h.2 b; exact h
  · split
    · refine Nd.reset ?_ _; exact h
    · refine Nd.stepDown ?_ _; refine Nd.reset ?_ _; exact h
  · exact h

theorem Nd.ctxCaughtUp {s : State P} (h : Nd s) (v : Nat) (p : P) (x b : Bool) : Nd (s.ctxCaughtUp v p x b) := by
  unfold State.ctxCaughtUp State.check
  dsimp only
  split
  · exact h
  · split
    · split
      · refine Nd.nextStage ?_ b; exact h
      · exact h
    · refine Nd.reset ?_ _; exact h

theorem Nd.startLoop (addOk : P → Bool) (ps : List P) : ∀ {s : State P}, Nd s → Nd (s.startLoop addOk ps) := by
  induction ps with
  | nil => intro s h; exact h
  | cons p ps ih =>
    intro s h
    unfold State.startLoop
    split
    · refine ih ?_; exact h
    · exact h.ctxCaughtUp _ _ _ _

theorem Nd.change {s : State P} (h : Nd s) {newc : List P} (hn : newc.Nodup) (addOk : P → Bool) (b : Bool) :
    Nd (s.change newc addOk b) := by
  unfold State.change State.answer State.start State.check
  dsimp only
  split
  · exact h
  split
  · exact h
  split
  · exact h
  split
  · refine Nd.nextStage ?_ b; exact ⟨h.1, hn⟩
  · refine Nd.startLoop _ _ ?_; exact ⟨h.1, hn⟩

theorem Hist.inv {s : State P} (h : Hist s) : Inv s ∧ Nd s := by
  induction h with
  | init self term conf old hn =>
    refine ⟨⟨⟨?_, ?_, trivial, ?_, .refl _, ?_, rfl, ?_, List.nodup_nil⟩, ?_⟩, hn, List.nodup_nil⟩
    · intro p hp; cases hp
    · intro p hp; cases hp
    · intro p hp; cases hp
    · intro p hp; cases hp
    · intro p hp; cases hp
    · exact Off.phase ⟨rfl, rfl, (fun w hw => by cases hw), rfl⟩ (Or.inl rfl)
  | change h newc hn addOk logOk ih => exact ⟨ih.1.change newc hn addOk logOk, ih.2.change hn addOk logOk⟩
  | @addPeer s h p addOk logOk ih =>
    have hn : (if p ∈ s.conf then s.conf else s.conf ++ [p]).Nodup := by
      split
      · exact ih.2.1
      · rename_i hp
        rw [List.nodup_append]
        refine ⟨ih.2.1, by simp, ?_⟩
        intro a ha b hb
        simp at hb; subst hb
        intro he; subst he; exact hp ha
    exact ⟨ih.1.change _ hn addOk logOk, ih.2.change hn addOk logOk⟩
  | @removePeer s h p addOk logOk ih =>
    have hn : (s.conf.filter (fun q => decide (q ≠ p))).Nodup := ih.2.1.filter _
    exact ⟨ih.1.change _ hn addOk logOk, ih.2.change hn addOk logOk⟩
  | @caughtUp s h k c logOk ih =>
    refine ⟨ih.1.caughtUp k c logOk, ?_⟩
    unfold State.caughtUp
    split
    · exact ih.2
    · dsimp only
      split
      · exact ih.2
      · split
        · refine Nd.ctxCaughtUp ?_ _ _ _ _; exact ih.2
        · exact ih.2
        · refine Nd.ctxCaughtUp ?_ _ _ _ _; exact ih.2
  | @entryDone s h k ok logOk ih =>
    refine ⟨ih.1.entryDone k ok logOk, ?_⟩
    unfold State.entryDone
    split
    · exact ih.2
    · dsimp only
      split
      · split
        · refine Nd.nextStage ?_ _; exact ih.2
        · exact ih.2
      · exact ih.2
  | stepDown h term ih => exact ⟨ih.1.stepDown term, ih.2.stepDown term⟩
  | @elect s h ih =>
    refine ⟨ih.1.elect, ?_⟩
    unfold State.elect; split <;> exact ih.2
  | @becomeLeader s h addOk logOk ih =>
    refine ⟨ih.1.becomeLeader addOk logOk, ?_⟩
    unfold State.becomeLeader
    split
    · unfold State.flush State.check
      dsimp only
      refine Nd.submit ?_ ih.2.1 _
      split <;> exact ⟨ih.2.1, ih.2.1⟩
    · exact ih.2
  | @follow s h conf old hn ih =>
    refine ⟨ih.1.follow conf old, ?_⟩
    unfold State.follow; split
    · exact ⟨hn, ih.2.2⟩
    · exact ih.2
  | @transfer s h ok ih =>
    refine ⟨ih.1.transfer ok, ?_⟩
    unfold State.transfer; split <;> exact ih.2
  | @transferTimeout s h term ih =>
    refine ⟨ih.1.transferTimeout term, ?_⟩
    unfold State.transferTimeout; split <;> exact ih.2
  | @resetPeers s h newc hn ih =>
    refine ⟨ih.1.resetPeers newc, ?_⟩
    unfold State.resetPeers
    split
    · exact ih.2
    split
    · exact ih.2
    split
    · exact Nd.stepDown (s := { s with conf := newc }) ⟨hn, ih.2.2⟩ _
    split
    · exact ih.2
    split
    · exact ih.2
    · exact Nd.stepDown (s := { s with conf := newc, old := [] }) ⟨hn, ih.2.2⟩ _
  | goDown h ih => exact ⟨ih.1.goDown, ih.2.stepDown _⟩

end Braft.ConfCtx
