import Verif.Node.ConfCtxRepl
/-
C70: to whom a leader replicates. `repl` is the set of peers that have a replicator (ReplicatorGroup::_rmap); the
configuration in force is `conf`, with `old` besides it during a change in two stages; `new` and `olds` are those of the
change in progress. Histories are all sequences of requests, elections, step-downs, results of catching up, commits and
failures; add_replicator fails in become_leader only for peers in `F`, and for any peer elsewhere.
-/
set_option linter.unusedSectionVars false
set_option linter.unusedVariables false

namespace Braft.Props.Members
open Braft.ConfCtx
variable {P : Type} [DecidableEq P]

/-- The node leads: it has not lost leadership, though it may be handing it over. -/
def Leads (s : State P) : Prop := s.role = .leader ∨ s.role = .transferring

/-- The other members of the configuration in force. -/
def Other (s : State P) (p : P) : Prop := p ≠ s.self ∧ (p ∈ s.conf ∨ p ∈ s.old)

/-- C70. A leader replicates to every other member of the configuration in force, except peers for which add_replicator
failed when it became leader; and to every peer it is about to add. -/
theorem members_fed_partial {F : P → Prop} {s : State P} (h : HistF F s) (hl : Leads s) (p : P) :
    (Other s p → ¬ F p → p ∈ s.repl) ∧ (p ∈ s.new → p ≠ s.self → ¬ F p → p ∈ s.repl) := by
  have hc := h.cov hl
  refine ⟨?_, ?_⟩
  · intro ho hF
    rcases (show Fed F s p from ho.2.elim (hc.conf p) (hc.old p)) with h1 | h1 | h1
    · exact absurd h1 ho.1
    · exact h1
    · exact absurd h1 hF
  · intro hn hs hF
    rcases hc.new p hn with h1 | h1 | h1
    · exact absurd h1 hs
    · exact h1
    · exact absurd h1 hF

/-- C70. A leader replicates to nobody else: not to itself, and to a peer outside the configuration in force only while a
change is in progress that adds or removes this peer. -/
theorem only_members {s : State P} (h : Hist s) (p : P) (hp : p ∈ s.repl) :
    p ≠ s.self ∧ (p ∈ s.conf ∨ (s.stage ≠ .none ∧ (p ∈ s.new ∨ p ∈ s.olds))) := by
  have hself : p ≠ s.self := fun e => h.mem.repl (e ▸ hp)
  refine ⟨hself, ?_⟩
  have hph := h.inv.1.phase
  have lead : Lead s → p ∈ s.conf ∨ (s.stage ≠ .none ∧ (p ∈ s.new ∨ p ∈ s.olds)) := by
    intro hl
    unfold Lead at hl
    have hst : s.stage = .none ∨ s.stage = .catching ∨ s.stage = .joint ∨ s.stage = .stable := by cases s.stage <;> simp
    rcases hst with hs | hs | hs | hs <;> rw [hs] at hl <;> dsimp only at hl
    · exact Or.inl (hl.2.2.1 p hp hself)
    · exact Or.inr ⟨by rw [hs]; decide, hl.2.2.2.2.2.2.2 p hp hself⟩
    · exact Or.inr ⟨by rw [hs]; decide, hl.2.2.2.2 p hp hself⟩
    · exact Or.inr ⟨by rw [hs]; decide, hl.2.2.2.2 p hp hself⟩
  have off : Off s → False := fun ho => by rw [ho.repl] at hp; cases hp
  unfold Phase at hph
  cases hr : s.role <;> rw [hr] at hph <;> dsimp only at hph
  · exact lead hph
  · exact lead hph
  · exact (off hph.1).elim
  · exact (off hph).elim
  · exact (off hph).elim

/-- C70. A node that does not lead replicates to nobody. -/
theorem none_unless_leader {s : State P} (h : Hist s) (hl : ¬ Leads s) : s.repl = [] := by
  have hph := h.inv.1.phase
  unfold Phase at hph
  unfold Leads at hl
  cases hr : s.role <;> rw [hr] at hph <;> dsimp only at hph
  · exact absurd (Or.inl hr) hl
  · exact absurd (Or.inr hr) hl
  · exact hph.1.repl
  · exact hph.repl
  · exact hph.repl

/-- C70. With no change in progress: exactly the other members. -/
theorem idle_exactly_partial {s : State P} (h : HistF (fun _ => False) s) (hl : Leads s) (hs : s.stage = .none) (p : P) :
    p ∈ s.repl ↔ p ∈ s.conf ∧ p ≠ s.self := by
  constructor
  · intro hp
    obtain ⟨h1, h2⟩ := only_members h.hist p hp
    rcases h2 with h2 | h2
    · exact ⟨h2, h1⟩
    · exact absurd hs h2.1
  · intro hp
    exact (members_fed_partial h hl p).1 ⟨hp.2, Or.inl hp.1⟩ id

/-- C70. A leader that has no change in progress is a member of its configuration, and so is one that still waits for
peers to catch up. -/
theorem idle_leader_is_member {s : State P} (h : Hist s) (hl : Leads s) (hs : s.stage = .none ∨ s.stage = .catching) :
    s.self ∈ s.conf := h.mem.idle hl hs

/-! Concrete histories. -/

def r0 : State Nat := ((State.init 1 4 [1, 2, 3] []).elect.becomeLeader (fun _ => true) true).entryDone 0 true true
theorem r0_hist (F : Nat → Prop) : HistF F r0 :=
  ((HistF.init 1 4 [1, 2, 3] [] (by decide)).elect.becomeLeader _ (fun _ h => nomatch h) _).entryDone _ _ _

/-- {1, 2, 3} is changed to {1, 4, 5}: while 4 and 5 catch up, in the joint stage, and when it is done. -/
def r1 : State Nat := r0.change [1, 4, 5] (fun _ => true) true
def r2 : State Nat := (r1.caughtUp 1 .ok true).caughtUp 0 .ok true
def r3 : State Nat := (r2.entryDone 0 true true).entryDone 0 true true
theorem r1_hist (F : Nat → Prop) : HistF F r1 := (r0_hist F).change _ (by decide) _ _
theorem r2_hist (F : Nat → Prop) : HistF F r2 := ((r1_hist F).caughtUp _ _ _).caughtUp _ _ _
theorem r3_hist (F : Nat → Prop) : HistF F r3 := ((r2_hist F).entryDone _ _ _).entryDone _ _ _

example : Leads r1 ∧ r1.stage = .catching ∧ r1.conf = [1, 2, 3] ∧ r1.new = [1, 4, 5] ∧ r1.repl = [5, 4, 2, 3] := by
  refine ⟨Or.inl ?_, ?_⟩ <;> decide
example : Leads r2 ∧ r2.stage = .joint ∧ r2.conf = [1, 4, 5] ∧ r2.old = [1, 2, 3] ∧ r2.repl = [5, 4, 2, 3] := by
  refine ⟨Or.inl ?_, ?_⟩ <;> decide
example : Leads r3 ∧ r3.stage = .none ∧ r3.conf = [1, 4, 5] ∧ r3.repl = [5, 4] := by
  refine ⟨Or.inl ?_, ?_⟩ <;> decide
example : ¬ Leads (r3.stepDown 9) := by unfold Leads; decide

/-- Finding: become_leader ignores the result of add_replicator ("TODO: check return code", node.cpp:1963). A member for
which it fails gets no entry and no heartbeat for as long as the leader leads, though it counts for the quorum; changes
of the configuration that keep the member do not help. -/
theorem member_without_replicator :
    ∃ s : State Nat, HistF (fun p => p = 3) s ∧ Leads s ∧ s.stage = .none ∧ 3 ∈ s.conf ∧ 3 ≠ s.self ∧ 3 ∉ s.repl ∧
      s.conf = [1, 2, 3, 4] ∧ s.repl = [4, 2] :=
  ⟨(((((State.init 1 4 [1, 2, 3] []).elect.becomeLeader (fun p => decide (p ≠ 3)) true).entryDone 0 true true).change [1, 2, 3, 4] (fun _ => true) true).caughtUp
      0 .ok true).entryDone 0 true true,
    (((((HistF.init 1 4 [1, 2, 3] [] (by decide)).elect.becomeLeader _
      (by intro p hp; simpa using hp) _).entryDone _ _ _).change _ (by decide) _ _).caughtUp _ _ _).entryDone _ _ _,
    Or.inl (by decide), by decide, by decide, by decide, by decide, by decide, by decide⟩

end Braft.Props.Members
