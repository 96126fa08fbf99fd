import Verif.Readonly
/-!
Property C28: readonly detection.

Specification: `Readonly.Writable n p` (Verif/Readonly.lean) says member `p` can write: the node
itself unless it is in readonly mode, another member unless its replicator is marked readonly by
its last heartbeat answer. `Majority conf S` (Verif/Ballot.lean): more than half of `conf` is in `S`.
The full claim is: `n.majRo = true ↔ ¬ (Majority n.conf W ∧ (n.old ≠ [] → Majority n.old W))` in
every reachable state. It is false of the code in joint mode and after `leave_readonly_mode`; the
two witnesses are below.
-/
set_option linter.unusedVariables false
set_option linter.unusedSectionVars false
namespace Braft.Props
open Braft Braft.Readonly
universe u
variable {P : Type u} [DecidableEq P]

/-- C28 (part). Right after a heartbeat answer was reported to a leader whose configuration is
stable, the majority flag is set exactly when the writable members are not a majority of the
configuration. Any state, no assumption on the past. -/
theorem C28_exact_after_report_partial (n : Node P) (term : Nat) (peer : P) (ro : Bool)
    (hl : n.role = .leader) (hs : n.old = []) :
    let n' := (changeReadonly n term peer ro).1
    n'.majRo = true ↔ ¬ Majority n.conf (Writable n') := by
  intro n'
  have hc : ¬ (term ≠ n.term ∧ n.role ≠ .leader) := by simp [hl]
  have hn' : n' = check { n with repl := replMark n.repl peer ro } := by
    show (changeReadonly n term peer ro).1 = _
    unfold changeReadonly; rw [if_neg hc]
  have h := check_exact { n with repl := replMark n.repl peer ro }
  rw [← hn'] at h
  have hf := check_fields { n with repl := replMark n.repl peer ro }
  rw [← hn'] at hf
  have hd : deciding n' = n.conf := by
    unfold deciding; rw [hf.2.2.2.1, hf.2.2.2.2.1]; simp [hs]
  rw [hd] at h; exact h

/-- In a group of three the second readonly follower stops writes, the first does not. -/
example :
    let n : Node Nat := ⟨1, 5, .leader, [1, 2, 3], [], false, false, [(2, false), (3, false)]⟩
    let n1 := (changeReadonly n 5 2 true).1
    let n2 := (changeReadonly n1 5 3 true).1
    n1.majRo = false ∧ n2.majRo = true ∧ n2.role = .leader ∧
      (changeReadonly n2 5 2 false).1.majRo = false := by decide

/-- C28 (part). Through every sequence of elections, step downs, transfers, readonly reports (also
late ones of earlier terms), catching-up replicators and finished configuration changes, in any
order, the flag is exact, as long as the configuration is stable and unchanged and the node's own
readonly mode is off. -/
theorem C28_exact_always_partial (self : P) (conf : List P) (hne : conf ≠ []) (os : List (Op P))
    (hd : ∀ o ∈ os, disturbs o = false) (n' : Node P) (term : Nat)
    (hr : run ⟨self, term, .other, conf, [], false, false, []⟩ os = some n') :
    (n'.majRo = true ↔ ¬ Majority conf (Writable n')) := by
  have hex : Exact (⟨self, term, .other, conf, [], false, false, []⟩ : Node P) := by
    have hm : Majority conf (Writable (⟨self, term, .other, conf, [], false, false, []⟩ : Node P)) :=
      majority_all _ hne _ (fun p => writable_nil rfl rfl p)
    constructor
    · intro h; simp at h
    · intro h; exact absurd hm h
  obtain ⟨h1, h2, _⟩ := exact_run os hr hd hne rfl hex
  have h3 : deciding n' = conf := h2
  unfold Exact at h1; rw [h3] at h1; exact h1

example : ∃ n' : Node Nat, run ⟨1, 4, .other, [1, 2, 3], [], false, false, []⟩
    [.elect, .becomeLeader, .report 5 2 true, .report 4 3 true, .transfer, .transferTimeout] = some n'
    ∧ n'.majRo = true ∧ n'.role = .leader := ⟨_, rfl, by decide, by decide⟩

/-- C28 fails in joint mode: two of the three members of the new configuration are readonly, so the
new configuration has no writable majority, but the check of the old configuration overwrites the
flag and the leader keeps accepting writes (node.cpp:3396-3401). -/
theorem C28_joint_overwritten :
    ∃ (n : Node Nat) (term peer : Nat), n.role = .leader ∧ n.old ≠ [] ∧
      let n' := (changeReadonly n term peer true).1
      n'.role = .leader ∧ n'.majRo = false ∧ readonly n' = false ∧
        ¬ Majority n'.conf (Writable n') :=
  ⟨⟨1, 5, .leader, [1, 4, 5], [1, 2, 3], false, false, [(2, false), (3, false), (4, true), (5, false)]⟩,
    5, 5, rfl, by decide, by decide, by decide, by decide, by unfold Majority; decide⟩

/-- C28 fails after `leave_readonly_mode`: the flag computed while the leader itself was readonly is
not recomputed when it leaves readonly mode, so a leader with a writable majority keeps rejecting
(node.cpp:3372-3379). Reached by a run from an initial state. -/
theorem C28_stale_after_leave :
    ∃ (os : List (Op Nat)) (n' : Node Nat),
      run ⟨1, 4, .other, [1, 2, 3], [], false, false, []⟩ os = some n' ∧
      n'.role = .leader ∧ n'.nodeRo = false ∧ readonly n' = true ∧
      Majority n'.conf (Writable n') :=
  ⟨[.elect, .becomeLeader, .enter, .report 5 2 true, .leave], _, rfl, by decide, by decide, by decide,
    by unfold Majority; decide⟩

/-- C28 (own mode): `enter_readonly_mode` makes `readonly()` true at once and `leave_readonly_mode`
leaves exactly the majority flag. -/
theorem C28_own_mode (n : Node P) :
    readonly (enterReadonly n) = true ∧ readonly (leaveReadonly n) = n.majRo := by
  unfold enterReadonly leaveReadonly readonly
  cases h : n.nodeRo <;> simp [h]

end Braft.Props
