import Verif.Repl.Status
/-
C72: what a Replicator shares with its group and its node. `freed` counts how often the shared status was deleted, `bad` says it was
touched after it had been deleted (by any access, a second deletion included), `node` the references to the node that the Replicator holds.
-/
set_option linter.unusedSectionVars false
set_option linter.unusedVariables false

namespace Braft.Props.Status
open Braft.Repl.Status

/-- C72. If bthread_id_create does not fail and the Replicator is not destroyed before its entry is in the map, the status is never used
after it was freed and never freed twice; it is freed as soon as neither the Replicator nor the entry needs it, and not before. -/
theorem status_freed_once_partial {s : State} (h : Run false false s) :
    s.bad = false ∧ s.freed ≤ 1 ∧
    (s.freed = 1 ↔ s.rep ≠ .live ∧ (s.group = .erased ∨ s.group = .failed)) := by
  cases h.good <;> decide

/-- C72. The node is referenced exactly for as long as the Replicator lives. -/
theorem node_referenced {idFail early : Bool} {s : State} (h : Run idFail early s) : s.node = if s.rep = .live then 1 else 0 := h.nodeRef.1

/-- Both end: the entry first, then the Replicator. -/
example : Run false false State.init.startOk.enter.update.erase.update.destroy ∧
    State.init.startOk.enter.update.erase.update.destroy = ⟨.erased, .gone, 0, 1, false, 0⟩ :=
  ⟨Run.init.startOk.enter.update.erase.update.destroy (Or.inr (by decide)), by decide⟩

/-- Finding: start returns with its bthread_id unlocked and its first request sent. If the answer has a higher term and is handled before
add_replicator has made the entry, the Replicator destroys itself with the only reference to the status, which is freed; then
`_rmap[peer] = { rid, options.replicator_status }` takes a reference to freed memory. -/
theorem use_after_free : ∃ s, Run false true s ∧ s.group = .entered ∧ s.freed = 1 ∧ s.bad = true :=
  ⟨State.init.startOk.destroy.enter, (Run.init.startOk.destroy (Or.inl rfl)).enter, by decide⟩

/-- Finding: if bthread_id_create fails, `delete r` releases the only reference to the status, which is freed, and add_replicator deletes it
again. -/
theorem double_free : ∃ s, Run true false s ∧ s.freed = 2 ∧ s.bad = true :=
  ⟨State.init.idFails, Run.init.idFails rfl, by decide⟩

end Braft.Props.Status
