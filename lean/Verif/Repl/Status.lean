/-
Model of the lifetime of a ReplicatorStatus (replicator.h:38-44, 368-371; replicator.cpp:94-107, 109-153, 1264-1270, 1393-1412),
which a Replicator and the entry of its ReplicatorGroup share, and of the reference of a Replicator to its node.

One call of add_replicator for one peer and what follows it. The thread that calls it holds the mutex of the node; the Replicator
runs on its own as soon as start has unlocked its bthread_id, so its steps come between those of the group in any order. It is
destroyed by a higher term in an answer, by stop, or at the end of TimeoutNow.
-/
set_option linter.unusedSectionVars false
set_option linter.unusedSimpArgs false
set_option linter.unusedVariables false

namespace Braft.Repl.Status

/-- Where the call of add_replicator stands: before start; start has returned 0; the entry is in _rmap; it was erased from it;
start has failed. -/
inductive Group | fresh | started | entered | erased | failed
deriving DecidableEq, Repr

inductive Rep | none | live | gone
deriving DecidableEq, Repr

structure State where
  group : Group
  rep : Rep
  /-- The count of RefCountedThreadSafe; how often the status was deleted; it was touched after that. -/
  refs : Nat
  freed : Nat
  bad : Bool
  /-- References to the node that were taken and not released. -/
  node : Nat
deriving DecidableEq, Repr

/-- Any access. -/
def State.touch (s : State) : State := { s with bad := s.bad || decide (0 < s.freed) }

/-- delete. -/
def State.delete (s : State) : State := { s.touch with freed := s.freed + 1 }

/-- AddRef. -/
def State.addRef (s : State) : State := { s.touch with refs := s.refs + 1 }

/-- Release: the last one deletes. -/
def State.release (s : State) : State :=
  let s1 : State := { s.touch with refs := s.refs - 1 }
  if s.refs - 1 = 0 then { s1 with freed := s.freed + 1 } else s1

/-- options.replicator_status = new ReplicatorStatus (replicator.cpp:1402). -/
def State.init : State := ⟨.fresh, .none, 0, 0, false, 0⟩

/-- start fails in Init of the channel (replicator.cpp:119-124): the options were not set; add_replicator deletes the status
(1403-1409). -/
def State.channelFails (s : State) : State := if s.group = .fresh then { s.delete with group := .failed } else s

/-- start fails in bthread_id_create (replicator.cpp:128-137): references were taken, `delete r` releases them (94-107);
add_replicator deletes the status. -/
def State.idFails (s : State) : State := if s.group = .fresh then { s.addRef.release.delete with group := .failed } else s

/-- start succeeds (replicator.cpp:126-153): references to the node and to the status. -/
def State.startOk (s : State) : State := if s.group = .fresh then { s.addRef with group := .started, rep := .live, node := s.node + 1 } else s

/-- _rmap[peer] = { rid, options.replicator_status } (replicator.cpp:1410). -/
def State.enter (s : State) : State := if s.group = .started then { s.addRef with group := .entered } else s

/-- last_rpc_send_timestamp(peer) (replicator.cpp:1426-1432). -/
def State.read (s : State) : State := if s.group = .entered then s.touch else s

/-- stop_replicator, stop_all (replicator.cpp:1434-1460): the entry is erased. -/
def State.erase (s : State) : State := if s.group = .entered then { s.release with group := .erased } else s

/-- _update_last_rpc_send_timestamp (replicator.h:226-230). -/
def State.update (s : State) : State := if s.rep = .live then s.touch else s

/-- _destroy (replicator.cpp:1264-1270) with ~Replicator (94-107). -/
def State.destroy (s : State) : State := if s.rep = .live then { s.release with rep := .gone, node := s.node - 1 } else s

/-- `idFail`: bthread_id_create can fail; `early`: the Replicator can be destroyed before its entry is made. -/
inductive Run (idFail early : Bool) : State → Prop where
  | init : Run idFail early State.init
  | channelFails {s} (h : Run idFail early s) : Run idFail early s.channelFails
  | idFails {s} (h : Run idFail early s) (hf : idFail = true) : Run idFail early s.idFails
  | startOk {s} (h : Run idFail early s) : Run idFail early s.startOk
  | enter {s} (h : Run idFail early s) : Run idFail early s.enter
  | read {s} (h : Run idFail early s) : Run idFail early s.read
  | erase {s} (h : Run idFail early s) : Run idFail early s.erase
  | update {s} (h : Run idFail early s) : Run idFail early s.update
  | destroy {s} (h : Run idFail early s) (hf : early = true ∨ s.group ≠ .started) : Run idFail early s.destroy

/-- What can be reached when neither failure happens. -/
inductive Good : State → Prop where
  | fresh : Good ⟨.fresh, .none, 0, 0, false, 0⟩
  | failed : Good ⟨.failed, .none, 0, 1, false, 0⟩
  | started : Good ⟨.started, .live, 1, 0, false, 1⟩
  | both : Good ⟨.entered, .live, 2, 0, false, 1⟩
  | entry : Good ⟨.entered, .gone, 1, 0, false, 0⟩
  | rep : Good ⟨.erased, .live, 1, 0, false, 1⟩
  | done : Good ⟨.erased, .gone, 0, 1, false, 0⟩

theorem Run.good {s : State} (h : Run false false s) : Good s := by
  induction h with
  | init => exact .fresh
  | channelFails _ ih => cases ih <;> constructor
  | idFails _ hf => cases hf
  | startOk _ ih => cases ih <;> constructor
  | enter _ ih => cases ih <;> constructor
  | read _ ih => cases ih <;> constructor
  | erase _ ih => cases ih <;> constructor
  | update _ ih => cases ih <;> constructor
  | destroy _ hf ih => cases ih <;> first | constructor | exact absurd rfl (hf.resolve_left (by decide))

/-- The reference to the node, in every run. -/
theorem Run.nodeRef {a b : Bool} {s : State} (h : Run a b s) : s.node = (if s.rep = .live then 1 else 0) ∧ (s.group = .fresh → s.rep = .none) := by
  have same : ∀ {s t : State}, s.node = (if s.rep = .live then 1 else 0) ∧ (s.group = .fresh → s.rep = .none) → t.node = s.node → t.rep = s.rep →
      (t.group = .fresh → s.group = .fresh) → t.node = (if t.rep = .live then 1 else 0) ∧ (t.group = .fresh → t.rep = .none) := by
    intro s t h e1 e2 e3
    rw [e1, e2]; exact ⟨h.1, fun x => h.2 (e3 x)⟩
  have rel : ∀ s : State, s.release.node = s.node ∧ s.release.rep = s.rep ∧ s.release.group = s.group := by
    intro s; unfold State.release; dsimp only; split <;> exact ⟨rfl, rfl, rfl⟩
  induction h with
  | init => exact ⟨rfl, fun _ => rfl⟩
  | channelFails _ ih =>
    unfold State.channelFails; split
    · exact same ih rfl rfl (fun x => (nomatch x))
    · exact ih
  | idFails _ _ ih =>
    rename_i s _ _
    unfold State.idFails; split
    · exact same ih (by exact (rel s.addRef).1) (by exact (rel s.addRef).2.1) (fun x => (nomatch x))
    · exact ih
  | startOk _ ih =>
    rename_i s _
    unfold State.startOk; split
    · rename_i hg
      refine ⟨?_, fun x => (nomatch x)⟩
      have h1 := ih.1
      rw [ih.2 hg] at h1
      show s.node + 1 = _
      rw [h1]; rfl
    · exact ih
  | enter _ ih =>
    unfold State.enter; split
    · exact same ih rfl rfl (fun x => (nomatch x))
    · exact ih
  | read _ ih =>
    unfold State.read; split
    · exact same ih rfl rfl id
    · exact ih
  | erase _ ih =>
    rename_i s _
    unfold State.erase; split
    · exact same ih (by exact (rel s).1) (by exact (rel s).2.1) (fun x => (nomatch x))
    · exact ih
  | update _ ih =>
    rename_i s _
    by_cases hl : s.rep = .live
    · rw [show s.update = s.touch by unfold State.update; rw [if_pos hl]]; exact same ih rfl rfl id
    · rw [show s.update = s by unfold State.update; rw [if_neg hl]]; exact ih
  | destroy _ _ ih =>
    rename_i s _ _
    by_cases hl : s.rep = .live
    · rw [show s.destroy = { s.release with rep := .gone, node := s.node - 1 } by unfold State.destroy; rw [if_pos hl]]
      refine ⟨?_, ?_⟩
      · show s.node - 1 = _
        rw [ih.1, if_pos hl]; rfl
      · intro hg
        have hg' : s.release.group = .fresh := hg
        rw [(rel s).2.2] at hg'
        have := ih.2 hg'
        rw [hl] at this; cases this
    · rw [show s.destroy = s by unfold State.destroy; rw [if_neg hl]]; exact ih

end Braft.Repl.Status
