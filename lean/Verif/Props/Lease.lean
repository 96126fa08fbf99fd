import Verif.Lease
/-
C27: the timestamp a leader renews its lease with (node.cpp:3611-3652).

`Majority conf S` (Verif/Ballot.lean): more than half of the members of `conf` are in `S`.
-/
set_option linter.unusedVariables false
set_option linter.unusedSimpArgs false
set_option linter.unusedSectionVars false

namespace Braft.Props
open Braft.Lease

variable {N : Type} [DecidableEq N]

/-- C27 for one configuration: the leader and the peers contacted at or after the timestamp are a
majority. Partial: the leader must be a member of the configuration, see
`C27_leader_outside_conf`. -/
theorem C27_one_configuration_partial {peers : List N} {self : N} {contact : N → Nat} {now : Nat}
    (hnd : peers.Nodup) (hs : self ∈ peers) :
    Majority peers (fun p => decide (p = self) ||
      decide (lastActive1 peers self contact now ≤ contact p)) := by
  have hcount : peers.count self = 1 := by
    have h1 := List.nodup_iff_count.mp hnd self
    have h2 := List.count_pos_iff.mpr hs
    omega
  have hf := filter_ne_length peers self
  unfold Majority
  rw [countP_self, hcount]
  by_cases hk : peers.length / 2 = 0
  · omega
  · have ho : peers.filter (fun p => p ≠ self) ≠ [] := by
      intro h0; rw [h0] at hf; simp at hf; omega
    have := lastActive1_spec peers self contact now hk ho
    simp only [] at this
    omega

/-- C27, joint configurations included: the leader and the peers contacted at or after the
timestamp are a majority of the configuration, and of the old one in joint mode. -/
theorem C27_quorum_timestamp_partial {peers old : List N} {self : N} {contact : N → Nat}
    {now : Nat} (hnd : peers.Nodup) (hs : self ∈ peers)
    (hnd' : old.Nodup) (hs' : old ≠ [] → self ∈ old) :
    let t := lastActive peers old self contact now
    Majority peers (fun p => decide (p = self) || decide (t ≤ contact p)) ∧
    (old ≠ [] → Majority old (fun p => decide (p = self) || decide (t ≤ contact p))) := by
  have mono : ∀ (l : List N) (a b : Nat), b ≤ a →
      Majority l (fun p => decide (p = self) || decide (a ≤ contact p)) →
      Majority l (fun p => decide (p = self) || decide (b ≤ contact p)) := by
    intro l a b hab h
    unfold Majority at h ⊢
    have : l.countP (fun p => decide (p = self) || decide (a ≤ contact p)) ≤
        l.countP (fun p => decide (p = self) || decide (b ≤ contact p)) := by
      apply List.countP_mono_left
      intro p _ hp
      simp only [Bool.or_eq_true, decide_eq_true_eq] at hp ⊢
      exact hp.imp id (fun h => Nat.le_trans hab h)
    omega
  intro t
  refine ⟨mono _ _ _ ?_ (C27_one_configuration_partial (now := now) hnd hs), ?_⟩
  · show lastActive peers old self contact now ≤ _
    unfold lastActive; simp only []
    split
    · exact Nat.min_le_left _ _
    · exact Nat.le_refl _
  · intro ho
    refine mono _ _ _ ?_ (C27_one_configuration_partial (now := now) hnd' (hs' ho))
    show lastActive peers old self contact now ≤ _
    unfold lastActive; simp only []
    rw [if_pos ho]
    exact Nat.min_le_right _ _

/-- It is the latest such moment. -/
theorem C27_latest {peers : List N} {self : N} {contact : N → Nat} {now v : Nat}
    (hnd : peers.Nodup) (hs : self ∈ peers) (h2 : 2 ≤ peers.length)
    (hv : lastActive1 peers self contact now < v) :
    ¬ Majority peers (fun p => decide (p = self) || decide (v ≤ contact p)) := by
  have hcount : peers.count self = 1 := by
    have h1 := List.nodup_iff_count.mp hnd self
    have h2 := List.count_pos_iff.mpr hs
    omega
  have hf := filter_ne_length peers self
  unfold Majority
  rw [countP_self, hcount]
  have := lastActive1_latest peers self contact now v (by omega) (by omega) hv
  omega

/-- Five peers, the leader 1, last contacts 0, 40, 10, 30, 20: the timestamp is 30. -/
example : lastActive1 [1, 2, 3, 4, 5] 1 (fun p => [0, 0, 40, 10, 30, 20].getD p 0) 99 = 30 ∧
    [1, 2, 3, 4, 5].Nodup ∧ 1 ∈ [1, 2, 3, 4, 5] := by decide

/-- A leader that alone makes up its configuration uses the current time. -/
example : lastActive1 [1] 1 (fun _ => 0) 99 = 99 := by decide

/-- C27 fails for a leader that is not a member of the configuration (it has removed itself and
the change is not committed yet): one contact out of three peers is enough, and if there is
only one peer it needs no contact at all. -/
theorem C27_leader_outside_conf :
    (∃ (peers : List Nat) (self now : Nat) (contact : Nat → Nat), peers.Nodup ∧ self ∉ peers ∧
      peers.length = 3 ∧
      (peers.countP (fun p => decide (lastActive1 peers self contact now ≤ contact p))) = 1) ∧
    (∀ (peer self now : Nat) (contact : Nat → Nat), peer ≠ self →
      lastActive1 [peer] self contact now = now) := by
  refine ⟨⟨[2, 3, 4], 1, 99, fun p => [0, 0, 40, 10, 30].getD p 0, by decide, by decide, rfl,
    by decide⟩, ?_⟩
  intro peer self now contact h
  simp [lastActive1, h, keepTop, heapPush]

end Braft.Props
