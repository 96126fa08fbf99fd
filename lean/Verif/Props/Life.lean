import Verif.Node.LifeInv
/-
C63: what a state machine is told about the role of its node. The specification is the automaton of Node/LifeSpec.lean: idle,
leading in a term, following a leader in a term, shut down.
-/
namespace Braft.Props
open Braft.Life
variable {L : Type} [DecidableEq L]

/-- C63. The calls always fit together: the state machine never leads and follows at the same time, there are never two
on_leader_start without an on_leader_stop between them, on_stop_following names the leader and the term of the
on_start_following before it, terms do not go back, and nothing comes after on_shutdown. -/
theorem callbacks_fit {self : L} {s : State L} (h : Run self s) : ∃ v, View.init.watch s.out = some v := by
  obtain ⟨v, hv⟩ := h.inv
  have := hv.ok
  unfold State.full at this
  rw [List.append_assoc, watch_append] at this
  cases e : View.init.watch s.out with
  | none => rw [e] at this; cases this
  | some w => exact ⟨w, rfl⟩

/-- C63. No call is lost: when the tasks are done the calls say what the node is. -/
theorem callbacks_tell_role {self : L} {s : State L} (h : Run self s) (hq : s.queue = []) (hr : s.run = none) :
    ∃ v, View.init.watch s.out = some v ∧
      match s.role with
      | .leader => v.now = .leading s.term ∨ (v.now = .idle ∧ (s.pend ≠ none ∨ s.lost = true))
      | .transferring => v.now = .idle
      | .candidate => v.now = .idle
      | .follower => v.now = (match s.lid with | none => .idle | some l => .following l s.term)
      | .error => v.now = .idle
      | .shutting => v.now = .down := by
  obtain ⟨v, hv⟩ := h.inv
  have h1 := hv.ok
  unfold State.full at h1
  rw [hq, hr] at h1
  simp only [rev, List.flatMap_nil, List.append_nil] at h1
  refine ⟨v, h1, ?_⟩
  have h2 := hv.now
  unfold State.expect at h2
  cases hc : s.role <;> rw [hc] at h2 <;> dsimp only at h2 ⊢
  · by_cases hp : s.pend = none ∧ s.lost = false
    · rw [if_pos hp] at h2; exact Or.inl h2
    · rw [if_neg hp] at h2
      refine Or.inr ⟨h2, ?_⟩
      by_cases h3 : s.pend = none
      · exact Or.inr (by cases e : s.lost with | false => exact absurd ⟨h3, e⟩ hp | true => rfl)
      · exact Or.inl h3
  all_goals exact h2

/-- C63. on_leader_start of a term comes after all entries that were committed when the node was elected have been given to
the state machine. -/
theorem leader_start_after_applied {self : L} {s : State L} (h : Run self s) (t : Nat) (ht : Ev.leaderStart t ∈ s.out) :
    ∃ c, (t, c) ∈ s.elected ∧ c < s.applied := by
  obtain ⟨v, hv⟩ := h.inv
  exact hv.outR t ht

theorem watch_leading (b : List (Ev L)) : ∀ (v w : View L) (t : Nat), v.now = .leading t → v.watch b = some w →
    w.now = .leading t ∧ b = [] ∨ ∃ b', b = .leaderStop :: b' := by
  intro v w t hn h
  cases b with
  | nil => simp only [View.watch, Option.some.injEq] at h; exact Or.inl ⟨h ▸ hn, rfl⟩
  | cons e b =>
    right
    cases e with
    | leaderStop => exact ⟨b, rfl⟩
    | leaderStart x => simp [View.watch, View.see, hn] at h
    | startFollowing l x => simp [View.watch, View.see, hn] at h
    | stopFollowing l x => simp [View.watch, View.see, hn] at h
    | shutdown => simp [View.watch, View.see, hn] at h

/-- C63. The next call after on_leader_start is on_leader_stop. -/
theorem leader_start_then_stop {self : L} {s : State L} (h : Run self s) (a b : List (Ev L)) (t : Nat) (e : Ev L)
    (ho : s.out = a ++ .leaderStart t :: e :: b) : e = .leaderStop := by
  obtain ⟨v, hv⟩ := callbacks_fit h
  rw [ho, watch_append] at hv
  cases hw : View.init.watch a with
  | none => rw [hw] at hv; cases hv
  | some w =>
    rw [hw] at hv
    simp only [Option.bind_some, View.watch] at hv
    cases hs : w.see (.leaderStart t) with
    | none => rw [hs] at hv; cases hv
    | some x =>
      rw [hs] at hv
      have hx : x.now = .leading t := by
        unfold View.see at hs; dsimp only at hs; split at hs
        · simp only [Option.some.injEq] at hs; rw [← hs]
        · cases hs
      rcases watch_leading (e :: b) x v t hx hv with h1 | ⟨b', h1⟩
      · cases h1.2
      · simp only [List.cons.injEq] at h1; exact h1.1

/-- C63. The next call after on_start_following is on_stop_following with the same leader and term. -/
theorem following_pairs {self : L} {s : State L} (h : Run self s) (a b : List (Ev L)) (l : L) (t : Nat) (e : Ev L)
    (ho : s.out = a ++ .startFollowing l t :: e :: b) : e = .stopFollowing l t := by
  obtain ⟨v, hv⟩ := callbacks_fit h
  rw [ho, watch_append] at hv
  cases hw : View.init.watch a with
  | none => rw [hw] at hv; cases hv
  | some w =>
    rw [hw] at hv
    simp only [Option.bind_some, View.watch] at hv
    cases hs : w.see (.startFollowing l t) with
    | none => rw [hs] at hv; cases hv
    | some x =>
      rw [hs] at hv
      have hx : x.now = .following l t := by
        unfold View.see at hs; dsimp only at hs; split at hs
        · simp only [Option.some.injEq] at hs; rw [← hs]
        · cases hs
      cases e with
      | leaderStop => simp [View.see, hx] at hv
      | leaderStart y => simp [View.see, hx] at hv
      | startFollowing l' y => simp [View.see, hx] at hv
      | shutdown => simp [View.see, hx] at hv
      | stopFollowing l' y =>
        by_cases he : l = l' ∧ t = y
        · rw [he.1, he.2]
        · exfalso
          simp only [View.see, hx, Now.following.injEq] at hv
          rw [if_neg he] at hv
          cases hv

/-- C63. Nothing comes after on_shutdown. -/
theorem shutdown_last {self : L} {s : State L} (h : Run self s) (a b : List (Ev L)) (ho : s.out = a ++ .shutdown :: b) :
    b = [] := by
  obtain ⟨v, hv⟩ := callbacks_fit h
  rw [ho, watch_append] at hv
  cases hw : View.init.watch a with
  | none => rw [hw] at hv; cases hv
  | some w =>
    rw [hw] at hv
    simp only [Option.bind_some, View.watch] at hv
    cases hs : w.see .shutdown with
    | none => rw [hs] at hv; cases hv
    | some x =>
      rw [hs] at hv
      have hx : x.now = .down := by
        unfold View.see at hs; dsimp only at hs; split at hs
        · simp only [Option.some.injEq] at hs; rw [← hs]
        · cases hs
      cases b with
      | nil => rfl
      | cons e b => cases e <;> simp [View.watch, View.see, hx] at hv

namespace LifeEx

/-- Follows 7, is elected, leads, tries to transfer, leads again, is shut down. -/
def s1 : State Nat := ((State.init 3 10 : State Nat).recvLeader 4 7).electionTimeout
def s2 : State Nat := (s1.electSelf.becomeLeader 1 12).commit 12
def s3 : State Nat := ((((s2.take .ok).take .ok).take .ok).confDone).callStart
def s4 : State Nat := (((s3.transfer.transferTimeout 5).shutdown.take .ok).take .ok).take .ok
def s5 : State Nat := s4.take .ok

theorem run2 : Run 1 s2 := ((((((Run.init 3 10).recvLeader 4 7).electionTimeout).electSelf).becomeLeader 12).commit 12)

theorem run5 : Run 1 s5 := by
  have h3 : Run 1 s3 := (((((run2.take .ok).take .ok).take .ok).confDone).callStart)
  have h4 : Run 1 s4 := ((((((h3.transfer).transferTimeout 5).shutdown).take .ok).take .ok).take .ok)
  exact h4.take .ok

/-- Non-vacuity: the whole life of a node. -/
example : s5.out = [.startFollowing 7 4, .stopFollowing 7 4, .leaderStart 5, .leaderStop, .leaderStart 5, .leaderStop,
    .shutdown] ∧ s5.queue = [] ∧ s5.run = none ∧ s5.elected = [(5, 10)] ∧ s5.applied = 12 ∧ s5.role = .shutting := by decide

/-- The node steps down while its closure runs: on_leader_start still comes before on_leader_stop. -/
def s6 : State Nat := ((((s2.take .ok).take .ok).take .ok).recvLeader 6 7).confDone.callStart
example : s6.out = [.startFollowing 7 4, .stopFollowing 7 4, .leaderStart 5] ∧
    s6.queue = [.leaderStop, .startFollowing 7 6] ∧ s6.role = .follower := by decide

end LifeEx

/-- A finding: on_leader_stop can come without on_leader_start, when a new leader steps down before its first entry is
committed (node.cpp:1815-1818 does not know whether on_leader_start was called). -/
theorem leader_stop_without_start : ∃ s : State Nat, Run 1 s ∧ s.out = [.leaderStop] := by
  have h := (((((Run.init (self := 1) 3 10).electSelf).becomeLeader 12).stepDown 5).take .ok)
  exact ⟨_, h, by decide⟩

end Braft.Props
