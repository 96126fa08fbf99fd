import Verif.Cluster.Calm
/-
The ballot box of a new leader, counted completely: which answers have been counted, and that they suffice.
-/
set_option linter.unusedVariables false
set_option linter.unusedSimpArgs false
set_option linter.unusedSectionVars false

namespace Braft.Cl
open Braft.Raft
variable {N D : Type} [DecidableEq N] [DecidableEq D]

/-- The ballots of a leader that has appended entries from `base` on, all under the configuration `cf`; `S k` are the
peers counted for the entry at `k`. -/
structure BI (cf : Conf N) (base : Nat) (S : Nat → N → Bool) (bb : BallotBox N Unit) : Prop where
  pos : 0 < bb.pending
  bp : base ≤ bb.pending
  inv : ∀ k (hk : k < bb.queue.length), Ballot.Inv cf.peers (oldOf cf) (S (bb.pending + k)) bb.queue[k]
  ng : ∀ k (hk : k < bb.queue.length), bb.queue[k].granted = false
  lc : base < bb.pending → bb.lastCommitted + 1 = bb.pending

/-- One more peer for a range of indexes. -/
def addS (S : Nat → N → Bool) (first last : Nat) (v : N) : Nat → N → Bool :=
  fun i x => S i x || (decide (first ≤ i ∧ i ≤ last) && x == v)

theorem old_nd (cf : Conf N) : ∀ oc, oldOf cf = some oc → oc.Nodup := by
  intro oc h
  unfold oldOf at h
  split at h
  · cases h
  · cases h; exact cf.ndo

theorem BI.commit {cf : Conf N} {base : Nat} {S : Nat → N → Bool} {bb : BallotBox N Unit} (h : BI cf base S bb)
    (first last : Nat) (v : N) (hl : last < bb.pending + bb.queue.length) :
    BI cf base (addS S first last v) (bb.commitAt first last v).1 ∧
    (bb.commitAt first last v).1.pending + (bb.commitAt first last v).1.queue.length =
      bb.pending + bb.queue.length := by
  have hpos := h.pos
  unfold BallotBox.commitAt
  rw [if_neg (by omega)]
  by_cases h1 : last < bb.pending
  · rw [if_pos h1]
    refine ⟨{ pos := h.pos, bp := h.bp, inv := fun k hk => ?_, ng := h.ng, lc := h.lc }, rfl⟩
    have e : addS S first last v (bb.pending + k) = S (bb.pending + k) := by
      funext x
      have : ¬ (bb.pending + k ≤ last) := by omega
      simp [addS, this]
    rw [e]; exact h.inv k hk
  · rw [if_neg h1, if_neg (by omega)]
    dsimp only
    have hlen' := BallotBox.grantRange_length (max bb.pending first) last v bb.pending bb.queue {} 0
    have hgi := BallotBox.grantRange_inv (max bb.pending first) last v (fun _ => (cf.peers, oldOf cf)) S
      (fun _ => cf.nd) (fun _ => old_nd cf) bb.pending bb.queue {} 0 h.inv
    have hlc := BallotBox.grantRange_lc (max bb.pending first) last v bb.pending bb.queue {} 0
    generalize hg : BallotBox.grantRange (max bb.pending first) last v bb.pending bb.queue {} 0 = r at hlen' hgi hlc ⊢
    obtain ⟨q, lc⟩ := r
    dsimp only at hlen' hgi hlc ⊢
    have hbi : ∀ k (hk : k < q.length), Ballot.Inv cf.peers (oldOf cf) (addS S first last v (bb.pending + k)) q[k] := by
      intro k hk
      have h2 := hgi k hk
      have e : decide (max bb.pending first ≤ bb.pending + k ∧ bb.pending + k ≤ last)
          = decide (first ≤ bb.pending + k ∧ bb.pending + k ≤ last) := by
        congr 1; apply propext; omega
      rw [e] at h2; exact h2
    have hout : ∀ k (hk : k < q.length), ¬ (max bb.pending first ≤ bb.pending + k ∧
        bb.pending + k ≤ last) → q[k].granted = false := by
      intro k hk hno
      have a := hgi k hk
      have b := h.inv k (by omega)
      have c := h.ng k (by omega)
      rw [show decide (max bb.pending first ≤ bb.pending + k ∧ bb.pending + k ≤ last) = false by
        simpa using hno] at a
      simp only [Bool.false_and, Bool.or_false] at a
      rw [Bool.eq_false_iff]
      intro hgr
      rw [Ballot.inv_granted_iff a, ← Ballot.inv_granted_iff b, c] at hgr
      cases hgr
    by_cases hz : lc = 0
    · rw [if_pos hz]
      refine ⟨{ pos := h.pos, bp := h.bp, inv := hbi, ng := fun k hk => ?_, lc := h.lc }, by dsimp only; omega⟩
      by_cases hin : max bb.pending first ≤ bb.pending + k ∧ bb.pending + k ≤ last
      · rcases hlc with ⟨_, h2⟩ | ⟨k', hk', h1, h2, _⟩
        · exact h2 k hk hin.1 hin.2
        · omega
      · exact hout k hk hin
    · rw [if_neg hz]
      rcases hlc with ⟨h1, _⟩ | ⟨k0, hk0, e0, r1, r2, g0, glast⟩
      · exact absurd h1 hz
      subst e0
      have hdrop : bb.pending + k0 + 1 - bb.pending = k0 + 1 := by omega
      rw [hdrop]
      have hb := h.bp
      refine ⟨{ pos := by dsimp only; omega, bp := by dsimp only; omega, inv := fun k hk => ?_, ng := fun k hk => ?_,
                lc := fun _ => by dsimp only }, by dsimp only; rw [List.length_drop]; omega⟩
      · dsimp only at hk ⊢
        rw [List.length_drop] at hk
        rw [List.getElem_drop]
        have h2 := hbi (k0 + 1 + k) (by omega)
        rw [show bb.pending + k0 + 1 + k = bb.pending + (k0 + 1 + k) by omega]
        exact h2
      · dsimp only at hk ⊢
        rw [List.length_drop] at hk
        rw [List.getElem_drop]
        by_cases hin : bb.pending + (k0 + 1 + k) ≤ last
        · exact glast (k0 + 1 + k) (by omega) (by omega) hin
        · exact hout (k0 + 1 + k) (by omega) (fun h => hin h.2)

/-- When a quorum has been counted for the last entry, everything is committed. -/
theorem BI.all {cf : Conf N} {base : Nat} {S : Nat → N → Bool} {bb : BallotBox N Unit} (h : BI cf base S bb) {n : Nat}
    (hn : bb.pending + bb.queue.length = n + 1) (hb : base ≤ n) (hq : IsQuorum cf.peers (oldOf cf) (S n)) :
    bb.lastCommitted = n := by
  by_cases h0 : bb.queue = []
  · rw [h0, List.length_nil] at hn
    have := h.lc (by omega)
    omega
  · have hlen : 0 < bb.queue.length := List.length_pos_iff.mpr h0
    have h1 := h.inv (bb.queue.length - 1) (by omega)
    have h2 := h.ng (bb.queue.length - 1) (by omega)
    rw [show bb.pending + (bb.queue.length - 1) = n by omega] at h1
    rw [(Ballot.inv_granted_iff h1).mpr hq] at h2
    cases h2

theorem BI.append {cf : Conf N} {base : Nat} {S : Nat → N → Bool} {bb : BallotBox N Unit} (h : BI cf base S bb)
    (hS : S (bb.pending + bb.queue.length) = fun _ => false)
    (hnq : ¬ IsQuorum cf.peers (oldOf cf) (fun _ => false)) :
    BI cf base S (bb.appendPendingTask cf.peers (oldOf cf) none) := by
  refine { pos := h.pos, bp := h.bp, inv := fun k hk => ?_, ng := fun k hk => ?_, lc := h.lc }
  · dsimp only [BallotBox.appendPendingTask] at hk ⊢
    rw [List.length_append, List.length_singleton] at hk
    by_cases hlt : k < bb.queue.length
    · rw [List.getElem_append_left hlt]; exact h.inv k hlt
    · have e : k = bb.queue.length := by omega
      subst e
      rw [List.getElem_append_right (by omega)]
      simp only [Nat.sub_self, List.getElem_singleton]
      rw [hS]
      exact Ballot.inv_init _ _
  · dsimp only [BallotBox.appendPendingTask] at hk ⊢
    rw [List.length_append, List.length_singleton] at hk
    by_cases hlt : k < bb.queue.length
    · rw [List.getElem_append_left hlt]; exact h.ng k hlt
    · have e : k = bb.queue.length := by omega
      subst e
      rw [List.getElem_append_right (by omega)]
      simp only [Nat.sub_self, List.getElem_singleton]
      rw [Bool.eq_false_iff]
      intro hg
      exact hnq ((Ballot.inv_granted_iff (Ballot.inv_init _ _)).mp hg)

theorem no_quorum (cf : Conf N) : ¬ IsQuorum cf.peers (oldOf cf) (fun _ => false) := by
  rintro ⟨h, -⟩
  unfold Majority at h
  simp at h

theorem quorum_is {cf : Conf N} {S : N → Bool} (h : cf.Quorum S) : IsQuorum cf.peers (oldOf cf) S := by
  refine ⟨h.1, fun oc ho => ?_⟩
  unfold oldOf at ho
  split at ho
  · cases ho
  · rename_i hne; cases ho; exact h.2 hne

end Braft.Cl
