import Verif.BallotBox
/-!
Properties C11 and C12: committing through the ballot box, and task closures.

The histories are those of `BallotBox.Reach`: any sequence of calls respecting the CHECKs of the
code. `Hist.ent h i` is the configuration pair under which index `i` was appended,
`Hist.ackers h i` the set of peers with an accepted `commit_at(first,last,peer)` covering `i`.
-/
namespace Braft.Props
open Braft
universe u v
variable {P : Type u} [DecidableEq P] {C : Type v}

/-- C11 (soundness). In every history, when `commit_at` reports an index `n` committed, the peers
that acknowledged `n` form a quorum of the configuration (pair) `n` was appended under, and `n` is
one of the appended indexes. -/
theorem C11_commit_sound {bb : BallotBox P C} {h : BallotBox.Hist P} (hr : BallotBox.Reach (bb, h))
    (first last : Nat) (peer : P) {bb' : BallotBox P C} {h' : BallotBox.Hist P}
    (hs : BallotBox.step (bb, h) (.commit first last peer) = some (bb', h')) (n : Nat)
    (hn : n ∈ (bb.commitAt first last peer).2.2) :
    h'.base ≤ n ∧ n < h'.base + h'.ents.length ∧
      IsQuorum (h'.ent n).1 (h'.ent n).2 (h'.ackers n) := by
  have hi := BallotBox.reach_inv (.step hr hs)
  have hi0 := BallotBox.reach_inv hr
  unfold BallotBox.commitAt at hn
  simp only [BallotBox.step, BallotBox.commitAt] at hs
  by_cases hp : bb.pending = 0
  · simp [hp] at hn
  rw [if_neg hp] at hn hs
  by_cases hl : last < bb.pending
  · simp [hl] at hn
  rw [if_neg hl] at hn hs
  by_cases hrr : bb.pending + bb.queue.length ≤ last
  · simp [hrr] at hn
  rw [if_neg hrr] at hn hs
  have hlc := BallotBox.grantRange_lc (max bb.pending first) last peer bb.pending bb.queue {} 0
  generalize hg : BallotBox.grantRange (max bb.pending first) last peer bb.pending bb.queue {} 0 = r
    at hlc
  obtain ⟨q, lc⟩ := r
  simp only [hg] at hn hs hlc
  by_cases hz : lc = 0
  · simp [hz] at hn
  rw [if_neg hz] at hn hs
  simp only [List.mem_singleton] at hn
  subst hn
  cases hs
  have hb := (hi0.base_le hp).2
  have hge : bb.pending ≤ n := by
    rcases hlc with ⟨h1, _⟩ | ⟨k, _, h1, _⟩
    · exact absurd h1 hz
    · omega
  simp only at hb
  have hlcq := hi.lcEq (by simp) (by simp only; omega)
  have hlen := hi.len (by simp)
  simp only at hlcq hlen
  exact ⟨by simp only; omega, by simp only; omega, hlcq.2⟩

/-- C11 (exactness). At any moment on a leader, an index appended since it became leader is
committed if and only if it or some later appended index has been acknowledged by a quorum of the
configuration that index was appended under. In particular the order, grouping and repetition of
acknowledgements do not matter. -/
theorem C11_committed_iff {bb : BallotBox P C} {h : BallotBox.Hist P} (hr : BallotBox.Reach (bb, h))
    (hlead : bb.pending ≠ 0) (i : Nat) (hi1 : h.base ≤ i) (hi2 : i < h.base + h.ents.length) :
    i ≤ bb.lastCommitted ↔
      ∃ j, i ≤ j ∧ j < h.base + h.ents.length ∧
        IsQuorum (h.ent j).1 (h.ent j).2 (h.ackers j) := by
  have hi := BallotBox.reach_inv hr
  have hlt := hi.lcLt hlead
  have hlen := hi.len hlead
  have hb := hi.base_le hlead
  simp only at hlt hlen hb
  constructor
  · intro hle
    obtain ⟨e1, e2⟩ := hi.lcEq hlead (by simp only; omega)
    simp only at e1 e2
    exact ⟨bb.lastCommitted, hle, by omega, e2⟩
  · rintro ⟨j, hij, hj, hq⟩
    have hjp : j < bb.pending := by
      apply Classical.byContradiction
      intro hnot
      have hk : j - bb.pending < bb.queue.length := by omega
      have hbi := hi.inv hlead (j - bb.pending) hk
      have hng := hi.notGranted hlead (j - bb.pending) hk
      simp only [show bb.pending + (j - bb.pending) = j by omega] at hbi
      rw [← Ballot.inv_granted_iff hbi] at hq
      simp only at hng
      rw [hng] at hq; cases hq
    obtain ⟨e1, _⟩ := hi.lcEq hlead (by simp only; omega)
    simp only at e1
    omega

/-- C11 (monotonicity). The committed indexes reported to the state machine caller over a whole
history, across any number of leaderships, are strictly increasing. -/
theorem C11_notifications_increase {bb : BallotBox P C} {h : BallotBox.Hist P}
    (hr : BallotBox.Reach (bb, h)) : h.notes.Pairwise (· < ·) :=
  (BallotBox.reach_inv hr).notesSorted

/-- C11 (monotonicity). No call makes the committed index go back. -/
theorem C11_committed_monotone {bb bb' : BallotBox P C} {h h' : BallotBox.Hist P}
    (hr : BallotBox.Reach (bb, h)) (op : BallotBox.Op P C)
    (hs : BallotBox.step (bb, h) op = some (bb', h')) : bb.lastCommitted ≤ bb'.lastCommitted := by
  have hi := BallotBox.reach_inv hr
  cases op with
  | reset i => simp only [BallotBox.step] at hs; split at hs <;> cases hs; exact Nat.le_refl _
  | append conf old c => simp only [BallotBox.step] at hs; split at hs <;> cases hs; exact Nat.le_refl _
  | clear => simp only [BallotBox.step] at hs; cases hs; exact Nat.le_refl _
  | pop i => simp only [BallotBox.step] at hs; split at hs <;> cases hs; exact Nat.le_refl _
  | setCommitted i =>
    simp only [BallotBox.step, BallotBox.setLastCommittedIndex] at hs
    cases hs
    split
    · exact Nat.le_refl _
    · split
      · exact Nat.le_refl _
      · split
        · simp only; omega
        · exact Nat.le_refl _
  | commit first last peer =>
    simp only [BallotBox.step, BallotBox.commitAt] at hs
    by_cases hp : bb.pending = 0
    · simp only [hp, if_true] at hs; cases hs; exact Nat.le_refl _
    rw [if_neg hp] at hs
    by_cases hl : last < bb.pending
    · rw [if_pos hl] at hs; cases hs; exact Nat.le_refl _
    rw [if_neg hl] at hs
    by_cases hrr : bb.pending + bb.queue.length ≤ last
    · rw [if_pos hrr] at hs; cases hs; exact Nat.le_refl _
    rw [if_neg hrr] at hs
    have hlc := BallotBox.grantRange_lc (max bb.pending first) last peer bb.pending bb.queue {} 0
    generalize hg : BallotBox.grantRange (max bb.pending first) last peer bb.pending bb.queue {} 0
      = r at hlc
    obtain ⟨q, lc⟩ := r
    simp only [hg] at hs hlc
    have := hi.lcLt hp
    simp only at this
    by_cases hz : lc = 0
    · rw [if_pos hz] at hs; cases hs; exact Nat.le_refl _
    · rw [if_neg hz] at hs; cases hs
      rcases hlc with ⟨h1, _⟩ | ⟨k, _, h1, _⟩
      · exact absurd h1 hz
      · simp only; omega

/-- Run a list of calls. -/
def runBB (s : BallotBox Nat Nat × BallotBox.Hist Nat) :
    List (BallotBox.Op Nat Nat) → Option (BallotBox Nat Nat × BallotBox.Hist Nat)
  | [] => some s
  | op :: ops => (BallotBox.step s op).bind (fun s' => runBB s' ops)

theorem runBB_reach {s s'} (h : BallotBox.Reach s) (ops) (hr : runBB s ops = some s') :
    BallotBox.Reach s' := by
  induction ops generalizing s with
  | nil => cases hr; exact h
  | cons op ops ih =>
    simp only [runBB, Option.bind_eq_some_iff] at hr
    obtain ⟨s1, h1, h2⟩ := hr
    exact ih (.step h h1) h2

/-- A concrete history: a leader of three peers appends indexes 5,6,7 (the last one while removing
peer 3); acknowledgements arrive out of order, 6 is acknowledged by a quorum before 5 is. -/
def exOps : List (BallotBox.Op Nat Nat) :=
  [.setCommitted 4, .reset 5, .append [1, 2, 3] none (some 50), .append [1, 2, 3] none none,
   .append [1, 2] none (some 70), .commit 5 6 1, .commit 6 7 2, .commit 5 5 3, .pop 6]

example : ∃ bb h, runBB ({}, {}) exOps = some (bb, h) ∧ BallotBox.Reach (bb, h) ∧
    bb.pending = 7 ∧ bb.lastCommitted = 6 ∧ h.notes = [4, 6] ∧ h.base = 5 ∧ h.ents.length = 3 ∧
    (bb.commitAt 7 7 1).2.2 = [7] := by
  refine ⟨_, _, rfl, runBB_reach .init exOps rfl, ?_⟩
  decide

/-- C12 (a commit notification can always be served). On any history, popping the closures up to a
committed index never hits the out-of-range error branch of `pop_closure_until`, and the closure
queue covers exactly the appended, not yet popped indexes. -/
theorem C12_pop_in_range {bb : BallotBox P C} {h : BallotBox.Hist P}
    (hr : BallotBox.Reach (bb, h)) (i : Nat) (hi : i ≤ bb.lastCommitted) :
    (bb.closures.popUntil i).2.rc = 0 := by
  have hinv := BallotBox.reach_inv hr
  unfold ClosureQueue.popUntil
  split
  · rfl
  · rename_i hne
    simp only [Bool.or_eq_true, decide_eq_true_eq, not_or] at hne
    by_cases hp : bb.pending = 0
    · have := (hinv.follower hp).2
      simp only at this
      simp [this] at hne
    · have h1 := hinv.cq hp
      have h2 := hinv.lcLt hp
      simp only at h1 h2
      rw [if_neg (by omega)]

example : ∃ bb h, runBB ({}, {}) exOps = some (bb, h) ∧ (6 ≤ bb.lastCommitted) ∧
    (bb.closures.popUntil 6).2.rc = 0 := ⟨_, _, rfl, by decide, by decide⟩

/-- C12 (exactly once). Over any history of the closure queue, the non-null closures appended are,
as a multiset, exactly those handed to the state machine caller, those run with EPERM by `clear`,
and those still queued: none is lost and none is run twice. -/
theorem C12_conservation {q : ClosureQueue C} {h : ClosureQueue.Hist C}
    (hr : ClosureQueue.Reach (q, h)) :
    (h.appended.filterMap Prod.snd).Perm
      (h.handed.filterMap Prod.snd ++ h.failed ++ q.queue.filterMap id) :=
  (ClosureQueue.reach_inv hr).cons

/-- C12 (right closure, right order). Over any history, the sequence of (index, closure) pairs
handed out is a subsequence of the sequence of (index, closure) pairs appended: every closure is
handed out for the log index it was appended for, and in the order of appending. -/
theorem C12_order {q : ClosureQueue C} {h : ClosureQueue.Hist C}
    (hr : ClosureQueue.Reach (q, h)) : List.Sublist h.handed h.appended :=
  (List.sublist_append_left _ _).trans (ClosureQueue.reach_inv hr).order

/-- C12. If the appended closures are distinct, one that was handed out was not failed, and vice
versa. -/
theorem C12_not_both [DecidableEq C] {q : ClosureQueue C} {h : ClosureQueue.Hist C}
    (hr : ClosureQueue.Reach (q, h)) (hd : (h.appended.filterMap Prod.snd).Nodup) (c : C)
    (hc : c ∈ h.failed) : c ∉ h.handed.filterMap Prod.snd ∧ c ∉ q.queue.filterMap id := by
  have hn := (C12_conservation hr).nodup_iff.mp hd
  rw [List.append_assoc, List.nodup_append] at hn
  obtain ⟨_, h2, h3⟩ := hn
  rw [List.nodup_append] at h2
  refine ⟨fun hm => h3 c hm c (List.mem_append_left _ hc) rfl, fun hm => h2.2.2 c hc c hm rfl⟩

def runCQ (s : ClosureQueue Nat × ClosureQueue.Hist Nat) :
    List (ClosureQueue.Op Nat) → Option (ClosureQueue Nat × ClosureQueue.Hist Nat)
  | [] => some s
  | op :: ops => (ClosureQueue.step s op).bind (fun s' => runCQ s' ops)

theorem runCQ_reach {s s'} (h : ClosureQueue.Reach s) (ops) (hr : runCQ s ops = some s') :
    ClosureQueue.Reach s' := by
  induction ops generalizing s with
  | nil => cases hr; exact h
  | cons op ops ih =>
    simp only [runCQ, Option.bind_eq_some_iff] at hr
    obtain ⟨s1, h1, h2⟩ := hr
    exact ih (.step h h1) h2

/-- Two leaderships: closures 1,2 popped, 3 failed by step down, then 4 popped at index 20. -/
def exCQ : List (ClosureQueue.Op Nat) :=
  [.reset 10, .append (some 1), .append none, .append (some 2),
    .append (some 3), .pop 12, .clear, .reset 20, .append (some 4), .append (some 5), .pop 20]

example : ∃ q h, runCQ ({}, {}) exCQ = some (q, h) ∧ ClosureQueue.Reach (q, h) ∧ h.failed = [3] ∧
      h.handed = [(10, some 1), (11, none), (12, some 2), (20, some 4)] ∧
      (h.appended.filterMap Prod.snd).Nodup := by
  refine ⟨_, _, rfl, runCQ_reach (s' := (_, _)) .init exCQ rfl, ?_⟩
  decide

end Braft.Props
