import Verif.PreVote
/-!
Property C08: PreVote has no side effects on the voter, and is granted only to an up-to-date
candidate whose term is not older once the voter's follower lease has expired; on the candidate's
side, a real election starts only behind a quorum of supporters.

`request1`/`request2` are the two critical sections of the handler. Between them the mutex is free:
`n` is the node at the first, `m` at the second, and `last` what the log manager answered in
between. `Supports` and `IsQuorum` are the specification (Verif/PreVote.lean, Verif/Ballot.lean).
-/
set_option linter.unusedVariables false
set_option linter.unusedSectionVars false
namespace Braft.Props
open Braft Braft.PreVote Braft.Lease
variable {P : Type} [DecidableEq P]

/-- C08. Neither critical section changes anything of the node, whatever the request. -/
theorem C08_no_side_effects (enabled : Bool) (n m : PreVote.Node P) (q : Req P) (last : Nat × Nat)
    (now : Nat) : (request1 n q).1 = n ∧ (request2 enabled m q last now).1 = m := by
  refine ⟨?_, rfl⟩
  unfold request1
  split
  · rfl
  · split
    · rfl
    · split <;> rfl

/-- C08. The first critical section lets a request go on exactly if the node is active, the
candidate's id parses and its term is not older than the node's; otherwise nothing is granted. -/
theorem C08_term_checked (n : PreVote.Node P) (q : Req P) :
    ((request1 n q).2 = .readLog ↔ n.role ≠ .shutting ∧ q.cand ≠ none ∧ n.term ≤ q.term) ∧
    (∀ r, (request1 n q).2 = .refused r → r.granted = false ∧ r.byLease = false) := by
  unfold request1
  cases hr : n.role <;> cases hq : q.cand <;> simp [Role.active] <;> split <;>
    simp_all [reply] <;> omega

/-- C08. A pre-vote is granted exactly if the candidate's last log id is at least the one read and
the follower lease has expired at that moment; `rejected_by_lease` is set exactly if only the
lease stood against it. -/
theorem C08_granted_iff (m : PreVote.Node P) (q : Req P) (last : Nat × Nat) (now : Nat) :
    ((request2 true m q last now).2.granted = true ↔
      (last.1 < q.lastId.1 ∨ (last.1 = q.lastId.1 ∧ last.2 ≤ q.lastId.2)) ∧
      m.lease.ts + m.lease.timeout + m.lease.drift ≤ now) ∧
    ((request2 true m q last now).2.byLease = true ↔
      (last.1 < q.lastId.1 ∨ (last.1 = q.lastId.1 ∧ last.2 ≤ q.lastId.2)) ∧
      now < m.lease.ts + m.lease.timeout + m.lease.drift) := by
  unfold request2 idGe
  have hv : m.lease.votable true now = 0 ↔ m.lease.ts + m.lease.timeout + m.lease.drift ≤ now := by
    unfold Follower.votable; simp; omega
  by_cases hg : last.1 < q.lastId.1 ∨ (last.1 = q.lastId.1 ∧ last.2 ≤ q.lastId.2)
  · have hg' : (decide (last.1 < q.lastId.1) || (decide (q.lastId.1 = last.1) &&
        decide (last.2 ≤ q.lastId.2))) = true := by
      simp only [Bool.or_eq_true, Bool.and_eq_true, decide_eq_true_eq]
      rcases hg with h | h
      · exact Or.inl h
      · exact Or.inr ⟨h.1.symm, h.2⟩
    simp only [hg', if_true, reply, beq_iff_eq, decide_eq_true_eq, hg, true_and]
    exact ⟨hv, by omega⟩
  · have hg' : (decide (last.1 < q.lastId.1) || (decide (q.lastId.1 = last.1) &&
        decide (last.2 ≤ q.lastId.2))) = false := by
      rw [Bool.eq_false_iff]
      intro h
      simp only [Bool.or_eq_true, Bool.and_eq_true, decide_eq_true_eq] at h
      apply hg
      rcases h with h | h
      · exact Or.inl h
      · exact Or.inr ⟨h.1.symm, h.2⟩
    simp only [hg', reply]
    simp [hg]

example :
    let n : PreVote.Node Nat := fresh 1 4 none (3, 7) ⟨some 2, 1000, 500, 100⟩ [1, 2, 3] []
    (request1 n ⟨some 2, 5, (3, 7)⟩).2 = .readLog ∧
    (request2 true n ⟨some 2, 5, (3, 7)⟩ n.lastId 1600).2.granted = true ∧
    (request2 true n ⟨some 2, 5, (3, 7)⟩ n.lastId 1599).2.byLease = true ∧
    (request2 true n ⟨some 2, 5, (3, 6)⟩ n.lastId 1600).2.granted = false := by decide

/-- C08 (candidate). In every execution of a node that started fresh, whatever timeouts, answers
(late, repeated, of earlier rounds), step downs, configuration changes and requests of others come
in any order: if the pre-vote path starts an election, the peers and the node itself that support
it, judged by the answers of this very round, form a quorum of the configuration (and of the old
one in joint mode) in force when the round began. -/
theorem C08_election_needs_quorum (enabled : Bool) (self : P) (term : Nat) (vote : Option P)
    (lastId : Nat × Nat) (lease : Follower P) (conf old : List P) (hc : conf.Nodup) (ho : old.Nodup)
    (os : List (PreVote.Op P)) (hw : ∀ o ∈ os, o.WF) (n n' : PreVote.Node P) (o : PreVote.Op P) (hwo : o.WF)
    (hr : PreVote.run enabled (fresh self term vote lastId lease conf old) os = some n)
    (hs : PreVote.step enabled n o = some (n', true)) :
    IsQuorum n'.g.conf n'.g.old (Supports n'.self n'.g) :=
  (step_post o hwo (run_inv os hw (inv_fresh hc ho) hr) hs).2 rfl

/-- What an election that a step starts looks like. -/
structure Elects (n n' : PreVote.Node P) : Prop where
  member : n.self ∈ n.conf ∨ n.self ∈ n.old
  role : n'.role = .candidate
  term : n'.term = n.term + 1
  vote : n'.vote = some n.self
  self : n'.self = n.self

/-- Same server, term and configurations. -/
def SameId (m n : PreVote.Node P) : Prop :=
  m.self = n.self ∧ m.term = n.term ∧ m.conf = n.conf ∧ m.old = n.old

theorem elects_of {n m : PreVote.Node P} (hb : SameId m n) (h : (electSelf m).2 = true) :
    Elects n (electSelf m).1 := by
  obtain ⟨h1, h2, h3, h4, h5⟩ := electSelf_elected h
  obtain ⟨b1, b2, b6, b7⟩ := hb
  rw [b1, b6, b7] at h1
  exact ⟨h1, h2, by rw [h3, b2], by rw [h4, b1], by rw [h5, b1]⟩

theorem grantSelf_elects {enabled : Bool} {n m : PreVote.Node P} {now : Nat} (hb : SameId m n)
    (h : (grantSelf enabled m now).2 = true) : Elects n (grantSelf enabled m now).1 := by
  unfold grantSelf at *
  split at h
  · rename_i hv
    rw [if_pos hv]
    dsimp only at *
    split at h
    · rename_i hg
      rw [if_pos hg]
      exact elects_of hb h
    · cases h
  · cases h

theorem popGrantable_sameId (m : PreVote.Node P) : SameId (popGrantable m).1 m := by
  unfold popGrantable
  split <;> exact ⟨rfl, rfl, rfl, rfl⟩

theorem grantList_sameId (m : PreVote.Node P) (ps : List P) : SameId (grantList m ps) m := by
  obtain ⟨⟨a1, a2, _, _, _, a6, a7, _⟩, _⟩ := grantList_base ps m
  exact ⟨a1, a2, a6, a7⟩

theorem SameId.trans {a b c : PreVote.Node P} (h : SameId a b) (g : SameId b c) : SameId a c :=
  ⟨h.1.trans g.1, h.2.1.trans g.2.1, h.2.2.1.trans g.2.2.1, h.2.2.2.trans g.2.2.2⟩

theorem response_elects {n : PreVote.Node P} {p : P} {t v : Nat} {r : Resp}
    (h : (response n p t v r).2 = true) : Elects n (response n p t v r).1 := by
  unfold response at *
  by_cases h1 : v ≠ n.ctx.version
  · rw [if_pos h1] at h; cases h
  rw [if_neg h1] at h ⊢
  by_cases h2 : n.role ≠ .follower
  · rw [if_pos h2] at h; cases h
  rw [if_neg h2] at h ⊢
  by_cases h3 : t ≠ n.term
  · rw [if_pos h3] at h; cases h
  rw [if_neg h3] at h ⊢
  by_cases h4 : n.term < r.term
  · rw [if_pos h4] at h; cases h
  rw [if_neg h4] at h ⊢
  by_cases h5 : (!r.granted && !r.byLease) = true
  · rw [if_pos h5] at h; cases h
  rw [if_neg h5] at h ⊢
  by_cases h6 : (r.byLease && !n.ctx.triggered) = true
  · rw [if_pos h6] at h; cases h
  rw [if_neg h6] at h ⊢
  dsimp only at h ⊢
  have key : ∀ n1 : PreVote.Node P, SameId n1 n → SameId (if r.byLease = true then
          (grantList (popGrantable { n1 with ctx := { n1.ctx with reserved := p :: n1.ctx.reserved } }).1
            (popGrantable { n1 with ctx := { n1.ctx with reserved := p :: n1.ctx.reserved } }).2)
        else grantList (popGrantable n1).1 ((popGrantable n1).2 ++ [p])) n := by
    intro n1 hb
    split
    · refine (grantList_sameId _ _).trans ((popGrantable_sameId _).trans ?_)
      exact hb
    · exact (grantList_sameId _ _).trans ((popGrantable_sameId _).trans hb)
  have key2 := key _ (show SameId (if r.disrupted = true then
      { ({ n with g := { n.g with answers := (p, r) :: n.g.answers } } : PreVote.Node P) with
        ctx := { n.ctx with disrupted := some (p, r.prevTerm) } } else
      { n with g := { n.g with answers := (p, r) :: n.g.answers } }) n by
    split <;> exact ⟨rfl, rfl, rfl, rfl⟩)
  generalize (if r.byLease = true then _ else _ : PreVote.Node P) = n4 at h key2 ⊢
  split at h
  · rename_i hg
    rw [if_pos hg]
    exact elects_of key2 h
  · cases h

/-- C08. A node that is started into an election by the pre-vote path is a member of its own (or old)
configuration, and it starts the election for the next term with its own vote. -/
theorem C08_elected_is_member (enabled : Bool) (n n' : PreVote.Node P) (o : PreVote.Op P)
    (hs : PreVote.step enabled n o = some (n', true)) : Elects n n' := by
  cases o with
  | timeout tr => simp only [PreVote.step] at hs; split at hs <;> cases hs
  | resume i now =>
    simp only [PreVote.step] at hs
    split at hs
    · cases hs
    · rename_i t tr hf
      have hs' := Option.some.inj hs
      unfold resume at hs'
      split at hs'
      · cases hs'
      · dsimp only at hs'
        generalize hm : ({ ctxInit { n with frames := n.frames.eraseIdx i } tr with sent := _ } : PreVote.Node P) = m at hs'
        have hb : SameId m n := by subst hm; exact ⟨rfl, rfl, rfl, rfl⟩
        have := grantSelf_elects (enabled := enabled) (now := now) hb
        rw [hs'] at this; exact this rfl
  | answer p t v r now =>
    simp only [PreVote.step] at hs
    split at hs
    · have hs' := Option.some.inj hs
      have := response_elects (n := n) (p := p) (t := t) (v := v) (r := r)
      rw [hs'] at this; exact this rfl
    · cases hs
  | selfTimer v now =>
    simp only [PreVote.step] at hs
    split at hs
    · split at hs
      · have hs' := Option.some.inj hs
        have := grantSelf_elects (enabled := enabled) (n := n) (m := n) (now := now) ⟨rfl, rfl, rfl, rfl⟩
        rw [hs'] at this; exact this rfl
      · cases hs
    · cases hs
  | stepDown t => simp only [PreVote.step] at hs; cases hs
  | leaderSeen p now => simp only [PreVote.step] at hs; split at hs <;> cases hs
  | setConf c o => simp only [PreVote.step] at hs; cases hs
  | append id => simp only [PreVote.step] at hs; cases hs
  | becomeLeader => simp only [PreVote.step] at hs; split at hs <;> cases hs
  | voteRequest c t => simp only [PreVote.step] at hs; split at hs <;> cases hs
  | preVoteRequest q now => simp only [PreVote.step] at hs; split at hs <;> cases hs
  | shutdown => simp only [PreVote.step] at hs; cases hs

/-- C08. A `pre_vote` that finds another term when it goes on does nothing. One that finds the same term but a
follower lease that has not expired asks the others and does not support itself yet. -/
theorem C08_round_start (enabled : Bool) (n : PreVote.Node P) (t : Nat) (tr : Bool) (now : Nat) :
    (t ≠ n.term → resume enabled n t tr now = (n, false)) ∧
    (t = n.term → n.lease.votable enabled now ≠ 0 →
      (resume enabled n t tr now).2 = false ∧ (resume enabled n t tr now).1.g.selfOk = false ∧
      (resume enabled n t tr now).1.role = n.role ∧ (resume enabled n t tr now).1.term = n.term) := by
  constructor
  · intro h; unfold resume; rw [if_pos h]
  · intro h hv
    unfold resume
    rw [if_neg (by simp [h])]
    unfold grantSelf
    dsimp only
    rw [if_neg (by exact hv)]
    exact ⟨rfl, rfl, rfl, rfl⟩

example : Elects (fresh 1 4 none (3, 7) ⟨none, 1000, 500, 100⟩ [1] []) (resume true (fresh 1 4 none (3, 7) ⟨none, 1000, 500, 100⟩ [1] []) 4 false 2000).1 :=
  ⟨by decide, by decide, by decide, by decide, by decide⟩

example : (fresh 1 4 none (3, 7) ⟨some 2, 1000, 500, 100⟩ [1, 2, 3] [] : PreVote.Node Nat).lease.votable true 1100 ≠ 0 := by decide

/-- A round in a group of three that elects on the second supporter; a late answer of the first
round does not count. -/
example : ∃ n n' : PreVote.Node Nat,
    PreVote.run true (fresh 1 4 none (3, 7) ⟨some 2, 1000, 500, 100⟩ [1, 2, 3] [])
      [.timeout false, .resume 0 2000, .timeout false, .resume 0 3000,
       .answer 2 4 1 ⟨4, true, false, false, 4⟩ 3001] = some n ∧ n.role = .follower ∧
    PreVote.step true n (.answer 3 4 2 ⟨4, true, false, false, 4⟩ 3002) = some (n', true) ∧
    n'.role = .candidate ∧ n'.term = 5 := by
  refine ⟨_, _, rfl, by decide, rfl, by decide, by decide⟩

/-- Finding: `pre_vote` compares only the term after it re-acquires the mutex (node.cpp:1640), so a
node that was shut down meanwhile goes on and, alone in its group, becomes a candidate. -/
theorem C08_shutdown_race : ∃ n n' : PreVote.Node Nat,
    PreVote.run true (fresh 1 4 none (3, 7) ⟨none, 1000, 500, 100⟩ [1] []) [.timeout false, .shutdown]
      = some n ∧ n.role = .shutting ∧
    PreVote.step true n (.resume 0 2000) = some (n', true) ∧ n'.role = .candidate ∧ n'.term = 5 := by
  refine ⟨_, _, rfl, by decide, rfl, by decide, by decide⟩

/-- The log id is read while the mutex is free, so a pre-vote may be granted although the voter's
log has grown beyond the candidate's by the time it answers (harmless: a pre-vote binds nobody). -/
theorem C08_log_may_have_grown : ∃ (m : PreVote.Node Nat) (q : Req Nat) (last : Nat × Nat),
    last ≠ m.lastId ∧ idGe q.lastId m.lastId = false ∧
    (request2 true m q last 2000).2.granted = true :=
  ⟨fresh 1 4 none (3, 8) ⟨some 2, 1000, 500, 100⟩ [1, 2, 3] [], ⟨some 2, 5, (3, 7)⟩, (3, 7),
    by decide, by decide, by decide⟩

end Braft.Props
