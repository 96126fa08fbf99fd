import Verif.Node.TimersInv
/-
C74: a node runs the timer of its role and no other; a node that failed or was shut down stays so. The specification: in every
state reached from init by any interleaving of timer callbacks, requests, responses and API calls,
* a follower that has a configuration or knows a leader has its election timer started, a candidate its vote timer, a leader its
  step-down timer (so that it will campaign, retry, or notice the loss of its quorum without any message from outside);
* none of the other two is started;
* after an error or a shutdown the node never becomes follower, candidate or leader again, and its term stays;
* vote(ms) and reset_election_timeout_ms(ms) never change the sum of election timeout and clock drift.
-/
set_option linter.unusedVariables false

namespace Braft.Props.Timers
open Braft.Timers
open Braft.Life (Role)

/-- The state after the critical sections `es` since init of a node with (`conf`) or without a configuration; `can` is false
only for a witness that must not lead; `snap`: snapshot_interval_s > 0. -/
abbrev after (fatal can conf snap : Bool) (term : Nat) (es : List Ev) : State := run fatal (State.init can conf snap term) es

/-! ### The timer of the role -/

/-- Whatever happens short of shutdown(): the timer of the role is started. -/
theorem C74_role_has_timer (fatal conf snap : Bool) (term : Nat) (es : List Ev) (h : Ev.shutdown ∉ es) :
    let s := after fatal true conf snap term es
    (s.role = .follower → (s.conf = true ∨ s.lid ≠ none) → s.elec = true) ∧
    (s.role = .candidate → s.vote = true) ∧
    (s.role = .leader ∨ s.role = .transferring → s.down = true) ∧ s.snap = snap := by
  have h1 := has_run (has_init true conf snap term) fatal es
  have h2 := keeps_run (keeps_init true conf snap term) fatal es h
  refine ⟨fun a b => h1.fol h2.1 h2.2.1 a b, fun a => h1.cand h2.1 h2.2.1 a, fun a => h1.lead h2.1 ?_, h2.2.2⟩
  rcases a with e | e <;> rw [e] <;> rfl

/-- A full life: campaign, lead, be deposed, follow. -/
def life : List Ev :=
  [.electionTimeout {}, .resumePre 0 {}, .preAnswer 0 5 true { enough := true }, .resumeElect 0 {},
   .voteAnswer 0 6 true { enough := true }]

example : (after true true true true 5 []).role = .follower ∧ (after true true true true 5 []).elec = true ∧
    (after true true true true 5 (life.take 3)).role = .candidate ∧
    (after true true true true 5 (life.take 3)).vote = true ∧
    (after true true true true 5 life).role = .leader ∧ (after true true true true 5 life).down = true ∧
    (after true true true true 5 (life ++ [.heard 7 2 true])).role = .follower ∧
    (after true true true true 5 (life ++ [.heard 7 2 true])).elec = true := by decide

/-- For witnesses without raft_enable_witness_to_leader the claim fails: with leadership transferred to it, the witness is a
candidate whose vote timer was never initialised (it waits for a message from outside). -/
theorem C74_witness_candidate_without_timer : ∃ es : List Ev,
    (after true false true true 5 es).role = .candidate ∧ (after true false true true 5 es).vote = false :=
  ⟨[.heard 5 1 true, .timeoutNow 5 {}], by decide⟩

/-- A follower without configuration that has heard of no leader does not campaign; the first message of a leader starts its
election timer. -/
example : (after true true false true 0 []).elec = false ∧ (after true true false true 0 [.heard 1 2 true]).elec = true := by
  decide

/-! ### No other timer -/

/-- Calm runs: the timers of the other roles are stopped; after a shutdown all four are. -/
theorem C74_no_other_timer_partial (fatal can conf snap : Bool) (term : Nat) (es : List Ev)
    (hc : CalmRun fatal (State.init can conf snap term) es) :
    let s := after fatal can conf snap term es
    (s.role = .follower → s.vote = false ∧ s.down = false) ∧
    (s.role = .candidate → s.elec = false ∧ s.down = false) ∧
    (s.role = .leader ∨ s.role = .transferring → s.elec = false ∧ s.vote = false) ∧
    (s.role = .error → s.vote = false ∧ s.down = false) ∧
    (s.role = .shutting → s.elec = false ∧ s.vote = false ∧ s.down = false ∧ s.snap = false) := by
  have h := inv_run (inv_init can conf snap term) fatal es hc
  refine ⟨h.fol, h.cand, fun a => h.lead ?_, h.err, h.shut⟩
  rcases a with e | e <;> rw [e] <;> rfl

/-- Every group in which the vote of one node is no quorum is calm, so the claims for calm runs hold there without assumption. -/
theorem C74_calm_of_two_voters (fatal can conf snap : Bool) (term : Nat) (es : List Ev)
    (h : ∀ e ∈ es, ∀ a, e.arg? = some a → a.solo = false) : CalmRun fatal (State.init can conf snap term) es :=
  calm_of_multi (init_solo can conf snap term) fatal es h

example : CalmRun true (State.init true true true 5) (life ++ [.transfer, .heard 7 2 true, .onError, .shutdown]) ∧
    (after true true true true 5 (life ++ [.transfer])).role = .transferring ∧
    (after true true true true 5 (life ++ [.transfer, .heard 7 2 true, .onError])).role = .error :=
  ⟨C74_calm_of_two_voters true true true true 5 _ (by decide), by decide, by decide⟩

/-- A single node that is left alone is calm as well. -/
def alone : List Ev := [.bootElect { solo := true }, .resumeElect 0 { solo := true }]

example : CalmRun true (State.init true true true 5) alone ∧ (after true true true true 5 alone).role = .leader ∧
    (after true true true true 5 alone).elec = false ∧ (after true true true true 5 alone).vote = false :=
  ⟨⟨fun _ => .inl rfl, fun _ => rfl, trivial⟩, by decide, by decide, by decide⟩

/-! ### Inactive nodes stay inactive -/

/-- Calm runs: after an error or a shutdown the node takes no role again, its term stays, and a shutdown is final. -/
theorem C74_inactive_stays_partial (fatal can conf snap : Bool) (term : Nat) (pre post : List Ev)
    (hc : CalmRun fatal (State.init can conf snap term) (pre ++ post))
    (h : (after fatal can conf snap term pre).role = .error ∨ (after fatal can conf snap term pre).role = .shutting) :
    let s := after fatal can conf snap term (pre ++ post)
    (s.role = .error ∨ s.role = .shutting) ∧ s.term = (after fatal can conf snap term pre).term ∧
    ((after fatal can conf snap term pre).role = .shutting → s.role = .shutting) := by
  obtain ⟨hc1, hc2⟩ := calmRun_append hc
  have h1 := inv_run (inv_init can conf snap term) fatal pre hc1
  have h2 := inactive_run h1 (by rcases h with e | e <;> rw [e] <;> rfl) fatal post hc2
  dsimp only [after] at *
  rw [run_append]
  refine ⟨?_, h2.2.1, h2.2.2⟩
  have h3 := h2.1
  generalize (run fatal (run fatal (State.init can conf snap term) pre) post).role = r at h3
  cases r <;> first | cases h3; done | exact .inl rfl | exact .inr rfl

/-- Calm runs: `CHECK(_state == STATE_CANDIDATE)` in become_leader never fails. -/
theorem C74_check_holds_partial (can conf snap : Bool) (term : Nat) (es : List Ev)
    (hc : CalmRun true (State.init can conf snap term) es) : (after true can conf snap term es).aborted = false :=
  (inv_run (inv_init can conf snap term) true es hc).ok

/-- Finding: without calmness the claim is false. A node alone in its group is shut down while pre_vote reads the last log id
without the mutex; pre_vote compares only the term afterwards, grants itself, campaigns and becomes leader: a node whose timers
are destroyed leads, in a higher term (no CHECK fails). -/
theorem C74_shut_down_node_leads : ∃ pre post : List Ev,
    (after true true true true 5 pre).role = .shutting ∧
    (after true true true true 5 (pre ++ post)).role = .leader ∧ (after true true true true 5 (pre ++ post)).term = 6 ∧
    (after true true true true 5 (pre ++ post)).down = false :=
  ⟨[.electionTimeout {}, .shutdown], [.resumePre 0 { solo := true }, .resumeElect 0 {}], by decide⟩

/-- Yet in every run, calm or not: after a shutdown no timer of the node is running or started again. -/
theorem C74_shutdown_stops_timers (fatal can conf snap : Bool) (term : Nat) (pre post : List Ev)
    (ha : (after fatal can conf snap term pre).aborted = false) :
    let s := after fatal can conf snap term (pre ++ .shutdown :: post)
    s.elec = false ∧ s.vote = false ∧ s.down = false ∧ s.snap = false := by
  have h0 := off_run (off_init can conf snap term) fatal pre
  have h1 : Gone ((after fatal can conf snap term pre).step fatal .shutdown) := by
    unfold State.step
    rw [ha]
    show (State.shutdown _).dead = true
    unfold State.shutdown
    dsimp only
    split
    · rename_i hs
      exact h0.1 hs
    · rfl
  have h2 := gone_run h1 fatal post
  have h3 := off_run (off_step h0 fatal .shutdown) fatal post
  have e : after fatal can conf snap term (pre ++ .shutdown :: post)
      = run fatal ((after fatal can conf snap term pre).step fatal .shutdown) post := by
    have go : ∀ (es : List Ev) (s : State), run fatal s (es ++ .shutdown :: post) = run fatal ((run fatal s es).step fatal .shutdown) post := by
      intro es
      induction es with
      | nil => intro s; rfl
      | cons x es ih => intro s; exact ih _
    exact go pre _
  intro s
  have e' : s = run fatal ((after fatal can conf snap term pre).step fatal .shutdown) post := e
  rw [e']
  exact h3.2 h2

example : (after true true true true 5 [.electionTimeout {}]).elec = true ∧
    (after true true true true 5 [.electionTimeout {}]).aborted = false := by decide

/-- Finding: the same after on_error; the election timer then keeps running beside the step-down timer of the leader. -/
theorem C74_failed_node_leads : ∃ pre post : List Ev,
    (after true true true true 5 pre).role = .error ∧
    (after true true true true 5 (pre ++ post)).role = .leader ∧ (after true true true true 5 (pre ++ post)).elec = true :=
  ⟨[.electionTimeout {}, .onError], [.resumePre 0 { solo := true }, .resumeElect 0 {}], by decide⟩

/-- Finding: an error while elect_self (called by init) reads the log: with glog the CHECK in become_leader aborts the process;
where a failed CHECK only logs, the failed node becomes leader. -/
theorem C74_check_fails : ∃ es : List Ev,
    (after true true true true 5 es).aborted = true ∧ (after false true true true 5 es).role = .leader :=
  ⟨[.bootElect { solo := true }, .onError, .resumeElect 0 {}], by decide⟩

/-! ### vote() -/

/-- A pre-vote ignores the follower lease (is triggered) at most as often as vote() was called. -/
theorem C74_trigger_count (fatal can conf snap : Bool) (term : Nat) (es : List Ev) :
    (after fatal can conf snap term es).trigs ≤ (after fatal can conf snap term es).calls := by
  have h := paid_run (paid_init can conf snap term) fatal es
  unfold Paid at h
  exact Nat.le_trans (Nat.le_add_right _ _) h

/-- An election timeout of a follower whose lease is valid starts a pre-vote only if vote() was called. -/
theorem C74_lease_respected (fatal can conf snap : Bool) (term : Nat) (es : List Ev) (a : Arg) (ha : a.expired = false)
    (h : (after fatal can conf snap term (es ++ [.electionTimeout a])).pfr ≠ (after fatal can conf snap term es).pfr) :
    (after fatal can conf snap term es).trigs < (after fatal can conf snap term es).calls := by
  have hp := paid_run (paid_init can conf snap term) fatal es
  dsimp only [after] at *
  rw [run_append] at h
  generalize run fatal (State.init can conf snap term) es = s at *
  unfold Paid at hp
  by_cases ht : s.trig = true
  · rw [if_pos ht] at hp
    omega
  · exfalso
    apply h
    have ht' : s.trig = false := by simpa using ht
    simp [run, State.step, State.electionTimeout, ht', ha]

example : (after true true true true 5 [.heard 5 2 true, .voteApi, .electionTimeout { expired := false }]).pfr = [(5, true)] ∧
    (after true true true true 5 [.heard 5 2 true, .electionTimeout { expired := false }]).pfr = [] := by decide

/-- Finding: the trigger is only cleared by an election timeout. vote(), then an election by TimeoutNow, leadership, a new leader:
the first election timeout as its follower (terms later) still ignores the valid lease. -/
theorem C74_stale_trigger : ∃ es : List Ev,
    (after true true true true 5 es).role = .follower ∧ (after true true true true 5 es).lid = some 2 ∧
    (after true true true true 5 es).term = 9 ∧
    (after true true true true 5 (es ++ [.electionTimeout { expired := false }])).pfr = [(9, true)] :=
  ⟨[.heard 5 2 true, .voteApi, .timeoutNow 5 {}, .resumeElect 0 {}, .voteAnswer 0 6 true { enough := true }, .heard 9 2 true],
    by decide⟩

/-! ### The periods -/

/-- After any sequence of vote(ms) and reset_election_timeout_ms(ms), accepted or not: election timeout plus clock drift is what
it was at init, and so is the period of the vote timer, for a node that is no witness; election timer, leader lease and follower
lease use the present election timeout, so the time for which a follower refuses to vote is unchanged. -/
theorem C74_sum_kept (wl : Bool) (et drift : Int) (xs : List Int) :
    let m := resets wl (Times.init false wl et drift) xs
    m.et + m.drift = et + drift ∧ m.voteT = m.et + m.drift ∧ m.elecT = m.et ∧ m.leaderT = m.et ∧
    m.followT + m.followD = et + drift := by
  have h1 := resets_sum wl (Times.init false wl et drift) xs
  have h2 := follows_resets wl _ xs (follows_init false wl et drift)
  obtain ⟨a1, a2, a3, a4⟩ := h1
  obtain ⟨b1, b2, b3⟩ := h2
  obtain ⟨c1, c2, c3⟩ := b1 a4
  dsimp only [Times.init] at *
  refine ⟨a1, ?_, c1, c2, ?_⟩
  · rw [a2, a1]; rfl
  · rw [c3, b3, a1]

/-- So the lease of a leader never outlasts the refusal of a follower with the same options at init, whatever timeouts the two
were given meanwhile; the margin is the present drift of the leader. -/
theorem C74_lease_margin (wl : Bool) (et drift : Int) (xs ys : List Int) :
    let l := resets wl (Times.init false wl et drift) xs
    let f := resets wl (Times.init false wl et drift) ys
    f.followT + f.followD - l.leaderT = l.drift := by
  obtain ⟨a1, a2, a3, a4, a5⟩ := C74_sum_kept wl et drift xs
  obtain ⟨b1, b2, b3, b4, b5⟩ := C74_sum_kept wl et drift ys
  dsimp only at *
  omega

/-- A witness refuses to vote at least as long (for timeouts that are not negative). -/
theorem C74_witness_refusal (wl : Bool) (et drift : Int) (xs : List Int)
    (h : 0 ≤ (resets wl (Times.init true wl et drift) xs).et) :
    et + drift ≤ (resets wl (Times.init true wl et drift) xs).followT + (resets wl (Times.init true wl et drift) xs).followD := by
  have h1 := resets_sum wl (Times.init true wl et drift) xs
  have h2 := follows_resets wl _ xs (follows_init true wl et drift)
  obtain ⟨a1, a2, a3, a4⟩ := h1
  obtain ⟨b1, b2, b3⟩ := h2
  have a1' : (resets wl (Times.init true wl et drift) xs).et + (resets wl (Times.init true wl et drift) xs).drift
      = et + drift := a1
  rw [b3]
  rcases (b2 a4).1 with e | e <;> rw [e] <;> omega

/-- A timeout beyond the sum is refused and changes nothing; a smaller one is accepted. -/
theorem C74_reset_refuses (wl : Bool) (m : Times) (ms : Int) :
    ((m.reset wl ms).2 = true ↔ ms ≤ m.et + m.drift) ∧ ((m.reset wl ms).2 = false → (m.reset wl ms).1 = m) ∧
    ((m.reset wl ms).2 = true → (m.reset wl ms).1.et = ms) := by
  unfold Times.reset
  dsimp only
  by_cases h : ms > m.drift + m.et
  · rw [if_pos h]
    refine ⟨⟨fun e => (nomatch e), fun e => ?_⟩, fun _ => rfl, fun e => (nomatch e)⟩
    omega
  · rw [if_neg h]
    refine ⟨⟨fun _ => by omega, fun _ => rfl⟩, fun e => (nomatch e), fun _ => ?_⟩
    unfold Times.unsafeReset
    split <;> dsimp only <;> omega

example : (Times.init false false 1000 200).reset false 1300 = (Times.init false false 1000 200, false) ∧
    ((Times.init false false 1000 200).reset false 400).1.drift = 800 ∧
    resets false (Times.init false false 1000 200) [400, 1300, 1200] =
      { Times.init false false 1000 200 with et := 1200, drift := 0, elecT := 1200, leaderT := 1200, followT := 1200,
                                              followD := 0 } := by decide

/-- Findings: the step-down timer keeps the period of init (a leader with a shorter election timeout looks for its quorum no more
often than before), and a negative timeout is accepted. -/
theorem C74_stepdown_period_stale (wl : Bool) (w : Bool) (et drift : Int) (xs : List Int) :
    (resets wl (Times.init w wl et drift) xs).downT = et :=
  (resets_sum wl (Times.init w wl et drift) xs).2.2.1

theorem C74_negative_accepted : ((Times.init false false 1000 200).reset false (-5)).2 = true ∧
    ((Times.init false false 1000 200).reset false (-5)).1.elecT = -5 := by decide

/-- Finding: reset_election_timeout_ms(ms, drift) changes the sum, but not the period of the vote timer. -/
theorem C74_two_argument_reset : ∃ m : Times, ∃ et drift : Int,
    m = Times.init false false 1000 200 ∧ (m.unsafeReset false et drift).voteT ≠
      (m.unsafeReset false et drift).et + (m.unsafeReset false et drift).drift :=
  ⟨_, 5000, 1000, rfl, by decide⟩

/-- The random delay of election and vote timers: never before the timeout, and at most twice the timeout and the timeout plus
raft_max_election_delay_ms. -/
theorem C74_random_timeout (t d x : Int) (h : (randomTimeout t d).1 ≤ x ∧ x ≤ (randomTimeout t d).2) :
    t ≤ x ∧ x ≤ 2 * t ∧ x ≤ t + d := by
  unfold randomTimeout at h
  dsimp only at h
  omega

example : randomTimeout 1000 300 = (1000, 1300) ∧ randomTimeout 100 300 = (100, 200) := by decide

end Braft.Props.Timers
