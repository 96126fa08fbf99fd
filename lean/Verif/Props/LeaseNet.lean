import Verif.LeaseSafe
/-
C26: while the lease of a leader is valid, no node has become leader of a later term.

The model (Verif/LeaseNet.lean) has any number of nodes with local clocks, an asynchronous network
that may lose, delay, duplicate and reorder messages, crashes, leadership transfer and the
"disrupted leader" extension. `won` lists the elections won so far as (term, node). The clocks
run forward, and over any interval no two of them differ by more than `skew` (the precondition of the
action `tick`). Election timeouts and clock drifts may be changed on any node at any time by `vote` and
`reset_election_timeout_ms`; `P.Ok`: no timeout `top` that is set, together with the real skew, is longer than the
time election_timeout_ms + max_clock_drift_ms with which the nodes started. Without such calls, or with calls that only set
smaller timeouts, this says skew ≤ max_clock_drift_ms.
-/
set_option linter.unusedVariables false
set_option linter.unusedSimpArgs false

namespace Braft.Props
open Braft.Lease Braft.LeaseNet
open Braft.Raft (Conf confStepOk)

variable {N : Type} [DecidableEq N]

/-- Renewing the lease changes nothing that `Compat` reads. -/
theorem compat_renew {P : Params N} {s : St N} {i : N} (h : Compat s) : Compat (eff P s (.renew i)) := by
  have hnd : ∀ j, ((eff P s (.renew i)).nd j).term = (s.nd j).term ∧ ((eff P s (.renew i)).nd j).role = (s.nd j).role ∧
      ((eff P s (.renew i)).nd j).ready = (s.nd j).ready ∧ ((eff P s (.renew i)).nd j).cc = (s.nd j).cc ∧
      ((eff P s (.renew i)).nd j).cu = (s.nd j).cu := by
    intro j
    show (updF s.nd i _ j).term = _ ∧ (updF s.nd i _ j).role = _ ∧ (updF s.nd i _ j).ready = _ ∧ (updF s.nd i _ j).cc = _ ∧
      (updF s.nd i _ j).cu = _
    by_cases hj : j = i
    · subst hj; rw [updF_same]; exact ⟨rfl, rfl, rfl, rfl, rfl⟩
    · rw [updF_other _ _ hj]; exact ⟨rfl, rfl, rfl, rfl, rfl⟩
  refine ⟨h.1, fun w hw hl hr => ?_⟩
  obtain ⟨h1, h2, h3, h4, h5⟩ := hnd w.2
  unfold leads at hl
  rw [h1, h2] at hl
  rw [h3] at hr
  rw [h4, h5]
  exact h.2 w hw hl hr

/-- C26. If `get_leader_lease_status` of a node reports LEASE_VALID for a term `T`, that node has
won the election of term `T` and nobody has won an election of a later term, in any way: not by
an ordinary election, not by a leadership transfer, not with the help of a disrupted leader.
Memberships may change, one peer at a time or through joint configurations. What logs have to do with elections enters
through `Compat`, a premise of every step of `Reach`; `C26_lease_excludes_newer_leader_partial` (Verif/Props/LeaseRaft.lean)
has no such premise.
Partial: `strict`: a node handles no AppendEntries of its own term
before it has stored that term (see `C26_lease_lost_at_first_start`); `memb`: only leaders that are members of their
configuration are asked for their lease (see `C26_lease_of_removed_leader`); `probe`: a peer is added only after it has answered
an AppendEntries (see `C26_lease_of_new_peer`). -/
theorem C26_lease_net_partial {P : Params N} {s : St N} {i : N}
    {T : Nat} (hok : P.Ok) (hst : P.strict = true) (hmb : P.memb = true) (hpb : P.probe = true)
    (h : Reach P s)
    (hm : Mem (s.nd i).cur i) (hv : leaseStatus P s i = some T) :
    (T, i) ∈ s.won ∧ (∀ T' c, (T', c) ∈ s.won → T' ≤ T) ∧
    ∀ j T', leads (s.nd j) T' = true → T' ≤ T := by
  have hkey : (T, i) ∈ s.won ∧ ∀ T' c, (T', c) ∈ s.won → T' ≤ T := by
    have base : ∀ s' : St N, Reach P s' → (s'.nd i).ll.info true (s'.clk i) = .valid →
        ((s'.nd i).ll.term, i) ∈ s'.won := by
      intro s' h' hv'
      have hn := (inv_reach hok hst hmb hpb h').n i
      have h0 : (s'.nd i).ll.term ≠ 0 := by
        intro h0
        simp [Leader.info, h0] at hv'
      obtain ⟨h1, h2⟩ := hn.lr h0
      rw [h2]
      exact hn.ld (leads_leader h1)
    unfold leaseStatus at hv
    cases hi : (s.nd i).ll.info true (s.clk i) <;> rw [hi] at hv <;> simp only [] at hv <;>
      try cases hv
    · exact ⟨base s h hi, fun T' c hw => lease_excludes hok hst hmb hpb h hi hw⟩
    · split at hv
      · next hr =>
        split at hv
        · next hi' =>
          injection hv with hv
          have h' : Reach P (eff P s (.renew i)) := by
            refine .step _ h ⟨hr, hi, fun _ => hm⟩ ?_
            exact compat_renew ((inv_reach hok hst hmb hpb h).g.cp)
          rw [← hv]
          exact ⟨base _ h' hi', fun T' c hw => lease_excludes hok hst hmb hpb h' hi' hw⟩
        · cases hv
      · cases hv
  refine ⟨hkey.1, hkey.2, fun j T' hl => ?_⟩
  have ht : (s.nd j).term = T' := by
    unfold leads at hl
    rw [Bool.and_eq_true, decide_eq_true_eq] at hl
    exact hl.2
  rw [← ht] at hl ⊢
  exact hkey.2 _ j (((inv_reach hok hst hmb hpb h).n j).ld hl)

/-! ### Concrete runs -/

/-- Election timeout 10, clock drift 1. -/
def leasePar (n : Nat) (strict memb probe : Bool) : Params (Fin n) := ⟨10, 1, strict, memb, probe, 1, 10, fun _ => false, false⟩

example : (leasePar 3 true true true).Ok := by unfold Params.Ok; decide

instance decPre {n : Nat} (P : Params (Fin n)) (s : St (Fin n)) (a : Act (Fin n)) : Decidable (pre P s a) := by
  cases a <;> dsimp only [pre] <;> infer_instance

instance decCompat {n : Nat} (s : St (Fin n)) : Decidable (Compat s) := by
  unfold Compat; infer_instance

def runOk {n : Nat} (P : Params (Fin n)) : St (Fin n) → List (Act (Fin n)) → Bool
  | _, [] => true
  | s, a :: l => decide (pre P s a) && decide (Compat (eff P s a)) && runOk P (eff P s a) l

def runSt {n : Nat} (P : Params (Fin n)) (s : St (Fin n)) (l : List (Act (Fin n))) : St (Fin n) := l.foldl (eff P) s

theorem reach_of_run {n : Nat} {P : Params (Fin n)} : ∀ {s : St (Fin n)} {l : List (Act (Fin n))}, Reach P s →
    runOk P s l = true → Reach P (runSt P s l)
  | s, [], h, _ => h
  | s, a :: l, h, hr => by
    unfold runOk at hr
    rw [Bool.and_eq_true, Bool.and_eq_true, decide_eq_true_eq, decide_eq_true_eq] at hr
    exact reach_of_run (l := l) (.step a h hr.1.1 hr.1.2) hr.2

/-- 0 is elected in term 2 at time 100, is in contact with 2 and starts its lease. -/
def leaseRun : List (Act (Fin 3)) :=
  [.electStart 0 false, .electSend 0, .voteGrant 2 2 0 none, .grantSelf 0,
   .becomeLeader 0 ⟨[0, 1, 2], [], by decide, by decide⟩ [(0, none), (2, none)], .sendAE 0, .recvAE 2 2 0 100, .ackAE 2 2 0 100,
   .recvAck 0 2 100, .commitFirst 0, .leaseStart 0 1]

/-- Later it is in contact with 1 and its lease goes on; after that contact has ended 1 is
elected with the vote of 2. -/
def leaseRun2 : List (Act (Fin 3)) :=
  leaseRun ++ [.tick (fun _ => 108), .sendAE 0, .recvAE 1 2 0 108, .ackAE 1 2 0 108,
    .recvAck 0 1 108, .tick (fun _ => 112)]

def leaseRun3 : List (Act (Fin 3)) :=
  leaseRun2 ++ [.renew 0, .tick (fun _ => 119), .electStart 1 false, .electSend 1,
    .voteGrant 2 3 1 none, .grantSelf 1, .becomeLeader 1 ⟨[0, 1, 2], [], by decide, by decide⟩ [(1, none), (2, none)]]

/-- The hypotheses of C26 are met by an initial and by a renewed lease. -/
example : ∃ s : St (Fin 3), Reach (leasePar 3 true true true) s ∧
    leaseStatus (leasePar 3 true true true) s 0 = some 2 ∧ s.won = [(2, 0)] :=
  ⟨_, reach_of_run (.init (fun _ => 100)) (l := leaseRun) (by decide +kernel), by decide +kernel, by decide +kernel⟩

example : ∃ s : St (Fin 3), Reach (leasePar 3 true true true) s ∧
    (s.nd 0).ll.info true (s.clk 0) = .suspect ∧
    leaseStatus (leasePar 3 true true true) s 0 = some 2 ∧ s.clk 0 = 112 :=
  ⟨_, reach_of_run (.init (fun _ => 100)) (l := leaseRun2) (by decide +kernel), by decide +kernel, by decide +kernel,
    by decide +kernel⟩

/-- When the next leader is elected the lease is not valid any more. -/
example : ∃ s : St (Fin 3), Reach (leasePar 3 true true true) s ∧ s.won = [(3, 1), (2, 0)] ∧
    leads (s.nd 0) 2 = true ∧ leaseStatus (leasePar 3 true true true) s 0 = none :=
  ⟨_, reach_of_run (.init (fun _ => 100)) (l := leaseRun3) (by decide +kernel), by decide +kernel, by decide +kernel,
    by decide +kernel⟩

/-- A transfer: 0 hands over to 2, which is elected at once although 0 was active an instant ago;
0 gives up its lease before. -/
def leaseRun4 : List (Act (Fin 3)) :=
  leaseRun ++ [.transfer 0, .resign 0 true, .electStart 2 true, .electSend 2, .grantSelf 2,
    .voteGrant 1 3 2 (some (some 0, 2)), .becomeLeader 2 ⟨[0, 1, 2], [], by decide, by decide⟩ [(1, none), (2, none)]]

example : ∃ s : St (Fin 3), Reach (leasePar 3 true true true) s ∧ s.won = [(3, 2), (2, 0)] ∧
    s.clk 0 = 100 ∧ leaseStatus (leasePar 3 true true true) s 0 = none :=
  ⟨_, reach_of_run (.init (fun _ => 100)) (l := leaseRun4) (by decide +kernel), by decide +kernel, by decide +kernel,
    by decide +kernel⟩

/-- Without `strict` C26 fails (in the model and by node.cpp:605-608, 1681-1749): 1 stands for
term 2 but has not stored it yet; it answers a heartbeat of 0, the leader of term 2, and renews
0's lease; it restarts, finds term 1 and no vote, takes this for its first start, forgets the lease
and votes for 2, whose own lease has run out, in term 3. The lease of 0 is still valid. -/
def lostLease : List (Act (Fin 3)) :=
  .electStart 1 false :: leaseRun ++
   [.tick (fun _ => 112), .sendAE 0, .recvAE 1 2 0 112, .ackAE 1 2 0 112, .recvAck 0 1 112, .renew 0,
    .crash 1, .electStart 2 false, .electSend 2, .grantSelf 2, .voteGrant 1 3 2 none,
    .becomeLeader 2 ⟨[0, 1, 2], [], by decide, by decide⟩ [(1, none), (2, none)]]

theorem C26_lease_lost_at_first_start : ∃ s : St (Fin 3),
    Reach (leasePar 3 false true true) s ∧ leaseStatus (leasePar 3 false true true) s 0 = some 2 ∧
    (3, 2) ∈ s.won ∧ leads (s.nd 2) 3 = true :=
  ⟨_, reach_of_run (.init (fun _ => 100)) (l := lostLease) (by decide +kernel), by decide +kernel, by decide +kernel,
    by decide +kernel⟩

/-- Timeouts of 6 on a follower and on the leader, then 9 and 10 again; 1 is a witness. The lease is renewed and valid. -/
def retimeRun : List (Act (Fin 3)) :=
  .retime 2 6 :: leaseRun ++ [.retime 0 6, .tick (fun _ => 105), .sendAE 0, .recvAE 1 2 0 105, .ackAE 1 2 0 105, .recvAck 0 1 105,
    .retime 1 9, .retime 0 10, .tick (fun _ => 114), .renew 0]

example : ∃ s : St (Fin 3), Reach ⟨10, 1, true, true, true, 1, 10, fun i => i == 1, true⟩ s ∧
    leaseStatus ⟨10, 1, true, true, true, 1, 10, fun i => i == 1, true⟩ s 0 = some 2 ∧ s.clk 0 = 114 ∧
    (s.nd 2).fl.timeout = 6 ∧ (s.nd 2).fl.drift = 5 ∧ (s.nd 1).fl.timeout = 18 :=
  ⟨_, reach_of_run (.init (fun _ => 100)) (l := retimeRun) (by decide +kernel), by decide +kernel, by decide +kernel,
    by decide +kernel, by decide +kernel, by decide +kernel⟩

/-- C26, a finding: reset_election_timeout_ms(t) accepts every t up to election_timeout_ms + max_clock_drift_ms, but all that
exceeds election_timeout_ms is taken from the allowance for the clocks. Timeout 10 and drift 5 at first; 0 sets 15; the clocks of 1
and 2 are 5 ahead when 2 votes for 1, after 10 ms of the clock of 0: its lease is valid until 15. -/
def driftLost : List (Act (Fin 3)) :=
  .retime 0 15 :: leaseRun ++ [.recvAE 1 2 0 100, .tick (fun i => if i = 0 then 110 else 115), .electStart 1 false, .electSend 1,
    .voteGrant 2 3 1 none, .grantSelf 1, .becomeLeader 1 ⟨[0, 1, 2], [], by decide, by decide⟩ [(1, none), (2, none)]]

theorem reset_timeout_eats_clock_drift : ∃ s : St (Fin 3),
    Reach ⟨10, 5, true, true, true, 5, 15, fun _ => false, false⟩ s ∧
    leaseStatus ⟨10, 5, true, true, true, 5, 15, fun _ => false, false⟩ s 0 = some 2 ∧
    (3, 1) ∈ s.won ∧ leads (s.nd 1) 3 = true :=
  ⟨_, reach_of_run (.init (fun _ => 100)) (l := driftLost) (by decide +kernel), by decide +kernel, by decide +kernel,
    by decide +kernel⟩

/-! ### Membership changes -/

abbrev lc3 : Conf (Fin 4) := ⟨[0, 1, 2], [], by decide, by decide⟩
abbrev lc4 : Conf (Fin 4) := ⟨[0, 1, 2, 3], [], by decide, by decide⟩
abbrev lj : Conf (Fin 4) := ⟨[0, 3], [0, 1, 2], by decide, by decide⟩
abbrev lc2 : Conf (Fin 4) := ⟨[0, 3], [], by decide, by decide⟩

/-- 0 leads {0, 1, 2} since time 100 and adds 3 at time 108, which has answered an AppendEntries; the new configuration
commits with the answers of 1 and 3. -/
def growRun : List (Act (Fin 4)) :=
  [.electStart 0 false, .electSend 0, .voteGrant 2 2 0 none, .grantSelf 0,
   .becomeLeader 0 lc3 [(0, none), (2, none)], .sendAE 0, .recvAE 2 2 0 100, .ackAE 2 2 0 100,
   .recvAck 0 2 100, .commitFirst 0, .leaseStart 0 1,
   .tick (fun _ => 108), .startRepl 0 3, .sendAE 0, .recvAE 3 2 0 108, .ackAE 3 2 0 108, .recvAck 0 3 108, .changeConf 0 lc4,
   .recvAE 1 2 0 108, .ackAE 1 2 0 108, .recvAck 0 1 108, .commitConf 0, .tick (fun _ => 112)]

/-- The lease is renewed under the new configuration and valid. -/
example : ∃ s : St (Fin 4), Reach (leasePar 4 true true true) s ∧ (s.nd 0).cc = lc4 ∧ Mem (s.nd 0).cur 0 ∧
    (s.nd 0).ll.info true (s.clk 0) = .suspect ∧ leaseStatus (leasePar 4 true true true) s 0 = some 2 ∧ s.clk 0 = 112 :=
  ⟨_, reach_of_run (.init (fun _ => 100)) (l := growRun) (by decide +kernel), by decide +kernel, by decide +kernel, by decide +kernel,
    by decide +kernel, by decide +kernel⟩

/-- 0 leads {0, 1, 2} and changes to {0, 3} through the joint configuration. In the joint phase the lease needs quorums of both.
Later 3 is elected in {0, 3} with the vote of 0. -/
def jointRun : List (Act (Fin 4)) :=
  growRun.take 17 ++ [.changeConf 0 lj, .recvAE 1 2 0 108, .ackAE 1 2 0 108, .recvAck 0 1 108, .tick (fun _ => 111)]

example : ∃ s : St (Fin 4), Reach (leasePar 4 true true true) s ∧ (s.nd 0).cur = lj ∧ Mem (s.nd 0).cur 0 ∧
    (s.nd 0).ll.info true (s.clk 0) = .suspect ∧ leaseStatus (leasePar 4 true true true) s 0 = some 2 :=
  ⟨_, reach_of_run (.init (fun _ => 100)) (l := jointRun) (by decide +kernel), by decide +kernel, by decide +kernel, by decide +kernel,
    by decide +kernel⟩

def jointRun2 : List (Act (Fin 4)) :=
  jointRun ++ [.commitConf 0, .changeConf 0 lc2, .renew 0, .tick (fun _ => 119), .electStart 3 false, .electSend 3,
    .grantSelf 3, .voteGrant 0 3 3 none, .becomeLeader 3 lc2 [(0, some 2), (3, none)]]

/-- The old leader voted, so it has stepped down and its lease is gone. -/
example : ∃ s : St (Fin 4), Reach (leasePar 4 true true true) s ∧ s.won = [(3, 3), (2, 0)] ∧
    leaseStatus (leasePar 4 true true true) s 0 = none :=
  ⟨_, reach_of_run (.init (fun _ => 100)) (l := jointRun2) (by decide +kernel), by decide +kernel, by decide +kernel⟩

/-- C26: with leases on, a follower looks for a new leader (`expired`, asked when its election timer fires) exactly from the moment
on at which it would also vote for others. -/
theorem C26_expired_iff_votable (f : Follower N) (now : Nat) (h : f.ts ≤ now) :
    f.expired now = true ↔ f.votable true now = 0 := by
  unfold Follower.expired Follower.votable
  simp only [Bool.not_true, Bool.false_eq_true, if_false, decide_eq_true_eq]
  split <;> omega

example : (⟨some 1, 100, 10, 1⟩ : Follower Nat).expired 110 = false ∧ (⟨some 1, 100, 10, 1⟩ : Follower Nat).votable true 110 = 1 ∧
    (⟨some 1, 100, 10, 1⟩ : Follower Nat).expired 111 = true ∧ (⟨some 1, 100, 10, 1⟩ : Follower Nat).votable true 111 = 0 := by decide

/-- C26, a finding (node.cpp:3624-3648): 0 leads {0, 1} and removes itself. While the configuration {1} is not committed 0 goes on
leading; `last_leader_active_timestamp` then finds no other peer it needs and returns the current time: its lease is valid
whenever it is asked. Meanwhile 1 has the entry and elects itself. -/
def removedLead : List (Act (Fin 2)) :=
  [.electStart 0 false, .electSend 0, .voteGrant 1 2 0 none, .grantSelf 0,
   .becomeLeader 0 ⟨[0, 1], [], by decide, by decide⟩ [(0, none), (1, none)], .sendAE 0, .recvAE 1 2 0 100, .ackAE 1 2 0 100,
   .recvAck 0 1 100, .commitFirst 0, .leaseStart 0 1, .changeConf 0 ⟨[1], [], by decide, by decide⟩, .sendAE 0, .recvAE 1 2 0 100,
   .tick (fun _ => 200), .electStart 1 false, .electSend 1, .grantSelf 1, .becomeLeader 1 ⟨[1], [], by decide, by decide⟩ [(1, none)],
   .tick (fun _ => 1000)]

theorem C26_lease_of_removed_leader : ∃ s : St (Fin 2),
    Reach (leasePar 2 true false true) s ∧ leaseStatus (leasePar 2 true false true) s 0 = some 2 ∧
    (3, 1) ∈ s.won ∧ leads (s.nd 1) 3 = true ∧ s.clk 0 = 1000 :=
  ⟨_, reach_of_run (.init (fun _ => 100)) (l := removedLead) (by decide +kernel), by decide +kernel, by decide +kernel,
    by decide +kernel, by decide +kernel⟩

abbrev lp4 : Conf (Fin 5) := ⟨[0, 1, 2, 3], [], by decide, by decide⟩
abbrev lp5 : Conf (Fin 5) := ⟨[0, 1, 2, 3, 4], [], by decide, by decide⟩

/-- C26, a finding (replicator.cpp:147, 868-930): 4 is added at time 110 after a snapshot has been installed on it; it has answered
no AppendEntries, and installing a snapshot does not renew its follower lease, but the time its replicator was started
counts as its last contact. 1, whose `vote` is called, has the entry and is elected with the votes of 2, 3
and 4: 2 was last in contact at 100, 3 and 4 never. The lease of 0 is valid until 120. -/
def newPeer : List (Act (Fin 5)) :=
  [.electStart 0 false, .electSend 0, .voteGrant 1 2 0 none, .voteGrant 2 2 0 none, .grantSelf 0,
   .becomeLeader 0 lp4 [(0, none), (1, none), (2, none)], .sendAE 0, .recvAE 1 2 0 100, .ackAE 1 2 0 100, .recvAck 0 1 100,
   .recvAE 2 2 0 100, .ackAE 2 2 0 100, .recvAck 0 2 100, .commitFirst 0, .leaseStart 0 1,
   .tick (fun _ => 110), .startRepl 0 4, .changeConf 0 lp5, .sendAE 0, .recvAE 1 2 0 110, .ackAE 1 2 0 110, .recvAck 0 1 110,
   .tick (fun _ => 111), .electStart 1 false, .electSend 1, .voteGrant 2 3 1 none, .voteGrant 3 3 1 none, .voteGrant 4 3 1 none,
   .becomeLeader 1 lp5 [(2, none), (3, none), (4, none)]]

theorem C26_lease_of_new_peer : ∃ s : St (Fin 5),
    Reach (leasePar 5 true true false) s ∧ Mem (s.nd 0).cur 0 ∧ leaseStatus (leasePar 5 true true false) s 0 = some 2 ∧
    (3, 1) ∈ s.won ∧ leads (s.nd 1) 3 = true :=
  ⟨_, reach_of_run (.init (fun _ => 100)) (l := newPeer) (by decide +kernel), by decide +kernel, by decide +kernel,
    by decide +kernel, by decide +kernel⟩

end Braft.Props
