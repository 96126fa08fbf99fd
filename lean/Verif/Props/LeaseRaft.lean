import Verif.LeaseRaftSafe
import Verif.Raft.Exec
import Verif.Props.LeaseNet
/-
C26 and C75 on the joint model (Verif/LeaseRaft.lean): clocks, leases and timers together with logs, votes,
replication, commitment, snapshots and membership changes.

`j.r` is the Raft part of a state: `(j.r.node i).sm` is what the state machine of node `i` contains, `j.r.g.elections` lists the
elections won so far and `j.r.g.commits` the logs committed by a leader. `j.l` is the timed part. `P.Ok`: see Verif/Props/LeaseNet.lean.
-/
set_option linter.unusedVariables false
set_option linter.unusedSimpArgs false

namespace Braft.Props.LeaseReads
open Braft.LeaseRaft
open Braft.LeaseNet (Mem leaseStatus)

variable {N D : Type} [DecidableEq N] [DecidableEq D]

/-- What a valid lease says about its node. -/
theorem valid_facts {P : LeaseNet.Params N} {c0 : Raft.Conf N} {j : J N D} {i : N} {T : Nat}
    (hok : P.Ok) (hst : P.strict = true) (hmb : P.memb = true) (hpb : P.probe = true) (h : Reach P c0 j)
    (hm : Mem (Raft.confOf c0 (j.r.node i).log) i) (hv : leaseStatus P j.l i = some T) :
    (j.r.node i).role = .leader ∧ (j.r.node i).term = T ∧ (j.l.nd i).ready = true ∧
      Raft.lastTerm ((j.r.node i).log.take (j.r.node i).applied) = T ∧ ∀ e ∈ j.r.g.elections, e.term ≤ T := by
  obtain ⟨h1, h2, h3⟩ := reach_all hok hst hmb hpb h
  have hI := Raft.inv_reachable h1
  have hL := LeaseNet.inv_reach hok hst hmb hpb h2
  have hll : (j.l.nd i).ll.term ≠ 0 ∧ (j.l.nd i).ll.ts ≠ 0 ∧ T = (j.l.nd i).ll.term := by
    have key : ∀ {x}, (j.l.nd i).ll.info true (j.l.clk i) = x → (x = .valid ∨ x = .suspect) →
        (j.l.nd i).ll.term ≠ 0 ∧ (j.l.nd i).ll.ts ≠ 0 := by
      intro x hx hor
      unfold Lease.Leader.info at hx
      simp only [Bool.not_true, Bool.false_eq_true, if_false] at hx
      by_cases h4 : (j.l.nd i).ll.term = 0
      · rw [if_pos h4] at hx; subst hx; rcases hor with h | h <;> cases h
      by_cases h5 : (j.l.nd i).ll.ts = 0
      · rw [if_neg h4, if_pos h5] at hx; subst hx; rcases hor with h | h <;> cases h
      exact ⟨h4, h5⟩
    unfold leaseStatus at hv
    cases hi : (j.l.nd i).ll.info true (j.l.clk i) <;> rw [hi] at hv <;> simp only [] at hv <;> try cases hv
    · exact ⟨(key hi (Or.inl rfl)).1, (key hi (Or.inl rfl)).2, rfl⟩
    · split at hv
      · split at hv
        · injection hv with hv
          refine ⟨(key hi (Or.inr rfl)).1, (key hi (Or.inr rfl)).2, ?_⟩
          rw [← hv]
          show (LeaseNet.updF j.l.nd i _ i).ll.term = _
          rw [LeaseNet.updF_same]
          rfl
        · cases hv
      · cases hv
  obtain ⟨h4, h5, h6⟩ := hll
  have hr := ll_lead h3 hL h4
  have hT : (j.r.node i).term = T := by rw [h6, ((hL.n i).lr h4).2, (h3.nc i).term]
  have hrd := (hL.n i).rdy h4 h5
  have hap := h3.ap i h4 h5
  have hmem : Mem (j.l.nd i).cur i := by
    have hc := h3.lc i hr
    cases hu : (j.l.nd i).cu with
    | none =>
      rw [LeaseNet.cur_eq hu, (hc.rd hrd).2.2, take_confOf (hc.no hrd hu)]; exact hm
    | some c => rw [LeaseNet.cur_some hu, ← (hc.so hrd c hu).2.1]; exact hm
  obtain ⟨_, h7, _⟩ := C26_lease_net_partial hok hst hmb hpb h2 hmem hv
  exact ⟨hr, hT, hrd, by rw [hap, hT], fun e he => h7 _ _ ((h3.won _ _).mpr ⟨e, he, rfl, rfl⟩)⟩

/-- C26. If `get_leader_lease_status` of a node reports LEASE_VALID for a term `T`, that node is leader of term `T`, nobody
has won an election of a later term and nobody leads a later term: whatever elections, leadership transfers,
crashes, snapshots and membership changes, one peer at a time or through joint configurations, took place.
Partial: `hm`: the node is a member of its own latest configuration (else: `C26_lease_of_removed_leader`);
`strict`: a node handles no AppendEntries of its own term before it has stored that term (`C26_lease_lost_at_first_start`);
`probe`: a peer is added only after it has answered an AppendEntries (`C26_lease_of_new_peer`); and the environment
assumptions `norm` of the Raft model, without which braft has two leaders in a term (C01). -/
theorem C26_lease_excludes_newer_leader_partial {P : LeaseNet.Params N} {c0 : Raft.Conf N} {j : J N D} {i : N} {T : Nat}
    (hok : P.Ok) (hst : P.strict = true) (hmb : P.memb = true) (hpb : P.probe = true) (h : Reach P c0 j)
    (hm : Mem (Raft.confOf c0 (j.r.node i).log) i) (hv : leaseStatus P j.l i = some T) :
    (j.r.node i).role = .leader ∧ (j.r.node i).term = T ∧ (∀ e ∈ j.r.g.elections, e.term ≤ T) ∧
      ∀ k, (j.r.node k).role = .leader → (j.r.node k).term ≤ T := by
  obtain ⟨h1, h2, _, _, h5⟩ := valid_facts hok hst hmb hpb h hm hv
  refine ⟨h1, h2, h5, fun k hk => ?_⟩
  obtain ⟨hR, _, _⟩ := reach_all hok hst hmb hpb h
  obtain ⟨_, r, h6, _, h7, _⟩ := ((Raft.inv_reachable hR).n k).lead hk
  rw [← h7]; exact h5 r h6

/-- C75. Lease reads: a node whose lease is valid for term `T` has every entry that any leader ever committed,
and knows it is committed; its state machine contains every entry that was committed in an earlier term, and everything
that the state machine of a node still in an earlier term contains. (What was committed in its own term it has committed itself.)
Partial: the premises of C26. -/
theorem C75_lease_read_is_current_partial {P : LeaseNet.Params N} {c0 : Raft.Conf N} {j : J N D} {i : N} {T : Nat}
    (hok : P.Ok) (hst : P.strict = true) (hmb : P.memb = true) (hpb : P.probe = true) (h : Reach P c0 j)
    (hm : Mem (Raft.confOf c0 (j.r.node i).log) i) (hv : leaseStatus P j.l i = some T) :
    (∀ K ∈ j.r.g.commits, K <+: (j.r.node i).log.take (j.r.node i).commit) ∧
    (∀ K ∈ j.r.g.commits, Raft.lastTerm K < T → K <+: (j.r.node i).sm) ∧
    ∀ k, (j.r.node k).term < T → (j.r.node k).sm <+: (j.r.node i).sm := by
  obtain ⟨h1, h2, h3, h4, h5⟩ := valid_facts hok hst hmb hpb h hm hv
  obtain ⟨hR, _, hJ⟩ := reach_all hok hst hmb hpb h
  have hI := Raft.inv_reachable hR
  have hn := hI.n i
  have hc := hJ.lc i h1
  -- a committed log of an earlier term is part of a committed log that ends in term `T`
  have key : ∀ X : Raft.Log N D, ∀ u, Raft.Committed j.r.g u X → Raft.lastTerm X = T → ∀ K ∈ j.r.g.commits, Raft.lastTerm K < T → K <+: X := by
    intro X u hX hXT K hK hlt
    have hK' : Raft.Committed j.r.g (Raft.lastTerm K) K := Or.inr ⟨K, hK, Nat.le_refl _, List.prefix_refl _⟩
    rcases hI.g.comm_total hK' hX with h6 | h6
    · exact h6
    · have := hI.g.mono K (hI.g.com K hK).1 X h6
      omega
  have hsm : ∀ K ∈ j.r.g.commits, Raft.lastTerm K < T → K <+: (j.r.node i).sm := by
    intro K hK hlt
    rw [hn.smi]
    exact key _ _ hn.ac h4 K hK hlt
  refine ⟨fun K hK => ?_, hsm, fun k hk => ?_⟩
  · obtain ⟨r, hr, ho⟩ := hI.g.origin K (hI.g.com K hK).1
    have hle := h5 r hr
    rw [← ho.term] at hle
    by_cases heq : Raft.lastTerm K = T
    · have h6 := (hn.lead h1).1 K (hI.g.com K hK).1 (by rw [h2]; exact heq)
      have h7 := hc.cm K hK (by rw [h2]; exact heq)
      rw [Raft.prefix_take h6]
      exact List.take_prefix_take_left h7
    · exact key _ _ hn.cc (by rw [← h2]; exact (hc.rd h3).2.1) K hK (by omega)
  · have h6 := (hI.n k).ac
    rw [(hI.n k).smi]
    rcases h6 with h6 | ⟨K, h7, h8, h9⟩
    · rw [h6]; exact List.nil_prefix
    · exact h9.trans (hsm K h7 (by omega))

/-! ### Concrete runs -/

abbrev P4 : LeaseNet.Params (Fin 4) := leasePar 4 true true true

instance decMore {n : Nat} (P : LeaseNet.Params (Fin n)) (c0 : Raft.Conf (Fin n)) (j : J (Fin n) Nat) (a : Act (Fin n) Nat) :
    Decidable (more P c0 j a) := by
  cases a with
  | lease a => cases a <;> dsimp only [more] <;> infer_instance
  | _ => dsimp only [more] <;> infer_instance

def stepOk (c0 : Raft.Conf (Fin 4)) (j : J (Fin 4) Nat) (a : Act (Fin 4) Nat) : Bool :=
  (match raftOf j a with
    | none => true
    | some ra => Raft.preB norm c0 j.r ra) && decide (more P4 c0 j a)

def joinOk (c0 : Raft.Conf (Fin 4)) : J (Fin 4) Nat → List (Act (Fin 4) Nat) → Bool
  | _, [] => true
  | j, a :: l => stepOk c0 j a && joinOk c0 (eff P4 c0 j a) l

def joinSt (c0 : Raft.Conf (Fin 4)) (j : J (Fin 4) Nat) (l : List (Act (Fin 4) Nat)) : J (Fin 4) Nat := l.foldl (eff P4 c0) j

theorem reach_of_join {c0 : Raft.Conf (Fin 4)} : ∀ {j : J (Fin 4) Nat} {l : List (Act (Fin 4) Nat)}, Reach P4 c0 j →
    joinOk c0 j l = true → Reach P4 c0 (joinSt c0 j l)
  | j, [], h, _ => h
  | j, a :: l, h, hr => by
    unfold joinOk stepOk at hr
    rw [Bool.and_eq_true, Bool.and_eq_true, decide_eq_true_eq] at hr
    refine reach_of_join (l := l) (.step a h ⟨fun ra hra => ?_, hr.1.2⟩) hr.2
    have := hr.1.1
    rw [hra] at this
    exact Raft.preB_sound this

abbrev E (t : Nat) (c : Raft.Conf (Fin 4)) : Raft.Entry (Fin 4) Nat := ⟨t, .conf c⟩
abbrev V (t d : Nat) : Raft.Entry (Fin 4) Nat := ⟨t, .data d⟩

/-- 0 is elected in {0, 1, 2} at time 100, commits its first entry and the value 7 with the answer of 2 and starts its lease. -/
def readRun : List (Act (Fin 4) Nat) :=
  [.electStart 0 false, .electSend 0 [], .raft (.voteBegin 2 2 0 (0, 0)), .voteGrant 2 ⟨2, 0, (0, 0), 1, (0, 0)⟩ none,
   .lease (.grantSelf 0), .becomeLeader 0 [(0, none), (2, none)], .raft (.propose 0 [7]),
   .raft (.disk 0), .raft (.disk 0), .raft (.disk 0), .raft (.disk 0),
   .sendAE 0 0 2 0, .recvAE 2 ⟨2, 0, 0, [E 2 lc3, V 2 7], 0, 0, 100⟩ false, .raft (.disk 2), .raft (.disk 2), .raft (.disk 2),
   .lease (.ackAE 2 2 0 100), .lease (.recvAck 0 2 100), .commit 0 2 [0, 2], .raft (.apply 0), .lease (.leaseStart 0 1)]

/-- 3 is added at time 108, with the answers of 1 and 3; the lease is renewed at 112. -/
def growRead : List (Act (Fin 4) Nat) :=
  readRun ++ [.lease (.tick (fun _ => 108)), .lease (.startRepl 0 3), .sendAE 0 0 2 2,
    .recvAE 3 ⟨2, 0, 0, [E 2 lc3, V 2 7], 2, 0, 108⟩ false, .lease (.ackAE 3 2 0 108), .lease (.recvAck 0 3 108),
    .changeConf 0 lc4, .raft (.disk 0), .raft (.disk 0), .sendAE 0 0 3 2,
    .recvAE 1 ⟨2, 0, 0, [E 2 lc3, V 2 7, E 2 lc4], 2, 0, 108⟩ false, .raft (.disk 1), .raft (.disk 1), .raft (.disk 1), .raft (.disk 1),
    .recvAE 3 ⟨2, 0, 0, [E 2 lc3, V 2 7, E 2 lc4], 2, 0, 108⟩ false, .raft (.disk 3), .raft (.disk 3), .raft (.disk 3), .raft (.disk 3),
    .raft (.disk 3),
    .lease (.ackAE 1 2 0 108), .lease (.recvAck 0 1 108), .commit 0 3 [0, 1, 3], .lease (.tick (fun _ => 112))]

/-- The hypotheses of C26 and C75 are met by an initial lease, ... -/
example : ∃ j : J (Fin 4) Nat, Reach P4 lc3 j ∧ Mem (Raft.confOf lc3 (j.r.node 0).log) 0 ∧ leaseStatus P4 j.l 0 = some 2 ∧
    j.r.g.commits = [[E 2 lc3, V 2 7]] ∧ (j.r.node 0).sm = [E 2 lc3] :=
  ⟨_, reach_of_join (.init (fun _ => 100)) (l := readRun) (by decide +kernel), by decide +kernel, by decide +kernel, by decide +kernel,
    by decide +kernel⟩

/-- ... and by a lease renewed after a membership change. -/
example : ∃ j : J (Fin 4) Nat, Reach P4 lc3 j ∧ Raft.confOf lc3 (j.r.node 0).log = lc4 ∧ Mem (Raft.confOf lc3 (j.r.node 0).log) 0 ∧
    (j.l.nd 0).ll.info true (j.l.clk 0) = .suspect ∧ leaseStatus P4 j.l 0 = some 2 ∧
    j.r.g.commits = [[E 2 lc3, V 2 7, E 2 lc4], [E 2 lc3, V 2 7]] :=
  ⟨_, reach_of_join (.init (fun _ => 100)) (l := growRead) (by decide +kernel), by decide +kernel, by decide +kernel, by decide +kernel,
    by decide +kernel, by decide +kernel⟩

/-- At time 120 the lease of 0 is over. 1 is elected in term 3 with the votes of 2 and 3, commits with 2 and 3 and starts its
lease: its state machine has what 0 has applied, although 0 still takes itself for the leader. -/
def nextRead : List (Act (Fin 4) Nat) :=
  growRead ++ [.lease (.tick (fun _ => 120)), .electStart 1 false, .electSend 1 [E 2 lc3, V 2 7, E 2 lc4],
    .raft (.voteBegin 2 3 1 (2, 3)), .voteGrant 2 ⟨3, 1, (2, 3), 2, (2, 2)⟩ none,
    .raft (.voteBegin 3 3 1 (2, 3)), .voteGrant 3 ⟨3, 1, (2, 3), 2, (2, 3)⟩ none,
    .lease (.grantSelf 1), .becomeLeader 1 [(1, none), (2, none), (3, none)], .raft (.disk 1), .raft (.disk 1), .sendAE 1 2 2 2,
    .recvAE 2 ⟨3, 2, 2, [E 2 lc4, E 3 lc4], 2, 1, 120⟩ false, .raft (.disk 2), .raft (.disk 2), .raft (.disk 2),
    .recvAE 3 ⟨3, 2, 2, [E 2 lc4, E 3 lc4], 2, 1, 120⟩ false, .raft (.disk 3), .raft (.disk 3),
    .lease (.ackAE 2 3 1 120), .lease (.recvAck 1 2 120), .lease (.ackAE 3 3 1 120), .lease (.recvAck 1 3 120),
    .commit 1 4 [1, 2, 3], .raft (.apply 1), .raft (.apply 1), .raft (.apply 1), .raft (.apply 1), .lease (.leaseStart 1 1)]

example : ∃ j : J (Fin 4) Nat, Reach P4 lc3 j ∧ Mem (Raft.confOf lc3 (j.r.node 1).log) 1 ∧ leaseStatus P4 j.l 1 = some 3 ∧
    (j.r.node 0).role = .leader ∧ (j.r.node 0).term = 2 ∧ leaseStatus P4 j.l 0 = none ∧ (j.r.node 0).sm = [E 2 lc3] ∧
    (j.r.node 1).sm = [E 2 lc3, V 2 7, E 2 lc4, E 3 lc4] :=
  ⟨_, reach_of_join (.init (fun _ => 100)) (l := nextRead) (by decide +kernel), by decide +kernel, by decide +kernel, by decide +kernel,
    by decide +kernel, by decide +kernel, by decide +kernel, by decide +kernel⟩

end Braft.Props.LeaseReads
