import Verif.LeaseSafe
import Verif.Raft.StepsD
/-
The timed lease model (Verif/LeaseNet.lean) and the Raft model (Verif/Raft/Model.lean) together: one node has the
clocks, leases and timers of the one and the log, queue and commit index of the other, and every event of node.cpp that concerns
both is one action of both. It removes what LeaseNet abstracts from: who may win an election and with which configuration,
which configuration entry a leader has committed, what an answered AppendEntries covered.

Simplifications: those of the two models. The Raft side runs under the environment assumptions `norm`
(all of `Raft.Params`). Meta data writes do not fail.
-/
set_option linter.unusedVariables false
set_option linter.unusedSimpArgs false
set_option linter.unusedSectionVars false

namespace Braft.LeaseRaft
open Braft

/-- All environment assumptions of the Raft model hold. -/
abbrev norm : Raft.Params := ⟨true, true, true, true, true⟩

/-- AppendEntriesRequest (raft.proto) with the time `at_` at which `x` sent it. -/
structure AeR (N D : Type) where
  t : Nat
  prev : Nat
  pt : Nat
  es : List (Raft.Entry N D)
  c : Nat
  x : N
  at_ : Nat
deriving DecidableEq

/-- `aes`: the AppendEntries requests sent, with both their timed and their logged part. `recs` (ghost): which of them a
node has handled. -/
structure J (N D : Type) where
  r : Raft.Sys N D
  l : LeaseNet.St N
  aes : List (AeR N D)
  recs : List (AeR N D × N)

inductive Act (N D : Type) where
  | lease (a : LeaseNet.Act N)
  | raft (a : Raft.Act N D)
  | raise (i : N) (t : Nat)
  | resign (i : N) (wake : Bool)
  | electStart (i : N) (stepped : Bool)
  | electSend (i : N) (o : Raft.Log N D)
  | electCrash (i : N) (o : Raft.Log N D)
  | becomeLeader (i : N) (q : List (N × Option Nat))
  | voteGrant (i : N) (f : Raft.VFrame N) (d : Option (Option N × Nat))
  | voteReject (i : N) (f : Raft.VFrame N)
  | voteAgain (i : N) (t : Nat) (c : N) (d : Option (Option N × Nat))
  | changeConf (i : N) (c : Raft.Conf N)
  | sendAE (i : N) (prev cnt commit : Nat)
  | recvAE (i : N) (a : AeR N D) (gone : Bool)
  | commit (i : N) (k : Nat) (q : List N)
  | crash (i : N)
  | recvIS (i : N) (t : Nat) (K : Raft.Log N D) (x : N)

section Model
variable {N D : Type} [DecidableEq N] [DecidableEq D]

/-- Events that only the timed model describes: time, leases, the leader id, answers and replicators, leadership transfer. -/
def leaseLocal : LeaseNet.Act N → Bool
  | .tick _ | .setLeader _ _ | .grantSelf _ | .grantSelfByLeader _ _ _ | .retry _ _ _ | .voteExpire _ _ _ _ _ | .ackAE _ _ _ _
  | .recvAck _ _ _ | .startRepl _ _ | .leaseStart _ _ | .renew _ | .transfer _ | .transferTimeout _ | .retime _ _
  | .retime2 _ _ _ => true
  | _ => false

/-- Events that only the Raft model describes: the first half of a vote handler, entries proposed, the disk queue, applying,
snapshots. -/
def raftLocal : Raft.Act N D → Bool
  | .voteBegin _ _ _ _ | .voteDrop _ _ | .propose _ _ | .disk _ | .apply _ | .saveSnap _ _ | .sendIS _ | .copied _ | .loaded _
  | .dlDrop _ => true
  | _ => false

/-- node.cpp:324-345: a restarting node whose stored term is behind its log takes a higher one. (The follower lease of a node
that does so is not the one of a first start, 605-608; the model allows it to be.) -/
def behind (j : J N D) (i : N) : List (LeaseNet.Act N) :=
  if (j.r.node i).pterm < (Raft.restart (j.r.node i)).term then [.raise i (Raft.restart (j.r.node i)).term] else []

/-- ballot_box.cpp:60-117, node.cpp:94-105: what a commit index means to the leader's configurations: the first entry of
its leadership is committed; the configuration entry it is waiting for is committed. -/
def commitActs (j : J N D) (i : N) (k : Nat) : List (LeaseNet.Act N) :=
  if (j.l.nd i).ready = false then [.commitFirst i]
  else if (j.l.nd i).cu ≠ none ∧ Raft.lastConfIdx (j.r.node i).log ≤ k then [.commitConf i]
  else []

/-- node.cpp:1897-1920, 2641-2650: an InstallSnapshot request makes the node a follower of its sender. -/
def isActs (j : J N D) (i : N) (t : Nat) (x : N) : List (LeaseNet.Act N) :=
  (if (j.l.nd i).term < t then [.raise i t] else if (j.l.nd i).role ≠ .follower then [.resign i false] else []) ++
    [.setLeader i (some x)]

/-- The part of an event that concerns the log and the votes. -/
def raftOf (j : J N D) : Act N D → Option (Raft.Act N D)
  | .lease _ => none
  | .raft a => some a
  | .raise i t => some (.raiseTerm i t true)
  | .resign i _ => some (.raiseTerm i (j.r.node i).term true)
  | .electStart i _ => some (.electStart i)
  | .electSend i o => some (.electSend i o)
  | .electCrash i o => some (.electCrash i o)
  | .becomeLeader i q => some (.becomeLeader i (q.map Prod.fst))
  | .voteGrant i f _ => some (.voteEnd i f true true)
  | .voteReject i f => some (.voteEnd i f true true)
  | .voteAgain i t c _ => some (.voteAgain i t c)
  | .changeConf i c => some (.changeConf i c)
  | .sendAE i prev cnt c => some (.sendAE i prev cnt c)
  | .recvAE i a gone => some (.recvAE i a.t a.prev a.pt a.es a.c true gone)
  | .commit i k q => some (.commit i k q)
  | .crash i => some (.crash i)
  | .recvIS i t K _ => some (.recvIS i t K true)

/-- The part of an event that concerns terms, leases and configurations. -/
def leaseOf (j : J N D) : Act N D → List (LeaseNet.Act N)
  | .lease a => [a]
  | .raft _ => []
  | .raise i t => [.raise i t]
  | .resign i w => [.resign i w]
  | .electStart i b => [.electStart i b]
  | .electSend i _ => [.electSend i]
  | .electCrash i _ => .electCrash i :: behind j i
  | .becomeLeader i q => [.becomeLeader i (j.r.node i).bconf q]
  | .voteGrant i f d => [.voteGrant i f.reqTerm f.cand d]
  | .voteReject i f => if (j.r.node i).term < f.reqTerm then [.raise i f.reqTerm] else []
  | .voteAgain i t c d => [.voteAgain i t c d]
  | .changeConf i c => [.changeConf i c]
  | .sendAE i _ _ _ => [.sendAE i]
  | .recvAE i a _ => [.recvAE i a.t a.x a.at_]
  | .commit i k _ => commitActs j i k
  | .crash i => .crash i :: behind j i
  | .recvIS i t _ x => isActs j i t x

/-- What the two models cannot know of each other. -/
def more (P : LeaseNet.Params N) (c0 : Raft.Conf N) (j : J N D) : Act N D → Prop
  -- fsm_caller.cpp:263-319, node.cpp:94-105: the first lease of a leadership is started by the closure of its first
  -- entry, which runs when the entry is applied; 1173-1187 restarts it later
  | .lease a => leaseLocal a = true ∧ LeaseNet.pre P j.l a ∧
      match a with
      | .leaseStart i _ => Raft.lastTerm ((j.r.node i).log.take (j.r.node i).applied) = (j.r.node i).term
      | _ => True
  | .raft a => raftLocal a = true
  | .raise i t => (j.r.node i).term < t
  | .resign i w => LeaseNet.pre P j.l (.resign i w)
  | .electStart i b => LeaseNet.pre P j.l (.electStart i b)
  | .electSend _ _ => True
  | .electCrash _ _ => True
  | .becomeLeader i q => ∀ v ∈ q, if v.1 = i then (j.l.nd i).self = true
      else LeaseNet.Msg.vr (j.l.nd i).term v.1 i v.2 ∈ j.l.msgs
  | .voteGrant i f d => (Raft.voteFinish (j.r.node i) f true true).2 = true ∧
      LeaseNet.Msg.rv f.reqTerm f.cand d ∈ j.l.msgs ∧ (j.l.nd i).fl.votable true (j.l.clk i) = 0
  | .voteReject i f => (Raft.voteFinish (j.r.node i) f true true).2 = false
  | .voteAgain i t c d => LeaseNet.Msg.rv t c d ∈ j.l.msgs
  -- node.cpp:820-853, 3202-3236: a peer that is added has caught up
  | .changeConf i c => P.probe = true → ∀ p ∈ c.peers,
      p ∈ (Raft.confOf c0 (j.r.node i).log).peers ∨ p ∈ (Raft.confOf c0 (j.r.node i).log).old ∨ p = i ∨
        p ∈ (j.l.nd i).acked
  | .sendAE _ _ _ _ => True
  | .recvAE i a _ => a ∈ j.aes ∧ a.x ≠ i ∧ (P.strict = true → (j.l.nd i).term = a.t → (j.l.nd i).pterm = a.t)
  | .commit _ _ _ => True
  | .crash _ => True
  | .recvIS _ _ _ _ => True

/-- When is an event possible? -/
def pre (P : LeaseNet.Params N) (c0 : Raft.Conf N) (j : J N D) (a : Act N D) : Prop :=
  (∀ ra, raftOf j a = some ra → Raft.pre norm c0 j.r ra) ∧ more P c0 j a

def raftEff (c0 : Raft.Conf N) (j : J N D) (a : Act N D) : Raft.Sys N D :=
  match raftOf j a with
  | none => j.r
  | some ra => Raft.eff c0 j.r ra

def eff (P : LeaseNet.Params N) (c0 : Raft.Conf N) (j : J N D) (a : Act N D) : J N D :=
  { r := raftEff c0 j a
    l := (leaseOf j a).foldl (LeaseNet.eff P) j.l
    aes := match a with
      | .sendAE i prev cnt c => ⟨(j.r.node i).term, prev, Raft.termAt (j.r.node i).log prev,
          ((j.r.node i).log.drop prev).take cnt, c, i, j.l.clk i⟩ :: j.aes
      | _ => j.aes
    recs := match a with
      | .recvAE i a _ => (a, i) :: j.recs
      | _ => j.recs }

def init (P : LeaseNet.Params N) (c0 : Raft.Conf N) (c : N → Nat) : J N D :=
  ⟨Raft.initSys c0, LeaseNet.init P c, [], []⟩

/-- Executions: fresh nodes with any clock values, then any number of possible events. -/
inductive Reach (P : LeaseNet.Params N) (c0 : Raft.Conf N) : J N D → Prop where
  | init (c : N → Nat) : Reach P c0 (init P c0 c)
  | step {j} (a : Act N D) : Reach P c0 j → pre P c0 j a → Reach P c0 (eff P c0 j a)

end Model
end Braft.LeaseRaft
