import Verif.Props.Members
import Verif.Props.Replicator
/-
The followers in the answer of NodeImpl::get_status (node.cpp:2837-2896), ReplicatorGroup::list_replicators
(replicator.cpp:1574-1582), Replicator::get_status and _get_status (replicator.cpp:1313-1323, 1335-1345), PeerStatus and
NodeStatus (raft.h:359-430).

* std::map is a function; insert does not change an entry that is there.
* Of NodeStatus: peer_id, leader_id and the two maps; the other fields are in Cluster/Status.lean. Of PeerStatus: all but
  readonly_index, the time of the last call and the number of errors.
* The node is the one of Node/ConfCtx.lean (configurations and the keys of ReplicatorGroup), a replicator the one of
  Repl/Replicator.lean. Each replicator is looked at later than the node, at a time of its own; `alive` is false when its id
  cannot be locked any more.
-/
set_option linter.unusedVariables false
set_option linter.unusedSectionVars false

namespace Braft.Foll
open Braft.ConfCtx

/-- PeerStatus (raft.h:359-374). -/
structure PeerStatus where
  valid : Bool
  installing : Bool
  blocking : Bool
  nextIndex : Nat
  flying : Nat
deriving DecidableEq, Repr

/-- PeerStatus::PeerStatus (raft.h:360-364). -/
def PeerStatus.blank : PeerStatus := ⟨false, false, false, 0, 0⟩

abbrev PMap (P : Type) := P → Option PeerStatus

/-- NodeStatus (raft.h:377-430): what it says of peers. -/
structure NodeStatus (P : Type) where
  leader : Option P
  stable : PMap P
  unstable : PMap P

/-- NodeStatus::NodeStatus (raft.h:380-384). -/
def NodeStatus.fresh {P : Type} : NodeStatus P := ⟨none, fun _ => none, fun _ => none⟩

variable {P : Type} [DecidableEq P]

/-- std::map::insert. -/
def PMap.ins (m : PMap P) (p : P) : PMap P := fun q => if q = p then some ((m q).getD .blank) else m q

/-- `it->second = v`. -/
def PMap.put (m : PMap P) (p : P) (v : PeerStatus) : PMap P := fun q => if q = p then some v else m q

/-- Replicator::get_status (replicator.cpp:1313-1323, 1335-1345): what becomes of the entry `v`. -/
def peerStatus (r : Repl.State) (v : PeerStatus) : PeerStatus :=
  if r.alive then
    { valid := true, installing := decide (r.st = .installing), blocking := decide (r.st = .blocking), nextIndex := r.next,
      flying := r.flying }
  else v

/-- The loop over the peers of the configuration (node.cpp:2878-2883). -/
def addPeers (self : P) (m : PMap P) : List P → PMap P
  | [] => m
  | p :: r => addPeers self (if p = self then m else m.ins p) r

/-- The loop over the replicators (node.cpp:2885-2895). -/
def addRepls (rep : P → Repl.State) (st : NodeStatus P) : List P → NodeStatus P
  | [] => st
  | p :: r => addRepls rep (match st.stable p with
      | some v => { st with stable := st.stable.put p (peerStatus (rep p) v) }
      | none => { st with unstable := (st.unstable.ins p).put p (peerStatus (rep p) (((st.unstable p).getD .blank))) }) r

/-- get_status (node.cpp:2842-2858, 2874-2895) of a node `s`. `lead`: _leader_id; `rep p`: the replicator of `p` when it is asked;
`st`: the argument as the caller passed it. -/
def getStatus (s : State P) (lead : Option P) (rep : P → Repl.State) (st : NodeStatus P) : NodeStatus P :=
  let st := { st with leader := match s.role with
    | .leader => some s.self
    | .transferring => some s.self
    | .follower => lead
    | _ => st.leader }
  if s.repl.isEmpty then st else addRepls rep { st with stable := addPeers s.self st.stable s.conf } s.repl

/-! ### Lemmas -/

theorem addPeers_eq (self : P) (l : List P) (m : PMap P) (q : P) :
    addPeers self m l q = if q ∈ l ∧ q ≠ self then some ((m q).getD .blank) else m q := by
  induction l generalizing m with
  | nil => simp [addPeers]
  | cons p r ih =>
    rw [addPeers, ih]
    by_cases h1 : p = self
    · rw [if_pos h1]
      by_cases h2 : q = p
      · subst h2; simp [h1]
      · simp [h2]
    · rw [if_neg h1]
      by_cases h2 : q = p
      · subst h2
        by_cases h3 : q ∈ r <;> simp [PMap.ins, h1, h3]
      · simp [PMap.ins, h2]

theorem peerStatus_twice (r : Repl.State) (v : PeerStatus) : peerStatus r (peerStatus r v) = peerStatus r v := by
  unfold peerStatus
  split <;> rfl

/-- What the loop over the replicators leaves: nothing changes for peers without a replicator. -/
theorem addRepls_eq (rep : P → Repl.State) (l : List P) (st : NodeStatus P) (q : P) :
    (addRepls rep st l).leader = st.leader ∧
    (addRepls rep st l).stable q = (if q ∈ l then (st.stable q).map (peerStatus (rep q)) else st.stable q) ∧
    (addRepls rep st l).unstable q = (if q ∈ l ∧ st.stable q = none then
      some (peerStatus (rep q) ((st.unstable q).getD .blank)) else st.unstable q) := by
  induction l generalizing st with
  | nil => simp [addRepls]
  | cons p r ih =>
    rw [addRepls]
    cases hs : st.stable p with
    | some v =>
      dsimp only
      obtain ⟨h1, h2, h3⟩ := ih { st with stable := st.stable.put p (peerStatus (rep p) v) }
      refine ⟨h1, h2.trans ?_, h3.trans ?_⟩
      · by_cases hq : q = p
        · subst hq; by_cases h : q ∈ r <;> simp [PMap.put, hs, h, peerStatus_twice]
        · simp [PMap.put, hq]
      · by_cases hq : q = p
        · subst hq; simp [PMap.put, hs]
        · simp [PMap.put, hq]
    | none =>
      dsimp only
      obtain ⟨h1, h2, h3⟩ := ih { st with unstable := (st.unstable.ins p).put p (peerStatus (rep p) ((st.unstable p).getD .blank)) }
      refine ⟨h1, h2.trans ?_, h3.trans ?_⟩
      · by_cases hq : q = p
        · subst hq; simp [hs]
        · simp [hq]
      · by_cases hq : q = p
        · subst hq; by_cases h : q ∈ r <;> simp [PMap.put, hs, h, peerStatus_twice]
        · simp [PMap.put, PMap.ins, hq]

end Braft.Foll
