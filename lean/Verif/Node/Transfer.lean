import Verif.Repl.Replicator
/-
Model of leadership transfer: NodeImpl::transfer_leadership_to (node.cpp:1189-1272), handle_transfer_timeout (node.cpp:1174-1187),
ReplicatorGroup::transfer_leadership_to (replicator.cpp:1483-1495), stop_transfer_leadership (replicator.cpp:1497-1504),
find_the_next_candidate (replicator.cpp:1529-1563) and stop_all_and_find_the_next_candidate (replicator.cpp:1506-1527).

* `P` stands for PeerId; `wit` says whether a PeerId has the role of a witness.
* `Group`: the node in one term of leadership together with the replicator of one peer `p` (Repl/Replicator.lean; every peer
  has its own, and they share nothing but the log of the leader). A critical section of the node is one step; a step of the
  replicator is one step.
* The timer of a transfer may fire late: after the node has stepped down, also when it was deleted too late (node.cpp:1863-1873).
  Timers of transfers of earlier terms may still be there.
-/
set_option linter.unusedVariables false

namespace Braft.Transfer
open Braft.Repl

/-- What the group knows of a replicator: is it alive, get_next_index (0 if the peer has not answered success yet),
get_consecutive_error_times. -/
structure Info (P : Type) where
  peer : P
  alive : Bool
  next : Nat
  errs : Nat

/-- ConfigurationEntry::contains (configuration_manager.h:38-39): in the new or in the old configuration. -/
structure Conf (P : Type) where
  conf : List P
  old : List P

def Conf.has {P : Type} [DecidableEq P] (c : Conf P) (p : P) : Bool := decide (p ∈ c.conf) || decide (p ∈ c.old)

/-- get_next_index (replicator.cpp:1193-1205): 0 if the replicator has been destroyed. -/
def Info.nextIndex {P : Type} (i : Info P) : Nat := if i.alive then i.next else 0

/-- The loop of find_the_next_candidate (replicator.cpp:1545-1558) over the shuffled peers; `best`: the peer chosen so far and
max_index. -/
def findLoop {P : Type} [DecidableEq P] (wit : P → Bool) (c : Conf P) : List (Info P) → Option P × Nat → Option P × Nat
  | [], best => best
  | i :: r, best =>
    if !c.has i.peer then findLoop wit c r best
    else if i.alive ∧ i.errs = 0 ∧ best.2 < i.nextIndex ∧ !wit i.peer then findLoop wit c r (some i.peer, i.nextIndex)
    else findLoop wit c r best

/-- find_the_next_candidate (replicator.cpp:1529-1563). `reps` is already shuffled. -/
def findNext {P : Type} [DecidableEq P] (wit : P → Bool) (c : Conf P) (reps : List (Info P)) : Option P :=
  let b := findLoop wit c reps (none, 0)
  if b.2 = 0 then none else b.1

/-- ReplicatorGroup::transfer_leadership_to (replicator.cpp:1483-1495) up to the call of Replicator::transfer_leadership,
which fails with EINVAL if the replicator has been destroyed. -/
inductive Code | ok | ebusy | eperm | einval | ehostunreach | fail
deriving DecidableEq, Repr

def groupCode {P : Type} [DecidableEq P] (reps : List (Info P)) (p : P) : Code :=
  match reps.find? (fun i => decide (i.peer = p)) with
  | none => .einval
  | some i => if !i.alive then .einval else if 0 < i.errs then .ehostunreach else .ok

/-- The states of the node that matter: STATE_LEADER, STATE_TRANSFERRING, any other. -/
inductive Role | leader | transferring | other
deriving DecidableEq, Repr

/-- transfer_leadership_to (node.cpp:1189-1252): the code returned and the peer to which the leadership is being transferred.
`any`: ANY_PEER. (The shuffled order is what `reps` has.) -/
def transferTo {P : Type} [DecidableEq P] (wit : P → Bool) (any self : P) (role : Role) (busy : Bool) (c : Conf P)
    (reps : List (Info P)) (peer : P) : Code × Option P :=
  match role with
  | .transferring => (.ebusy, none)
  | .other => (.eperm, none)
  | .leader =>
    if busy then (.ebusy, none)
    else
      let target := if peer = any then findNext wit c reps else some peer
      match target with
      | none => (.fail, none)
      | some q =>
        if q = self then (.ok, none)
        else if !c.has q then (.einval, none)
        else if groupCode reps q = .ok then (.ok, some q) else (groupCode reps q, none)

/-- The node in one term, with the replicator of the peer `p`. -/
structure Group (P : Type) where
  role : Role
  /-- _conf_ctx.is_busy(). -/
  busy : Bool
  /-- Transfer timers that have not fired: the term and the peer. -/
  timers : List (Nat × P)
  r : State
  /-- Ghost: the peer of the transfer that is going on. -/
  target : Option P
  /-- Ghost: how transfers went: started to a peer; ended by the timer of a transfer to that peer; ended by step_down. -/
  log : List (Bool × P)

/-- The node becomes leader in term `T`: `r` has just been started, timers are of earlier terms; the configuration context
waits for the first entry (node.cpp:1932-1984). -/
def Group.init {P : Type} (T : Nat) (timers : List (Nat × P)) (r : State) : Group P :=
  ⟨.leader, true, timers.filter (fun x => decide (x.1 ≠ T)), r, none, []⟩

section
variable {P : Type} [DecidableEq P] (wit : P → Bool) (any self p : P) (T : Nat)

/-- transfer_leadership_to (node.cpp:1189-1272), with the peers `reps` in the order of the shuffle. If the timer cannot be
added the timeout is handled at once; that is the same as a timer that fires at once. -/
def Group.transferTo (g : Group P) (c : Conf P) (reps : List (Info P)) (peer : P) : Group P :=
  match (Transfer.transferTo wit any self g.role g.busy c reps peer).2 with
  | none => g
  | some q =>
    { g with role := .transferring, timers := (T, q) :: g.timers, r := if q = p then g.r.transfer else g.r,
             target := some q, log := g.log ++ [(true, q)] }

/-- handle_transfer_timeout (node.cpp:1174-1187). -/
def Group.timeout (g : Group P) (x : Nat × P) : Group P :=
  let g0 : Group P := { g with timers := g.timers.erase x }
  if x.1 = T then
    let g1 : Group P := if x.2 = p ∧ g.role ≠ .other then { g0 with r := g0.r.stopTransfer } else g0
    if g.role = .transferring then { g1 with role := .leader, target := none, log := g1.log ++ [(false, x.2)] } else g1
  else g0

/-- apply (node.cpp:2024-2079) and configuration entries (node.cpp:855-875, 3202-3361): only in STATE_LEADER; a configuration
change makes the context busy and its end makes it idle. -/
def Group.append (g : Group P) (k : Nat) (busy : Bool) : Group P :=
  if g.role = .leader then { g with r := g.r.append k, busy } else g

/-- step_down (node.cpp:1793-1875): the replicators are stopped; the timer may be deleted (`del`). -/
def Group.stepDown (g : Group P) (del : Bool) : Group P :=
  { g with role := .other, busy := false, r := g.r.stop, timers := if del then g.timers.filter (fun x => decide (x.1 ≠ T)) else g.timers,
           target := none }

end

/-- One step of the node or of the replicator of `p`. `own`: a step of the replicator itself, as in Repl/Replicator.lean,
except for those that belong to the node. -/
inductive GStep {P : Type} [DecidableEq P] (wit : P → Bool) (any self p : P) (T : Nat) (w : Bool) : Group P → Group P → Prop where
  | transferTo (g c reps peer) : GStep wit any self p T w g (g.transferTo wit any self p T c reps peer)
  | timeout (g x) (h : x ∈ g.timers) : GStep wit any self p T w g (g.timeout p T x)
  | append (g k busy) : GStep wit any self p T w g (g.append k busy)
  | stepDown (g del) : GStep wit any self p T w g (g.stepDown T del)
  | returned (g q r e) (h : q ∈ g.r.out) : GStep wit any self p T w g { g with r := g.r.returned T w q r e }
  | installed (g i ok e) (h : i ∈ g.r.installs) : GStep wit any self p T w g { g with r := g.r.installed w i ok e }
  | wake (g e) : GStep wit any self p T w g { g with r := g.r.wake w e }
  | unblock (g) : GStep wit any self p T w g { g with r := g.r.unblock }
  | resume (g io) : GStep wit any self p T w g { g with r := g.r.resume w io }
  | waitCaughtUp (g m) : GStep wit any self p T w g { g with r := g.r.waitCaughtUp m }
  | catchTimeout (g) : GStep wit any self p T w g { g with r := g.r.catchTimeout }
  | compact (g snap first) : GStep wit any self p T w g { g with r := g.r.compact snap first }

/-- All histories of the node in term `T` and of the replicator of `p`, from become_leader on or from a later start of the
replicator by a configuration change. -/
inductive GRun {P : Type} [DecidableEq P] (wit : P → Bool) (any self p : P) (T : Nat) (w : Bool) : Group P → Prop where
  | start (first last snap : Nat) (io : IOut) (timers : List (Nat × P)) (h : 0 < first) (h2 : first ≤ snap + 1) (h3 : snap ≤ last) :
      GRun wit any self p T w (Group.init T timers (State.start first last snap w io))
  | step {g g'} (h : GRun wit any self p T w g) (hs : GStep wit any self p T w g g') : GRun wit any self p T w g'

end Braft.Transfer
