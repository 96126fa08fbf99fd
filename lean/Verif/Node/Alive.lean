import Verif.Ballot
/-
Model of the step-down check of a leader: NodeImpl::handle_stepdown_timeout (node.cpp:825-841), check_dead_nodes
(node.cpp:794-823), check_witness (node.cpp:843-853) and the time of the last answered RPC of a peer
(replicator.h:223-230, replicator.cpp:147, 338, 441, 480, 1426-1432).

Times are monotonic_time_ms values of the leader. Simplifications: one term of leadership; other reasons to step down are one action
`quit`; the timer runs the check at any time (`check`).
-/
set_option linter.unusedVariables false

namespace Braft.Alive

section
variable {N : Type} [DecidableEq N]

/-- `_update_last_rpc_send_timestamp` (replicator.h:226-230). -/
def later (old new : Nat) : Nat := if new > old then new else old

/-- The alive_count of check_dead_nodes (node.cpp:797-812); `ts` is last_rpc_send_timestamp, `et` the election timeout. -/
def aliveCount (me : N) (ts : N → Nat) (et now : Nat) : List N → Nat
  | [] => 0
  | p :: l =>
    if p = me then aliveCount me ts et now l + 1
    else if now - ts p ≤ et then aliveCount me ts et now l + 1
    else aliveCount me ts et now l

/-- check_dead_nodes (node.cpp:794-823): does the node step down? -/
def dead (me : N) (ts : N → Nat) (et now : Nat) (peers : List N) : Bool :=
  !(decide (aliveCount me ts et now peers ≥ peers.length / 2 + 1))

structure St (N : Type) where
  now : Nat
  /-- STATE_LEADER or STATE_TRANSFERRING. -/
  leads : Bool
  conf : List N
  old : List N
  /-- _options.election_timeout_ms. -/
  et : Nat
  /-- ReplicatorGroup::last_rpc_send_timestamp: 0 without a replicator. -/
  ts : N → Nat
  /-- Ghost: contacts: the peer and the time when its replicator was started, or when an RPC was sent that it has answered. -/
  seen : List (N × Nat)
  /-- Ghost: the last check: its time, the configurations and the election timeout. -/
  last : Option (Nat × List N × List N × Nat)

def setTs (f : N → Nat) (p : N) (v : Nat) : N → Nat := fun q => if q = p then v else f q

inductive Act (N : Type) where
  | tick (t : Nat)
  | start (p : N)
  | stop (p : N)
  | answered (p : N) (sent : Nat)
  | setConf (conf old : List N)
  | retime (et : Nat)
  | check
  | quit

def pre (s : St N) : Act N → Prop
  | .tick t => s.now ≤ t
  | .answered p sent => sent ≤ s.now
  | _ => True

/-- handle_stepdown_timeout (node.cpp:825-841) on a node that is a witness or not. step_down (node.cpp:1793-1875) on a node that
has stepped down already changes nothing here. -/
def handleStepdown (me : N) (witness : Bool) (s : St N) : St N :=
  if s.leads = false then s
  else
    let l1 := if witness then false else s.leads
    let l2 := if dead me s.ts s.et s.now s.conf then false else l1
    let l3 := if s.old ≠ [] then (if dead me s.ts s.et s.now s.old then false else l2) else l2
    { s with leads := l3, last := some (s.now, s.conf, s.old, s.et) }

def eff (me : N) (witness : Bool) (s : St N) : Act N → St N
  | .tick t => { s with now := t }
  -- replicator.cpp:1372-1395, 147: a new status object
  | .start p => { s with ts := setTs s.ts p (later 0 s.now), seen := (p, s.now) :: s.seen }
  -- replicator.cpp:1434-1447
  | .stop p => { s with ts := setTs s.ts p 0 }
  -- replicator.cpp:338, 441, 480
  | .answered p sent => { s with ts := setTs s.ts p (later (s.ts p) sent), seen := (p, sent) :: s.seen }
  | .setConf conf old => { s with conf := conf, old := old }
  | .retime et => { s with et := et }
  | .check => handleStepdown me witness s
  | .quit => { s with leads := false }

/-- Histories of a node from become_leader on (node.cpp:1932-1984): no replicators yet. -/
inductive Run (me : N) (witness : Bool) : St N → Prop where
  | init (now et : Nat) (conf old : List N) : Run me witness ⟨now, true, conf, old, et, fun _ => 0, [], none⟩
  | step {s} (a : Act N) : Run me witness s → pre s a → Run me witness (eff me witness s a)

end
end Braft.Alive
