import Verif.Cluster.LogNode
import Verif.Node.ConfCtx
/-
The cluster of servers (Verif/Cluster/Server.lean) with the ConfigurationCtx of every server (Verif/Node/ConfCtx.lean):
a configuration entry enters a log only when ConfigurationCtx calls unsafe_apply_configuration (node.cpp:2081-2107).
Left out: reset_peers, errors of the log manager, and states beyond STATE_FOLLOWER.
-/
set_option linter.unusedVariables false
set_option linter.unusedSimpArgs false
set_option linter.unusedSectionVars false

namespace Braft.CN
open Braft.Raft Braft.Cl

/-- The cluster; the membership part of every NodeImpl; and for every ConfigurationChangeDone that has not run
(`State.pend`) the index of its entry and, once the closure has left the queue of the ballot box, with which result
(node.cpp:94-125: fsm_caller.cpp:263-319 runs it without error after on_committed, ballot_box.cpp:98-107 clears it when
the leader steps down). -/
structure FSys (N D : Type) where
  cl : CSys N D
  cx : N → ConfCtx.State N
  fate : N → List (Nat × Option Bool)

inductive FAct (N D : Type) where
  /-- Any step of a server but a change of its configuration; `addOk`: become_leader's add_replicator succeeds. -/
  | srv (a : CAct N D) (addOk : N → Bool)
  /-- change_peers, add_peer, remove_peer (node.cpp:902-919). `addOk`: add_replicator succeeds. `ok`: the meta storage,
  if the leader steps down. -/
  | change (i : N) (newc : List N) (addOk : N → Bool) (ok : Bool)
  | addPeer (i x : N) (addOk : N → Bool) (ok : Bool)
  | removePeer (i x : N) (addOk : N → Bool) (ok : Bool)
  /-- OnCaughtUp (node.cpp:722-792). -/
  | caughtUp (i : N) (k : Nat) (c : ConfCtx.Caught) (ok : Bool)
  /-- ConfigurationChangeDone (node.cpp:94-125). -/
  | entryDone (i : N) (k : Nat) (ok : Bool)

section
variable {N D : Type} [DecidableEq N] [DecidableEq D]

/-- NodeImpl::State in both models. -/
def roleOfSt : St → ConfCtx.Role
  | .leader => .leader
  | .transferring => .transferring
  | .candidate => .candidate
  | .follower => .follower

/-- What a step that ends with the server `c'` does to a closure in the queue: it runs it if its entry is committed by
the leader; if the node does not lead any more it has cleared it (node.cpp:1816-1819). -/
def mark (c' : Srv N D) (q : Nat × Option Bool) : Nat × Option Bool :=
  match q.2 with
  | some _ => q
  | none =>
    if c'.state.leads then (if q.1 ≤ c'.bb.lastCommitted then (q.1, some true) else q)
    else (q.1, some false)

/-- What a step of the server does to the fields of ConfigurationCtx, by the outcome of the step: step_down
(node.cpp:1793-1878), elect_self (1680-1708), become_leader (1935-1975), transfer_leadership_to and
handle_transfer_timeout (1173-1262), or the configuration of a follower's log (2560-2573). -/
def cxLive (c0 : Conf N) (c c' : Srv N D) (addOk : N → Bool) (x : ConfCtx.State N) : ConfCtx.State N :=
  match c'.state with
  | .follower =>
    (if c.state ≠ .follower ∨ c.term < c'.term then x.stepDown c'.term else x).follow
      (confOf c0 c'.log).peers (confOf c0 c'.log).old
  | .candidate => if c.term < c'.term then x.elect else x
  | .leader =>
    if c.state = .leader then x
    else if c.state = .transferring then x.transferTimeout c.term
    else x.becomeLeader addOk true
  | .transferring => if c.state = .leader then x.transfer true else x

/-- The same, or a restart. -/
def cxSrv (p : CParams) (c0 : Conf N) (c c' : Srv N D) (a : CAct N D) (addOk : N → Bool) (x : ConfCtx.State N) :
    ConfCtx.State N :=
  if restarts p a.at c a then ConfCtx.State.init a.at c'.term (confOf c0 c'.log).peers (confOf c0 c'.log).old
  else cxLive c0 c c' addOk x

/-- The closures: those of a process that has ended are gone; a new leader has one for the entry it appends. -/
def fateSrv (p : CParams) (c c' : Srv N D) (a : CAct N D) (f : List (Nat × Option Bool)) : List (Nat × Option Bool) :=
  if restarts p a.at c a then []
  else (if c'.state.leads && !c.state.leads then f ++ [(c'.log.length, none)] else f).map (mark c')

/-- The configuration with these peers; a Configuration is a set. -/
def mkConf (peers old : List N) : Option (Conf N) :=
  if h : peers.Nodup ∧ old.Nodup then some ⟨peers, old, h.1, h.2⟩ else none

/-- Write the result of a call of ConfigurationCtx of server `i`: if it has submitted an entry, that enters the log
(node.cpp:2081-2107); if it has made the leader step down, the server does (3313-3321). -/
def put (p : CParams) (c0 : Conf N) (s : FSys N D) (i : N) (x' : ConfCtx.State N) (f : List (Nat × Option Bool))
    (ok : Bool) : Option (FSys N D) :=
  if (s.cx i).subs.length < x'.subs.length then
    match mkConf x'.conf x'.old with
    | none => none
    | some cf => (cstep p c0 s.cl (.changeConf i cf)).map fun cl' =>
        { cl := cl', cx := updF s.cx i x', fate := updF s.fate i (f ++ [((s.cl.node i).log.length + 1, none)]) }
  else if (s.cl.node i).state.leads && decide (x'.role = .follower) then
    (cstep p c0 s.cl (.stepDown i x'.term ok)).map fun cl' =>
      { cl := cl', cx := updF s.cx i x', fate := updF s.fate i (f.map (mark (cl'.node i))) }
  else some { cl := s.cl, cx := updF s.cx i x', fate := updF s.fate i f }

/-- What the server leaves to ConfigurationCtx, and what ConfigurationCtx forbids: transfer_leadership_to is refused
while a change is in progress (node.cpp:1204-1213). -/
def barred (s : FSys N D) : CAct N D → Bool
  | .changeConf _ _ => true
  | .transfer i => (s.cx i).busy
  | _ => false

/-- One step. -/
def fstep (p : CParams) (c0 : Conf N) (s : FSys N D) : FAct N D → Option (FSys N D)
  | .srv a addOk =>
    if barred s a then none
    else (cstep p c0 s.cl a).map fun cl' =>
      { cl := cl',
        cx := updF s.cx a.at (cxSrv p c0 (s.cl.node a.at) (cl'.node a.at) a addOk (s.cx a.at)),
        fate := updF s.fate a.at (fateSrv p (s.cl.node a.at) (cl'.node a.at) a (s.fate a.at)) }
  | .change i newc addOk ok =>
    if newc.Nodup then put p c0 s i ((s.cx i).change newc addOk true) (s.fate i) ok else none
  | .addPeer i x addOk ok => put p c0 s i ((s.cx i).addPeer x addOk true) (s.fate i) ok
  | .removePeer i x addOk ok => put p c0 s i ((s.cx i).removePeer x addOk true) (s.fate i) ok
  | .caughtUp i k c ok => put p c0 s i ((s.cx i).caughtUp k c true) (s.fate i) ok
  | .entryDone i k ok =>
    match (s.fate i)[k]? with
    | some (_, some b) => put p c0 s i ((s.cx i).entryDone k b true) ((s.fate i).eraseIdx k) ok
    | _ => none

/-- Fresh servers. -/
def finit (c0 : Conf N) : FSys N D where
  cl := initC
  cx := fun i => ConfCtx.State.init i 1 c0.peers c0.old
  fate := fun _ => []

/-- Executions. -/
inductive FReach (p : CParams) (c0 : Conf N) : FSys N D → Prop where
  | init : FReach p c0 (finit c0)
  | step {s s'} (a : FAct N D) : FReach p c0 s → fstep p c0 s a = some s' → FReach p c0 s'

/-- Executions from `s`. -/
inductive FSteps (p : CParams) (c0 : Conf N) (s : FSys N D) : FSys N D → Prop where
  | refl : FSteps p c0 s s
  | tail {s' s''} (a : FAct N D) : FSteps p c0 s s' → fstep p c0 s' a = some s'' → FSteps p c0 s s''

end
end Braft.CN
