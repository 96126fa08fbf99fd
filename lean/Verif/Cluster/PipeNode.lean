import Verif.Cluster.LogNode
import Verif.Pipe
/-
The cluster of servers (Cluster/Server.lean) together with the life of a user's task in every server (Pipe.lean):
the queue of tasks behind apply(), the batches, the ballot box with its closure queue, and the thread that runs the
state machine.

Cluster/Server.lean has elections, replication and commits, but its log entries come from nowhere and entries are
applied one by one to a list. Pipe.lean has the tasks, closures and the state machine's thread of one node, but
elections, the entries of other leaders, acknowledgements and commit indexes come from outside. Here every server is
both: each handler of node.cpp makes the calls of ballot box, closure queue, log and FSMCaller that Pipe.lean models,
a batch of tasks is what makes a leader append entries, and the entries a server applies are the ones its FSMCaller
applies. The two sides are two views of the same members of NodeImpl (`_state`, `_current_term`, `_conf`, `_ballot_box`,
the log), they run in lockstep, and Cluster/PipeNode*.lean prove that they agree and that what Pipe.lean requires of
the outside holds in every execution of the cluster.

Simplifications, beyond those of both sides:
* the log manager reports no error to the node (`logErr`; a read error of the state machine's thread is possible);
* a snapshot that is being installed is loaded and put into the log manager in one step (snapshot_executor.cpp:247-288);
* after an error of the state machine's thread the server goes on in its other roles (the code ends up in
  STATE_ERROR soon after, node.cpp:1362-1366): more executions, not fewer.
-/
set_option linter.unusedVariables false
set_option linter.unusedSimpArgs false
set_option linter.unusedSectionVars false

namespace Braft.Cl
open Braft.Raft

/-- What Pipe.lean keeps of a server. -/
abbrev PN (N D C : Type) := Pipe.State N D C
abbrev POp (N D C : Type) := Pipe.Op N D C

structure PSys (N D C : Type) where
  cl : CSys N D
  pn : N → PN N D C

section Model
variable {N D C : Type} [DecidableEq N] [DecidableEq D]

/-- The type of an entry as FSMCaller sees it (log_entry.h:36-50, fsm_caller.cpp:282-300). -/
def kindOf : Payload N D → Fsm.Kind D
  | .data d => .data d
  | .conf c => .conf (oldOf c).isSome

def fent (e : Entry N D) : Fsm.Entry D := ⟨e.term, kindOf e.payload⟩

/-- The log as FSMCaller sees it. -/
def fents (l : Log N D) : List (Fsm.Entry D) := l.map fent

/-- `_state` as NodeImpl::apply looks at it (node.cpp:2032-2045). -/
def roleP : St → Readonly.Role
  | .leader => .leader
  | .transferring => .transferring
  | _ => .other

/-- A sequence of calls. -/
def runOps (x : PN N D C) (ops : List (POp N D C)) : PN N D C := ops.foldl Pipe.step x

/-- What the log manager answers to the state machine's thread (`bad`: the read of this index fails), and what the
state machine does in on_apply (`us`). -/
def envOf (log : List (Fsm.Entry D)) (us : Nat → List Fsm.UOp) (bad : Nat → Bool) : Fsm.Env D :=
  { log := fun i => if bad i then none else log[i - 1]?, term := fun i => (Pipe.entryAt log i).term, user := us }

/-- `_state`, `_current_term`, `_conf` after a handler. -/
def syncOp (c0 : Conf N) (x : PN N D C) (c : Srv N D) : POp N D C :=
  .env (roleP c.state) c.term x.n.nodeRo x.n.majRo (confOf c0 c.log).peers (confOf c0 c.log).old false

/-- step_down of a leader calls clear_pending_tasks (node.cpp:1808-1811). -/
def downOps (c c' : Srv N D) : List (POp N D C) :=
  if c.state.leads && !c'.state.leads then [.stepDown] else []

/-- The calls of handle_append_entries_request (node.cpp:2387-2573), see `sAppend`. -/
def aeOps (i : N) (c : Srv N D) (t : Nat) (srv : N) (prev prevTerm : Nat) (es : List (Entry N D)) (cm : Nat)
    (ok gone : Bool) : List (POp N D C) :=
  if t < c.term then []
  else
    let c1 := (sCheckStepDown i c t srv ok).1
    if c1.leaderId ≠ some srv then []
    else if es ≠ [] ∧ c1.dl.isSome then []
    else if (if gone then 0 else termAt c1.log prev) ≠ prevTerm then []
    else if es = [] then [.setCommitted (min cm prev)]
    else if prev + es.length ≤ c1.applied then [.setCommitted (min cm (prev + es.length))]
    else [.follow (fents (drainJobs c1.log (resolveJobs c1.log prev es)))]

/-- FollowerStableClosure (node.cpp:2313-2372) and LeaderStableClosure (node.cpp:2001-2011), see `sDisk`. -/
def diskOps (i : N) (c : Srv N D) : List (POp N D C) :=
  match c.queue with
  | .follower t upTo _ cm _ :: _ => if t ≠ c.term then [] else [.setCommitted (min cm upTo)]
  | .leader first n :: _ => [.ack first (first + n - 1) i]
  | _ => []

/-- The calls a handler makes. `cc` is the ConfigurationChangeDone of a configuration entry (node.cpp:2081-2107). -/
def handlerOps (p : CParams) (c0 : Conf N) (c : Srv N D) (a : CAct N D) (cc : C) : List (POp N D C) :=
  match a with
  | .changeConf _ cf => [.confEntry cc cf.peers (oldOf cf)]
  | .append i t srv prev pt es cm ok gone => aeOps i c t srv prev pt es cm ok gone
  | .disk i => diskOps i c
  | .replAck _ (.ack _ who first upTo) => [.ack first upTo who]
  | a =>
    if led (ceff p c0 c a) then
      [.elect c.term, .confEntry cc (confOf c0 c.log).peers (oldOf (confOf c0 c.log))]
    else []

/-- A node after a restart (node.cpp:463-600, snapshot_executor.cpp:376-398): it has its log, and its state machine
has loaded the snapshot; the tasks and closures of the process before are gone with it. -/
def bootOps (c0 : Conf N) (c : Srv N D) : List (POp N D C) :=
  [.follow (fents c.log)] ++
  (if c.psnap.isEmpty then []
   else [.fsm 0 (envOf (fents c.log) (fun _ => []) (fun _ => false))
     (.load (.snap c.psnap.length (lastTerm c.psnap) (oldOf (confOf c0 c.psnap)).isSome true))])

/-- What a server's action does. -/
def pipeEff (p : CParams) (c0 : Conf N) (c : Srv N D) (x : PN N D C) (a : CAct N D) (cc : C) : PN N D C :=
  let c' := (ceff p c0 c a).1
  if restarts p a.at c a then
    let x0 : PN N D C := Pipe.State.init c0.peers
    runOps x0 (bootOps c0 c' ++ [syncOp c0 x0 c'])
  else runOps x (downOps c c' ++ (handlerOps p c0 c a cc ++ [syncOp c0 x c']))

/-- Did the state machine's thread save a snapshot at this index (fsm_caller.cpp:328-358)? -/
def savedAt (k : Nat) : Fsm.Ev D C → Bool
  | .save i _ => decide (i = k)
  | _ => false

/-- What happens only as part of a step of Pipe.lean: entries are appended by a batch of tasks, applied by the state
machine's thread; a snapshot is what that thread saved. -/
def srvOk (x : PN N D C) : CAct N D → Bool
  | .apply _ _ => false
  | .fsm _ => false
  | .loaded _ => false
  | .saveSnap _ k => x.f.ev.any (savedAt k)
  | _ => true

/-- `n` entries are applied at node `i`. -/
def fsmN (p : CParams) (c0 : Conf N) (i : N) : Nat → CSys N D → Option (CSys N D)
  | 0, s => some s
  | n + 1, s => (cstep p c0 s (.fsm i)).bind (fsmN p c0 i n)

/-- What can happen: an action of a server; a call of apply() (node.cpp:693-706), of shutdown's part that stops the
queue; the queue's consumer takes `k` tasks (node.cpp:669-690); the read-only modes change; a round of FSMCaller::run
(fsm_caller.cpp:59-141) or its end; the snapshot being installed is loaded, by a user who answers `ok`. -/
inductive PAct (N D C : Type) where
  | srv (a : CAct N D) (cc : C)
  | submit (i : N) (t : Apply.Task D C)
  | stop (i : N)
  | batch (i : N) (k : Nat)
  | modes (i : N) (nodeRo majRo : Bool)
  | fsm (i : N) (size : Nat) (us : Nat → List Fsm.UOp) (bad : Nat → Bool) (t : Fsm.Task)
  | fsmEnd (i : N) (us : Nat → List Fsm.UOp) (bad : Nat → Bool)
  | load (i : N) (us : Nat → List Fsm.UOp) (bad : Nat → Bool) (ok : Bool)

/-- A commit notification comes from the ballot box; a snapshot is loaded by `PAct.load`. -/
def fsmOk (x : PN N D C) : Fsm.Task → Bool
  | .committed k => decide (k ≤ x.n.bb.lastCommitted)
  | .load (.snap _ _ _ _) => false
  | _ => true

def PSys.upd (s : PSys N D C) (cl : CSys N D) (i : N) (x : PN N D C) : PSys N D C :=
  { cl := cl, pn := updF s.pn i x }

/-- A round of the state machine's thread leaves `x'`: as many entries are applied on the server's side. -/
def applied (p : CParams) (c0 : Conf N) (s : PSys N D C) (i : N) (x' : PN N D C) : Option (PSys N D C) :=
  (fsmN p c0 i (x'.f.applied - (s.pn i).f.applied) s.cl).map (fun cl => s.upd cl i x')

/-- The data of the entries a batch has appended. -/
def newData (x x' : PN N D C) : List D := (x'.n.log.drop x.n.log.length).map (·.data)

/-- The calls when a snapshot was loaded; `c` is the server afterwards. -/
def loadOps (c0 : Conf N) (x : PN N D C) (c : Srv N D) : List (POp N D C) :=
  [.follow (fents c.log),
   .fsm 0 (envOf (fents c.log) (fun _ => []) (fun _ => false))
     (.load (.snap c.psnap.length (lastTerm c.psnap) (oldOf (confOf c0 c.psnap)).isSome true)),
   syncOp c0 x c]

/-- One step, if it is possible. -/
def pstep (p : CParams) (c0 : Conf N) (s : PSys N D C) : PAct N D C → Option (PSys N D C)
  | .srv a cc =>
    if srvOk (s.pn a.at) a then
      (cstep p c0 s.cl a).map (fun cl => s.upd cl a.at (pipeEff p c0 (s.cl.node a.at) (s.pn a.at) a cc))
    else none
  | .submit i t =>
    if (s.pn i).stopped && t.done.isNone then none else some (s.upd s.cl i (Pipe.step (s.pn i) (.submit t)))
  | .stop i => some (s.upd s.cl i (Pipe.step (s.pn i) .stop))
  | .batch i k =>
    let x' := Pipe.step (s.pn i) (.batch k)
    let ds := newData (s.pn i) x'
    if ds.isEmpty then some (s.upd s.cl i x')
    else (cstep p c0 s.cl (.apply i ds)).map (fun cl => s.upd cl i x')
  | .modes i a b =>
    let n := (s.pn i).n
    some (s.upd s.cl i (Pipe.step (s.pn i) (.env n.role n.term a b n.conf n.old n.logErr)))
  | .fsm i size us bad t =>
    if fsmOk (s.pn i) t then
      applied p c0 s i (Pipe.step (s.pn i) (.fsm size (envOf (s.pn i).log us bad) t))
    else none
  | .fsmEnd i us bad => applied p c0 s i (Pipe.step (s.pn i) (.fsmEnd (envOf (s.pn i).log us bad)))
  | .load i us bad ok =>
    let x1 := Pipe.step (s.pn i) (.fsmEnd (envOf (s.pn i).log us bad))
    if decide ((s.cl.node i).dl = some (s.cl.node i).psnap) then
      (fsmN p c0 i (x1.f.applied - (s.pn i).f.applied) s.cl).bind (fun cl1 =>
        if x1.f.err then some (s.upd cl1 i x1)
        else if ok then
          (cstep p c0 cl1 (.loaded i)).map (fun cl2 => s.upd cl2 i (runOps x1 (loadOps c0 x1 (cl2.node i))))
        else
          let K := (s.cl.node i).psnap
          some (s.upd cl1 i (Pipe.step x1 (.fsm 0 (envOf x1.log us bad)
            (.load (.snap K.length (lastTerm K) (oldOf (confOf c0 K)).isSome false))))))
    else none

/-- Before the first start. -/
def initP (c0 : Conf N) : PSys N D C :=
  { cl := initC
    pn := fun _ =>
      let x0 : PN N D C := Pipe.State.init c0.peers
      Pipe.step x0 (syncOp c0 x0 freshSrv) }

inductive PSteps (p : CParams) (c0 : Conf N) (s : PSys N D C) : PSys N D C → Prop where
  | refl : PSteps p c0 s s
  | tail {s' s''} (a : PAct N D C) : PSteps p c0 s s' → pstep p c0 s' a = some s'' → PSteps p c0 s s''

/-- States of executions that start with fresh nodes. -/
def PReachable (p : CParams) (c0 : Conf N) (s : PSys N D C) : Prop := PSteps p c0 (initP c0) s

end Model
end Braft.Cl
