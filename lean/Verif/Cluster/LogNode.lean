import Verif.Cluster.Server
import Verif.Log.ManagerOps
/-
The cluster of servers (Cluster/Server.lean) together with a real LogManager (Log/Manager.lean) in every
server.

Cluster/Server.lean keeps a server's log as one list from index 1, with a second list for what is on
disk and a queue of single steps. Here every server also has the LogManager of log_manager.cpp: entries
in memory, the storage with its first index, the queue of the disk thread, the snapshot id, the virtual
first id, the applied id. Each handler calls LogManager where node.cpp, fsm_caller.cpp and
snapshot_executor.cpp do, with arguments from the request, from the state machine and from LogManager's
own answers; the two sides run in lockstep. Cluster/LogNodeInv*.lean prove that they agree, so that the
assumptions under which the LogManager was studied alone (which entries, snapshots and applied ids it is
given) hold in every execution of the cluster, and what was proved of the log of a server is true of
what its LogManager answers and has stored.

`LNode.z` is a history variable: it pairs each job of the LogManager's queue with the steps of the disk
queue of Cluster/Server.lean that have the same effect. Nothing reads it but the steps of the disk
thread, to run both queues together.

What is not here:
* `set_applied_id` is called for every applied entry (the code does it once for every batch,
  fsm_caller.cpp:312-318);
* a node whose LogManager has reported an error does nothing any more that needs the log, until it is
  started again (on_error takes the node out of service, node.cpp:1362-1366, soon after);
* an AppendEntries request from index 1 that meets a log whose beginning is compacted
  (`append_below_compaction`, C16) and a removal from memory of an entry that waits for the disk
  (`stale_entry_after_clear`, C17) are excluded by the guards `frontOk` and `safeB`.
-/
set_option linter.unusedVariables false
set_option linter.unusedSimpArgs false
set_option linter.unusedSectionVars false

namespace Braft.Cl
open Braft.Raft
open Braft.MemLog (Ent Consec)
open Braft.LogMgr (Sto Id)

abbrev LM (N D : Type) := LogMgr.State (Payload N D)
abbrev LJob (N D : Type) := LogMgr.Job (Payload N D)

/-- A job of the LogManager with the steps of the server model's disk queue that do the same. -/
abbrev Pair (N D : Type) := Option (LJob N D) × List (Job N D)

/-- A LogManager and the history variable. -/
structure LNode (N D : Type) where
  lm : LM N D
  z : List (Pair N D)

structure JSys (N D : Type) where
  cl : CSys N D
  ln : N → LNode N D

section Model
variable {N D : Type} [DecidableEq N] [DecidableEq D]

/-- Terms and contents of entries (what LogManager numbers, log_manager.cpp:337-343). -/
def vals (l : Log N D) : List (Int × Payload N D) := l.map (fun e => ((e.term : Int), e.payload))

/-- The entries after index `k`, with their indexes (log_entry.h:36-50). -/
def ents (k : Nat) (l : Log N D) : List (Ent (Payload N D)) := LogMgr.number ((k : Int) + 1) (vals l)

/-- The id of a snapshot that stands for `K` (SnapshotMeta: last_included_index, last_included_term). -/
def idOf (K : Log N D) : Id := ⟨K.length, lastTerm K⟩

def flat (z : List (Pair N D)) : List (Job N D) := z.flatMap (·.2)
def lmJobs (z : List (Pair N D)) : List (LJob N D) := z.filterMap (·.1)

def isPop : Job N D → Bool
  | .pop => true
  | _ => false

/-- Pair the jobs that one call queues on both sides. -/
def pairUp : List (LJob N D) → List (Job N D) → List (Pair N D)
  | [], cs => if cs.isEmpty then [] else [(none, cs)]
  | [j], cs => [(some j, cs)]
  | j :: j' :: ls, cs => (some j, cs.takeWhile isPop) :: pairUp (j' :: ls) (cs.dropWhile isPop)

/-- LogManager at start: init (log_manager.cpp:78-101) and, if there is a snapshot, set_snapshot
(snapshot_executor.cpp:376-398, 247-288). -/
def bootLm (a : Sto (Payload N D)) (P : Log N D) : LM N D :=
  if P.isEmpty then LogMgr.init a else (LogMgr.init a).setSnapshot (idOf P)

/-- A failed CHECK in become_leader ends the process (if the flag says so), see `sBecomeLeader`. -/
def aborts (p : CParams) (i : N) (c : Srv N D) : CAct N D → Bool
  | .electB _ f ok free => decide (f.term = c.term) && ok && free && (c.ctx.ballot.grant i).granted &&
      decide (c.state ≠ .candidate) && p.checkAborts
  | .timer _ v free => decide (c.ctx.version = v) && free && (c.ctx.ballot.grant i).granted &&
      decide (c.state ≠ .candidate) && p.checkAborts
  | _ => false

/-- Does the process start again? -/
def restarts (p : CParams) (i : N) (c : Srv N D) : CAct N D → Bool
  | .crash _ => true
  | .electDie _ _ => true
  | a => aborts p i c a

/-- Has this step made the node leader? -/
def led (r : Res N D) : Bool := r.2.2.any (fun e => match e with | .lead _ _ => true | _ => false)

/-- Does handle_append_entries_request reach append_entries (node.cpp:2409-2573)? The term of the previous
entry is what LogManager answers. -/
def reaches (i : N) (c : Srv N D) (m : LM N D) (t : Nat) (srv : N) (prev prevTerm : Nat)
    (es : List (Entry N D)) (ok : Bool) : Bool :=
  decide (c.term ≤ t) && decide ((sCheckStepDown i c t srv ok).1.leaderId = some srv) &&
  decide (es ≠ []) && c.dl.isNone && decide (m.getTerm prev = (prevTerm : Int))

/-- What an action makes LogManager do:
* `apply`, a configuration change and become_leader append own entries (node.cpp:2024-2107, 1940-1984);
* `append`: append_entries for a request (node.cpp:2524-2573);
* `fsm`: set_applied_id with the term get_term answers (fsm_caller.cpp:312-318);
* `saveSnap`: set_snapshot with the meta of the snapshot saved (snapshot_executor.cpp:195-245);
* `loaded`: set_snapshot, unless the snapshot is older than what is applied (fsm_caller.cpp:390-406,
  snapshot_executor.cpp:247-288);
* a restart. -/
def lmEff (p : CParams) (c0 : Conf N) (c : Srv N D) (m : LM N D) (cid : Nat) (a : CAct N D) : LM N D :=
  if restarts p a.at c a then bootLm m.store c.psnap
  else match a with
    | .apply _ ds => m.appendLeader (ds.map (fun d => ((c.term : Int), .data d))) cid
    | .changeConf _ cf => m.appendLeader [((c.term : Int), .conf cf)] cid
    | .append i t srv prev pt es _ ok _ =>
      if reaches i c m t srv prev pt es ok then m.append (ents prev es) cid else m
    | .fsm _ => m.setApplied ⟨c.applied + 1, m.getTerm (c.applied + 1)⟩
    | .saveSnap _ k => m.setSnapshot (idOf (c.sm.take k))
    | .loaded _ => if (idOf c.psnap).lt m.applied then m else m.setSnapshot (idOf c.psnap)
    | a =>
      if led (ceff p c0 c a) then m.appendLeader [((c.term : Int), .conf (confOf c0 c.log))] cid else m

/-- The history variable after an action. -/
def zEff (p : CParams) (c0 : Conf N) (c : Srv N D) (x : LNode N D) (cid : Nat) (a : CAct N D) :
    List (Pair N D) :=
  let m' := lmEff p c0 c x.lm cid a
  let c' := (ceff p c0 c a).1
  if restarts p a.at c a then pairUp m'.queue c'.queue
  else x.z ++ pairUp (m'.queue.drop x.lm.queue.length) (c'.queue.drop c.queue.length)

/-- get_term answers 0 for an index that is compacted (log_manager.cpp:703-728). -/
def goneOf (m : LM N D) (prev : Nat) : Bool :=
  decide (m.getTerm prev = 0) && decide (0 < prev) && decide ((prev : Int) < m.snap.index)

/-- A request from index 1 meets a log that begins there, or is applied already (C16). -/
def frontOk (m : LM N D) (prev : Nat) (es : List (Entry N D)) : Bool :=
  decide (prev ≠ 0) || decide (m.first = 1) || decide ((es.length : Int) ≤ m.applied.index)

/-- Actions that do not touch the log. -/
def noLog : CAct N D → Bool
  | .elect _ => true
  | .timeoutNow _ _ _ _ => true
  | .voteReq _ _ _ _ _ => true
  | .voteReqB _ _ _ _ _ => true
  | .stepDown _ _ _ => true
  | .transfer _ => true
  | .transferTimeout _ => true
  | .replRes _ _ _ _ _ => true
  | .replAck _ _ => true
  | .sendIS _ _ => true
  | .install _ _ _ _ _ => true
  | .copied _ => true
  | .dlDrop _ => true
  | _ => false

def jguard (m : LM N D) (a : CAct N D) : Bool :=
  (!m.err || noLog a) &&
  match a with
  | .append _ _ _ prev _ es _ _ gone => decide (gone = goneOf m prev) && frontOk m prev es
  | .disk _ => false
  | _ => true

/-- An entry of memory that `clear_memory_logs(c)` would remove does not wait for the disk (C17). -/
def safeB (m : LM N D) (c : Id) : Bool :=
  match m.mem with
  | [] => true
  | e :: _ => c.lt (LogMgr.entId e) ||
      m.queue.all (fun j => match j with | .append es _ => es.all (fun x => decide (x.index ≠ e.index)) | _ => true)

def isAppend : LJob N D → Bool
  | .append es _ => !es.isEmpty
  | _ => false

/-- What a storage call that fails, or during which the process ends, may leave behind (C20, C21, C53):
a truncation that went part of the way, a reset that did or did not happen. -/
def partOf (a : Sto (Payload N D)) (j : LJob N D) (n : Nat) : Sto (Payload N D) :=
  match j with
  | .truncSuffix k _ => ⟨a.first, a.ents.take (max n (k + 1 - a.first).toNat)⟩
  | .truncPrefix k =>
    let d := min n (min (k - a.first).toNat a.ents.length)
    ⟨a.first + d, a.ents.drop d⟩
  | .reset k => if n = 0 then a else ⟨k, []⟩
  | _ => a

/-- `n` steps of the disk queue of node `i`. -/
def diskN (p : CParams) (c0 : Conf N) (i : N) : Nat → CSys N D → Option (CSys N D)
  | 0, s => some s
  | n + 1, s => (cstep p c0 s (.disk i)).bind (diskN p c0 i n)

/-- What can happen: an action of a server, a call of last_log_id(true) or clear_bufferred_logs, a step of
clear_memory_logs, the disk thread's rounds and jobs, failures. -/
inductive JAct (N D : Type) where
  | srv (a : CAct N D) (cid : Nat)
  | ask (i : N) (cid : Nat)
  | buffered (i : N)
  | clear (i : N) (c : Id)
  | begin (i : N)
  | fin (i : N)
  /-- nothing to do on the LogManager's side -/
  | skip (i : N)
  /-- one AppendBatcher::flush of the appends in the first `k` pairs -/
  | flush (i : N) (k : Nat)
  | exec (i : N)
  /-- the batch fails, or the process is about to end, after `n` entries -/
  | failAppend (i : N) (k n : Nat)
  | failJob (i : N) (n : Nat)
  /-- the process of a node that failed starts again; `n` steps of the server model's disk queue have
  reached the disk -/
  | die (i : N) (n : Nat)

/-- Storage and list agree. -/
def stoOfB (d : Log N D) (a : Sto (Payload N D)) : Bool :=
  decide (1 ≤ a.first) && decide (a.first - 1 ≤ d.length) &&
  decide (a.ents = ents (a.first - 1).toNat (d.drop (a.first - 1).toNat))

/-- What the storage has dropped is the beginning of `l`, or less than the snapshot `S` has. -/
def baseB (l S d : Log N D) (a : Sto (Payload N D)) : Bool :=
  decide (a.first - 1 < S.length) || decide (d.take (a.first - 1).toNat = l.take (a.first - 1).toNat)

def JSys.upd (s : JSys N D) (cl : CSys N D) (i : N) (x : LNode N D) : JSys N D :=
  { cl := cl, ln := updF s.ln i x }

/-- One step, if it is possible. -/
def jstep (p : CParams) (c0 : Conf N) (s : JSys N D) : JAct N D → Option (JSys N D)
  | .srv a cid =>
    let x := s.ln a.at
    let c := s.cl.node a.at
    if jguard x.lm a then
      (cstep p c0 s.cl a).map (fun cl =>
        s.upd cl a.at ⟨lmEff p c0 c x.lm cid a, zEff p c0 c x cid a⟩)
    else none
  | .ask i cid =>
    let x := s.ln i
    if !x.lm.err && decide (x.lm.last ≠ x.lm.snap.index) then
      some (s.upd s.cl i ⟨x.lm.askLastId cid, x.z ++ [(some (.lastId cid x.lm.lastLogId), [])]⟩)
    else none
  | .buffered i =>
    let x := s.ln i
    if x.lm.err then none
    else some (s.upd s.cl i ⟨x.lm.clearBuffered, x.z ++ pairUp (x.lm.clearBuffered.queue.drop x.lm.queue.length) []⟩)
  | .clear i c =>
    let x := s.ln i
    if !x.lm.err && decide (c ∈ x.lm.clears) && safeB x.lm c then some (s.upd s.cl i ⟨x.lm.clear c, x.z⟩) else none
  | .begin i =>
    let x := s.ln i
    if !x.lm.err && x.lm.round.isNone then some (s.upd s.cl i ⟨x.lm.roundStart, x.z⟩) else none
  | .fin i =>
    let x := s.ln i
    match x.lm.round with
    | some l => if x.lm.err then none else some (s.upd s.cl i ⟨x.lm.roundEnd l, x.z⟩)
    | none => none
  | .skip i =>
    let x := s.ln i
    match x.z with
    | (none, js) :: z => if x.lm.err then none else (diskN p c0 i js.length s.cl).map (fun cl => s.upd cl i ⟨x.lm, z⟩)
    | _ => none
  | .flush i k =>
    let x := s.ln i
    let js := lmJobs (x.z.take k)
    match x.lm.round with
    | some l =>
      if !x.lm.err && js.all isAppend then
        (diskN p c0 i (flat (x.z.take k)).length s.cl).map (fun cl =>
          s.upd cl i ⟨x.lm.flush js (lmJobs (x.z.drop k)) l (LogMgr.jobEnts js).length false, x.z.drop k⟩)
      else none
    | none => none
  | .exec i =>
    let x := s.ln i
    match x.lm.round, x.z with
    | some l, (some j, js) :: z =>
      if !x.lm.err && !isAppend j then
        (diskN p c0 i js.length s.cl).map (fun cl => s.upd cl i ⟨x.lm.execOk j (lmJobs z) l, z⟩)
      else none
    | _, _ => none
  | .failAppend i k n =>
    let x := s.ln i
    let js := lmJobs (x.z.take k)
    match x.lm.round with
    | some l =>
      if !x.lm.err && js.all isAppend && decide (n < (LogMgr.jobEnts js).length) then
        some (s.upd s.cl i ⟨x.lm.flush js (lmJobs (x.z.drop k)) l n false, x.z⟩)
      else none
    | none => none
  | .failJob i n =>
    let x := s.ln i
    match x.lm.round, x.z with
    | some l, (some j, js) :: z =>
      if !x.lm.err && !isAppend j then
        some (s.upd s.cl i ⟨x.lm.execFails (partOf x.lm.store j n) (lmJobs z), x.z⟩)
      else none
    | _, _ => none
  | .die i n =>
    let x := s.ln i
    if x.lm.err && decide (n ≤ (s.cl.node i).queue.length) &&
        stoOfB (drainJobs (s.cl.node i).disk ((s.cl.node i).queue.take n)) x.lm.store &&
        baseB (s.cl.node i).log (s.cl.node i).snap (drainJobs (s.cl.node i).disk ((s.cl.node i).queue.take n)) x.lm.store then
      ((diskN p c0 i n s.cl).bind (fun cl => cstep p c0 cl (.crash i))).map (fun cl =>
        s.upd cl i ⟨bootLm x.lm.store (s.cl.node i).psnap,
          pairUp (bootLm x.lm.store (s.cl.node i).psnap).queue (cl.node i).queue⟩)
    else none

/-- Before the first start: empty storages. -/
def initJ : JSys N D := { cl := initC, ln := fun _ => ⟨LogMgr.init ⟨1, []⟩, []⟩ }

inductive JSteps (p : CParams) (c0 : Conf N) (s : JSys N D) : JSys N D → Prop where
  | refl : JSteps p c0 s s
  | tail {s' s''} (a : JAct N D) : JSteps p c0 s s' → jstep p c0 s' a = some s'' → JSteps p c0 s s''

/-- States of executions that start with fresh nodes. -/
def JReachable (p : CParams) (c0 : Conf N) (s : JSys N D) : Prop := JSteps p c0 initJ s

end Model
end Braft.Cl
