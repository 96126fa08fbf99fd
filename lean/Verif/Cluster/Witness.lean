import Verif.Cluster.Server
/-
A cluster of servers some of which are witnesses (NodeOptions::witness, raft.h:592-605, and the role of their PeerId,
configuration.h:37-75): the servers of Verif/Cluster/Server.lean with what the code does differently for witnesses.

* The data of an entry is an `Option D`: `none` stands for entries that a witness knows only as covered by a snapshot whose
  files it did not copy, and cannot read.
* `NodeOptions::witness` of a node and the role in the PeerId under which the others know it agree.
* A group whose only member is a witness elects it when it is started (node.cpp:653-660); that is left out.
* The larger election timeout and follower lease (node.cpp:508-516, 543-547) and check_witness, which makes a witness that
  leads step down (835, 843-853), only concern when things happen.
-/
set_option linter.unusedVariables false
set_option linter.unusedSimpArgs false
set_option linter.unusedSectionVars false

namespace Braft.Cl
open Braft.Raft

/-- `wit`: the witnesses. `toLeader`: raft_enable_witness_to_leader (node.cpp:70-71, off by default). `empty`: an IOBuf without
data. `noXfer`: an assumption: without `toLeader` nobody hands the leadership to a witness. -/
structure WParams (N D : Type) where
  wit : N → Bool
  toLeader : Bool
  empty : D
  noXfer : Bool

/-- The entry as `_prepare_entry` sends it to a witness: its data is left out (replicator.cpp:633-636), and the receiver cuts
no data for it from the attachment (node.cpp:2519-2541). -/
def blank {N D : Type} (d : D) (e : Entry N (Option D)) : Entry N (Option D) :=
  match e.payload with
  | .data _ => ⟨e.term, .data (some d)⟩
  | .conf c => ⟨e.term, .conf c⟩

/-- An entry known from a snapshot without files only (`copy_file`, node.cpp:259-262, snapshot.cpp:758-776). -/
def absent {N D : Type} (e : Entry N (Option D)) : Entry N (Option D) :=
  match e.payload with
  | .data _ => ⟨e.term, .data none⟩
  | .conf c => ⟨e.term, .conf c⟩

/-- Can the log manager return the entry? -/
def Entry.readable {N D : Type} (e : Entry N (Option D)) : Bool :=
  match e.payload with
  | .data none => false
  | _ => true

section Witness
variable {N D : Type} [DecidableEq N] [DecidableEq D]

/-- What a message carries when it goes to a witness. -/
def wout (W : WParams N D) : CMsg N (Option D) → CMsg N (Option D)
  | .aeReq t l to prev pt es cm => .aeReq t l to prev pt (if W.wit to && !W.toLeader then es.map (blank W.empty) else es) cm
  | .isReq t l to K => .isReq t l to (if W.wit to then K.map absent else K)
  | m => m

/-- When is an action possible, beyond `cpre`? `elect`: without the flag the election and vote timers of a witness are not
initialized, so that they never run (node.cpp:508-519, repeated_timer_task.cpp:28-35, 79-80). `replRead`: the entries are in the
log. `sendIS`: a witness sends no snapshots (replicator.cpp:772-776). -/
def wextra (W : WParams N D) (s : CSys N (Option D)) : CAct N (Option D) → Bool
  | .elect i => !W.wit i || W.toLeader
  | .timeoutNow i t _ _ => !W.noXfer || !W.wit i || W.toLeader || decide (t ≠ (s.node i).term)
  | .apply _ ds => ds.all (·.isSome)
  | .replRead i (.send _ _ prev _ _) cnt => (((s.node i).log.drop prev).take cnt).all Entry.readable
  | .sendIS i _ => !W.wit i
  | _ => true

/-- `cpre`, where a snapshot is recognized by its id. -/
def wpre (p : CParams) (W : WParams N D) (c0 : Conf N) (s : CSys N (Option D)) (a : CAct N (Option D)) : Bool :=
  wextra W s a && match a with
  | .loaded i => match (s.node i).dl with
    | none => false
    | some K => decide (lastId K = lastId (s.node i).psnap)
  | .dlDrop i => match (s.node i).dl with
    | none => false
    | some K => decide (lastId K ≠ lastId (s.node i).psnap)
  | a => cpre p c0 s a

/-- One step of the cluster, if it is possible. -/
def wstep (p : CParams) (W : WParams N D) (c0 : Conf N) (s : CSys N (Option D)) (a : CAct N (Option D)) :
    Option (CSys N (Option D)) :=
  if wpre p W c0 s a then
    let r := ceff p c0 (s.node a.at) a
    some { node := updF s.node a.at r.1, msgs := r.2.1.map (wout W) ++ s.msgs, ev := r.2.2 ++ s.ev }
  else none

/-- Executions from `s`. -/
inductive WSteps (p : CParams) (W : WParams N D) (c0 : Conf N) (s : CSys N (Option D)) : CSys N (Option D) → Prop where
  | refl : WSteps p W c0 s s
  | tail {s' s''} (a : CAct N (Option D)) : WSteps p W c0 s s' → wstep p W c0 s' a = some s'' → WSteps p W c0 s s''

/-- States of executions that start with fresh nodes. -/
def WReachable (p : CParams) (W : WParams N D) (c0 : Conf N) (s : CSys N (Option D)) : Prop := WSteps p W c0 initC s

end Witness
end Braft.Cl
