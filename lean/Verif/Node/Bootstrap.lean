import Verif.Log.Manager
/-
Model of NodeImpl::bootstrap (node.cpp:393-497) with what it calls: LogManager::init, set_snapshot, clear_bufferred_logs and
append_entries (Verif/Log/Manager.lean), init_meta_storage (node.cpp:293-347), SnapshotExecutor::init (snapshot_executor.cpp:
341-398), FSMCaller::do_snapshot_load (fsm_caller.cpp:367-429), SnapshotExecutor::do_snapshot (snapshot_executor.cpp:113-187),
do_snapshot_save (fsm_caller.cpp:328-358) and on_snapshot_save_done (snapshot_executor.cpp:189-262); and of what NodeImpl::init
(node.cpp:547-606) makes of the result.

* The disk is the log, the newest snapshot (id, configuration and the user's data) and the stored term. Calls of the storages
  succeed; a crash leaves the disk as it is between two of them.
* The state machine's data is a value; saving stores it, loading replaces it, or fails (`loads`).
* The CHECK_EQs (node.cpp:471-472) only write to the log unless crash_on_fatal_log is set.
-/
set_option linter.unusedVariables false
set_option linter.unusedSimpArgs false

namespace Braft.Bootstrap
open Braft.LogMgr
open Braft.MemLog (Ent)

/-- An entry's content: the user's, or a configuration. -/
inductive Pay (P D : Type) where
  | data (d : D)
  | conf (ps : List P)
deriving DecidableEq, Repr

structure Snap (P S : Type) where
  id : Id
  peers : List P
  content : S
deriving DecidableEq, Repr

/-- What is stored under the node's uris. -/
structure Disk (P D S : Type) where
  log : Sto (Pay P D)
  snap : Option (Snap P S)
  term : Int

/-- Nothing: an empty log (segment_log.cpp begins with index 1) and a meta storage without a file (raft_meta.cpp:433-460: term 1). -/
def Disk.fresh {P D S : Type} : Disk P D S := ⟨⟨1, []⟩, none, 1⟩

/-- BootstrapOptions (raft.h:796-837) and raft_do_snapshot_min_index_gap (snapshot_executor.cpp:25-28). `fsm`: the state machine's data, none for NULL. -/
structure Opts (P S : Type) where
  last : Int
  conf : List P
  fsm : Option S
  snapUri : Bool
  loads : Bool
  gap : Int

/-- `abort`: the process dereferences NULL. -/
inductive Res | ok | fail | abort
deriving DecidableEq, Repr

variable {P D S : Type}

/-- The states of the log while the disk thread works. -/
def stores (a : Sto (Pay P D)) : List (Job (Pay P D)) → List (Sto (Pay P D))
  | [] => []
  | j :: js => match a.run j with | none => [] | some a' => a' :: stores a' js

/-- LogId operator> (log_entry.h:64-90). -/
def Id.gt (a b : Id) : Bool := b.lt a

/-- The term init_meta_storage (node.cpp:293-347) finds or stores. -/
def metaTerm (d : Disk P D S) : Int :=
  if d.term < (init d.log).lastLogId.term then (init d.log).lastLogId.term + 1 else d.term

/-- The last configuration at or below `i` (ConfigurationManager::get, configuration_manager.cpp:50-71; LogStorage::init fills it). -/
def confAt (d : Disk P D S) (i : Int) : List P :=
  let fromSnap := match d.snap with | some m => m.peers | none => []
  let si := match d.snap with | some m => m.id.index | none => 0
  (((d.log.ents.filter (fun e => decide (si < e.index ∧ e.index ≤ i))).filterMap (fun e => match e.val with | .conf ps => some ps | _ => none)).getLast?).getD fromSnap

/-- The snapshot part (node.cpp:454-469), for last_log_index > 0: the log manager, the snapshot afterwards, and the states of
the disk on the way. -/
def snapPart (o : Opts P S) (d : Disk P D S) (s : S) : Res × LogMgr.State (Pay P D) × Option (Snap P S) :=
  if !o.snapUri then (.abort, init d.log, d.snap)
  else
    let boot : Id := ⟨o.last, 1⟩
    -- SnapshotExecutor::init loads the snapshot there is
    let bad := match d.snap with | some m => Id.gt boot m.id || !o.loads | none => false
    if bad then (.fail, init d.log, d.snap)
    else
      let mgr := match d.snap with | some m => (init d.log).setSnapshot m.id | none => init d.log
      let applied := match d.snap with | some m => m.id | none => boot
      let lastSnap := match d.snap with | some m => m.id.index | none => 0
      if applied.index - lastSnap < o.gap then (.ok, mgr.clearBuffered, d.snap)
      else if applied.index ≤ lastSnap then (.fail, mgr, d.snap)
      else
        let content := match d.snap with | some m => m.content | none => s
        (.ok, mgr.setSnapshot applied, some ⟨applied, confAt d applied.index, content⟩)

/-- NodeImpl::bootstrap: its result, the disk afterwards, and the disks a crash may leave before that, in order. -/
def bootstrap (o : Opts P S) (d : Disk P D S) : Res × Disk P D S × List (Disk P D S) :=
  if o.last > 0 ∧ (o.conf = [] ∨ o.fsm.isNone = true) then (.fail, d, [])
  else if o.conf = [] then (.fail, d, [])
  else
    let t := metaTerm d
    let d1 := { d with term := t }
    if t = 0 then (.fail, { d with term := 1 }, [d1])
    else
      let r := match o.fsm with
        | some s => if o.last > 0 then snapPart o d1 s else (.ok, init d.log, d.snap)
        | none => (.ok, init d.log, d.snap)
      let d2 := { d1 with snap := r.2.2 }
      match r.1 with
      | .abort => (.abort, d2, [d, d1])
      | .fail => (.fail, d2, [d, d1])
      | .ok =>
        let m := r.2.1.appendLeader [(t, .conf o.conf)] 0
        let l := (stores d.log m.queue).map (fun a => { d2 with log := a })
        (.ok, (l.getLast?).getD d2, [d, d1, d2] ++ l)

/-- NodeImpl::init (node.cpp:547-606): the log manager, the configuration, and the state machine's data (none: as the user made
it), if it does not fail. -/
def start (d : Disk P D S) (initial : List P) : Option (LogMgr.State (Pay P D) × List P × Option S) :=
  let mgr := match d.snap with | some m => (init d.log).setSnapshot m.id | none => init d.log
  if mgr.consistent then
    some (mgr, if mgr.last > 0 then confAt d mgr.last else initial, d.snap.map (·.content))
  else none

end Braft.Bootstrap
