import Verif.Snap.Storage
/-
Model of SnapshotExecutor (snapshot_executor.cpp) with SaveSnapshotDone, InstallSnapshotDone and the end of
LocalSnapshotCopier::copy (snapshot.cpp:765-801).

* Everything in one critical section of SnapshotExecutor::_mutex is one step. The threads that finish a save
  (SaveSnapshotDone::continue_run), that install a snapshot (install_snapshot, then InstallSnapshotDone) and that copy
  files are lists of what each has still to do; their steps interleave in any way.
* The snapshot storage is reduced to the index of its last snapshot and the indexes it has published; close(writer) is
  `closeOutcome` (Verif/Snap/Storage.lean has it step by step). Failures of its system calls are arguments of steps.
* The copier's snapshot has the index of the request that started it (the leader takes both from one reader,
  replicator.cpp:772-836). `copied`: all files were copied without error and without being cancelled in time.
* A CHECK that fails sets `bad`; the program goes on.
* The state starts after SnapshotExecutor::init (snapshot_executor.cpp:340-400).
-/
set_option linter.unusedSectionVars false
set_option linter.unusedSimpArgs false
set_option linter.unusedVariables false

namespace Braft.SnapExec
open Braft.Snap (Err closeRet)

/-- Status codes of closures of snapshot requests; `user`: set by the state machine. -/
inductive Code | ok | eperm | ebusy | eio | ehostdown | estale | user
deriving DecidableEq, Repr

/-- Answers to InstallSnapshot: controller errors (EBUSY, EHOSTDOWN, EINVAL, EINTR, error of the copier or of the
load), or success false because of the term, success true because the snapshot is not newer, success true. -/
inductive Ans | ebusy | ehostdown | einval | eintr | failed | term | already | success
deriving DecidableEq, Repr

/-- What a SaveSnapshotDone has still to do. `st`: its status when it runs. -/
inductive JPc where
  /-- In the hands of FSMCaller and the state machine. -/
  | fsm
  /-- To be run with EHOSTDOWN (snapshot_executor.cpp:178-184). -/
  | down
  /-- on_snapshot_save_done after its first critical section (206); `ret` so far, index of the snapshot. -/
  | closing (st ret : Code) (idx : Nat)
  /-- After close(writer) (217-220). -/
  | closed (st ret : Code) (idx : Nat)
  /-- _last_snapshot_index is set, before set_snapshot (229-236). -/
  | compacting (st : Code) (idx : Nat)
  /-- Before the last critical section (238-244). -/
  | ending (st ret : Code) (idx : Nat)
deriving DecidableEq, Repr

/-- A SaveSnapshotDone; `closure`: the number of the request, if it came with a closure. -/
structure Job where
  closure : Option Nat
  pc : JPc
deriving DecidableEq, Repr

/-- What a thread that installs a snapshot has still to do. -/
inductive IPc where
  /-- Waiting for the copier (snapshot_executor.cpp:444). -/
  | copying
  /-- The state machine loads from the reader of snapshot `reader` (492-506). -/
  | loading (reader : Nat)
  /-- on_snapshot_load_done after its first critical section (266). -/
  | loaded (ok : Bool)
deriving DecidableEq, Repr

structure Sess where
  idx : Nat
  pc : IPc
deriving DecidableEq, Repr

/-- A LocalSnapshotCopier: `res` is set when its thread has ended: ok(), and the index of the snapshot its reader is
open on. -/
structure Copier where
  idx : Nat
  cancelled : Bool
  res : Option (Bool × Option Nat)
deriving DecidableEq, Repr

/-- The fields of SnapshotExecutor, the threads, the storage, and the history: `nsave` and `ninst` count the requests,
`saved` and `answered` their answers, `compacted` the snapshots set_snapshot was called with, `loads` the snapshots the
state machine was asked to load for an install (the one asked for, the one it was given), `first` the snapshot found by
init, `ended` the saves that ended (closure, its status, index of the snapshot), `installed` the loads that ended,
`older`: the storage published a snapshot older than its last one. -/
structure State where
  stopped : Bool
  term : Nat
  last : Nat
  saving : Bool
  dl : Option (Nat × Nat)
  copier : Option Copier
  loading : Bool
  loadIdx : Nat
  jobs : List Job
  sess : List Sess
  sLast : Nat
  pub : List Nat
  nsave : Nat
  saved : List (Nat × Code)
  ninst : Nat
  answered : List (Nat × Ans)
  compacted : List Nat
  loads : List (Nat × Nat)
  first : Nat
  ended : List (Option Nat × Code × Nat)
  installed : List (Nat × Bool)
  older : Bool
  bad : Bool

/-- CHECK. -/
def State.check (s : State) (c : Bool) : State := { s with bad := s.bad || !c }

/-- The closure of a snapshot request runs. -/
def State.save (s : State) (c : Option Nat) (code : Code) : State :=
  { s with saved := s.saved ++ (c.map (fun i => (i, code))).toList }

/-- An InstallSnapshot request is answered. -/
def State.reply (s : State) (id : Nat) (a : Ans) : State := { s with answered := s.answered ++ [(id, a)] }

/-- do_snapshot (snapshot_executor.cpp:114-187). `hasDone`: a closure was given; `applied`:
FSMCaller::last_applied_index; `gap`: raft_do_snapshot_min_index_gap; `createOk`: the storage creates a writer; `fsmOk`:
FSMCaller takes the task. If it does not and there is no closure, nobody resets _saving_snapshot. -/
def State.doSnapshot (s : State) (hasDone : Bool) (applied gap : Nat) (createOk fsmOk : Bool) : State :=
  let c := if hasDone then some s.nsave else none
  let s := { s with nsave := if hasDone then s.nsave + 1 else s.nsave }
  if s.stopped then s.save c .eperm
  else if s.dl.isSome then s.save c .ebusy
  else if s.saving then s.save c .ebusy
  else if applied < s.last + gap then s.save c .ok
  else if !createOk then s.save c .eio
  else if fsmOk then { s with saving := true, jobs := s.jobs ++ [⟨c, .fsm⟩] }
  else if hasDone then { s with saving := true, jobs := s.jobs ++ [⟨c, .down⟩] }
  else { s with saving := true }

/-- on_snapshot_save_done, first critical section (snapshot_executor.cpp:189-205), and save_meta, which always succeeds
(snapshot.cpp:268-271). The state machine ran the closure with `st`; its snapshot has index `idx`. -/
def State.saveBegin (s : State) (k : Nat) (st : Code) (idx : Nat) : State :=
  match s.jobs[k]? with
  | some ⟨c, .fsm⟩ => { s with jobs := s.jobs.set k ⟨c, .closing st (if st = .ok ∧ idx ≤ s.last then .estale else st) idx⟩ }
  | some ⟨c, .down⟩ => { s with jobs := s.jobs.set k ⟨c, .closing .ehostdown .ehostdown idx⟩ }
  | _ => s

/-- How close(writer) ends (snapshot.cpp:613-670), `Err.none` if it published: the writer's error, sync, equal index,
deletion of the new path, rename. -/
def closeOutcome (err : Err) (syncOk same delOk renOk : Bool) : Err :=
  if err ≠ .none then err
  else if !syncOk then .minus1
  else if same then .eexist
  else if !delOk then .eio
  else if !renOk then .eio
  else .none

/-- The storage after close(writer) with that outcome. -/
def State.published (s : State) (idx : Nat) (o : Err) : State :=
  if o = .none then { s with sLast := idx, pub := idx :: s.pub, older := s.older || decide (idx < s.sLast) } else s

/-- The error of the writer in on_snapshot_save_done (snapshot_executor.cpp:195-215): what the state machine set
itself (`userErr`), else the error of the save. -/
def writerErr (ret : Code) (userErr : Err) : Err :=
  if userErr ≠ .none then userErr else if ret = .ok then .none else if ret = .eio then .eio else .other

/-- on_snapshot_save_done closes the writer (snapshot_executor.cpp:217-220). -/
def State.saveClose (s : State) (k : Nat) (userErr : Err) (syncOk delOk renOk : Bool) : State :=
  match s.jobs[k]? with
  | some ⟨c, .closing st ret idx⟩ =>
    let o := closeOutcome (writerErr ret userErr) syncOk (decide (idx = s.sLast)) delOk renOk
    let j : Job := ⟨c, .closed st (if closeRet o ≠ 0 then Code.eio else ret) idx⟩
    ({ s with jobs := s.jobs.set k j } : State).published idx o
  | _ => s

/-- on_snapshot_save_done, second critical section (snapshot_executor.cpp:227-231). -/
def State.saveSet (s : State) (k : Nat) : State :=
  match s.jobs[k]? with
  | some ⟨c, .closed st ret idx⟩ =>
    if ret = .ok then { s with last := idx, jobs := s.jobs.set k ⟨c, .compacting st idx⟩ }
    else { s with jobs := s.jobs.set k ⟨c, .ending st ret idx⟩ }
  | _ => s

/-- LogManager::set_snapshot (snapshot_executor.cpp:235). -/
def State.saveCompact (s : State) (k : Nat) : State :=
  match s.jobs[k]? with
  | some ⟨c, .compacting st idx⟩ => { s with compacted := idx :: s.compacted, jobs := s.jobs.set k ⟨c, .ending st .ok idx⟩ }
  | _ => s

/-- on_snapshot_save_done, the end (snapshot_executor.cpp:238-245), and the user's closure in continue_run (308-325). -/
def State.saveEnd (s : State) (k : Nat) : State :=
  match s.jobs[k]? with
  | some ⟨c, .ending st ret idx⟩ =>
    let code := if st ≠ .ok then st else ret
    ({ s with saving := false, jobs := s.jobs.eraseIdx k, ended := (c, code, idx) :: s.ended } : State).save c code
  | _ => s

/-- CHECK(_cur_copier), then cancel (snapshot_executor.cpp:581-582, 611-612). -/
def State.cancel (s : State) : State :=
  { s with bad := s.bad || !s.copier.isSome, copier := s.copier.map (fun c => { c with cancelled := true }) }

/-- install_snapshot (snapshot_executor.cpp:402-450) with register_downloading_snapshot (509-598). `slot`: the throttle
admits it; `copierOk`: start_to_copy_from succeeds. -/
def State.install (s : State) (term idx : Nat) (slot copierOk : Bool) : State :=
  let id := s.ninst
  let s := { s with ninst := s.ninst + 1 }
  if !slot then s.reply id .ebusy
  else if s.stopped then s.reply id .ehostdown
  else if term ≠ s.term then s.reply id .term
  else if idx ≤ s.last then s.reply id .already
  else if s.saving then s.reply id .ebusy
  else
    match s.dl with
    | none =>
      let s := s.check s.copier.isNone
      if copierOk then { s with dl := some (idx, id), copier := some ⟨idx, false, none⟩, sess := s.sess ++ [⟨idx, .copying⟩] }
      else s.reply id .einval
    | some (i, old) =>
      if i = idx then ({ s with dl := some (idx, id) } : State).reply old .eintr
      else if i > idx then s.reply id .einval
      else if s.loading then s.reply id .ebusy
      else (s.cancel).reply id .ebusy

/-- The copier's thread ends (snapshot.cpp:765-801): it closes its writer (if it got so far, `hasWriter`), and if all is
well opens the last snapshot of the storage. -/
def State.copyEnd (s : State) (copied hasWriter syncOk delOk renOk openOk : Bool) : State :=
  match s.copier with
  | some ⟨idx, cancelled, none⟩ =>
    let ok := copied && hasWriter
    let o := closeOutcome (if ok then .none else .other) syncOk (decide (idx = s.sLast)) delOk renOk
    let s1 := if hasWriter then s.published idx o else s
    let ok' := ok && decide (closeRet o = 0)
    { s1 with copier := some ⟨idx, cancelled, some (ok', if ok' && openOk && decide (s1.sLast ≠ 0) then some s1.sLast else none)⟩ }
  | _ => s

/-- load_downloading_snapshot (snapshot_executor.cpp:452-507), after the copier has ended. -/
def State.loadBegin (s : State) (k : Nat) : State :=
  match s.sess[k]?, s.copier with
  | some ⟨idx, .copying⟩, some ⟨_, _, some (ok, reader)⟩ =>
    let s := s.check s.dl.isSome
    match ok, reader with
    | true, some r =>
      { s with copier := none, loading := true, loadIdx := idx, loads := (idx, r) :: s.loads, sess := s.sess.set k ⟨idx, .loading r⟩ }
    | _, _ =>
      let s1 := { s with copier := none, dl := none, sess := s.sess.eraseIdx k }
      match s.dl with
      | some (_, id) => s1.reply id .failed
      | none => s1
  | _, _ => s

/-- on_snapshot_load_done, first critical section (snapshot_executor.cpp:247-263). `ok`: the state machine loaded it. -/
def State.loadDone (s : State) (k : Nat) (ok : Bool) : State :=
  match s.sess[k]? with
  | some ⟨idx, .loading r⟩ =>
    let s := s.check s.loading
    if ok then { s with last := s.loadIdx, compacted := s.loadIdx :: s.compacted, sess := s.sess.set k ⟨idx, .loaded true⟩ }
    else { s with sess := s.sess.set k ⟨idx, .loaded false⟩ }
  | _ => s

/-- on_snapshot_load_done, the rest (snapshot_executor.cpp:270-284). -/
def State.loadEnd (s : State) (k : Nat) : State :=
  match s.sess[k]? with
  | some ⟨idx, .loaded ok⟩ =>
    let s1 := { s with loading := false, dl := none, sess := s.sess.eraseIdx k, installed := (idx, ok) :: s.installed }
    match s.dl with
    | some (_, id) => s1.reply id (if ok then .success else .failed)
    | none => s1
  | _ => s

/-- interrupt_downloading_snapshot (snapshot_executor.cpp:600-621). -/
def State.interrupt (s : State) (term : Nat) : State :=
  let s1 : State := { s with term := term, bad := s.bad || !decide (s.term ≤ term) }
  if s1.dl.isNone then s1
  else if s1.loading then s1
  else s1.cancel

/-- shutdown (snapshot_executor.cpp:675-681); its caller holds the node's lock, like those of interrupt (node.cpp:1023, 1834). -/
def State.shutdown (s : State) : State := ({ s with stopped := true } : State).interrupt s.term

/-- After init with a last snapshot `n` (0: none). -/
def State.init (term n : Nat) : State :=
  { stopped := false, term, last := n, saving := false, dl := none, copier := none, loading := false, loadIdx := n,
    jobs := [], sess := [], sLast := n, pub := if n = 0 then [] else [n], nsave := 0, saved := [], ninst := 0, answered := [],
    compacted := if n = 0 then [] else [n], loads := [], first := n, ended := [], installed := [], older := false, bad := false }

/-- What may happen besides the usual: `weird`: sync of the meta file in close fails with -1, or the state machine sets an
error on the writer and reports success; `loadFail`: the copied snapshot
cannot be opened or its load fails. -/
structure Allow where
  weird : Bool
  loadFail : Bool

/-- One step. The term of an interrupt is not smaller
than the last one (terms of a node do not decrease, C02). -/
inductive Step (A : Allow) : State → State → Prop where
  | doSnapshot (s d applied gap c f) : Step A s (s.doSnapshot d applied gap c f)
  | saveBegin (s k st idx) : Step A s (s.saveBegin k st idx)
  | saveClose (s k e a b c) (hw : A.weird = false → e = .none ∧ a = true) : Step A s (s.saveClose k e a b c)
  | saveSet (s k) : Step A s (s.saveSet k)
  | saveCompact (s k) : Step A s (s.saveCompact k)
  | saveEnd (s k) : Step A s (s.saveEnd k)
  | install (s t i a b) : Step A s (s.install t i a b)
  | copyEnd (s a b c d e f) (hw : A.weird = false → c = true) (hl : A.loadFail = false → f = true) : Step A s (s.copyEnd a b c d e f)
  | loadBegin (s k) : Step A s (s.loadBegin k)
  | loadDone (s k ok) (hl : A.loadFail = false → ok = true) : Step A s (s.loadDone k ok)
  | loadEnd (s k) : Step A s (s.loadEnd k)
  | interrupt (s t) (ht : s.term ≤ t) : Step A s (s.interrupt t)
  | shutdown (s) : Step A s s.shutdown

/-- Everything that happens, in any order. -/
inductive Hist (A : Allow) : State → Prop where
  | init (term n) : Hist A (State.init term n)
  | step {s t} (h : Hist A s) (hs : Step A s t) : Hist A t

end Braft.SnapExec
