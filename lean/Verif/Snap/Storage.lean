/-
Model of LocalSnapshotStorage (snapshot.cpp:440-701) with its writer (snapshot.cpp:175-282) and reader
(snapshot.cpp:284-332), as a machine whose steps are the system calls and critical sections of the code. Threads
calling open, close(reader) and the deletions they trigger run between any two steps of the thread that writes a
snapshot; the process dies between any two steps.

* Disk: the directory `temp` and the directories `snapshot_<index>`, each with the file __raft_snapshot_meta (the
  index of SnapshotMeta and the table of file names) and other files. Names and contents are abstract.
* Removal of a directory (FileSystemAdaptor::delete_file(path, true)) is not atomic: until it is over the directory
  holds anything. It fails, leaving anything. rename of a directory is atomic; the meta file is replaced by a rename
  (ProtoBufFile::save; C48). Effects of system calls survive the death of the process; loss of power is not modelled.
* One thread at a time holds a writer (C35 shows that SnapshotExecutor sees to it), and a new snapshot is newer than
  the last one (C35 as well).
* The directory holds nothing else. Indexes are natural numbers; 0 means no snapshot.
-/
set_option linter.unusedSectionVars false
set_option linter.unusedSimpArgs false
set_option linter.unusedVariables false

namespace Braft.Snap

/-- LocalSnapshotPbMeta: SnapshotMeta's last_included_index and the file table. -/
structure Meta (N : Type) where
  index : Nat
  table : List N
deriving DecidableEq, Repr

/-- The contents of a directory. -/
structure Dir (N B : Type) where
  info : Option (Meta N)
  files : List (N × B)
deriving DecidableEq, Repr

/-- Error codes that make a difference: 0, EIO, EEXIST, -1 (what ProtoBufFile::save returns), others. -/
inductive Err | none | eio | eexist | minus1 | other
deriving DecidableEq, Repr

/-- Where the thread that writes a snapshot is. -/
inductive Writer (N B : Type) where
  /-- No writer. -/
  | idle
  /-- create (snapshot.cpp:555-561): temp is being destroyed. -/
  | clearing
  /-- The writer is in the user's hands: index, table and error code of it. -/
  | writing (index : Nat) (table : List N) (err : Err)
  /-- close: synced, old index read, new_path is being deleted (snapshot.cpp:621-647). -/
  | clearNew (new old : Nat) (d : Dir N B)
  /-- close: about to rename (snapshot.cpp:649). -/
  | renaming (new old : Nat) (d : Dir N B)
  /-- close: renamed, before ref (snapshot.cpp:656). -/
  | renamed (new old : Nat)
  /-- close: after ref, before _last_snapshot_index is set (snapshot.cpp:657-661). -/
  | reffed (new old : Nat)
  /-- close: before unref(old_index) (snapshot.cpp:663). -/
  | moved (new old : Nat)
  /-- close: destroying temp after an error (snapshot.cpp:666-668). -/
  | dropping (err : Err)

/-- The process: dead, in LocalSnapshotStorage::init, or running. -/
inductive Proc where
  | dead
  /-- init deletes temp (snapshot.cpp:458-468). -/
  | initTemp
  /-- init deletes all snapshots but the last, `m` (snapshot.cpp:489-508). -/
  | initOld (l : List Nat) (m : Nat)
  | up
deriving DecidableEq, Repr

/-- Disk, memory of LocalSnapshotStorage, and history: `pub` the snapshots published, newest first, with the contents
they were closed with; `left` those whose deletion failed; `closed` for each writer closed whether it published and
what close returned. -/
structure State (N B : Type) where
  proc : Proc
  temp : Option (Dir N B)
  snaps : List (Nat × Dir N B)
  last : Nat
  refs : List (Nat × Nat)
  readers : List (Nat × Nat)
  nextId : Nat
  dels : List Nat
  w : Writer N B
  pub : List (Nat × Dir N B)
  left : List Nat
  closed : List (Bool × Int)

variable {N B : Type} [DecidableEq N]

/-- Lookup in an association list. -/
def get {α : Type} (l : List (Nat × α)) (i : Nat) : Option α := (l.find? (fun x => x.1 == i)).map Prod.snd
/-- Removal of a key. -/
def del {α : Type} (l : List (Nat × α)) (i : Nat) : List (Nat × α) := l.filter (fun x => !(x.1 == i))
/-- Replacement. -/
def put {α : Type} (l : List (Nat × α)) (i : Nat) (a : α) : List (Nat × α) := (i, a) :: del l i

/-- _ref_map[index], 0 if there is none. -/
def State.ref (s : State N B) (i : Nat) : Nat := (get s.refs i).getD 0

/-- LocalSnapshotStorage::ref (snapshot.cpp:513-516). -/
def State.doRef (s : State N B) (i : Nat) : State N B := { s with refs := put s.refs i (s.ref i + 1) }

/-- LocalSnapshotStorage::unref (snapshot.cpp:527-541) up to the unlocking: at 0 the key is erased and the thread goes
on to delete the directory. -/
def State.doUnref (s : State N B) (i : Nat) : State N B :=
  match get s.refs i with
  | none => s
  | some c =>
    if c - 1 = 0 then { s with refs := del s.refs i, dels := i :: s.dels }
    else { s with refs := put s.refs i (c - 1) }

/-- A step of the removal of directory `i`: anything may be left. Removing what is not there does nothing. -/
def State.rot (s : State N B) (i : Nat) (d : Dir N B) : State N B :=
  match get s.snaps i with
  | none => s
  | some _ => { s with snaps := put s.snaps i d }

/-- What close returns (snapshot.cpp:670): 0 unless the error is EIO. -/
def closeRet (e : Err) : Int := if e = .eio then -1 else 0

/-- The process dies. -/
def State.crash (s : State N B) : State N B :=
  { s with proc := .dead, last := 0, refs := [], readers := [], dels := [], w := .idle }

/-- init (snapshot.cpp:448-468): with filter_before_copy_remote temp is kept. -/
def State.init (s : State N B) : State N B :=
  if s.proc = .dead then { s with proc := .initTemp } else s

/-- A step of the removal of temp in init. -/
def State.initTempStep (s : State N B) (d : Dir N B) : State N B :=
  if s.proc = .initTemp then { s with temp := s.temp.map (fun _ => d) } else s

/-- The largest number of a list. -/
def maxOf (l : List Nat) : Nat := l.foldl max 0

/-- init: temp is gone (or kept with `filter`), the snapshots are listed (snapshot.cpp:470-490); all but the largest
are to be deleted. -/
def State.initScan (s : State N B) (filter : Bool) : State N B :=
  if s.proc = .initTemp then
    { s with temp := if filter then s.temp else none,
             proc := .initOld ((s.snaps.map Prod.fst).filter (fun i => decide (i ≠ maxOf (s.snaps.map Prod.fst)))) (maxOf (s.snaps.map Prod.fst)) }
  else s

/-- init: a step of the removal of the next old snapshot. -/
def State.initOldStep (s : State N B) (d : Dir N B) : State N B :=
  match s.proc with
  | .initOld (i :: l) m => s.rot i d
  | _ => s

/-- init: an old snapshot is gone. -/
def State.initOldDone (s : State N B) : State N B :=
  match s.proc with
  | .initOld (i :: l) m => { s with snaps := del s.snaps i, proc := .initOld l m }
  | _ => s

/-- init: done (snapshot.cpp:506-511). -/
def State.initDone (s : State N B) : State N B :=
  match s.proc with
  | .initOld [] m => if s.snaps.isEmpty then { s with proc := .up, last := 0 } else { s with proc := .up, last := m }.doRef m
  | _ => s

/-- create (snapshot.cpp:543-575), start: with from_empty temp is destroyed first. -/
def State.create (s : State N B) : State N B :=
  match s.proc, s.w with
  | .up, .idle => { s with w := .clearing }
  | _, _ => s

/-- A step of that. -/
def State.createStep (s : State N B) (d : Dir N B) : State N B :=
  match s.w with
  | .clearing => { s with temp := s.temp.map (fun _ => d) }
  | _ => s

/-- create fails. -/
def State.createFail (s : State N B) : State N B :=
  match s.w with
  | .clearing => { s with w := .idle }
  | _ => s

/-- create succeeds: the directory exists; with from_empty it is new, else the table is loaded from the meta file and
files that are not in it are removed (LocalSnapshotWriter::init, snapshot.cpp:185-230). -/
def State.createDone (s : State N B) (fromEmpty : Bool) : State N B :=
  match s.w with
  | .clearing =>
    match (if fromEmpty then none else s.temp) with
    | none => { s with temp := some ⟨none, []⟩, w := .writing 0 [] .none }
    | some d =>
      match d.info with
      | none => { s with temp := some ⟨none, []⟩, w := .writing 0 [] .none }
      | some m => { s with temp := some { d with files := d.files.filter (fun f => decide (f.1 ∈ m.table)) }, w := .writing m.index m.table .none }
  | _ => s

/-- The holder of the writer changes files in temp, the table, the index (save_meta) or the error code, or calls sync:
all of it at will. -/
def State.write (s : State N B) (d : Dir N B) (index : Nat) (table : List N) (err : Err) : State N B :=
  match s.w with
  | .writing _ _ _ => { s with temp := some d, w := .writing index table err }
  | _ => s

/-- An unsuccessful end of close (snapshot.cpp:666-670): temp stays if keep_data_on_error, else its removal starts. -/
def State.giveUp (s : State N B) (e : Err) (keep : Bool) : State N B :=
  if keep then { s with w := .idle, closed := (false, closeRet e) :: s.closed } else { s with w := .dropping e }

/-- close(writer) (snapshot.cpp:609-634): the error code, sync (`syncOk`; it fails with -1), and the comparison with
the last index. -/
def State.close (s : State N B) (syncOk keep : Bool) : State N B :=
  match s.w with
  | .writing index table err =>
    if err ≠ .none then s.giveUp err keep
    else if !syncOk then s.giveUp .minus1 keep
    else
      let d : Dir N B := ⟨some ⟨index, table⟩, (s.temp.map Dir.files).getD []⟩
      let s := { s with temp := some d }
      if index = s.last then s.giveUp .eexist keep
      else { s with w := .clearNew index s.last d }
  | _ => s

/-- close: a step of the removal of new_path (snapshot.cpp:643). -/
def State.clearNewStep (s : State N B) (d : Dir N B) : State N B :=
  match s.w with
  | .clearNew n _ _ => s.rot n d
  | _ => s

/-- close: the removal of new_path ends, well or not (snapshot.cpp:643-647). -/
def State.clearNewDone (s : State N B) (ok keep : Bool) : State N B :=
  match s.w with
  | .clearNew n o d => if ok then { s with snaps := del s.snaps n, w := .renaming n o d } else s.giveUp .eio keep
  | _ => s

/-- close: rename (snapshot.cpp:649-654). -/
def State.rename (s : State N B) (ok keep : Bool) : State N B :=
  match s.w with
  | .renaming n o d =>
    if ok then
      match s.temp with
      | none => s.giveUp .eio keep
      | some t => { s with temp := none, snaps := put s.snaps n t, w := .renamed n o, pub := (n, d) :: s.pub }
    else s.giveUp .eio keep
  | _ => s

/-- close: ref(new_index) (snapshot.cpp:656). -/
def State.closeRef (s : State N B) : State N B :=
  match s.w with
  | .renamed n o => { s.doRef n with w := .reffed n o }
  | _ => s

/-- close: _last_snapshot_index = new_index (snapshot.cpp:657-661). -/
def State.closeLast (s : State N B) : State N B :=
  match s.w with
  | .reffed n o => { s with last := n, w := .moved n o }
  | _ => s

/-- close: unref(old_index) and return (snapshot.cpp:663-670); the deletion goes on in the same thread. -/
def State.closeUnref (s : State N B) : State N B :=
  match s.w with
  | .moved n o => { s.doUnref o with w := .idle, closed := (true, 0) :: s.closed }
  | _ => s

/-- close: a step of the removal of temp after an error. -/
def State.dropStep (s : State N B) (d : Dir N B) : State N B :=
  match s.w with
  | .dropping _ => { s with temp := s.temp.map (fun _ => d) }
  | _ => s

/-- close: temp is gone, or its removal failed (not checked, snapshot.cpp:667); close returns. -/
def State.dropDone (s : State N B) (ok : Bool) : State N B :=
  match s.w with
  | .dropping e => { s with temp := if ok then none else s.temp, w := .idle, closed := (false, closeRet e) :: s.closed }
  | _ => s

/-- open (snapshot.cpp:673-677), in the lock: the reader gets the last snapshot. -/
def State.open (s : State N B) : State N B :=
  if s.proc = .up ∧ s.last ≠ 0 then
    { s.doRef s.last with readers := (s.nextId, s.last) :: s.readers, nextId := s.nextId + 1 }
  else s

/-- close(reader) (snapshot.cpp:696-701), or open when reader->init() fails (snapshot.cpp:683-688). -/
def State.closeReader (s : State N B) (id : Nat) : State N B :=
  match get s.readers id with
  | none => s
  | some i => { s with readers := del s.readers id }.doUnref i

/-- A step of destroy_snapshot (snapshot.cpp:518-525) in a thread that called unref. -/
def State.delStep (s : State N B) (i : Nat) (d : Dir N B) : State N B :=
  if i ∈ s.dels then s.rot i d else s

/-- It ends, well or not. -/
def State.delDone (s : State N B) (i : Nat) (ok : Bool) : State N B :=
  if i ∈ s.dels then
    if ok then { s with dels := s.dels.erase i, snaps := del s.snaps i }
    else { s with dels := s.dels.erase i, left := i :: s.left }
  else s

/-- Before the first start: an empty directory. -/
def State.empty : State N B :=
  { proc := .dead, temp := none, snaps := [], last := 0, refs := [], readers := [], nextId := 0, dels := [], w := .idle,
    pub := [], left := [], closed := [] }

/-- One step. A snapshot that is closed without error is not older than the last one (Props/Executor: the executor sees to that). -/
inductive Step : State N B → State N B → Prop where
  | crash (s) : Step s s.crash
  | init (s) : Step s s.init
  | initTempStep (s d) : Step s (s.initTempStep d)
  | initScan (s b) : Step s (s.initScan b)
  | initOldStep (s d) : Step s (s.initOldStep d)
  | initOldDone (s) : Step s s.initOldDone
  | initDone (s) : Step s s.initDone
  | create (s) : Step s s.create
  | createStep (s d) : Step s (s.createStep d)
  | createFail (s) : Step s s.createFail
  | createDone (s b) : Step s (s.createDone b)
  | write (s d i t e) : Step s (s.write d i t e)
  | close (s a b) (h : ∀ i t, s.w = .writing i t .none → s.last ≤ i) : Step s (s.close a b)
  | clearNewStep (s d) : Step s (s.clearNewStep d)
  | clearNewDone (s a b) : Step s (s.clearNewDone a b)
  | rename (s a b) : Step s (s.rename a b)
  | closeRef (s) : Step s s.closeRef
  | closeLast (s) : Step s s.closeLast
  | closeUnref (s) : Step s s.closeUnref
  | dropStep (s d) : Step s (s.dropStep d)
  | dropDone (s a) : Step s (s.dropDone a)
  | open (s) : Step s s.open
  | closeReader (s i) : Step s (s.closeReader i)
  | delStep (s i d) : Step s (s.delStep i d)
  | delDone (s i a) : Step s (s.delDone i a)

/-- Everything that can happen. -/
inductive Hist : State N B → Prop where
  | empty : Hist State.empty
  | step {s t} (h : Hist s) (hs : Step s t) : Hist t

/-- Later. -/
inductive Later : State N B → State N B → Prop where
  | refl (s) : Later s s
  | step {s t u} (h : Later s t) (hs : Step t u) : Later s u

end Braft.Snap
