import Verif.Snap.FileCopyInv
/-
Model of LocalSnapshotCopier (snapshot.cpp:759-1034): the snapshot of another node is brought into the directory `temp`,
from where it is published. Files are directory entries that refer to inodes, so that a hard link made by
filter_before_copy shares its content with the file of the last snapshot.

* A table entry is the checksum of the file, if it has one (LocalFileMeta: checksum). All files are local
  (source FILE_SOURCE_LOCAL); user_meta is not modelled. The SnapshotMeta in the table is in Snap/Storage.lean.
* One writer at a time (SnapshotExecutor, Snap/Executor.lean). Calls of the file system are atomic and happen in program
  order, except the removal of a directory with its content. Each of them may be the last before the process is killed.
* The copy of one file is a session of Snap/FileCopy.lean.
* `Allow` says which crashes a run may have, so that the theorems can name the dangerous ones.
-/
set_option linter.unusedSectionVars false
set_option linter.unusedSimpArgs false
set_option linter.unusedVariables false

namespace Braft.Copier
open Braft.Store (Bytes)

variable {N K : Type} [DecidableEq N] [DecidableEq K]

/-- LocalSnapshotMetaTable::_file_map: name to checksum (snapshot.h:34-76). -/
abbrev Table (N K : Type) := N → Option (Option K)

/-- A remote snapshot: table, names in the order of the map, content of the files. -/
structure Src (N K : Type) where
  tab : Table N K
  names : List N
  data : N → Bytes

/-- Point update. -/
def upd {α : Type} (f : N → α) (n : N) (a : α) : N → α := fun m => if m = n then a else f m

/-- What runs: what the copier does next. -/
inductive Pc (N : Type) where
  /-- No copier. -/
  | idle
  /-- `temp` is removed with its content; then an install goes on with an empty one (`true`), or not. -/
  | wiping (go : Bool)
  /-- LocalSnapshotWriter::init removes files that are not in the table (snapshot.cpp:199-227). -/
  | cleaning
  /-- The loop of filter_before_copy over the remote files: those to come and `to_remove`, last first. -/
  | filt (rest rm : List N)
  /-- Before the link of this file (snapshot.cpp:893). -/
  | link (n : N) (rest rm : List N)
  /-- The files in `to_remove` are deleted (snapshot.cpp:912-915). -/
  | dels (rm : List N)
  /-- Before save_meta and sync of filter (snapshot.cpp:945-949). -/
  | prep
  /-- The loop of copy (snapshot.cpp:780-782). -/
  | files (rest : List N)
  /-- A session copies this file. -/
  | copying (n : N) (rest : List N)
  /-- Before the sync of copy_file (snapshot.cpp:1007). -/
  | sync (rest : List N)
  /-- The copier is ok and closes the writer. -/
  | ready
deriving DecidableEq

structure State (N K : Type) where
  /-- Content of the inodes, and how many there are. -/
  ino : Nat → Bytes
  next : Nat
  /-- Files in `temp`, and the table in its meta file. -/
  temp : N → Option Nat
  disk : Table N K
  /-- The last snapshot. -/
  last : N → Option Nat
  lastTab : Table N K
  /-- The table of the writer. -/
  mem : Table N K
  /-- The remote snapshot, and whether the writer was opened on the `temp` that was there. -/
  src : Src N K
  fil : Bool
  pc : Pc N

def State.empty : State N K :=
  { ino := fun _ => [], next := 0, temp := fun _ => none, disk := fun _ => none, last := fun _ => none, lastTab := fun _ => none,
    mem := fun _ => none, src := ⟨fun _ => none, [], fun _ => []⟩, fil := false, pc := .idle }

/-- filter (snapshot.cpp:920-926) starts: LocalSnapshotStorage::create(from_empty) either removes `temp` or opens the writer
on it; LocalSnapshotWriter::init loads the table (snapshot.cpp:185-198). -/
def State.begin (s : State N K) (src : Src N K) (filter : Bool) : State N K :=
  if s.pc = .idle then
    if filter then { s with src, fil := true, mem := s.disk, pc := .cleaning }
    else { s with src, fil := false, mem := fun _ => none, pc := .wiping true }
  else s

/-- Part of `temp` is removed (destroy_snapshot, snapshot.cpp:518-525). If the removal fails half way the rest stays, as after a
crash. -/
def State.wipeFile (s : State N K) (n : N) : State N K :=
  match s.pc with
  | .wiping _ => { s with temp := upd s.temp n none }
  | _ => s

/-- The meta file of `temp` is removed, in the same removal (destroy_snapshot, snapshot.cpp:518-525). -/
def State.wipeMeta (s : State N K) : State N K :=
  match s.pc with
  | .wiping _ => { s with disk := fun _ => none }
  | _ => s

/-- All of `temp` is removed; an install makes it anew (LocalSnapshotStorage::create, snapshot.cpp:547-575). -/
def State.wiped (s : State N K) : State N K :=
  match s.pc with
  | .wiping go => { s with temp := fun _ => none, disk := fun _ => none, mem := fun _ => none, fil := false,
                           pc := if go then .prep else .idle }
  | _ => s

/-- init of the writer removes an entry of the directory that is not in the table (snapshot.cpp:212-226). Only entries of
the directory itself are seen, and a directory that is not empty is not removed, so files in subdirectories stay. -/
def State.clean (s : State N K) (n : N) : State N K :=
  if s.pc = .cleaning ∧ s.mem n = none then { s with temp := upd s.temp n none } else s

/-- filter_before_copy, the loop over the files of the writer (snapshot.cpp:838-843). `rm`: those that the remote snapshot
does not have. -/
def State.cleaned (s : State N K) (rm : List N) : State N K :=
  if s.pc = .cleaning then
    { s with mem := fun n => if s.src.tab n = none then none else s.mem n, pc := .filt s.src.names rm }
  else s

/-- One round of the loop over the remote files, up to the deletion of the old file before the link
(snapshot.cpp:847-892). -/
def State.filter (s : State N K) : State N K :=
  match s.pc with
  | .filt (n :: rest) rm =>
    match s.src.tab n with
    | some (some k) =>
      if s.mem n = some (some k) then { s with pc := .filt rest rm }
      else
        let rm1 := if s.mem n = none then rm else n :: rm
        if s.lastTab n = some (some k) then
          { s with mem := upd s.mem n none, temp := upd s.temp n none, pc := .link n rest rm1 }
        else { s with mem := upd s.mem n none, pc := .filt rest rm1 }
    | _ => { s with mem := upd s.mem n none, pc := .filt rest (n :: rm) }
  | _ => s

/-- The link and add_file (snapshot.cpp:893-904). `ok`: the link could be made. -/
def State.link (s : State N K) (ok : Bool) : State N K :=
  match s.pc with
  | .link n rest rm =>
    if ok ∧ s.last n ≠ none then
      { s with temp := upd s.temp n (s.last n), mem := upd s.mem n (s.lastTab n),
               pc := .filt rest (if rm.head? = some n then rm.tail else rm) }
    else { s with pc := .filt rest rm }
  | _ => s

/-- sync at the end of filter_before_copy (snapshot.cpp:907-910). If it fails filter removes `temp` and makes a new writer
(snapshot.cpp:929-936). -/
def State.filtered (s : State N K) (ok : Bool) : State N K :=
  match s.pc with
  | .filt [] rm => if ok then { s with disk := s.mem, pc := .dels rm } else { s with pc := .wiping true }
  | _ => s

/-- A file in to_remove is deleted (snapshot.cpp:912-915). -/
def State.delete (s : State N K) : State N K :=
  match s.pc with
  | .dels (n :: rm) => { s with temp := upd s.temp n none, pc := .dels rm }
  | .dels [] => { s with pc := .prep }
  | _ => s

/-- save_meta and sync (snapshot.cpp:945-949). -/
def State.prepared (s : State N K) (ok : Bool) : State N K :=
  if s.pc = .prep then
    if ok then { s with disk := s.mem, pc := .files s.src.names } else { s with pc := .idle }
  else s

/-- copy_file up to the start of the session: a file in the table is skipped, else it is opened with O_TRUNC | O_CREAT
(snapshot.cpp:953-992, remote_file_copier.cpp:137). -/
def State.next_file (s : State N K) : State N K :=
  match s.pc with
  | .files (n :: rest) =>
    if s.mem n ≠ none then { s with pc := .files rest }
    else
      match s.temp n with
      | some i => { s with ino := upd s.ino i [], pc := .copying n rest }
      | none => { s with ino := upd s.ino s.next [], temp := upd s.temp n (some s.next), next := s.next + 1,
                         pc := .copying n rest }
  | .files [] => { s with pc := .ready }
  | _ => s

/-- The session writes: the content of the file is `b` now. -/
def State.write (s : State N K) (b : Bytes) : State N K :=
  match s.pc with
  | .copying n _ =>
    match s.temp n with
    | some i => { s with ino := upd s.ino i b }
    | none => s
  | _ => s

/-- The session ended well (snapshot.cpp:993-1006). -/
def State.copied (s : State N K) : State N K :=
  match s.pc with
  | .copying n rest => { s with mem := upd s.mem n (s.src.tab n), pc := .sync rest }
  | _ => s

/-- sync of copy_file (snapshot.cpp:1007-1010). -/
def State.synced (s : State N K) (ok : Bool) : State N K :=
  match s.pc with
  | .sync rest => if ok then { s with disk := s.mem, pc := .files rest } else { s with pc := .idle }
  | _ => s

/-- The copier fails: session, cancel or a call of the file system (snapshot.cpp:784-797). -/
def State.fail (s : State N K) : State N K :=
  match s.pc with
  | .files _ => { s with pc := .idle }
  | .copying _ _ => { s with pc := .idle }
  | .ready => { s with pc := .idle }
  | _ => s

/-- LocalSnapshotStorage::close renames `temp` (Snap/Storage.lean). -/
def State.publish (s : State N K) : State N K :=
  if s.pc = .ready then
    { s with last := s.temp, lastTab := s.mem, temp := fun _ => none, disk := fun _ => none, mem := fun _ => none, pc := .idle }
  else s

/-- `temp` is removed while there is no install: by a snapshot that is taken, by close of a writer with an error, or when
the storage starts. -/
def State.destroy (s : State N K) : State N K := if s.pc = .idle then { s with pc := .wiping false } else s

/-- The process is killed and starts again. -/
def State.crash (s : State N K) : State N K := { s with mem := fun _ => none, pc := .idle }

/-- The content of a snapshot that this node took itself: new files, whose checksums are those of the contents. -/
structure Saved (ck : Bytes → K) (s : State N K) (ino : Nat → Bytes) (next : Nat) (dir : N → Option Nat) (tab : Table N K) : Prop where
  old : ∀ i < s.next, ino i = s.ino i
  fresh : ∀ n i, dir n = some i → s.next ≤ i ∧ i < next
  le : s.next ≤ next
  inj : ∀ n m i, dir n = some i → dir m = some i → n = m
  sums : ∀ n k, tab n = some (some k) → ∃ i, dir n = some i ∧ ck (ino i) = k

/-- Which crashes a run may have: while filter_before_copy runs, and while a directory is removed. -/
structure Allow where
  crashFilter : Bool
  crashWipe : Bool

/-- Where a crash may happen. -/
def Allow.crash (A : Allow) : Pc N → Bool
  | .filt _ _ | .link _ _ _ | .dels _ => A.crashFilter
  | .wiping _ => A.crashWipe
  | _ => true

/-- The remote snapshot is in order: its names are those of its table, and its checksums those of its contents. -/
structure Src.Ok (ck : Bytes → K) (src : Src N K) : Prop where
  names : ∀ n, n ∈ src.names ↔ src.tab n ≠ none
  nodup : src.names.Nodup
  sums : ∀ n k, src.tab n = some (some k) → ck (src.data n) = k

/-- A session of Snap/FileCopy.lean that ends without error may turn `src` into `dst`. -/
def Copies (src dst : Bytes) : Prop :=
  ∃ (c : FileCopy.Cfg) (P : Bool) (t : FileCopy.State), FileCopy.Run (N := Unit) c () P t ∧ c.file = src ∧ c.holes = false ∧
    c.flagChanges = false ∧ c.file.length < 2 ^ 64 ∧ t.pc = .finished ∧ t.ok = true ∧ t.dest = dst

/-- One step. `ck`: the checksum; `sub n`: the file is in a subdirectory. -/
inductive Step (ck : Bytes → K) (sub : N → Bool) (A : Allow) : State N K → State N K → Prop where
  | begin (s src filter) (h : src.Ok ck) : Step ck sub A s (s.begin src filter)
  | wipeFile (s n) : Step ck sub A s (s.wipeFile n)
  | wipeMeta (s) : Step ck sub A s s.wipeMeta
  | wiped (s) : Step ck sub A s s.wiped
  | clean (s n) (h : sub n = false) : Step ck sub A s (s.clean n)
  | cleaned (s) (rm : List N) (h : ∀ n, sub n = false → s.mem n = none → s.temp n = none)
      (hr : ∀ n, n ∈ rm ↔ s.mem n ≠ none ∧ s.src.tab n = none) (hd : rm.Nodup) : Step ck sub A s (s.cleaned rm)
  | filter (s) : Step ck sub A s s.filter
  | link (s ok) : Step ck sub A s (s.link ok)
  | filtered (s ok) : Step ck sub A s (s.filtered ok)
  | delete (s) : Step ck sub A s s.delete
  | prepared (s ok) : Step ck sub A s (s.prepared ok)
  | next_file (s) : Step ck sub A s s.next_file
  | write (s b) : Step ck sub A s (s.write b)
  | copied (s) (h : ∀ n rest i, s.pc = .copying n rest → s.temp n = some i → Copies (s.src.data n) (s.ino i)) : Step ck sub A s s.copied
  | synced (s ok) : Step ck sub A s (s.synced ok)
  | fail (s) : Step ck sub A s s.fail
  | publish (s) : Step ck sub A s s.publish
  | destroy (s) : Step ck sub A s s.destroy
  /-- A snapshot of this node is published: `temp` was removed and filled, and is renamed. -/
  | saved (s ino next dir tab) (h0 : s.pc = .idle) (h : Saved ck s ino next dir tab) :
      Step ck sub A s { s with ino, next, last := dir, lastTab := tab, temp := fun _ => none, disk := fun _ => none }
  /-- A snapshot of this node was about to be published when the process was killed. -/
  | left (s ino next dir tab) (h0 : s.pc = .idle) (h : Saved ck s ino next dir tab) :
      Step ck sub A s { s with ino, next, temp := dir, disk := tab }
  | crash (s) (h : A.crash s.pc = true) : Step ck sub A s s.crash

/-- All runs. -/
inductive Run (ck : Bytes → K) (sub : N → Bool) (A : Allow) : State N K → Prop where
  | start : Run ck sub A State.empty
  | step {s t} (h : Run ck sub A s) (hs : Step ck sub A s t) : Run ck sub A t

end Braft.Copier
