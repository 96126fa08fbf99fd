import Verif.Snap.FileCopy
/-
Model of the file service: FileServiceImpl (file_service.h:27-51, file_service.cpp:103-120 and the checks of get_file,
file_service.cpp:32-61), the check of SnapshotFileReader::read_file (snapshot.cpp:355-372) and the registration by
LocalSnapshotReader (snapshot.cpp:409-436, the destructor snapshot.cpp:274-276).

* Ids are 64 bit numbers. What a registered reader reads is in Snap/FileCopy.lean; here only which file of which reader.
* A get_file looks its reader up and then reads without the lock, while it holds a reference: a reader that is removed
  meanwhile finishes the request (file_service.cpp:37-47). Look-up and read are two steps.
-/
set_option linter.unusedVariables false

namespace Braft.Service

/-- Where the counter starts (file_service.cpp:103-105): `(int64_t)pid << 45 | (us << 17 >> 17)`; the second shift is that of
a signed number. -/
def firstId (pid us : BitVec 64) : BitVec 64 := (pid <<< 45) ||| ((us <<< 17).sshiftRight 17)

/-- A reader for a snapshot: its directory and the files in its table (snapshot.cpp:351-353). -/
structure Reader (D N : Type) where
  dir : D
  files : List N
deriving DecidableEq

/-- _next_id and _reader_map (file_service.h:44-45), and all ids that add_reader has handed out since the start. -/
structure State (D N : Type) where
  next : BitVec 64
  map : BitVec 64 → Option (Reader D N)
  given : List (BitVec 64 × Reader D N)

/-- The constructor. -/
def State.init {D N : Type} (pid us : BitVec 64) : State D N := ⟨firstId pid us, fun _ => none, []⟩

/-- add_reader (file_service.cpp:107-112). -/
def State.add {D N : Type} (s : State D N) (r : Reader D N) : State D N × BitVec 64 :=
  (⟨s.next + 1, fun i => if i = s.next then some r else s.map i, s.given ++ [(s.next, r)]⟩, s.next)

/-- remove_reader (file_service.cpp:114-117). -/
def State.remove {D N : Type} (s : State D N) (id : BitVec 64) : State D N × Int :=
  ({ s with map := fun i => if i = id then none else s.map i }, if (s.map id).isSome then 0 else -1)

/-- The answer of get_file before data is read. -/
inductive Answer (D N : Type) where
  | enoent
  | erequest
  | eperm
  /-- The table of the snapshot itself. -/
  | table (dir : D)
  /-- Goes on to read this file of this directory. -/
  | file (dir : D) (name : N)
deriving DecidableEq

/-- get_file up to the read (file_service.cpp:37-61, snapshot.cpp:362-372). `meta`: the name of the meta file. -/
def State.get {D N : Type} [DecidableEq N] (metaFile : N) (s : State D N) (id : BitVec 64) (name : N) (off count : Int) : Answer D N :=
  match s.map id with
  | none => .enoent
  | some r =>
    if count ≤ 0 ∨ off < 0 then .erequest
    else if name = metaFile then .table r.dir
    else if name ∈ r.files then .file r.dir name
    else .eperm

/-- All runs of one process. -/
inductive Run {D N : Type} (pid us : BitVec 64) : State D N → Prop where
  | init : Run pid us (State.init pid us)
  | add {s} (h : Run pid us s) (r : Reader D N) : Run pid us (s.add r).1
  | remove {s} (h : Run pid us s) (id : BitVec 64) : Run pid us (s.remove id).1

/-- What follows a state, in any number of steps. -/
inductive Later {D N : Type} : State D N → State D N → Prop where
  | refl (s) : Later s s
  | add {s t} (h : Later s t) (r : Reader D N) : Later s (t.add r).1
  | remove {s t} (h : Later s t) (id : BitVec 64) : Later s (t.remove id).1

end Braft.Service
