/-
Model of the paths that the copy of a remote snapshot touches: create_sub_directory (file_system_adaptor.cpp:258-304),
LocalSnapshotCopier::copy_file (snapshot.cpp:952-975, start_to_copy_to_file remote_file_copier.cpp:131-142) and the file
operations of filter_before_copy (snapshot.cpp:832-918).

* A path is the list of its components; `.` and `..` are components of their own. File names in a snapshot are relative
  (a leading or double `/` changes nothing, because the name is appended to the directory of the writer). Symbolic links
  are not modelled.
* Which files are removed, linked or copied is in Snap/Copier.lean; here it is an argument.
-/
set_option linter.unusedVariables false

namespace Braft.Paths
variable {A : Type} [DecidableEq A]

/-- A component of a path. -/
inductive Comp (A : Type) where
  | here
  | up
  | name (a : A)
deriving DecidableEq, Repr

/-- Where a path leads, from a directory. -/
def resolve : List A → List (Comp A) → List A
  | d, [] => d
  | d, .here :: r => resolve d r
  | d, .up :: r => resolve d.dropLast r
  | d, .name a :: r => resolve (d ++ [a]) r

/-- What changes the file system, with the place that is changed. -/
inductive Op (A : Type) where
  | mkdir (p : List A)
  /-- open with O_TRUNC and O_CREAT. -/
  | trunc (p : List A)
  | delete (p : List A)
  /-- A hard link; the place of the new entry. -/
  | link (p : List A)
deriving DecidableEq, Repr

/-- The place that an operation changes. -/
def Op.target : Op A → List A
  | .mkdir p => p
  | .trunc p => p
  | .delete p => p
  | .link p => p

/-- The loop of create_sub_directory (file_system_adaptor.cpp:286-302). `ok p`: the directory `p` can be made, or is there. -/
def mkdirs (ok : List A → Bool) : List A → List (Comp A) → List (Op A) × Bool
  | d, [] => ([], true)
  | d, .here :: r => mkdirs ok d r
  | d, .up :: r => mkdirs ok d r
  | d, .name a :: r =>
    if ok (d ++ [a]) then (.mkdir (d ++ [a]) :: (mkdirs ok (d ++ [a]) r).1, (mkdirs ok (d ++ [a]) r).2)
    else ([.mkdir (d ++ [a])], false)

/-- create_sub_directory (file_system_adaptor.cpp:258-304); the parent directory exists. -/
def createSub (ok : List A → Bool) (parent : List A) (sub : List (Comp A)) : List (Op A) × Bool :=
  if Comp.up ∈ sub then ([], false) else mkdirs ok parent sub

/-- create_directory with create_parent_directories: every directory on the way (butil's CreateDirectoryAndGetError, used by
PosixFileSystemAdaptor::create_directory, file_system_adaptor.cpp:206-211). A failure ends it. -/
def createAll (ok : List A → Bool) : List A → List (Comp A) → List (Op A) × Bool
  | d, [] => ([], true)
  | d, .here :: r => createAll ok d r
  | d, .up :: r => createAll ok d.dropLast r
  | d, .name a :: r =>
    if ok (d ++ [a]) then (.mkdir (d ++ [a]) :: (createAll ok (d ++ [a]) r).1, (createAll ok (d ++ [a]) r).2)
    else ([.mkdir (d ++ [a])], false)

/-- copy_file up to the start of the session (snapshot.cpp:958-987, remote_file_copier.cpp:136): the directory of the file is
made by one or the other function, as raft_create_parent_directories (`all`) says; when that fails the error is set and the
file is opened all the same. -/
def copyFile (all : Bool) (ok : List A → Bool) (writer : List A) (file : List (Comp A)) : List (Op A) :=
  let dir := file.dropLast
  let made := if dir = [] ∨ dir = [.here] then [] else if all then (createAll ok writer dir).1 else (createSub ok writer dir).1
  made ++ [.trunc (resolve writer file)]

/-- What filter_before_copy does with a file name. -/
inductive Filter where
  | keep
  /-- Removed at the end (snapshot.cpp:912-915). -/
  | remove
  /-- The file of the last snapshot is linked (snapshot.cpp:892-893). -/
  | link
deriving DecidableEq, Repr

/-- The operations of filter_before_copy for a file name (snapshot.cpp:892-893, 912-915). -/
def filterFile (writer : List A) (k : Filter) (file : List (Comp A)) : List (Op A) :=
  match k with
  | .keep => []
  | .remove => [.delete (resolve writer file)]
  | .link => [.delete (resolve writer file), .link (resolve writer file)]

/-- All operations of the copy of a snapshot whose table lists these names (snapshot.cpp:766-782); what happens to a name is
an argument. The files of the writer itself (Snap/Storage.lean) are not among them. -/
def copyOps (all : Bool) (ok : List A → Bool) (writer : List A) (files : List (Filter × Bool × List (Comp A))) : List (Op A) :=
  files.flatMap (fun f => filterFile writer f.1 f.2.2) ++ files.flatMap (fun f => if f.2.1 then copyFile all ok writer f.2.2 else [])

end Braft.Paths
