import Verif.PeerText
import Verif.Snap.Paths
/-
Model of how storages are named and removed: parse_uri and gc_dir (storage.h:70-120), LogStorage, SnapshotStorage and
RaftMetaStorage create() and destroy() (storage.cpp:44-163), the gc_instance functions (log.cpp:1290-1300,
memory_log.cpp:162-164, snapshot.cpp:726-736, raft_meta.cpp:403-433, 558-571, 607-619), parse_mixed_path and the
constructor and destructor of MixedMetaStorage (raft_meta.cpp:131-194), the registry of merged meta storages
(raft_meta.cpp:57-97) and gc_raft_data (raft.cpp:109-133).

* The file system is a map from absolute places (lists of names) to what is there; symbolic links are not modelled. Recursive
  deletion removes an arbitrary part of the tree when it fails or the process is killed. `rename` fails when its target lies
  in its source (POSIX EINVAL), and may fail for any other reason.
* Which types are registered is an argument: the lookup in log_storage_extension(), meta_storage_extension() and
  snapshot_storage_extension() is a parameter (raft.cpp:62-79 registers local and memory logs; local, local-merged and
  local-mixed meta; local snapshots).
* A merged meta storage is a leveldb database: per place a map from group key to the saved term and vote, kept apart from the
  file map (that a directory given to gc contains the database of another group is not modelled).
-/
set_option linter.unusedVariables false
set_option linter.unusedSimpArgs false

namespace Braft.Uri
open Braft.Text (isSpace splitOn printInt)
open Braft.Paths (Comp resolve)

abbrev Str := List Char

/-! ## Texts -/

/-- StringPiece::find and the two halves around the first occurrence of `pat`. -/
def cut (pat : Str) : Str → Option (Str × Str)
  | [] => if pat = [] then some ([], []) else none
  | c :: s =>
    if pat.isPrefixOf (c :: s) then some ([], (c :: s).drop pat.length)
    else match cut pat s with
      | some (a, b) => some (c :: a, b)
      | none => none

/-- StringPiece::trim_spaces (used at storage.h:78). -/
def trim (s : Str) : Str := ((s.dropWhile isSpace).reverse.dropWhile isSpace).reverse

/-- "://" -/
def sep : Str := "://".toList

/-- parse_uri (storage.h:70-93) and the check for an empty protocol of its callers (storage.cpp:48, 69, 88, 109, 128, 150):
protocol and parameter; every white space character of the parameter is dropped. -/
def parseUri (uri : Str) : Option (Str × Str) :=
  match cut sep uri with
  | none => none
  | some (a, b) => if trim a = [] then none else some (trim a, b.filter (fun c => !isSpace c))

def mergedKey : Str := "merged_path=".toList
def singleKey : Str := "&&single_path=".toList

/-- What is left after the first "://", if there is one (raft_meta.cpp:135-138). -/
def afterSep (s : Str) : Str :=
  match cut sep s with
  | some (_, b) => b
  | none => s

/-- MixedMetaStorage::parse_mixed_path (raft_meta.cpp:131-156): the merged path and the single path. -/
def parseMixed (s : Str) : Option (Str × Str) :=
  match cut mergedKey (afterSep s) with
  | none => none
  | some (_, b) => cut singleKey b

/-- NodeImpl::_v_group_id, the key of a node in a merged meta storage (node.cpp:164, 190). -/
def vgid (group : Str) (idx : Int) : Str := group ++ '_' :: printInt idx

/-! ## Places -/

abbrev Place := List Str

/-- One component of a path; the empty component (a double or trailing slash) stays where it is. -/
def comp (s : Str) : Comp Str :=
  if s = [] then .here else if s = ['.'] then .here else if s = ['.', '.'] then .up else .name s

/-- The place a path leads to: from the root when it begins with a slash, else from the working directory. -/
def place (cwd : Place) (p : Str) : Place :=
  resolve (if p.head? = some '/' then [] else cwd) ((splitOn '/' p).map comp)

/-- path + ".tmp" (storage.h:98). -/
def tmpOf (p : Str) : Str := p ++ ".tmp".toList

/-! ## The file system -/

/-- What is at each place: nothing, or something (`B`: a directory, or a file with its content). -/
abbrev Fs (B : Type) := Place → Option B

variable {B : Type}

/-- The state after butil::DeleteFile(p, true) returned true. -/
def Fs.del (f : Fs B) (p : Place) : Fs B := fun q => if p <+: q then none else f q

/-- A recursive deletion that failed or was interrupted: an arbitrary part of the tree is gone. -/
def DelPart (p : Place) (f g : Fs B) : Prop := ∀ q, g q = f q ∨ (p <+: q ∧ g q = none)

/-- The state after rename(p, q) succeeded. -/
def Fs.ren (f : Fs B) (p q : Place) : Fs B := fun r =>
  if q <+: r then f (p ++ r.drop q.length) else if p <+: r then none else f r

/-- What gc_dir returns: 0, or -1. A call that does not return because the process is killed counts as `fail`. -/
inductive Res where
  | ok
  | fail
deriving DecidableEq, Repr

/-- gc_dir (storage.h:95-120), from the state `f`. An empty path names nothing (ENOENT). -/
inductive GcDir (cwd : Place) (p : Str) : Fs B → Res → Fs B → Prop
  /-- Deleting the temporary path fails (storage.h:100-103), or the process is killed. -/
  | tmpFails {f g} : DelPart (place cwd (tmpOf p)) f g → GcDir cwd p f .fail g
  /-- There is nothing to delete (storage.h:116-119). -/
  | absent {f} : (p = [] ∨ (f.del (place cwd (tmpOf p))) (place cwd p) = none) →
      GcDir cwd p f .ok (f.del (place cwd (tmpOf p)))
  /-- The rename fails (storage.h:105-111), or the process is killed. -/
  | renFails {f} : GcDir cwd p f .fail (f.del (place cwd (tmpOf p)))
  /-- The second deletion fails (storage.h:112-115), or the process is killed. -/
  | delFails {f g} : p ≠ [] → (f.del (place cwd (tmpOf p))) (place cwd p) ≠ none →
      ¬ place cwd p <+: place cwd (tmpOf p) →
      DelPart (place cwd (tmpOf p)) ((f.del (place cwd (tmpOf p))).ren (place cwd p) (place cwd (tmpOf p))) g →
      GcDir cwd p f .fail g
  /-- Everything works. -/
  | done {f} : p ≠ [] → (f.del (place cwd (tmpOf p))) (place cwd p) ≠ none →
      ¬ place cwd p <+: place cwd (tmpOf p) →
      GcDir cwd p f .ok
        (((f.del (place cwd (tmpOf p))).ren (place cwd p) (place cwd (tmpOf p))).del (place cwd (tmpOf p)))

/-! ## Types of storages -/

/-- Types of log storages (raft.cpp:65-66). -/
inductive LogKind where
  | segment
  | memory
deriving DecidableEq, Repr

/-- Types of meta storages (raft.cpp:71-76). -/
inductive MetaKind where
  | single
  | merged
  | mixed
deriving DecidableEq, Repr

/-- The lookups of the three extension maps; the only snapshot type is the local one (raft.cpp:78). -/
structure Types where
  log : Str → Option LogKind
  metaKind : Str → Option MetaKind
  snap : Str → Option Unit

/-- What a log storage URI names: the directory of a segment log, a log in memory. -/
inductive LogAt where
  | dir (p : Str)
  | memory
deriving DecidableEq, Repr

/-- What a meta storage URI names: a directory, the path of a merged storage, or both. -/
structure MetaAt where
  single : Option Str
  merged : Option Str
deriving DecidableEq, Repr

/-- LogStorage::create (storage.cpp:44-61): the storage that is opened, `none` when NULL is returned. -/
def Types.createLog (T : Types) (uri : Str) : Option LogAt :=
  match parseUri uri with
  | none => none
  | some (proto, par) =>
    match T.log proto with
    | none => none
    | some .segment => some (.dir par)
    | some .memory => some .memory

/-- SnapshotStorage::create (storage.cpp:84-101): the directory. -/
def Types.createSnap (T : Types) (uri : Str) : Option Str :=
  match parseUri uri with
  | none => none
  | some (proto, par) =>
    match T.snap proto with
    | none => none
    | some _ => some par

/-- RaftMetaStorage::create followed by init (storage.cpp:124-141; raft_meta.cpp:158-184, 203-207, 573-575): `none` when NULL is
returned, or init fails because the path of a mixed storage cannot be parsed. -/
def Types.createMeta (T : Types) (uri : Str) : Option MetaAt :=
  match parseUri uri with
  | none => none
  | some (proto, par) =>
    match T.metaKind proto with
    | none => none
    | some .single => some ⟨some par, none⟩
    | some .merged => some ⟨none, some par⟩
    | some .mixed =>
      match parseMixed par with
      | none => none
      | some (m, s) => some ⟨some s, some m⟩

/-! ## Removing -/

/-- The state that gc works on. -/
structure World (B M : Type) where
  fs : Fs B
  /-- Paths of the merged storages that this process has registered and initialised, as they were written. -/
  open_ : List Str
  /-- Paths that are registered but not initialised. -/
  uninit : List Str
  /-- The databases, by place, and their content by group key. -/
  db : Place → Str → Option M

variable {M : Type}

/-- Delete in a leveldb database. -/
def delKey (db : Place → Str → Option M) (a : Place) (k : Str) : Place → Str → Option M :=
  fun a' k' => if a' = a ∧ k' = k then none else db a' k'

/-- remove_instance_from_meta_storage and delete_meta (raft_meta.cpp:85-97, 834-866). -/
inductive RemKey (cwd : Place) (path key : Str) : World B M → Res → World B M → Prop
  /-- No merged storage is registered under this path: 0 (raft_meta.cpp:89-91). -/
  | absent {w} : path ∉ w.open_ → path ∉ w.uninit → RemKey cwd path key w .ok w
  /-- It is not initialised (raft_meta.cpp:837-841), or leveldb fails, or the process is killed before. -/
  | fails {w} : path ∈ w.open_ ∨ path ∈ w.uninit → RemKey cwd path key w .fail w
  /-- It is deleted; the process may be killed right after. -/
  | done {w} (r : Res) : path ∈ w.open_ → RemKey cwd path key w r { w with db := delKey w.db (place cwd path) key }

/-- gc_dir on the state. -/
inductive GcDirW (cwd : Place) (p : Str) : World B M → Res → World B M → Prop
  | mk {w r g} : GcDir cwd p w.fs r g → GcDirW cwd p w r { w with fs := g }

/-- LogStorage::destroy (storage.cpp:63-82) with the gc_instance functions (log.cpp:1290-1300, memory_log.cpp:162-164). -/
inductive DestroyLog (T : Types) (cwd : Place) (uri : Str) : World B M → Res → World B M → Prop
  /-- Bad URI, or unknown type: EINVAL. -/
  | bad {w} : (∀ a b, parseUri uri = some (a, b) → T.log a = none) → DestroyLog T cwd uri w .fail w
  | memory {w a b} : parseUri uri = some (a, b) → T.log a = some .memory → DestroyLog T cwd uri w .ok w
  | segment {w a b r w'} : parseUri uri = some (a, b) → T.log a = some .segment → GcDirW cwd b w r w' →
      DestroyLog T cwd uri w r w'

/-- SnapshotStorage::destroy (storage.cpp:103-122) with gc_instance (snapshot.cpp:726-736). -/
inductive DestroySnap (T : Types) (cwd : Place) (uri : Str) : World B M → Res → World B M → Prop
  | bad {w} : (∀ a b, parseUri uri = some (a, b) → T.snap a = none) → DestroySnap T cwd uri w .fail w
  | dir {w a b r w'} : parseUri uri = some (a, b) → T.snap a = some () → GcDirW cwd b w r w' →
      DestroySnap T cwd uri w r w'

/-- RaftMetaStorage::destroy (storage.cpp:143-163) with the gc_instance functions (raft_meta.cpp:403-433, 558-571, 607-619). -/
inductive DestroyMeta (T : Types) (cwd : Place) (uri key : Str) : World B M → Res → World B M → Prop
  | bad {w} : (∀ a b, parseUri uri = some (a, b) → T.metaKind a = none) → DestroyMeta T cwd uri key w .fail w
  | single {w a b r w'} : parseUri uri = some (a, b) → T.metaKind a = some .single → GcDirW cwd b w r w' →
      DestroyMeta T cwd uri key w r w'
  | merged {w a b r w'} : parseUri uri = some (a, b) → T.metaKind a = some .merged → RemKey cwd b key w r w' →
      DestroyMeta T cwd uri key w r w'
  | mixedBad {w a b} : parseUri uri = some (a, b) → T.metaKind a = some .mixed → parseMixed b = none →
      DestroyMeta T cwd uri key w .fail w
  | mixedFail {w a b m s w'} : parseUri uri = some (a, b) → T.metaKind a = some .mixed → parseMixed b = some (m, s) →
      GcDirW cwd s w .fail w' → DestroyMeta T cwd uri key w .fail w'
  | mixed {w a b m s w₁ r w'} : parseUri uri = some (a, b) → T.metaKind a = some .mixed → parseMixed b = some (m, s) →
      GcDirW cwd s w .ok w₁ → RemKey cwd m key w₁ r w' → DestroyMeta T cwd uri key w r w'

/-- GCOptions (raft.h:851-859). -/
structure GcOptions where
  vgid : Str
  log : Str
  metaUri : Str
  snap : Str

/-- 0 only when all three calls succeeded (raft.cpp:114-132). -/
def Res.and : Res → Res → Res
  | .ok, .ok => .ok
  | _, _ => .fail

/-- gc_raft_data (raft.cpp:109-133): all three storages, whatever the results. The process may be killed in the course of the
first, the second or the third call (a call that is not finished counts as one that failed). -/
inductive GcRaft (T : Types) (cwd : Place) (o : GcOptions) : World B M → Res → World B M → Prop
  | mk {w r₁ w₁ r₂ w₂ r₃ w₃} : DestroyLog T cwd o.log w r₁ w₁ → DestroyMeta T cwd o.metaUri o.vgid w₁ r₂ w₂ →
      DestroySnap T cwd o.snap w₂ r₃ w₃ → GcRaft T cwd o w (r₁.and (r₂.and r₃)) w₃
  | killed₁ {w r₁ w₁} : DestroyLog T cwd o.log w r₁ w₁ → GcRaft T cwd o w .fail w₁
  | killed₂ {w r₁ w₁ r₂ w₂} : DestroyLog T cwd o.log w r₁ w₁ → DestroyMeta T cwd o.metaUri o.vgid w₁ r₂ w₂ →
      GcRaft T cwd o w .fail w₂
  | killed₃ {w r₁ w₁ r₂ w₂ r₃ w₃} : DestroyLog T cwd o.log w r₁ w₁ → DestroyMeta T cwd o.metaUri o.vgid w₁ r₂ w₂ →
      DestroySnap T cwd o.snap w₂ r₃ w₃ → GcRaft T cwd o w .fail w₃

/-! ## MixedMetaStorage as an object -/

/-- The field `_single_impl`: never written, or what it points to. -/
inductive Field where
  | garbage
  | ptr (p : Str)
deriving DecidableEq, Repr

/-- The constructor (raft_meta.cpp:158-184) with a URI: `_single_impl` and `_is_bad`. -/
def mixedNew (par : Str) : Field × Bool :=
  match parseMixed par with
  | none => (.garbage, true)
  | some (_, s) => (.ptr s, false)

/-- Does the destructor (raft_meta.cpp:186-194) use a field that was never written? -/
def mixedDelUses (f : Field) : Bool := f == .garbage

end Braft.Uri
