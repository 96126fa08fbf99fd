/-
The table of the files of a snapshot: LocalSnapshotMetaTable (snapshot.h:33-59, snapshot.cpp:39-157), the calls of
LocalSnapshotWriter and LocalSnapshotReader on it (snapshot.cpp:165-173, 232-340), and the bytes it is kept and sent as
(LocalSnapshotPbMeta, local_storage.proto:22-29; LocalFileMeta, local_file_meta.proto; SnapshotMeta, raft.proto; ProtoBufFile,
protobuf_file.cpp:38-120).

* Bytes are numbers. int64 fields are their 64 bit patterns.
* Protobuf's wire format is modelled for the wire types 0, 1, 2 and 5; a message with a group is refused, and so are tags and
  lengths above 2^31. Fields that are unknown or have an unexpected wire type are dropped (protobuf keeps their bytes aside).
* The calls of the file system under ProtoBufFile are in Store/Meta.lean; here a file is its bytes.
-/
set_option linter.unusedVariables false

namespace Braft.Tab

abbrev Bytes := List Nat

/-! ### Wire format -/

/-- A varint. -/
def varint (n : Nat) : Bytes :=
  if h : n < 128 then [n] else (n % 128 + 128) :: varint (n / 128)
termination_by n
decreasing_by omega

/-- Read a varint of at most `k` bytes. -/
def readVar : Nat → Bytes → Option (Nat × Bytes)
  | 0, _ => none
  | _ + 1, [] => none
  | k + 1, b :: r => if b < 128 then some (b, r) else (readVar k r).map (fun x => (b - 128 + 128 * x.1, x.2))

/-- The value of a field. -/
inductive Val where
  | int (n : Nat)
  | len (b : Bytes)
  | fixed (b : Bytes)
deriving DecidableEq, Repr

/-- A field: tag (number * 8 + wire type) and value. Only what braft writes: wire types 0 and 2. -/
def encField : Nat × Val → Bytes
  | (n, .int v) => varint (n * 8) ++ varint v
  | (n, .len b) => varint (n * 8 + 2) ++ (varint b.length ++ b)
  | (n, .fixed b) => []

/-- The first `n` bytes, if there are that many. -/
def takeN (n : Nat) (b : Bytes) : Option (Bytes × Bytes) := if n ≤ b.length then some (b.take n, b.drop n) else none

/-- Read a field. -/
def readField (b : Bytes) : Option ((Nat × Val) × Bytes) :=
  match readVar 10 b with
  | none => none
  | some (t, r) =>
    if t < 8 ∨ 2 ^ 32 ≤ t then none
    else if t % 8 = 0 then (readVar 10 r).map (fun x => ((t / 8, .int (x.1 % 2 ^ 64)), x.2))
    else if t % 8 = 1 then (takeN 8 r).map (fun x => ((t / 8, .fixed x.1), x.2))
    else if t % 8 = 5 then (takeN 4 r).map (fun x => ((t / 8, .fixed x.1), x.2))
    else if t % 8 = 2 then
      match readVar 10 r with
      | none => none
      | some (l, r') => if 2 ^ 31 ≤ l then none else (takeN l r').map (fun x => ((t / 8, .len x.1), x.2))
    else none

/-- Read fields to the end; `k` bounds their number. -/
def wireN : Nat → Bytes → Option (List (Nat × Val))
  | _, [] => some []
  | 0, _ :: _ => none
  | k + 1, b =>
    match readField b with
    | none => none
    | some (f, r) => (wireN k r).map (f :: ·)

/-- Read a message. Every field has a byte. -/
def wire (b : Bytes) : Option (List (Nat × Val)) := wireN b.length b

/-! ### Messages -/

/-- FileSource (local_file_meta.proto:4-7). -/
inductive Source where
  | local
  | reference
deriving DecidableEq, Repr

/-- LocalFileMeta (local_file_meta.proto:9-13). -/
structure FileMeta where
  userMeta : Option Bytes
  source : Option Source
  checksum : Option Bytes
deriving DecidableEq, Repr

/-- SnapshotMeta; index and term are required, but the message exists without them. -/
structure SnapMeta where
  index : Option Nat
  term : Option Nat
  peers : List Bytes
  old : List Bytes
deriving DecidableEq, Repr

/-- LocalSnapshotPbMeta.File; the name is required. -/
structure PbFile where
  name : Option Bytes
  info : Option FileMeta
deriving DecidableEq, Repr

/-- LocalSnapshotPbMeta (local_storage.proto:22-29). -/
structure Pb where
  info : Option SnapMeta
  files : List PbFile
deriving DecidableEq, Repr

def FileMeta.empty : FileMeta := ⟨none, none, none⟩
def SnapMeta.empty : SnapMeta := ⟨none, none, [], []⟩
def PbFile.empty : PbFile := ⟨none, none⟩
def Pb.empty : Pb := ⟨none, []⟩

/-- An optional field. -/
def opt {α : Type} (n : Nat) (f : α → Val) : Option α → List (Nat × Val)
  | none => []
  | some a => [(n, f a)]

def Source.code : Source → Nat
  | .local => 0
  | .reference => 1

/-- The fields in the order of their numbers, as SerializeToZeroCopyStream writes them. -/
def enc (l : List (Nat × Val)) : Bytes := l.flatMap encField

def FileMeta.fields (m : FileMeta) : List (Nat × Val) :=
  opt 1 .len m.userMeta ++ (opt 2 (fun s => .int s.code) m.source ++ opt 3 .len m.checksum)

def SnapMeta.fields (m : SnapMeta) : List (Nat × Val) :=
  opt 1 .int m.index ++ (opt 2 .int m.term ++ (m.peers.map (fun p => (3, .len p)) ++ m.old.map (fun p => (4, .len p))))

def PbFile.fields (f : PbFile) : List (Nat × Val) := opt 1 .len f.name ++ opt 2 (fun m => .len (enc m.fields)) f.info

def Pb.fields (m : Pb) : List (Nat × Val) :=
  opt 1 (fun s => .len (enc s.fields)) m.info ++ m.files.map (fun f => (2, .len (enc f.fields)))

/-- IsInitialized of SnapshotMeta. -/
def SnapMeta.init (m : SnapMeta) : Bool := m.index.isSome && m.term.isSome

/-- IsInitialized of LocalSnapshotPbMeta. -/
def Pb.init (m : Pb) : Bool :=
  (match m.info with | none => true | some s => s.init) && m.files.all (fun f => f.name.isSome)

/-- SerializeToZeroCopyStream: refuses messages without a required field, or of 2^31 bytes and more. -/
def Pb.serialize (m : Pb) : Option Bytes :=
  if m.init ∧ (enc m.fields).length < 2 ^ 31 then some (enc m.fields) else none

/-- Merge a field into a LocalFileMeta; an unknown source is not set. -/
def FileMeta.set (m : FileMeta) : Nat × Val → FileMeta
  | (1, .len b) => { m with userMeta := some b }
  | (2, .int v) => if v % 2 ^ 32 = 0 then { m with source := some .local } else if v % 2 ^ 32 = 1 then { m with source := some .reference } else m
  | (3, .len b) => { m with checksum := some b }
  | _ => m

def SnapMeta.set (m : SnapMeta) : Nat × Val → SnapMeta
  | (1, .int v) => { m with index := some v }
  | (2, .int v) => { m with term := some v }
  | (3, .len b) => { m with peers := m.peers ++ [b] }
  | (4, .len b) => { m with old := m.old ++ [b] }
  | _ => m

def PbFile.set (f : PbFile) : Nat × Val → Option PbFile
  | (1, .len b) => some { f with name := some b }
  | (2, .len b) => (wire b).map (fun l => { f with info := some (l.foldl FileMeta.set (f.info.getD .empty)) })
  | _ => some f

/-- foldlM. -/
def foldO {α β : Type} (f : β → α → Option β) : β → List α → Option β
  | b, [] => some b
  | b, a :: l => match f b a with
    | none => none
    | some b' => foldO f b' l

def Pb.set (m : Pb) : Nat × Val → Option Pb
  | (1, .len b) => (wire b).map (fun l => { m with info := some (l.foldl SnapMeta.set (m.info.getD .empty)) })
  | (2, .len b) => match wire b with
    | none => none
    | some l => (foldO PbFile.set .empty l).map (fun f => { m with files := m.files ++ [f] })
  | _ => some m

/-- ParseFromZeroCopyStream. -/
def parse (b : Bytes) : Option Pb :=
  match wire b with
  | none => none
  | some l => match foldO Pb.set .empty l with
    | none => none
    | some m => if m.init then some m else none

/-! ### The table -/

/-- LocalSnapshotMetaTable: SnapshotMeta, and the map in the order of its keys. -/
structure Table where
  info : SnapMeta
  files : List (Bytes × FileMeta)
deriving DecidableEq, Repr

def Table.empty : Table := ⟨.empty, []⟩

/-- find. -/
def find (k : Bytes) : List (Bytes × FileMeta) → Option FileMeta
  | [] => none
  | (k', v) :: l => if k = k' then some v else find k l

/-- `_file_map[k] = v`. -/
def put (k : Bytes) (v : FileMeta) : List (Bytes × FileMeta) → List (Bytes × FileMeta)
  | [] => [(k, v)]
  | (k', v') :: l => if k < k' then (k, v) :: (k', v') :: l else if k = k' then (k, v) :: l else (k', v') :: put k v l

/-- erase. -/
def cut (k : Bytes) : List (Bytes × FileMeta) → List (Bytes × FileMeta)
  | [] => []
  | (k', v') :: l => if k = k' then l else (k', v') :: cut k l

/-- add_file (snapshot.cpp:43-50; of the writer 240-250, where no file_meta is an empty one): 0 or -1. -/
def Table.add (t : Table) (k : Bytes) (v : Option FileMeta) : Table × Int :=
  match find k t.files with
  | some _ => (t, -1)
  | none => ({ t with files := put k (v.getD .empty) t.files }, 0)

/-- remove_file (snapshot.cpp:52-59, 236-238). -/
def Table.remove (t : Table) (k : Bytes) : Table × Int :=
  match find k t.files with
  | none => (t, -1)
  | some _ => ({ t with files := cut k t.files }, 0)

/-- get_file_meta (snapshot.cpp:147-157; 165-173, 256-266, 330-340). -/
def Table.get (t : Table) (k : Bytes) : Option FileMeta := find k t.files

/-- list_files (snapshot.cpp:135-145, 161-163, 252-254, 326-328). -/
def Table.list (t : Table) : List Bytes := t.files.map Prod.fst

/-- save_meta of the writer (snapshot.cpp:268-271). -/
def Table.setMeta (t : Table) (m : SnapMeta) : Table := { t with info := m }

/-- load_meta of the reader (snapshot.cpp:308-316; it also gives snapshot_index of the writer, 232-234). -/
def Table.meta? (t : Table) : Option SnapMeta := if t.info.init then some t.info else none

/-- The message that save_to_file (snapshot.cpp:62-70) and, with `remote`, save_to_iobuf_as_remote (snapshot.cpp:99-109) make. -/
def Table.toPb (remote : Bool) (t : Table) : Pb :=
  { info := t.meta?
    files := t.files.map (fun f => ⟨some f.1, some (if remote then { f.2 with source := none } else f.2)⟩) }

/-- What a message says (snapshot.cpp:85-95, 122-132). -/
def Table.ofPb (m : Pb) : Table :=
  { info := m.info.getD .empty
    files := m.files.foldl (fun l f => put (f.name.getD []) (f.info.getD .empty) l) [] }

/-- save_to_iobuf_as_remote (snapshot.cpp:98-113); `none` is -1. -/
def Table.toRemote (t : Table) : Option Bytes := (t.toPb true).serialize

/-- load_from_iobuf_as_remote (snapshot.cpp:115-133), with its result. -/
def Table.ofRemote (t : Table) (b : Bytes) : Table × Int :=
  match parse b with
  | none => (t, -1)
  | some m => (Table.ofPb m, 0)

/-- Four bytes, the highest first. -/
def be32 (n : Nat) : Bytes := [n / 2 ^ 24 % 256, n / 2 ^ 16 % 256, n / 2 ^ 8 % 256, n % 256]

/-- What save_to_file (snapshot.cpp:61-76) leaves in the file when no system call fails, with result 0: ProtoBufFile::save
(protobuf_file.cpp:52-69) does not look at the result of SerializeToZeroCopyStream; a message that is refused leaves no bytes. -/
def Table.toFile (t : Table) : Bytes :=
  match (t.toPb false).serialize with
  | none => be32 0
  | some b => be32 b.length ++ b

/-- load_from_file (snapshot.cpp:78-96) of a file with these bytes. ProtoBufFile::load (protobuf_file.cpp:96-117) does not look
at the result of ParseFromZeroCopyStream: if it fails, the message is `left`, whatever the parser had read by then. A length of
2^31 or more is negative; nothing is read (its result differs from the length). -/
def Table.ofFile (t : Table) (left : Pb) : Bytes → Table × Int
  | a :: b :: c :: d :: r =>
    let n := a * 2 ^ 24 + b * 2 ^ 16 + c * 2 ^ 8 + d
    if 2 ^ 31 ≤ n ∨ r.length < n then (t, -1)
    else (Table.ofPb ((parse (r.take n)).getD left), 0)
  | _ => (t, -1)

/-- What a user does with a writer. -/
inductive Op where
  | add (k : Bytes) (v : Option FileMeta)
  | remove (k : Bytes)
  | setMeta (m : SnapMeta)
deriving DecidableEq, Repr

/-- The table and the result. -/
def Table.op (t : Table) : Op → Table × Int
  | .add k v => t.add k v
  | .remove k => t.remove k
  | .setMeta m => (t.setMeta m, 0)

/-- A sequence of calls. -/
def Table.ops (t : Table) (l : List Op) : Table := l.foldl (fun t o => (t.op o).1) t

end Braft.Tab
