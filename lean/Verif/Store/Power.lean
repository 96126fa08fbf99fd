import Verif.Store.SegLogInit
/-
Power failures of `SegmentLogStorage`: which fsync calls log.cpp makes, and what is lost without them.

Store/SegLog.lean gives the file-system calls of every operation. Here the fsync calls are added, and
a directory that knows what is durable (`PDisk`):
* the bytes of a segment file up to its last successful fsync are durable; of the bytes behind, any
  prefix may survive a power failure (appended data reaches the disk in order);
* the operations on names and sizes (create, rename, unlink, truncate) are kept in a journal: a power
  failure loses a suffix of those made since the last commit, and a successful fsync of any file
  commits the journal (ext4, xfs). This is more than POSIX promises: there, braft's files could vanish
  because it never syncs a directory.
* a failed fsync makes nothing durable.
A segment file is named by its first index, which renames do not change.
-/
set_option linter.unusedVariables false
set_option linter.unusedSimpArgs false
set_option linter.unusedSectionVars false

namespace Braft.Store

variable {K : Type}

/-- A directory and the number of durable bytes of the segment file with a given first index. -/
structure Snap where
  d : Disk
  syn : Nat → Nat

/-- The directory as the process sees it, and the states since the last journal commit to which a
power failure may return. -/
structure PDisk where
  now : Snap
  past : List Snap

/-- Length of the segment file with first index `f`. -/
def Disk.lenOf (d : Disk) (f : Nat) : Nat :=
  ((d.closed.filter (fun x => decide (x.first = f))).map (fun x => x.data.length)).sum
    + ((d.opens.filter (fun x => decide (x.1 = f))).map (fun x => x.2.length)).sum

/-- Function update. -/
def upd (s : Nat → Nat) (f n : Nat) : Nat → Nat := fun g => if g = f then n else s g

/-- Calls to the file system, with the syncs. -/
inductive PAct where
  | call (a : Act)
  | fsync (f : Nat)       -- raft_fsync of a segment file, fsync.h:29-40, succeeded
  | fsyncFail (f : Nat)   -- failed
  | commit                -- the fsync of log_meta's temporary file, protobuf_file.cpp:70-76
deriving DecidableEq, Repr

/-- The durable bytes after a call: a new file has none (O_TRUNC, log.cpp:110), a truncated one not
more than its size. -/
def synAfter (d : Disk) (syn : Nat → Nat) : Act → Nat → Nat
  | .create f => upd syn f 0
  | .cut f size => if d.opens.any (fun x => decide (x.1 = f)) then upd syn f (min (syn f) size) else syn
  | .cutClosed f l size => if d.closed.any (isC f l) then upd syn f (min (syn f) size) else syn
  | _ => syn

def Snap.call (s : Snap) (a : Act) : Snap := ⟨a.apply s.d, synAfter s.d s.syn a⟩

/-- Effect of a call. -/
def PDisk.step (p : PDisk) : PAct → PDisk
  | .call a => ⟨p.now.call a, p.now :: p.past⟩
  | .fsync f => ⟨⟨p.now.d, upd p.now.syn f (p.now.d.lenOf f)⟩, []⟩
  | .fsyncFail _ => p
  | .commit => ⟨p.now, []⟩

def PDisk.run (p : PDisk) (as : List PAct) : PDisk := as.foldl PDisk.step p

/-- Every segment file is cut to at most `cut first` bytes. -/
def Disk.cutAll (d : Disk) (cut : Nat → Nat) : Disk :=
  ⟨d.metaIdx, d.closed.map (fun x => { x with data := x.data.take (cut x.first) }),
    d.opens.map (fun x => (x.1, x.2.take (cut x.1)))⟩

/-- What may be left of a snapshot: all durable bytes and any part of the others. -/
def Snap.Lost (s : Snap) (d' : Disk) : Prop := ∃ cut, (∀ f, s.syn f ≤ cut f) ∧ d' = s.d.cutAll cut

/-- What may be left by a power failure. -/
def PDisk.Fail (p : PDisk) (d' : Disk) : Prop := ∃ s, (s = p.now ∨ s ∈ p.past) ∧ s.Lost d'

/-- A directory all of which is on the disk. -/
def Disk.durable (d : Disk) : PDisk := ⟨⟨d, d.lenOf⟩, []⟩

/-- The flags (storage.cpp:31-42, log.cpp:52) and `_enable_sync` (log.h:143). -/
structure SyncFlags where
  raftSync : Bool          -- raft_sync, default true
  syncMeta : Bool          -- raft_sync_meta, default false
  syncSegs : Bool          -- raft_sync_segments, default false
  byBytes : Bool           -- raft_sync_policy = RAFT_SYNC_BY_BYTES, default false
  perBytes : Nat           -- raft_sync_per_bytes
  enable : Bool            -- _enable_sync, default true

/-- The default values. -/
def SyncFlags.default : SyncFlags := ⟨true, false, false, false, 2147483647, true⟩

/-- The syncs inside the operations: `Segment::close` (log.cpp:552-557) syncs before the rename, but
only if asked to and only a segment with more than one entry; save_meta (log.cpp:1151-1168) syncs the
temporary file before its rename if `raft_sync_meta()` (fsync.h:42-44). The syncs made here succeed. -/
def SyncFlags.acts (fl : SyncFlags) : Act → List PAct
  | .close f l => (if f < l ∧ fl.syncSegs = true ∧ fl.enable = true then [.fsync f] else []) ++ [.call (.close f l)]
  | .saveMeta n => (if fl.raftSync = true ∨ fl.syncMeta = true then [.commit] else []) ++ [.call (.saveMeta n)]
  | a => [.call a]

def SyncFlags.allActs (fl : SyncFlags) (as : List Act) : List PAct := (as.map fl.acts).flatten

/-- `_unsynced_bytes` of the segments (log.cpp:444, log.h:117): grows with every append, is zero in a new
object. The fsync of `close` does not reset it. -/
def unsAfter (uns : Nat → Nat) : Act → Nat → Nat
  | .create f => upd uns f 0
  | .write f bs => upd uns f (uns f + bs.length)
  | _ => uns

def unsAll (uns : Nat → Nat) (as : List Act) : Nat → Nat := as.foldl unsAfter uns

/-- log.cpp:449-467 `Segment::sync`, whether it calls fsync (the segment is not empty). -/
def SyncFlags.wants (fl : SyncFlags) (unsynced : Nat) (hasConf : Bool) : Bool :=
  fl.enable && fl.raftSync && !(fl.byBytes && decide (unsynced < fl.perBytes) && !hasConf)

/-- Is it a configuration entry? -/
def Entry.isConf (e : Entry K) : Bool := match e.body with
  | .conf _ => true
  | _ => false

/-- The sync at the end of append_entries (log.cpp:780-781): of the last segment only. `ok` is the result
of fsync, which append_entries does not look at. -/
def SyncFlags.endSync (fl : SyncFlags) (uns : Nat → Nat) (m : Mem) (hasConf ok : Bool) : List PAct :=
  match m.opn with
  | none => []
  | some o => if fl.wants (uns o.first) hasConf then (if ok then [.fsync o.first] else [.fsyncFail o.first]) else []

/-- The counters after that sync (log.cpp:463: set to zero before fsync is called). -/
def SyncFlags.endUns (fl : SyncFlags) (uns : Nat → Nat) (m : Mem) (hasConf : Bool) : Nat → Nat :=
  match m.opn with
  | none => uns
  | some o => if fl.wants (uns o.first) hasConf then upd uns o.first 0 else uns

/-- log.cpp:738-788 `append_entries` with its syncs: memory, counters, calls, return value. `ok` is the
result of the last fsync. -/
def Codec.appendP (c : Codec K) (fl : SyncFlags) (maxSeg : Nat) (ok : Bool) (m : Mem) (uns : Nat → Nat) (idx : Nat)
    (es : List (Entry K)) : Mem × (Nat → Nat) × List PAct × Option Nat :=
  let r := c.appendEntries maxSeg m idx es
  let u := unsAll uns r.2.1
  if es.isEmpty ∨ r.2.2 ≠ some es.length then (r.1, u, fl.allActs r.2.1, r.2.2)
  else (r.1, fl.endUns u r.1 (es.any Entry.isConf), fl.allActs r.2.1 ++ fl.endSync u r.1 (es.any Entry.isConf) ok, r.2.2)

/-! ### Conditions -/

/-- Every byte of every segment file is durable. -/
def Snap.Clean (s : Snap) : Prop :=
  (∀ x ∈ s.d.closed, x.data.length ≤ s.syn x.first) ∧ (∀ x ∈ s.d.opens, x.2.length ≤ s.syn x.1)

/-- No segment is closed (renamed to `log_<first>_<last>`) while some of its bytes are not durable. -/
def ClosesSynced : PDisk → List PAct → Prop
  | _, [] => True
  | p, a :: as =>
    (match a with
     | .call (.close f _) => ∀ x ∈ p.now.d.opens, x.1 = f → x.2.length ≤ p.now.syn f
     | _ => True) ∧ ClosesSynced (p.step a) as

end Braft.Store
